import Verif.Lemmas.Near

/-! Lagrange bases and elements in a binary format, with underflow. -/

namespace Verif.Lemmas

open Verif.Spec

variable {F : FloatFormat}

/-! ### products and sums -/

theorem one_le_prod_list {ι : Type} {l : List ι} {C : ι → ℝ} (h : ∀ i, 1 ≤ C i) : 1 ≤ (l.map C).prod := by
  induction l with
  | nil => simp
  | cons a l ih =>
    rw [List.map_cons, List.prod_cons]
    nlinarith [h a]

theorem sum_list_nonneg {ι : Type} {l : List ι} {C : ι → ℝ} (h : ∀ i, 1 ≤ C i) : 0 ≤ (l.map C).sum := by
  induction l with
  | nil => simp
  | cons a l ih =>
    rw [List.map_cons, List.sum_cons]
    linarith [h a]

theorem near_foldRight_mul {ι : Type} {l : List ι} (hl : l ≠ []) (M C x : ι → ℝ) (g : ι → Flt) (k m : ι → ℕ)
    (h : ∀ i, Near F (k i) (m i) (M i) (C i) (x i) (g i))
    (hr : Room F ((l.map k).sum + (l.length - 1)) (2 * (l.map m).sum + (l.length - 1)) (l.map C).prod) :
    ∃ y, foldRight (floatArith F).mul (l.map fun i => .ok (g i)) = .ok y ∧
      Near F ((l.map k).sum + (l.length - 1)) (2 * (l.map m).sum + (l.length - 1)) (l.map M).prod (l.map C).prod
        (l.map x).prod y := by
  induction l with
  | nil => exact absurd rfl hl
  | cons a l ih =>
    cases l with
    | nil => exact ⟨g a, by simp [foldRight], by
        simpa using (h a).mono le_rfl (show m a ≤ 2 * m a by omega) le_rfl⟩
    | cons b l =>
      have hr' : Room F (k a + (((b :: l).map k).sum + ((b :: l).length - 1)) + 1)
          (2 * m a + (2 * ((b :: l).map m).sum + ((b :: l).length - 1)) + 1) (C a * ((b :: l).map C).prod) := by
        refine hr.mono ?_ ?_ ?_
        · simp only [List.map_cons, List.sum_cons, List.length_cons]; omega
        · simp only [List.map_cons, List.sum_cons, List.length_cons]; omega
        · simp only [List.map_cons, List.prod_cons]; exact le_rfl
      have h1 : 1 ≤ ((b :: l).map C).prod := one_le_prod_list fun i => (h i).one
      obtain ⟨y, hy, hay⟩ := ih (by simp) (hr'.mono (by omega) (by omega) (by nlinarith [(h a).one]))
      refine ⟨Flt.mul F (g a) y, ?_, ?_⟩
      · simp only [List.map_cons] at hy ⊢
        rw [foldRight, hy]; rfl
      · have := (h a).mul hay hr'
        simp only [List.map_cons, List.sum_cons, List.prod_cons, List.length_cons] at this ⊢
        exact this.mono (by omega) (by omega) le_rfl

theorem near_foldRight_mul_ofFn {d : ℕ} (hd : 0 < d) (Φ : Fin d → Res Flt) (M C x : Fin d → ℝ) (g : Fin d → Flt)
    (k m : Fin d → ℕ) (hΦ : ∀ i, Φ i = .ok (g i)) (h : ∀ i, Near F (k i) (m i) (M i) (C i) (x i) (g i))
    (hr : Room F ((∑ i, k i) + (d - 1)) (2 * (∑ i, m i) + (d - 1)) (∏ i, C i)) :
    ∃ y, foldRight (floatArith F).mul (List.ofFn Φ) = .ok y ∧
      Near F ((∑ i, k i) + (d - 1)) (2 * (∑ i, m i) + (d - 1)) (∏ i, M i) (∏ i, C i) (∏ i, x i) y := by
  have hne : List.finRange d ≠ [] := by
    intro h0; have := congrArg List.length h0; simp at this; omega
  have e : List.ofFn Φ = (List.finRange d).map fun i => .ok (g i) := by
    rw [List.ofFn_eq_map]; exact List.map_congr_left fun i _ => hΦ i
  have key := near_foldRight_mul (F := F) hne M C x g k m h
  simp only [← List.ofFn_eq_map, List.sum_ofFn, List.prod_ofFn, List.length_finRange] at key
  rw [e, ← List.ofFn_eq_map]
  exact key hr

theorem near_foldRight_add {ι : Type} {l : List ι} (hl : l ≠ []) (M C x : ι → ℝ) (g : ι → Flt) (k m : ℕ)
    (h : ∀ i, Near F k m (M i) (C i) (x i) (g i))
    (hr : Room F (k + (l.length - 1)) (m + (l.length - 1)) (l.map C).sum) :
    ∃ y, foldRight (floatArith F).add (l.map fun i => .ok (g i)) = .ok y ∧
      Near F (k + (l.length - 1)) (m + (l.length - 1)) (l.map M).sum (l.map C).sum (l.map x).sum y := by
  induction l with
  | nil => exact absurd rfl hl
  | cons a l ih =>
    cases l with
    | nil => exact ⟨g a, by simp [foldRight], by simpa using h a⟩
    | cons b l =>
      have hr' : Room F (k + ((b :: l).length - 1) + 1) (m + ((b :: l).length - 1) + 1) (C a + ((b :: l).map C).sum) := by
        refine hr.mono ?_ ?_ ?_
        · simp only [List.length_cons]; omega
        · simp only [List.length_cons]; omega
        · simp only [List.map_cons, List.sum_cons]; exact le_rfl
      obtain ⟨y, hy, hay⟩ := ih (by simp) (hr'.mono (by omega) (by omega) (by linarith [(h a).one]))
      refine ⟨Flt.add F (g a) y, ?_, ?_⟩
      · simp only [List.map_cons] at hy ⊢
        rw [foldRight, hy]; rfl
      · have := ((h a).mono (Nat.le_add_right k _) (Nat.le_add_right m _) le_rfl).add hay hr'
        simp only [List.map_cons, List.sum_cons, List.length_cons] at this ⊢
        exact this.mono (by omega) (by omega) le_rfl

theorem near_foldRight_add_ofFn {d : ℕ} (hd : 0 < d) (Φ : Fin d → Res Flt) (M C x : Fin d → ℝ) (g : Fin d → Flt)
    (k m : ℕ) (hΦ : ∀ i, Φ i = .ok (g i)) (h : ∀ i, Near F k m (M i) (C i) (x i) (g i))
    (hr : Room F (k + (d - 1)) (m + (d - 1)) (∑ i, C i)) :
    ∃ y, foldRight (floatArith F).add (List.ofFn Φ) = .ok y ∧
      Near F (k + (d - 1)) (m + (d - 1)) (∑ i, M i) (∑ i, C i) (∑ i, x i) y := by
  have hne : List.finRange d ≠ [] := by
    intro h0; have := congrArg List.length h0; simp at this; omega
  have e : List.ofFn Φ = (List.finRange d).map fun i => .ok (g i) := by
    rw [List.ofFn_eq_map]; exact List.map_congr_left fun i _ => hΦ i
  have key := near_foldRight_add (F := F) hne M C x g k m h
  simp only [← List.ofFn_eq_map, List.sum_ofFn, List.length_finRange] at key
  rw [e, ← List.ofFn_eq_map]
  exact key hr

/-- An accumulation loop. -/
theorem near_runCalls {ι : Type} {L : List ι} {M C x : ι → ℝ} {g : ι → Flt} {k m : ℕ} {body : ι → Flt → Res Flt}
    (hb : ∀ i r, body i r = .ok (Flt.add F r (g i))) (h : ∀ i, Near F k m (M i) (C i) (x i) (g i)) (j : ℕ)
    (A D z : ℝ) (r : Flt) (hz : Near F (k + j) (m + j) A D z r)
    (hr : Room F (k + j + L.length) (m + j + L.length) (D + (L.map C).sum)) :
    ∃ y, runCalls L body r = .ok y ∧
      Near F (k + j + L.length) (m + j + L.length) (A + (L.map M).sum) (D + (L.map C).sum) (z + (L.map x).sum) y := by
  induction L generalizing j A D z r with
  | nil => exact ⟨r, by simp, by simpa using hz⟩
  | cons i L ih =>
    simp only [List.map_cons, List.sum_cons, List.length_cons, ← add_assoc] at hr ⊢
    have h0 : 0 ≤ (L.map C).sum := sum_list_nonneg fun i => (h i).one
    have h1 := hz.add ((h i).mono (Nat.le_add_right k j) (Nat.le_add_right m j) le_rfl)
      (hr.mono (by omega) (by omega) (by linarith))
    obtain ⟨y, hy, hay⟩ := ih (j + 1) _ _ _ _ h1 (hr.mono (by omega) (by omega) le_rfl)
    exact ⟨y, by simp [hb, hy], hay.mono (by omega) (by omega) le_rfl⟩

/-! ### the Lagrange basis -/

theorem lit_one_exact (hl : F.minExp ≤ 0) (hM : 0 ≤ F.maxExp) : (floatArith F).lit 1 = Flt.ofReal 1 := by
  have hg : OnGrid (F.minExp - F.fracBits) (1 : ℝ) := by
    have := OnGrid.zpow (g := F.minExp - F.fracBits) (M := 0) (by omega)
    simpa using this
  have hno : ¬ F.Overflows 1 :=
    not_overflows F (by rw [abs_one]; exact one_le_zpow₀ (by norm_num) hM) (by omega)
  have hn : F.nearest 1 = 1 := by
    apply nearest_of_onGrid
    have : F.unitExp 1 = 0 - (F.fracBits : ℤ) := by
      unfold FloatFormat.unitExp
      rw [abs_one, Int.log_one_right, max_eq_left hl]
    rw [this]
    have := OnGrid.zpow (g := 0 - (F.fracBits : ℤ)) (M := 0) (by omega)
    simpa using this
  show Flt.round F false (((1 : ℚ)) : ℝ) = _
  rw [Rat.cast_one]
  simp [Flt.round, hno, FloatFormat.Underflows, hn, Flt.ofReal]

theorem lit_zero_exact : (floatArith F).lit 0 = Flt.ofReal 0 := by
  have hno : ¬ F.Overflows 0 := by
    unfold FloatFormat.Overflows; rw [nearest_zero, abs_zero, not_le]; positivity
  show Flt.round F false (((0 : ℚ)) : ℝ) = _
  rw [Rat.cast_zero]
  simp [Flt.round, hno, nearest_zero, FloatFormat.Underflows, Flt.ofReal]

/-- The nodes of a basis, given as numbers of the format: differences in the normal range, reciprocals of differences at most
`D`. -/
structure TameNodes (F : FloatFormat) (n : ℕ) (S : Spacing Flt) (c : Fin n → ℝ) (D : Fin n → Fin n → ℝ) : Prop where
  low : F.minExp ≤ 0
  high : 0 ≤ F.maxExp
  coord : 2 ≤ n → ∀ i : Fin n, S.coordCT (i : ℕ) = .ok (Flt.ofReal (c i))
  gap : ∀ j t, j ≠ t → 2 ^ F.minExp ≤ |c j - c t| ∧ |c j - c t| ≤ 2 ^ F.maxExp
  recip : ∀ j t, j ≠ t → 1 / |c j - c t| ≤ D j t
  one : ∀ j t, 1 ≤ D j t

variable {n : ℕ} {S : Spacing Flt} {c : Fin n → ℝ} {D : Fin n → Fin n → ℝ}

/-- The reciprocal of a rounded difference. -/
theorem near_recip (h : TameNodes F n S c D) {j t : Fin n} (hjt : j ≠ t) (hr : Room F 3 1 (D j t)) :
    ∃ g, (floatArith F).div ((floatArith F).lit 1) ((floatArith F).sub (Flt.ofReal (c j)) (Flt.ofReal (c t))) = .ok g ∧
      Near F 3 1 |1 / (c j - c t)| (D j t) (1 / (c j - c t)) g := by
  obtain ⟨hg, hg'⟩ := h.gap j t hjt
  have hpos : 0 < |c j - c t| := lt_of_lt_of_le (by positivity) hg
  have hd : c j - c t ≠ 0 := abs_pos.1 hpos
  have hno := not_overflows F hg' hr.exps
  have hnu := not_underflows_of_le F hg
  have e : (floatArith F).sub (Flt.ofReal (c j)) (Flt.ofReal (c t)) = Flt.ofReal (cleanRound F (c j - c t)) := by
    show Flt.round F false (c j + -c t) = _
    rw [← sub_eq_add_neg]
    simp [Flt.round, hno, hnu, Flt.ofReal, cleanRound]
  have hne := fl_ne_zero (cleanRound_rounds F) hd
  refine ⟨Flt.round F false (1 / cleanRound F (c j - c t)), ?_, ?_⟩
  · rw [e, lit_one_exact h.low h.high]
    simp only [floatArith, Flt.div, Flt.ofReal, if_neg hne, Bool.or_false]
  · refine near_round (k := 2) (m := 0) le_rfl (by rw [abs_div, abs_one]; exact h.recip j t hjt) (h.one j t) ?_ hr _
    have := Approx.inv_fl (cleanRound_rounds F) hd
    unfold Approx errBound at this
    rw [Nat.cast_zero, zero_mul, zero_mul, add_zero]
    linarith

/-- The cap of a factor, for points with `|x - c t| ≤ X`. -/
noncomputable def capFactor (X : ℝ) (D : Fin n → Fin n → ℝ) (j t : Fin n) : ℝ := if j = t then 1 else X * D j t

theorem one_le_capFactor {X : ℝ} (hX : 1 ≤ X) (h : ∀ j t, 1 ≤ D j t) (j t : Fin n) : 1 ≤ capFactor X D j t := by
  unfold capFactor
  split_ifs
  · exact le_rfl
  · nlinarith [h j t]

theorem valueProductTerm_near (h : TameNodes F n S c D) {X x : ℝ} (hX : 1 ≤ X) (hx : ∀ t, |x - c t| ≤ X) (j t : Fin n)
    (hr : Room F 5 4 (capFactor X D j t)) :
    ∃ y, LagrangeBasis.valueProductTerm (floatArith F) S (j : ℕ) (t : ℕ) (Flt.ofReal x) = .ok y ∧
      Near F (if j = t then 0 else 5) (if j = t then 0 else 4) |factor c j x t| (capFactor X D j t) (factor c j x t) y := by
  unfold LagrangeBasis.valueProductTerm factor capFactor at *
  by_cases e : j = t
  · subst e
    refine ⟨Flt.ofReal 1, ?_, ?_⟩
    · simp [lit_one_exact h.low h.high]
    · simp only [if_pos]
      exact near_ofReal le_rfl (by simp) le_rfl
  · have e' : ((j : ℕ) : Int) ≠ (t : ℕ) := by
      intro h; exact e (Fin.ext (by exact_mod_cast h))
    rw [if_neg e] at hr
    have hD := h.one j t
    obtain ⟨g, hg, hn⟩ := near_recip h e (hr.mono (by norm_num) (by norm_num) (by nlinarith))
    have hsub : Near F 1 1 |x - c t| X (x - c t) ((floatArith F).sub (Flt.ofReal x) (Flt.ofReal (c t))) := by
      show Near F 1 1 |x - c t| X (x - c t) (Flt.round F false (x + -c t))
      rw [← sub_eq_add_neg]
      exact near_round (k := 0) (m := 0) le_rfl (hx t) hX (by simp) (hr.mono (by norm_num) (by norm_num) (by nlinarith)) _
    refine ⟨Flt.mul F ((floatArith F).sub (Flt.ofReal x) (Flt.ofReal (c t))) g, ?_, ?_⟩
    · rw [if_neg e', h.coord (two_le_of_ne e) t, h.coord (two_le_of_ne e) j]
      simp only [Res.constexpr_ok, Res.ok_bind, hg]
      rfl
    · simp only [if_neg e]
      have := hsub.mul hn hr
      rw [← abs_mul] at this
      exact this

theorem sum_ite_ne {order : ℕ} (j : Fin (order + 1)) (a : ℕ) : ∑ t, (if j = t then 0 else a) = order * a := by
  rw [← Finset.add_sum_erase _ _ (Finset.mem_univ j), if_pos rfl, Finset.sum_congr rfl
    (g := fun _ => a) fun t ht => if_neg (Finset.ne_of_mem_erase ht).symm]
  rw [Finset.sum_const, Finset.card_erase_of_mem (Finset.mem_univ _), Finset.card_univ, Fintype.card_fin]
  simp

theorem le_prod_caps {ι : Type} [Fintype ι] [DecidableEq ι] {C : ι → ℝ} (h : ∀ i, 1 ≤ C i) (i : ι) : C i ≤ ∏ t, C t := by
  rw [← Finset.mul_prod_erase _ _ (Finset.mem_univ i)]
  have h1 : 1 ≤ ∏ t ∈ Finset.univ.erase i, C t := by
    have : ∏ t ∈ Finset.univ.erase i, (1 : ℝ) ≤ ∏ t ∈ Finset.univ.erase i, C t :=
      Finset.prod_le_prod (fun _ _ => by norm_num) fun t _ => h t
    simpa using this
  nlinarith [h i]

section lagrange
variable {order : ℕ} {c : Fin (order + 1) → ℝ} {D : Fin (order + 1) → Fin (order + 1) → ℝ}

theorem value_near (h : TameNodes F (order + 1) S c D) {X x : ℝ} (hX : 1 ≤ X) (hx : ∀ t, |x - c t| ≤ X) (j : Fin (order + 1))
    (hr : Room F (6 * order + 5) (9 * order + 4) (∏ t, capFactor X D j t)) :
    ∃ y, LagrangeBasis.value (floatArith F) S ((order + 1 : ℕ) : Int) (j : ℕ) (Flt.ofReal x) = .ok y ∧
      Near F (6 * order) (9 * order) |(Lagrange.basis Finset.univ c j).eval x| (∏ t, capFactor X D j t)
        ((Lagrange.basis Finset.univ c j).eval x) y := by
  unfold LagrangeBasis.value
  rw [makeIntegerSequence_ok (by omega), Res.ok_bind, mapUpTo]
  choose g hg hag using fun t => valueProductTerm_near h hX hx j t
    (hr.mono (by omega) (by omega) (le_prod_caps (one_le_capFactor hX h.one j) t))
  have hk : (∑ t, if j = t then 0 else 5) + (order + 1 - 1) = 6 * order := by rw [sum_ite_ne]; omega
  have hm : 2 * (∑ t, if j = t then 0 else 4) + (order + 1 - 1) = 9 * order := by rw [sum_ite_ne]; omega
  obtain ⟨y, hy, hay⟩ := near_foldRight_mul_ofFn (show 0 < order + 1 by omega) _ _ _ _ _ _ _ hg hag
    (hr.mono (by rw [hk]; omega) (by rw [hm]; omega) le_rfl)
  refine ⟨y, hy, ?_⟩
  rw [← Finset.abs_prod, prod_factor_eq, hk, hm] at hay
  exact hay

theorem gradientOfValueTerm_near (h : TameNodes F (order + 1) S c D) {X : ℝ} (hX : 1 ≤ X) (j t : Fin (order + 1))
    (hr : Room F 3 1 (capFactor X D j t)) :
    ∃ y, LagrangeBasis.gradientOfValueTerm (floatArith F) S (j : ℕ) (t : ℕ) = .ok y ∧
      Near F 3 1 |factorDeriv c j t| (capFactor X D j t) (factorDeriv c j t) y := by
  unfold LagrangeBasis.gradientOfValueTerm factorDeriv capFactor at *
  by_cases e : j = t
  · subst e
    refine ⟨Flt.ofReal 0, ?_, ?_⟩
    · simp [lit_zero_exact]
    · simp only [if_pos]
      exact (near_ofReal le_rfl (by simp) le_rfl).mono (by norm_num) (by norm_num) le_rfl
  · have e' : ((j : ℕ) : Int) ≠ (t : ℕ) := by
      intro h; exact e (Fin.ext (by exact_mod_cast h))
    rw [if_neg e] at hr
    have hD : D j t ≤ X * D j t := by nlinarith [h.one j t]
    obtain ⟨g, hg, hn⟩ := near_recip h e (hr.mono le_rfl le_rfl hD)
    refine ⟨g, ?_, ?_⟩
    · rw [if_neg e', h.coord (two_le_of_ne e) t, h.coord (two_le_of_ne e) j]
      simp only [Res.constexpr_ok, Res.ok_bind, hg]
    · simp only [if_neg e]
      exact hn.mono le_rfl le_rfl hD

theorem prod_caps_without {ι : Type} [Fintype ι] [DecidableEq ι] {C : ι → ℝ} (a : ι) :
    C a * ∏ b, (if b = a then 1 else C b) = ∏ b, C b := by
  rw [← Finset.mul_prod_erase _ _ (Finset.mem_univ a), ← Finset.mul_prod_erase _ C (Finset.mem_univ a), if_pos rfl, one_mul]
  congr 1
  exact Finset.prod_congr rfl fun t ht => if_neg (Finset.ne_of_mem_erase ht)

theorem gradient_near (h : TameNodes F (order + 1) S c D) {X x : ℝ} (hX : 1 ≤ X) (hx : ∀ t, |x - c t| ≤ X)
    (j : Fin (order + 1)) (hr : Room F (7 * order + 9) (10 * order + 11) ((order + 1 : ℕ) * ∏ t, capFactor X D j t)) :
    ∃ y, LagrangeBasis.gradient (floatArith F) S ((order + 1 : ℕ) : Int) (j : ℕ) (Flt.ofReal x) = .ok y ∧
      Near F (7 * order + 9) (10 * order + 11) (∑ a, |factorDeriv c j a| * ∏ b, if b = a then 1 else |factor c j x b|)
        ((order + 1 : ℕ) * ∏ t, capFactor X D j t) ((Polynomial.derivative (Lagrange.basis Finset.univ c j)).eval x) y := by
  have hcap := one_le_capFactor hX h.one j
  have hP : 1 ≤ ∏ t, capFactor X D j t := (hcap j).trans (le_prod_caps hcap j)
  have hP' : ∏ t, capFactor X D j t ≤ (order + 1 : ℕ) * ∏ t, capFactor X D j t := by
    have : (1 : ℝ) ≤ ((order + 1 : ℕ) : ℝ) := by exact_mod_cast (show 1 ≤ order + 1 by omega)
    nlinarith
  have hrP := hr.mono le_rfl le_rfl hP'
  unfold LagrangeBasis.gradient
  choose g hg hag using fun t => valueProductTerm_near h hX hx j t
    (hrP.mono (by omega) (by omega) (le_prod_caps hcap t))
  choose q hq haq using fun t => gradientOfValueTerm_near h hX j t
    (hrP.mono (by omega) (by omega) (le_prod_caps hcap t))
  rw [makeIntegerSequence_ok (by omega), Res.ok_bind, sequenceRes_fin _ _ hg, Res.ok_bind, mapUpTo]
  have hp : ∀ a : Fin (order + 1), ∃ y, foldRight (floatArith F).mul ((upTo 0 ((order + 1 : ℕ) : Int)).map
      fun b => LagrangeBasis.valueProductFactor (floatArith F) (List.ofFn g) b ((a : ℕ) : Int)) = .ok y ∧
      Near F (6 * order + 5) (9 * order + 8) (∏ b, if b = a then 1 else |factor c j x b|)
        (∏ b, if b = a then 1 else capFactor X D j b) (∏ b, if b = a then 1 else factor c j x b) y := by
    intro a
    rw [mapUpTo]
    have hk : (∑ _t : Fin (order + 1), 5) + (order + 1 - 1) = 6 * order + 5 := by simp; omega
    have hm : 2 * (∑ _t : Fin (order + 1), 4) + (order + 1 - 1) = 9 * order + 8 := by simp; omega
    have hc1 : ∀ b, (1 : ℝ) ≤ if b = a then 1 else capFactor X D j b := by
      intro b; split_ifs
      · exact le_rfl
      · exact hcap b
    have hc2 : ∏ b, (if b = a then 1 else capFactor X D j b) ≤ ∏ b, capFactor X D j b := by
      have e := prod_caps_without (C := capFactor X D j) a
      have : 1 ≤ ∏ b, (if b = a then 1 else capFactor X D j b) := (hc1 a).trans (le_prod_caps hc1 a)
      nlinarith [hcap a]
    obtain ⟨y, hy, hw⟩ := near_foldRight_mul_ofFn (F := F) (show 0 < order + 1 by omega)
      (fun b : Fin (order + 1) => LagrangeBasis.valueProductFactor (floatArith F) (List.ofFn g)
        ((b : ℕ) : Int) ((a : ℕ) : Int))
      (fun b => if b = a then 1 else |factor c j x b|) (fun b => if b = a then 1 else capFactor X D j b)
      (fun b => if b = a then 1 else factor c j x b)
      (fun b => if b = a then Flt.ofReal 1 else g b) (fun _ => 5) (fun _ => 4)
      (fun b => by
        unfold LagrangeBasis.valueProductFactor
        by_cases e : b = a
        · subst e; simp [lit_one_exact h.low h.high]
        · have e' : ((b : ℕ) : Int) ≠ (a : ℕ) := by
            intro h; exact e (Fin.ext (by exact_mod_cast h))
          rw [if_neg e', if_neg e, tableAt_ofFn])
      (fun b => by
        by_cases e : b = a
        · simp only [if_pos e]
          exact (near_ofReal (by simp) le_rfl le_rfl).mono (by norm_num) (by norm_num) le_rfl
        · simp only [if_neg e]
          exact (hag b).mono (by split_ifs <;> omega) (by split_ifs <;> omega) le_rfl)
      (hrP.mono (by rw [hk]; omega) (by rw [hm]; omega) hc2)
    refine ⟨y, hy, ?_⟩
    rw [hk, hm] at hw
    exact hw
  choose p hp hap using hp
  have hsum : ∑ _a : Fin (order + 1), (∏ t, capFactor X D j t) = ((order + 1 : ℕ) : ℝ) * ∏ t, capFactor X D j t := by simp
  obtain ⟨y, hy, hw⟩ := near_foldRight_add_ofFn (F := F) (show 0 < order + 1 by omega)
    (fun a : Fin (order + 1) => LagrangeBasis.gradientTerm (floatArith F) S
      (upTo 0 ((order + 1 : ℕ) : Int)) ((j : ℕ) : Int) (List.ofFn g) ((a : ℕ) : Int))
    (fun a => |factorDeriv c j a| * ∏ b, if b = a then 1 else |factor c j x b|) (fun _ => ∏ t, capFactor X D j t)
    (fun a => factorDeriv c j a * ∏ b, if b = a then 1 else factor c j x b)
    (fun a => Flt.mul F (q a) (p a)) (6 * order + 9) (9 * order + 11)
    (fun a => by
      unfold LagrangeBasis.gradientTerm
      rw [hq a, Res.ok_bind, hp a]; rfl)
    (fun a => by
      have := (haq a).mul (hap a) (by
        rw [prod_caps_without]; exact hrP.mono (by omega) (by omega) le_rfl)
      rw [prod_caps_without] at this
      exact this.mono (by omega) (by omega) le_rfl)
    (by rw [hsum]; exact hr.mono (by omega) (by omega) le_rfl)
  refine ⟨y, hy, ?_⟩
  have e : (Polynomial.derivative (Lagrange.basis Finset.univ c j)).eval x
      = ∑ a, factorDeriv c j a * ∏ b, if b = a then 1 else factor c j x b := by
    have h2 := (Lagrange.basis Finset.univ c j).hasDerivAt x
    refine HasDerivAt.unique h2 ?_
    simpa only [prod_factor_eq] using hasDerivAt_prod_factor j x
  rw [e]
  rw [hsum] at hw
  exact hw.mono (by omega) (by omega) le_rfl

end lagrange

end Verif.Lemmas
