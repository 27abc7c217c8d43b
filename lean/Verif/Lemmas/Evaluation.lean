import Verif.Spec.Evaluation
import Verif.Lemmas.RoundedMapping
import Verif.Lemmas.Relational

/-!
Rounding errors in any arithmetic whose numbers stand for one or more real values.  The proofs follow those of `Lemmas/Rounding`
and `Lemmas/RoundedMapping`.
-/

namespace Verif.Lemmas

open Verif.Spec Verif.MathUtilities

variable {R : Type} {A : Arith R} {u : ℝ}

/-- The elements of `R` stand for real numbers, or for failure, in one or more ways, and every operation has a relative error of at
most `u`. -/
structure Valued (A : Arith R) (u : ℝ) where
  vals : R → Option ℝ → Prop
  nonneg : 0 ≤ u
  le_half : u ≤ 1 / 2
  lit : ∀ {q o}, vals (A.lit q) o → ∃ v, o = some v ∧ |v - q| ≤ u * |(q : ℝ)|
  add : ∀ {a b o}, ¬ vals a none → ¬ vals b none → vals (A.add a b) o →
    ∃ x y v, vals a (some x) ∧ vals b (some y) ∧ o = some v ∧ |v - (x + y)| ≤ u * |x + y|
  sub : ∀ {a b o}, ¬ vals a none → ¬ vals b none → vals (A.sub a b) o →
    ∃ x y v, vals a (some x) ∧ vals b (some y) ∧ o = some v ∧ |v - (x - y)| ≤ u * |x - y|
  mul : ∀ {a b o}, ¬ vals a none → ¬ vals b none → vals (A.mul a b) o →
    ∃ x y v, vals a (some x) ∧ vals b (some y) ∧ o = some v ∧ |v - x * y| ≤ u * |x * y|
  div : ∀ {a b}, ¬ vals a none → ¬ vals b none → ¬ vals b (some 0) → ∃ r, A.div a b = .ok r ∧ ∀ o, vals r o →
    ∃ x y v, vals a (some x) ∧ vals b (some y) ∧ o = some v ∧ |v - x / y| ≤ u * |x / y|

/-- Expressions, with their evaluations. -/
def termValued (hu : 0 ≤ u) (h : u ≤ 1 / 2) : Valued termArith u where
  vals := Evaluates u
  nonneg := hu
  le_half := h
  lit := by
    intro q o ho
    cases ho with
    | lit h => exact ⟨_, rfl, h⟩
  add := by
    intro a b o ha hb ho
    cases ho with
    | op h1 h2 h3 h4 => cases h3; exact ⟨_, _, _, h1, h2, rfl, h4⟩
    | fail h1 h2 h3 => cases h3
    | left_fail h => exact absurd h ha
    | right_fail h => exact absurd h hb
  sub := by
    intro a b o ha hb ho
    cases ho with
    | op h1 h2 h3 h4 => cases h3; exact ⟨_, _, _, h1, h2, rfl, h4⟩
    | fail h1 h2 h3 => cases h3
    | left_fail h => exact absurd h ha
    | right_fail h => exact absurd h hb
  mul := by
    intro a b o ha hb ho
    cases ho with
    | op h1 h2 h3 h4 => cases h3; exact ⟨_, _, _, h1, h2, rfl, h4⟩
    | fail h1 h2 h3 => cases h3
    | left_fail h => exact absurd h ha
    | right_fail h => exact absurd h hb
  div := by
    intro a b ha hb h0
    refine ⟨_, rfl, fun o ho => ?_⟩
    cases ho with
    | @op _ _ _ x y z v h1 h2 h3 h4 =>
      have hy : y ≠ 0 := by rintro rfl; exact h0 h2
      simp only [Op.apply, if_neg hy, Option.some.injEq] at h3
      subst h3
      exact ⟨_, _, _, h1, h2, rfl, h4⟩
    | @fail _ _ _ x y h1 h2 h3 =>
      have hy : y ≠ 0 := by rintro rfl; exact h0 h2
      simp [Op.apply, hy] at h3
    | left_fail h => exact absurd h ha
    | right_fail h => exact absurd h hb

/-- Every value of `r` approximates `x` up to `k` roundings of quantities of total magnitude `B`. -/
def Valued.Within (V : Valued A u) (k : ℕ) (B x : ℝ) (r : R) : Prop :=
  |x| ≤ B ∧ ∀ o, V.vals r o → ∃ v, o = some v ∧ Lemmas.Within u k B x v

/-- The same, with a relative error. -/
def Valued.Approx (V : Valued A u) (k : ℕ) (x : ℝ) (r : R) : Prop := V.Within k |x| x r

/-- `r` is the number `x`. -/
def Valued.Is (V : Valued A u) (x : ℝ) (r : R) : Prop := ∀ o, V.vals r o → o = some x

theorem Within.err (hu : 0 ≤ u) {k : ℕ} {B x y v : ℝ} (h : Within u k B x y) (hv : |v - y| ≤ u * |y|) :
    Within u (k + 1) B x v := by
  have h1 := h.abs_le
  refine ⟨h.1, ?_⟩
  have h0 := h.2
  have h2 : |v - x| ≤ |v - y| + |y - x| := by simpa using abs_add_le (v - y) (y - x)
  have h4 := mul_le_mul_of_nonneg_left h1 hu
  rw [errBound_add, errBound_one]
  unfold errBound at *
  nlinarith

namespace Valued

variable (V : Valued A u)

variable {V}

theorem Within.safe {k : ℕ} {B x : ℝ} {r : R} (h : V.Within k B x r) : ¬ V.vals r none := fun h0 => by
  obtain ⟨v, hv, -⟩ := h.2 _ h0
  cases hv

theorem Within.mono {j k : ℕ} {B x : ℝ} {r : R} (h : V.Within j B x r) (hjk : j ≤ k) : V.Within k B x r :=
  ⟨h.1, fun o ho => (h.2 o ho).imp fun _ hv => ⟨hv.1, hv.2.mono V.nonneg hjk⟩⟩

theorem Is.within {x : ℝ} {r : R} (h : V.Is x r) (k : ℕ) : V.Within k |x| x r :=
  ⟨le_rfl, fun o ho => ⟨x, h o ho, le_rfl, by
    rw [sub_self, abs_zero]; exact mul_nonneg (errBound_nonneg V.nonneg k) (abs_nonneg x)⟩⟩

theorem Within.of_val {k : ℕ} {B x v : ℝ} {r : R} (h : V.Within k B x r) (hv : V.vals r (some v)) :
    Lemmas.Within u k B x v := by
  obtain ⟨w, hw, h1⟩ := h.2 _ hv
  cases hw
  exact h1

theorem within_lit (q : ℚ) : V.Within 1 |(q : ℝ)| q (A.lit q) := by
  refine ⟨le_rfl, fun o ho => ?_⟩
  obtain ⟨v, hv, h⟩ := V.lit ho
  refine ⟨v, hv, le_rfl, ?_⟩
  rwa [errBound_one]

theorem within_zero (k : ℕ) : V.Within k 0 0 (A.lit 0) := by
  refine ⟨by simp, fun o ho => ?_⟩
  obtain ⟨v, hv, h⟩ := V.lit ho
  refine ⟨v, hv, by simp, ?_⟩
  simpa using h

theorem Within.add {k : ℕ} {B B' x x' : ℝ} {a b : R} (h : V.Within k B x a) (h' : V.Within k B' x' b) :
    V.Within (k + 1) (B + B') (x + x') (A.add a b) := by
  refine ⟨(abs_add_le _ _).trans (add_le_add h.1 h'.1), fun o ho => ?_⟩
  obtain ⟨y, y', v, hy, hy', rfl, hv⟩ := V.add h.safe h'.safe ho
  exact ⟨v, rfl, ((h.of_val hy).add (h'.of_val hy')).err V.nonneg hv⟩

theorem Within.sub {k : ℕ} {B B' x x' : ℝ} {a b : R} (h : V.Within k B x a) (h' : V.Within k B' x' b) :
    V.Within (k + 1) (B + B') (x - x') (A.sub a b) := by
  refine ⟨(abs_sub _ _).trans (add_le_add h.1 h'.1), fun o ho => ?_⟩
  obtain ⟨y, y', v, hy, hy', rfl, hv⟩ := V.sub h.safe h'.safe ho
  exact ⟨v, rfl, ((h.of_val hy).sub (h'.of_val hy')).err V.nonneg hv⟩

/-- A difference of two given numbers has a small relative error. -/
theorem Is.sub {x x' : ℝ} {a b : R} (h : V.Is x a) (h' : V.Is x' b) : V.Within 1 |x - x'| (x - x') (A.sub a b) := by
  refine ⟨le_rfl, fun o ho => ?_⟩
  obtain ⟨y, y', v, hy, hy', rfl, hv⟩ := V.sub (h.within 0).safe (h'.within 0).safe ho
  have e := Option.some.inj (h _ hy)
  have e' := Option.some.inj (h' _ hy')
  subst e; subst e'
  exact ⟨v, rfl, le_rfl, by rwa [errBound_one]⟩

theorem Within.mul {j k : ℕ} {B B' x x' : ℝ} {a b : R} (h : V.Within j B x a) (h' : V.Within k B' x' b) :
    V.Within (j + k + 1) (B * B') (x * x') (A.mul a b) := by
  refine ⟨by rw [abs_mul]; exact mul_le_mul h.1 h'.1 (abs_nonneg _) ((abs_nonneg _).trans h.1), fun o ho => ?_⟩
  obtain ⟨y, y', v, hy, hy', rfl, hv⟩ := V.mul h.safe h'.safe ho
  exact ⟨v, rfl, ((h.of_val hy).mul V.nonneg (h'.of_val hy')).err V.nonneg hv⟩

/-- The reciprocal of a number with one rounding. -/
theorem inv_approx (hu : 0 ≤ u) (h2 : u ≤ 1 / 2) {x y : ℝ} (hx : x ≠ 0) (h : |y - x| ≤ u * |x|) :
    y ≠ 0 ∧ Lemmas.Approx u 2 (1 / x) (1 / y) := by
  have h3 : 0 < |x| := abs_pos.2 hx
  have h5 : (1 - u) * |x| ≤ |y| := by
    have : |x| ≤ |x - y| + |y| := by simpa using abs_add_le (x - y) y
    rw [abs_sub_comm] at this
    linarith
  have h4 : 0 < |y| := lt_of_lt_of_le (mul_pos (by linarith) h3) h5
  have hy : y ≠ 0 := abs_pos.1 h4
  refine ⟨hy, ?_⟩
  unfold Lemmas.Approx errBound
  have e : 1 / y - 1 / x = (x - y) / (x * y) := by field_simp
  rw [e, abs_div, abs_mul, abs_div, abs_one, div_le_iff₀ (by positivity)]
  have e2 : ((1 + u) ^ 2 - 1) * (1 / |x|) * (|x| * |y|) = ((1 + u) ^ 2 - 1) * |y| := by field_simp
  rw [e2, abs_sub_comm]
  have h6 : 0 ≤ (1 + u) ^ 2 - 1 := by nlinarith
  have h7 := mul_le_mul_of_nonneg_left h5 h6
  have h8 : u * |x| ≤ ((1 + u) ^ 2 - 1) * ((1 - u) * |x|) := by
    have : u ≤ ((1 + u) ^ 2 - 1) * (1 - u) := by nlinarith
    nlinarith
  linarith

/-- Division by a number with one rounding. -/
theorem Within.div {j : ℕ} {B x d : ℝ} {a b : R} (h : V.Within j B x a) (h' : V.Within 1 |d| d b) (hd : d ≠ 0) :
    ∃ r, A.div a b = .ok r ∧ V.Within (j + 3) (B * |1 / d|) (x * (1 / d)) r := by
  have hv : ∀ y, V.vals b (some y) → y ≠ 0 ∧ Lemmas.Approx u 2 (1 / d) (1 / y) := fun y hy => by
    have := (h'.of_val hy).2
    rw [errBound_one] at this
    exact inv_approx V.nonneg V.le_half hd this
  obtain ⟨r, hr, hrv⟩ := V.div h.safe h'.safe fun h0 => (hv 0 h0).1 rfl
  refine ⟨r, hr, ?_, fun o ho => ?_⟩
  · rw [abs_mul]; exact mul_le_mul_of_nonneg_right h.1 (abs_nonneg _)
  · obtain ⟨y, y', v, hy, hy', rfl, hve⟩ := hrv o ho
    rw [div_eq_mul_one_div] at hve
    exact ⟨v, rfl, ((h.of_val hy).mul V.nonneg (hv y' hy').2.within).err V.nonneg hve⟩

/-! ### folds and loops -/

theorem foldRight_mul {ι : Type} {l : List ι} (hl : l ≠ []) (B f : ι → ℝ) (g : ι → R)
    (k : ι → ℕ) (hk : ∀ i, V.Within (k i) (B i) (f i) (g i)) :
    ∃ y, foldRight A.mul (l.map fun i => .ok (g i)) = .ok y ∧
      V.Within ((l.map k).sum + (l.length - 1)) (l.map B).prod (l.map f).prod y := by
  induction l with
  | nil => exact absurd rfl hl
  | cons a l ih =>
    cases l with
    | nil => exact ⟨g a, by simp [foldRight], by simpa using hk a⟩
    | cons b l =>
      obtain ⟨y, hy, hay⟩ := ih (by simp)
      refine ⟨A.mul (g a) y, ?_, ?_⟩
      · simp only [List.map_cons] at hy ⊢
        rw [foldRight, hy]; rfl
      · have := (hk a).mul hay
        simp only [List.map_cons, List.sum_cons, List.prod_cons, List.length_cons] at this ⊢
        convert this using 1
        omega

theorem foldRight_mul_ofFn {d : ℕ} (hd : 0 < d) (F : Fin d → Res R)
    (B f : Fin d → ℝ) (g : Fin d → R) (k : Fin d → ℕ) (hF : ∀ i, F i = .ok (g i))
    (hk : ∀ i, V.Within (k i) (B i) (f i) (g i)) :
    ∃ y, foldRight A.mul (List.ofFn F) = .ok y ∧ V.Within ((∑ i, k i) + (d - 1)) (∏ i, B i) (∏ i, f i) y := by
  have hne : List.finRange d ≠ [] := by
    intro h0; have := congrArg List.length h0; simp at this; omega
  have e : List.ofFn F = (List.finRange d).map fun i => .ok (g i) := by
    rw [List.ofFn_eq_map]; exact List.map_congr_left fun i _ => hF i
  obtain ⟨y, hy, hay⟩ := foldRight_mul hne B f g k hk
  refine ⟨y, by rw [e, hy], ?_⟩
  rwa [← List.ofFn_eq_map, List.sum_ofFn, ← List.ofFn_eq_map, List.prod_ofFn, ← List.ofFn_eq_map,
    List.prod_ofFn, List.length_finRange] at hay

theorem foldRight_add {ι : Type} {l : List ι} (hl : l ≠ []) (B f : ι → ℝ) (g : ι → R)
    (k : ℕ) (hk : ∀ i, V.Within k (B i) (f i) (g i)) :
    ∃ y, foldRight A.add (l.map fun i => .ok (g i)) = .ok y ∧
      V.Within (k + (l.length - 1)) (l.map B).sum (l.map f).sum y := by
  induction l with
  | nil => exact absurd rfl hl
  | cons a l ih =>
    cases l with
    | nil => exact ⟨g a, by simp [foldRight], by simpa using hk a⟩
    | cons b l =>
      obtain ⟨y, hy, hay⟩ := ih (by simp)
      refine ⟨A.add (g a) y, ?_, ?_⟩
      · simp only [List.map_cons] at hy ⊢
        rw [foldRight, hy]; rfl
      · have := ((hk a).mono (Nat.le_add_right k _)).add hay
        simp only [List.map_cons, List.sum_cons, List.length_cons] at this ⊢
        convert this using 1
        omega

theorem foldRight_add_ofFn {d : ℕ} (hd : 0 < d) (F : Fin d → Res R)
    (B f : Fin d → ℝ) (g : Fin d → R) (k : ℕ) (hF : ∀ i, F i = .ok (g i))
    (hk : ∀ i, V.Within k (B i) (f i) (g i)) :
    ∃ y, foldRight A.add (List.ofFn F) = .ok y ∧ V.Within (k + (d - 1)) (∑ i, B i) (∑ i, f i) y := by
  have hne : List.finRange d ≠ [] := by
    intro h0; have := congrArg List.length h0; simp at this; omega
  have e : List.ofFn F = (List.finRange d).map fun i => .ok (g i) := by
    rw [List.ofFn_eq_map]; exact List.map_congr_left fun i _ => hF i
  obtain ⟨y, hy, hay⟩ := foldRight_add hne B f g k hk
  refine ⟨y, by rw [e, hy], ?_⟩
  rwa [← List.ofFn_eq_map, List.sum_ofFn, ← List.ofFn_eq_map, List.sum_ofFn, List.length_finRange] at hay

/-- An accumulation loop over matrices, vectors or numbers: `σ` is the state, with entries `r s a`. -/
theorem runCalls_within {ι κ σ : Type} {L : List ι} {B f : ι → κ → ℝ} {g : ι → κ → R} {k : ℕ}
    {body : ι → σ → Res σ} {mk : (κ → R) → σ}
    (hb : ∀ i r, body i (mk r) = .ok (mk fun a => A.add (r a) (g i a)))
    (hk : ∀ i a, V.Within k (B i a) (f i a) (g i a)) (m : ℕ) (A' x : κ → ℝ) (r : κ → R)
    (hr : ∀ a, V.Within (k + m) (A' a) (x a) (r a)) :
    ∃ y : κ → R, runCalls L body (mk r) = .ok (mk y) ∧
      ∀ a, V.Within (k + m + L.length) (A' a + (L.map fun i => B i a).sum) (x a + (L.map fun i => f i a).sum) (y a) := by
  induction L generalizing m A' x r with
  | nil => exact ⟨r, by simp, fun a => by simpa using hr a⟩
  | cons i L ih =>
    have h1 := fun a => (hr a).add ((hk i a).mono (Nat.le_add_right k m))
    obtain ⟨y, hy, hay⟩ := ih (m + 1) _ _ _ h1
    refine ⟨y, by rw [runCalls_cons, hb, Res.ok_bind, hy], fun a => ?_⟩
    have hay := hay a
    simp only [List.map_cons, List.sum_cons, List.length_cons, ← add_assoc] at hay ⊢
    convert hay using 1
    omega

/-! ### the Lagrange basis -/

/-- `c` lists the coordinates of the spacing, which are given numbers, and they are distinct. -/
structure NodesIn (V : Valued A u) (S : Spacing R) (n : ℕ) (c : Fin n → ℝ) : Prop where
  coord : 2 ≤ n → ∀ i : Fin n, ∃ r, S.coordCT (i : ℕ) = .ok r ∧ V.Is (c i) r
  distinct : Function.Injective c

variable {S : Spacing R} {n : ℕ} {c : Fin n → ℝ}

theorem lit_one : V.Within 1 1 1 (A.lit 1) := by simpa using V.within_lit 1

theorem valueProductTerm (h : V.NodesIn S n c) (j t : Fin n) {x : ℝ} {X : R} (hX : V.Is x X) :
    ∃ y, LagrangeBasis.valueProductTerm A S (j : ℕ) (t : ℕ) X = .ok y ∧
      V.Within (if j = t then 1 else 6) |factor c j x t| (factor c j x t) y := by
  unfold LagrangeBasis.valueProductTerm factor
  by_cases e : j = t
  · subst e
    exact ⟨_, if_pos rfl, by simpa using lit_one⟩
  · have e' : ((j : ℕ) : Int) ≠ (t : ℕ) := by
      intro h; exact e (Fin.ext (by exact_mod_cast h))
    have hd : c j - c t ≠ 0 := sub_ne_zero.2 fun h' => e (h.distinct h')
    obtain ⟨ct, h1, h1'⟩ := h.coord (two_le_of_ne e) t
    obtain ⟨cj, h2, h2'⟩ := h.coord (two_le_of_ne e) j
    obtain ⟨q, hq, hw⟩ := lit_one.div (h2'.sub h1') hd
    refine ⟨A.mul (A.sub X ct) q, ?_, ?_⟩
    · rw [if_neg e', h1, h2]
      simp only [Res.constexpr_ok, Res.ok_bind, hq]
    · rw [if_neg e, if_neg e]
      have := (hX.sub h1').mul hw
      rw [one_mul, one_mul, ← abs_mul] at this
      exact this

theorem value (order : ℕ) {c : Fin (order + 1) → ℝ} (h : V.NodesIn S (order + 1) c) (j : Fin (order + 1)) {x : ℝ} {X : R}
    (hX : V.Is x X) :
    ∃ y, LagrangeBasis.value A S ((order + 1 : ℕ) : Int) (j : ℕ) X = .ok y ∧
      V.Within (7 * order + 1) |(Lagrange.basis Finset.univ c j).eval x| ((Lagrange.basis Finset.univ c j).eval x) y := by
  unfold LagrangeBasis.value
  rw [makeIntegerSequence_ok (by omega), Res.ok_bind, mapUpTo]
  choose g hg hag using fun t => valueProductTerm h j t hX
  obtain ⟨y, hy, hay⟩ := foldRight_mul_ofFn (Nat.succ_pos order) _ _ _ _ _ hg hag
  refine ⟨y, hy, ?_⟩
  rw [← Finset.abs_prod, prod_factor_eq] at hay
  convert hay using 1
  rw [← Finset.add_sum_erase _ _ (Finset.mem_univ j), if_pos rfl, Finset.sum_congr rfl
    (g := fun _ => 6) fun t ht => if_neg (Finset.ne_of_mem_erase ht).symm]
  rw [Finset.sum_const, Finset.card_erase_of_mem (Finset.mem_univ _), Finset.card_univ, Fintype.card_fin]
  simp only [Nat.add_sub_cancel, smul_eq_mul, Nat.succ_eq_add_one]
  ring

theorem gradientOfValueTerm (h : V.NodesIn S n c) (j t : Fin n) :
    ∃ y, LagrangeBasis.gradientOfValueTerm A S (j : ℕ) (t : ℕ) = .ok y ∧
      V.Within 4 |factorDeriv c j t| (factorDeriv c j t) y := by
  unfold LagrangeBasis.gradientOfValueTerm factorDeriv
  by_cases e : j = t
  · subst e
    exact ⟨_, if_pos rfl, by simpa using V.within_zero 4⟩
  · have e' : ((j : ℕ) : Int) ≠ (t : ℕ) := by
      intro h; exact e (Fin.ext (by exact_mod_cast h))
    have hd : c j - c t ≠ 0 := sub_ne_zero.2 fun h' => e (h.distinct h')
    obtain ⟨ct, h1, h1'⟩ := h.coord (two_le_of_ne e) t
    obtain ⟨cj, h2, h2'⟩ := h.coord (two_le_of_ne e) j
    obtain ⟨q, hq, hw⟩ := lit_one.div (h2'.sub h1') hd
    refine ⟨q, ?_, ?_⟩
    · rw [if_neg e', h1, h2]
      simp only [Res.constexpr_ok, Res.ok_bind, hq]
    · rw [if_neg e]
      rw [one_mul, one_mul] at hw
      exact hw

theorem gradient (order : ℕ) {c : Fin (order + 1) → ℝ} (h : V.NodesIn S (order + 1) c) (j : Fin (order + 1)) {x : ℝ} {X : R}
    (hX : V.Is x X) :
    ∃ y, LagrangeBasis.gradient A S ((order + 1 : ℕ) : Int) (j : ℕ) X = .ok y ∧
      V.Within (8 * order + 11) (∑ a, |factorDeriv c j a| * ∏ b, if b = a then 1 else |factor c j x b|)
        ((Polynomial.derivative (Lagrange.basis Finset.univ c j)).eval x) y := by
  unfold LagrangeBasis.gradient
  choose g hg hag' using fun t => valueProductTerm h j t hX
  have hag := fun t => (hag' t).mono (show _ ≤ 6 by split_ifs <;> omega)
  choose q hq haq using fun t => gradientOfValueTerm h j t
  rw [makeIntegerSequence_ok (by omega), Res.ok_bind, sequenceRes_fin _ _ hg, Res.ok_bind, mapUpTo]
  have hp : ∀ a : Fin (order + 1), ∃ y, foldRight A.mul ((upTo 0 ((order + 1 : ℕ) : Int)).map
      fun b => LagrangeBasis.valueProductFactor A (List.ofFn g) b ((a : ℕ) : Int)) = .ok y ∧
      V.Within ((order + 1) * 6 + order) (∏ b, if b = a then 1 else |factor c j x b|)
        (∏ b, if b = a then 1 else factor c j x b) y := by
    intro a
    rw [mapUpTo]
    obtain ⟨y, hy, hw⟩ := foldRight_mul_ofFn (V := V) (Nat.succ_pos order)
      (fun b : Fin (order + 1) => LagrangeBasis.valueProductFactor A (List.ofFn g)
        ((b : ℕ) : Int) ((a : ℕ) : Int))
      (fun b => if b = a then 1 else |factor c j x b|) (fun b => if b = a then 1 else factor c j x b)
      (fun b => if b = a then A.lit 1 else g b) (fun _ => 6)
      (fun b => by
        unfold LagrangeBasis.valueProductFactor
        by_cases e : b = a
        · subst e; rw [if_pos rfl, if_pos rfl]
        · have e' : ((b : ℕ) : Int) ≠ (a : ℕ) := by
            intro h; exact e (Fin.ext (by exact_mod_cast h))
          rw [if_neg e', if_neg e, tableAt_ofFn])
      (fun b => by
        by_cases e : b = a
        · simp only [if_pos e]
          exact lit_one.mono (by omega)
        · simp only [if_neg e]; exact hag b)
    refine ⟨y, hy, ?_⟩
    simpa using hw
  choose p hp hap using hp
  obtain ⟨y, hy, hw⟩ := foldRight_add_ofFn (V := V) (Nat.succ_pos order)
    (fun a : Fin (order + 1) => LagrangeBasis.gradientTerm A S
      (upTo 0 ((order + 1 : ℕ) : Int)) ((j : ℕ) : Int) (List.ofFn g) ((a : ℕ) : Int))
    (fun a => |factorDeriv c j a| * ∏ b, if b = a then 1 else |factor c j x b|)
    (fun a => factorDeriv c j a * ∏ b, if b = a then 1 else factor c j x b)
    (fun a => A.mul (q a) (p a)) _
    (fun a => by
      unfold LagrangeBasis.gradientTerm
      rw [hq a, Res.ok_bind, hp a]; rfl)
    (fun a => (haq a).mul (hap a))
  refine ⟨y, hy, ?_⟩
  have e : (Polynomial.derivative (Lagrange.basis Finset.univ c j)).eval x
      = ∑ a, factorDeriv c j a * ∏ b, if b = a then 1 else factor c j x b := by
    have h2 := (Lagrange.basis Finset.univ c j).hasDerivAt x
    refine HasDerivAt.unique h2 ?_
    simpa only [prod_factor_eq] using hasDerivAt_prod_factor j x
  rw [e]
  refine hw.mono ?_
  simp only [Nat.add_sub_cancel, Nat.succ_eq_add_one]
  omega

/-! ### tensor products -/

/-- The basis object approximates `f` up to `kv` roundings and `g` up to `kg` roundings of quantities of
magnitude `G`. -/
structure Realises (V : Valued A u) (b : Basis R) (n : ℕ) (f g G : Fin n → ℝ → ℝ) (kv kg : ℕ) : Prop where
  count : b.numSupportPoints = n
  value : ∀ (j : Fin n) {x : ℝ} {X : R}, V.Is x X → ∃ y, b.value (j : ℕ) X = .ok y ∧ V.Within kv |f j x| (f j x) y
  gradient : ∀ (j : Fin n) {x : ℝ} {X : R}, V.Is x X → ∃ y, b.gradient (j : ℕ) X = .ok y ∧ V.Within kg (G j x) (g j x) y

section product
variable {d : ℕ} {n : Fin d → ℕ} {b : Fin d → Basis R} {f g G : (k : Fin d) → Fin (n k) → ℝ → ℝ} {kv kg : Fin d → ℕ}
  {x : Fin d → ℝ} {X : Fin d → R}

theorem product_value (hd : 0 < d) (h : ∀ k, V.Realises (b k) (n k) (f k) (g k) (G k) (kv k) (kg k))
    (idx : (k : Fin d) → Fin (n k)) (hX : ∀ k, V.Is (x k) (X k)) :
    ∃ y, BasisProduct.value A (List.ofFn b) (tup idx) (List.ofFn X) = .ok y ∧
      V.Within ((∑ k, kv k) + (d - 1)) |∏ k, f k (idx k) (x k)| (∏ k, f k (idx k) (x k)) y := by
  unfold BasisProduct.value
  rw [staticAssert_bind_true (by simp [tup_length]), tup, expand_ofFn]
  choose v hv hav using fun k => (h k).value (idx k) (hX k)
  rw [Finset.abs_prod]
  refine foldRight_mul_ofFn hd _ _ _ v kv (fun k => ?_) hav
  rw [tableAt_ofFn, Res.ok_bind, hv]

theorem product_gradient (hd : 0 < d) (h : ∀ k, V.Realises (b k) (n k) (f k) (g k) (G k) (kv k) (kg k))
    (idx : (k : Fin d) → Fin (n k)) (hX : ∀ k, V.Is (x k) (X k)) :
    ∃ y : Fin d → R,
      BasisProduct.gradient A (List.ofFn b) (tup idx) (List.ofFn X) = .ok (List.ofFn y) ∧
      ∀ a, V.Within ((∑ k, max (kv k) (kg k)) + (d - 1))
        (∏ k, if a = k then G k (idx k) (x k) else |f k (idx k) (x k)|)
        (∏ k, if a = k then g k (idx k) (x k) else f k (idx k) (x k)) (y a) := by
  unfold BasisProduct.gradient
  rw [staticAssert_bind_true (by simp [tup_length]), staticAssert_bind_true (by simpa using hd),
    List.length_ofFn, makeIntegerSequence_ok (by omega), Res.ok_bind]
  choose v hv hav using fun k => (h k).value (idx k) (hX k)
  choose q hq haq using fun k => (h k).gradient (idx k) (hX k)
  have hp : ∀ a : Fin d, ∃ y, foldRight A.mul (BasisProduct.expand (List.ofFn b) (tup idx)
      fun b i k => BasisProduct.gradientComponentHelper b ((a : ℕ) : Int) i k (List.ofFn X)) = .ok y ∧
      V.Within ((∑ k, max (kv k) (kg k)) + (d - 1))
        (∏ k, if a = k then G k (idx k) (x k) else |f k (idx k) (x k)|)
        (∏ k, if a = k then g k (idx k) (x k) else f k (idx k) (x k)) y := by
    intro a
    rw [tup, expand_ofFn]
    refine foldRight_mul_ofFn hd _ _ _ (fun k => if a = k then q k else v k) _
      (fun k => ?_) (fun k => ?_)
    · rw [BasisProduct.gradientComponentHelper, tableAt_ofFn, Res.ok_bind]
      by_cases e : a = k
      · subst e; rw [if_pos rfl, if_pos rfl, hq]
      · have e' : ((a : ℕ) : Int) ≠ (k : ℕ) := by
          intro h; exact e (Fin.ext (by exact_mod_cast h))
        rw [if_neg e', if_neg e, hv]
    · by_cases e : a = k
      · simp only [if_pos e]; exact (haq k).mono (le_max_right _ _)
      · simp only [if_neg e]; exact (hav k).mono (le_max_left _ _)
  choose y hy hay using hp
  exact ⟨y, sequenceRes_fin _ _ hy, hay⟩

theorem parent_value (hd : 0 < d) (h : ∀ k, V.Realises (b k) (n k) (f k) (g k) (G k) (kv k) (kg k))
    (hX : ∀ k, V.Is (x k) (X k)) (var : List Int → Res R) (y : ((k : Fin d) → Fin (n k)) → ℝ)
    (hy : ∀ idx, ∃ r, var (tup idx) = .ok r ∧ V.Is (y idx) r) :
    ∃ r, ParentElement.value A (elementOf b) (List.ofFn X) var = .ok r ∧
      V.Within ((∑ k, kv k) + d + ∏ k, n k) (∑ idx, |∏ k, f k (idx k) (x k)| * |y idx|)
        (∑ idx, (∏ k, f k (idx k) (x k)) * y idx) r := by
  obtain ⟨L, hL, hnd, hall⟩ := box_list n
  choose v hv hav using fun idx => product_value hd h idx hX
  choose Y hY hYy using hy
  rw [ParentElement.value, elementOf_instantiate, Res.ok_bind]
  rw [show (elementOf b).bases = List.ofFn b from rfl, forNested_box hd (fun k => (h k).count) hL]
  have hterm : ∀ idx (_ : Unit), V.Within ((∑ k, kv k) + d) (|∏ k, f k (idx k) (x k)| * |y idx|)
      ((∏ k, f k (idx k) (x k)) * y idx) (A.mul (v idx) (Y idx)) := by
    intro idx _
    exact ((hav idx).mul ((hYy idx).within 0)).mono (by omega)
  obtain ⟨r, hrr, hw⟩ := runCalls_within (L := L) (mk := fun r : Unit → R => r ()) (body := fun idx =>
      ParentElement.valueBody A (elementOf b) (List.ofFn X) var (tup idx))
    (g := fun idx _ => A.mul (v idx) (Y idx)) (fun idx r => by
      rw [ParentElement.valueBody, (basisValue_eq _ (elementOf_instantiate b)
        (by simp [tup_length, elementOf]) _).1, show (elementOf b).bases = List.ofFn b from rfl,
        hv, Res.ok_bind, hY, Res.ok_bind]) hterm 0 (fun _ => 0) (fun _ => 0) (fun _ => A.lit 0) (fun _ => V.within_zero _)
  refine ⟨r (), hrr, ?_⟩
  have hw := hw ()
  rwa [sum_box hnd hall, sum_box hnd hall, zero_add, zero_add, box_length hnd hall, add_zero] at hw

theorem gradientInner_loop {d : ℕ} (gr : Fin d → R) (var : List Int → Res R) (idx : List Int) (y : R)
    (hy : var idx = .ok y) {L : List (Fin d)} (hL : L.Nodup) (r : Fin d → R) :
    runCalls L (fun a => ParentElement.gradientInner A (List.ofFn gr) var idx ((a : ℕ) : Int))
        (List.ofFn r)
      = .ok (List.ofFn fun k => if k ∈ L then A.add (r k) (A.mul (gr k) y) else r k) := by
  induction L generalizing r with
  | nil => simp
  | cons a L ih =>
    obtain ⟨ha, hL'⟩ := List.nodup_cons.1 hL
    have e1 : ParentElement.gradientInner A (List.ofFn gr) var idx ((a : ℕ) : Int) (List.ofFn r)
        = .ok (List.ofFn (Function.update r a (A.add (r a) (A.mul (gr a) y)))) := by
      rw [ParentElement.gradientInner, tableAt_ofFn, tableAt_ofFn, hy]
      simp only [Res.ok_bind, Int.toNat_natCast, set_ofFn]
    rw [runCalls_cons, e1, Res.ok_bind, ih hL']
    congr 2
    funext k
    by_cases hk : k = a
    · subst hk; simp [ha]
    · simp [hk]

theorem parent_gradient (hd : 0 < d) (h : ∀ k, V.Realises (b k) (n k) (f k) (g k) (G k) (kv k) (kg k))
    (hX : ∀ k, V.Is (x k) (X k)) (var : List Int → Res R) (y : ((k : Fin d) → Fin (n k)) → ℝ)
    (hy : ∀ idx, ∃ r, var (tup idx) = .ok r ∧ V.Is (y idx) r) :
    ∃ r : Fin d → R,
      ParentElement.gradient A (elementOf b) (List.ofFn X) var = .ok (List.ofFn r) ∧
      ∀ a, V.Within ((∑ k, max (kv k) (kg k)) + d + ∏ k, n k)
        (∑ idx, (∏ k, if a = k then G k (idx k) (x k) else |f k (idx k) (x k)|) * |y idx|)
        (∑ idx, (∏ k, if a = k then g k (idx k) (x k) else f k (idx k) (x k)) * y idx) (r a) := by
  obtain ⟨L, hL, hnd, hall⟩ := box_list n
  choose v hv hav using fun idx => product_gradient hd h idx hX
  choose Y hY hYy using hy
  have hz : List.replicate d (A.lit 0) = List.ofFn (fun _ : Fin d => A.lit 0) := by rw [List.ofFn_const]
  rw [ParentElement.gradient, elementOf_instantiate, Res.ok_bind]
  rw [show (elementOf b).bases = List.ofFn b from rfl, forNested_box hd (fun k => (h k).count) hL,
    List.length_ofFn, hz]
  have hterm : ∀ idx a, V.Within ((∑ k, max (kv k) (kg k)) + d)
      ((∏ k, if a = k then G k (idx k) (x k) else |f k (idx k) (x k)|) * |y idx|)
      ((∏ k, if a = k then g k (idx k) (x k) else f k (idx k) (x k)) * y idx) (A.mul (v idx a) (Y idx)) := by
    intro idx a
    exact ((hav idx a).mul ((hYy idx).within 0)).mono (by omega)
  obtain ⟨r, hrr, hw⟩ := runCalls_within (L := L) (mk := fun r : Fin d → R => List.ofFn r) (body := fun idx =>
      ParentElement.gradientBody A (elementOf b) (List.ofFn X) var (tup idx))
    (g := fun idx a => A.mul (v idx a) (Y idx)) (fun idx r => by
      rw [ParentElement.gradientBody, (basisValue_eq _ (elementOf_instantiate b)
        (by simp [tup_length, elementOf]) _).2.2.1, show (elementOf b).bases = List.ofFn b from rfl,
        hv, Res.ok_bind, List.length_ofFn, forSequence_eq (by omega),
        upTo_ofFn, List.ofFn_eq_map, runCalls_map,
        gradientInner_loop _ _ _ _ (hY idx) (List.nodup_finRange d)]
      congr 2
      funext k
      simp) hterm 0 (fun _ => 0) (fun _ => 0) (fun _ => A.lit 0) (fun a => V.within_zero _)
  refine ⟨r, hrr, fun a => ?_⟩
  have hw := hw a
  rw [sum_box hnd hall, sum_box hnd hall, box_length hnd hall, add_zero] at hw
  simpa using hw

/-- The Jacobian loop, started from a matrix of zeros. -/
theorem jacobian {t : LinearTransform R} {P : ((k : Fin d) → Fin (n k)) → Fin d → R} (hcell : Cell t b n P)
    (h : ∀ k, V.Realises (b k) (n k) (f k) (g k) (G k) (kv k) (kg k)) (cfg : Config) (hX : ∀ k, V.Is (x k) (X k))
    {p : ((k : Fin d) → Fin (n k)) → Fin d → ℝ} (hp : ∀ idx i, V.Is (p idx i) (P idx i)) (extra : List R) :
    ∃ J : Matrix (Fin d) (Fin d) R,
      LinearTransform.jacobian cfg A t (List.ofFn X ++ extra) (matMem fun _ _ : Fin d => A.lit 0) = .ok (matMem J) ∧
      ∀ i j, V.Within ((∑ k, max (kv k) (kg k)) + d + ∏ k, n k)
        (∑ idx, (∏ k, if j = k then G k (idx k) (x k) else |f k (idx k) (x k)|) * |p idx i|)
        (∑ idx, (∏ k, if j = k then g k (idx k) (x k) else f k (idx k) (x k)) * p idx i) (J i j) := by
  obtain ⟨L, hL, hnd, hall⟩ := box_list n
  choose v hv hav using fun idx => product_gradient hcell.dims h idx hX
  have hd := hcell.dims
  have hbl : t.shape.bases.length = d := by simp [hcell.bases]
  have hterm : ∀ (idx : (k : Fin d) → Fin (n k)) (ij : Fin d × Fin d), V.Within ((∑ k, max (kv k) (kg k)) + d)
      ((∏ k, if ij.2 = k then G k (idx k) (x k) else |f k (idx k) (x k)|) * |p idx ij.1|)
      ((∏ k, if ij.2 = k then g k (idx k) (x k) else f k (idx k) (x k)) * p idx ij.1)
      (A.mul (v idx ij.2) (P idx ij.1)) := by
    intro idx ij
    exact ((hav idx ij.2).mul ((hp idx ij.1).within 0)).mono (by omega)
  obtain ⟨J, hJ, hw⟩ := runCalls_within (L := L)
    (mk := fun r : Fin d × Fin d → R => matMem (fun i j => r (i, j))) (body := fun idx =>
      LinearTransform.jacobianBody cfg A t (List.ofFn X ++ extra) (tup idx))
    (g := fun idx ij => A.mul (v idx ij.2) (P idx ij.1)) (fun idx M => by
      rw [jacobianBody_ok hcell cfg A _ idx (g := v idx) ?_ fun i j => M (i, j)]
      · rfl
      · rw [gradient_append _ _ _ _ (by rw [hbl, List.length_ofFn]),
          (basisValue_eq _ hcell.inst (by rw [tup_length, hbl]) _).2.2.2, hcell.bases, hv]) hterm 0
    (fun _ => 0) (fun _ => 0) (fun _ => A.lit 0) (fun a => V.within_zero _)
  refine ⟨fun i j => J (i, j), by rw [LinearTransform.jacobian, supportLoop_eq hcell hL]; exact hJ, fun i j => ?_⟩
  have hw := hw (i, j)
  rw [sum_box hnd hall, sum_box hnd hall, box_length hnd hall, add_zero] at hw
  simpa using hw

end product

/-! ### the 3x3 inverse -/

/-- A difference of two products. -/
theorem cofactor {k : ℕ} {B₁ B₂ B₃ B₄ x₁ x₂ x₃ x₄ : ℝ} {a₁ a₂ a₃ a₄ : R} (h₁ : V.Within k B₁ x₁ a₁) (h₂ : V.Within k B₂ x₂ a₂)
    (h₃ : V.Within k B₃ x₃ a₃) (h₄ : V.Within k B₄ x₄ a₄) :
    V.Within (2 * k + 2) (B₁ * B₂ + B₃ * B₄) (x₁ * x₂ - x₃ * x₄) (A.sub (A.mul a₁ a₂) (A.mul a₃ a₄)) :=
  ((h₁.mul h₂).sub (h₃.mul h₄)).mono (by omega)

/-- What `inverse` leaves when its argument holds approximations `N` of the entries of `M`. -/
theorem inverse {k : ℕ} {B M : Matrix (Fin 3) (Fin 3) ℝ} {N : Matrix (Fin 3) (Fin 3) R}
    (h : ∀ i j, V.Within k (B i j) (M i j) (N i j)) :
    ∃ det after, inverseNative A (matMem N) = .ok (det, after) ∧ V.Within (3 * k + 5) (detMagnitude B) M.det det ∧
      (¬ V.vals det (some 0) → ∃ P : Matrix (Fin 3) (Fin 3) R, after = .ok (matMem P) ∧ ∀ i j o, V.vals (P i j) o →
        ∃ v d, o = some v ∧ V.vals det (some d) ∧
          Lemmas.Within u (2 * k + 5) (adjMagnitude B i j / |d|) (M.adjugate i j / d) v) := by
  have hB : ∀ i j, |B i j| = B i j := fun i j => abs_of_nonneg ((abs_nonneg _).trans (h i j).1)
  have cof := fun (i j i' j' p q p' q' : Fin 3) => cofactor (h i j) (h i' j') (h p q) (h p' q')
  obtain ⟨det, hdet⟩ : ∃ det, det = A.add (A.add (A.mul (N 0 0) (A.sub (A.mul (N 1 1) (N 2 2)) (A.mul (N 1 2) (N 2 1))))
      (A.mul (N 1 0) (A.sub (A.mul (N 0 2) (N 2 1)) (A.mul (N 0 1) (N 2 2)))))
      (A.mul (N 2 0) (A.sub (A.mul (N 0 1) (N 1 2)) (A.mul (N 0 2) (N 1 1)))) := ⟨_, rfl⟩
  have e := inverseNative_eq A (N 0 0) (N 0 1) (N 0 2) (N 1 0) (N 1 1) (N 1 2) (N 2 0) (N 2 1) (N 2 2)
  rw [← hdet] at e
  have hd : V.Within (3 * k + 5) (detMagnitude B) M.det det := by
    have e1 : M.det = M 0 0 * (M 1 1 * M 2 2 - M 1 2 * M 2 1) + M 1 0 * (M 0 2 * M 2 1 - M 0 1 * M 2 2)
        + M 2 0 * (M 0 1 * M 1 2 - M 0 2 * M 1 1) := by
      rw [Matrix.det_fin_three]; ring
    have e2 : detMagnitude B = B 0 0 * (B 1 1 * B 2 2 + B 1 2 * B 2 1)
        + B 1 0 * (B 0 2 * B 2 1 + B 0 1 * B 2 2) + B 2 0 * (B 0 1 * B 1 2 + B 0 2 * B 1 1) := by
      rw [detMagnitude_three]; simp only [hB]; ring
    rw [e1, e2, hdet]
    have h1 := (h 0 0).mul (cof 1 1 2 2 1 2 2 1)
    have h2 := (h 1 0).mul (cof 0 2 2 1 0 1 2 2)
    have h3 := (h 2 0).mul (cof 0 1 1 2 0 2 1 1)
    exact ((h1.add h2).add (h3.mono (Nat.le_succ _))).mono (by omega)
  refine ⟨det, _, (congrArg _ (matMem_three N)).trans e, hd, fun h0 => ?_⟩
  obtain ⟨q, hq, hqv⟩ := V.div (lit_one (V := V)).safe hd.safe h0
  have hqn : ¬ V.vals q none := fun hn => by
    obtain ⟨_, _, _, _, _, hh, _⟩ := hqv _ hn
    cases hh
  have key : ∀ {B' x : ℝ} {r : R}, V.Within (2 * k + 2) B' x r → ∀ o, V.vals (A.mul r q) o →
      ∃ v d, o = some v ∧ V.vals det (some d) ∧ Lemmas.Within u (2 * k + 5) (B' / |d|) (x / d) v := by
    intro B' x r hr o ho
    obtain ⟨y, w, v, hy, hw, rfl, hv⟩ := V.mul hr.safe hqn ho
    obtain ⟨l, d, w', hl, hd', hw', hwe⟩ := hqv _ hw
    cases hw'
    refine ⟨v, d, rfl, hd', ?_⟩
    have h1 : Lemmas.Within u 2 |1 / d| (1 / d) w := by
      have hl1 := ((lit_one (V := V)).of_val hl).mul V.nonneg (Approx.refl (u := u) (1 / d)).within
      rw [one_mul, one_mul] at hl1
      rw [div_eq_mul_one_div] at hwe
      exact hl1.err V.nonneg hwe
    have h2 := ((hr.of_val hy).mul V.nonneg h1).err V.nonneg hv
    rw [abs_div, abs_one, mul_one_div, mul_one_div] at h2
    exact h2.mono V.nonneg (by omega)
  rw [hq]
  simp only [Res.ok_bind]
  have nine : ∀ {a b c d e f g i j : R}, ∃ P : Matrix (Fin 3) (Fin 3) R,
      [a, b, c, d, e, f, g, i, j] = matMem P := fun {_ _ _ _ _ _ _ _ _} => exists_matMem rfl
  obtain ⟨P, hP⟩ := nine
  refine ⟨P, congrArg Res.ok hP, fun i j => ?_⟩
  rw [matMem_three] at hP
  simp only [List.cons.injEq, and_true] at hP
  obtain ⟨p1, p2, p3, p4, p5, p6, p7, p8, p9⟩ := hP
  rw [adjugate_entries, adjMagnitude_entries]
  simp only [hB]
  fin_cases i <;> fin_cases j
  · exact p1 ▸ key (cof 1 1 2 2 1 2 2 1)
  · exact p2 ▸ key (cof 0 2 2 1 0 1 2 2)
  · exact p3 ▸ key (cof 0 1 1 2 0 2 1 1)
  · exact p4 ▸ key (cof 1 2 2 0 1 0 2 2)
  · exact p5 ▸ key (cof 0 0 2 2 0 2 2 0)
  · exact p6 ▸ key (cof 0 2 1 0 0 0 1 2)
  · exact p7 ▸ key (cof 1 0 2 1 1 1 2 0)
  · exact p8 ▸ key (cof 0 1 2 0 0 0 2 1)
  · exact p9 ▸ key (cof 0 0 1 1 0 1 1 0)

end Valued

/-! ### evaluations with a rounding function -/

theorem evaluates_of_contracted {fl : ℝ → ℝ} (hr : Rounds fl u) {t : Term} {v : ℝ} (h : Contracted fl t v) :
    Evaluates u t (some v) := by
  have exact_ok : ∀ z : ℝ, |z - z| ≤ u * |z| := fun z => by
    rw [sub_self, abs_zero]; exact mul_nonneg hr.nonneg (abs_nonneg z)
  induction h with
  | num x => exact .num x
  | lit q => exact .lit (hr.err _)
  | neg _ ih => exact .neg ih
  | op _ _ hz ih1 ih2 => exact .op ih1 ih2 hz (hr.err _)
  | mul_add _ _ _ ih1 ih2 ih3 => exact .op (.op ih1 ih2 rfl (exact_ok _)) ih3 rfl (hr.err _)
  | add_mul _ _ _ ih1 ih2 ih3 => exact .op ih3 (.op ih1 ih2 rfl (exact_ok _)) rfl (hr.err _)
  | mul_sub _ _ _ ih1 ih2 ih3 => exact .op (.op ih1 ih2 rfl (exact_ok _)) ih3 rfl (hr.err _)
  | sub_mul _ _ _ ih1 ih2 ih3 => exact .op ih3 (.op ih1 ih2 rfl (exact_ok _)) rfl (hr.err _)

/-- Code run with rounding after every operation gives an evaluation of the expression it builds. -/
theorem contracted_rel (fl : ℝ → ℝ) : ArithRel False (roundedArith fl) termArith (fun r t => Contracted fl t r) where
  lit q := .lit q
  add h h' := .op h h' rfl
  sub h h' := .op h h' rfl
  mul h h' := .op h h' rfl
  neg h := .neg h
  div := by
    intro a b a' b' h h'
    simp only [roundedArith, termArith]
    by_cases h0 : a' = 0
    · rw [if_pos h0]; exact .notOk (by simp)
    · rw [if_neg h0]; exact .ok (.op h h' (by simp [Op.apply, h0]))

end Verif.Lemmas
