import Verif.Spec.Rounding
import Verif.Lemmas.Tensor
import Mathlib.Tactic.Positivity
import Mathlib.Tactic.NormNum
import Mathlib.Tactic.FieldSimp

/-! # Propagation of relative errors -/

namespace Verif.Lemmas

open Verif.Spec

variable {fl : ℝ → ℝ} {u : ℝ}

/-- `y` approximates `x` up to `k` roundings. -/
def Approx (u : ℝ) (k : ℕ) (x y : ℝ) : Prop := |y - x| ≤ errBound u k * |x|

theorem errBound_nonneg (hu : 0 ≤ u) (k : ℕ) : 0 ≤ errBound u k := by
  have : (1 : ℝ) ≤ (1 + u) ^ k := one_le_pow₀ (by linarith)
  unfold errBound; linarith

theorem errBound_mono (hu : 0 ≤ u) {j k : ℕ} (h : j ≤ k) : errBound u j ≤ errBound u k := by
  have : (1 + u) ^ j ≤ (1 + u) ^ k := pow_le_pow_right₀ (by linarith) h
  unfold errBound; linarith

theorem errBound_add (u : ℝ) (j k : ℕ) :
    errBound u (j + k) = errBound u j * errBound u k + errBound u j + errBound u k := by
  unfold errBound; rw [pow_add]; ring

theorem errBound_one (u : ℝ) : errBound u 1 = u := by unfold errBound; ring

theorem errBound_zero (u : ℝ) : errBound u 0 = 0 := by unfold errBound; ring

theorem Approx.refl (x : ℝ) : Approx u 0 x x := by simp [Approx, errBound_zero]

theorem Approx.mono (hu : 0 ≤ u) {j k : ℕ} {x y : ℝ} (h : Approx u j x y) (hjk : j ≤ k) :
    Approx u k x y :=
  h.trans (mul_le_mul_of_nonneg_right (errBound_mono hu hjk) (abs_nonneg _))

theorem Approx.mul (hu : 0 ≤ u) {j k : ℕ} {x x' y y' : ℝ} (h : Approx u j x x')
    (h' : Approx u k y y') : Approx u (j + k) (x * y) (x' * y') := by
  unfold Approx at *
  have e : x' * y' - x * y = (x' - x) * (y' - y) + (x' - x) * y + x * (y' - y) := by ring
  rw [e, errBound_add, abs_mul]
  have hj := errBound_nonneg hu j
  have hk := errBound_nonneg hu k
  calc _ ≤ |(x' - x) * (y' - y)| + |(x' - x) * y| + |x * (y' - y)| := abs_add_three _ _ _
    _ = |x' - x| * |y' - y| + |x' - x| * |y| + |x| * |y' - y| := by simp only [abs_mul]
    _ ≤ (errBound u j * |x|) * (errBound u k * |y|) + (errBound u j * |x|) * |y|
        + |x| * (errBound u k * |y|) := by
      have h1 := mul_le_mul h h' (abs_nonneg _) (by positivity)
      have h2 := mul_le_mul_of_nonneg_right h (abs_nonneg y)
      have h3 := mul_le_mul_of_nonneg_left h' (abs_nonneg x)
      linarith
    _ = _ := by ring

theorem Approx.abs_le {k : ℕ} {x y : ℝ} (h : Approx u k x y) : |y| ≤ (1 + u) ^ k * |x| := by
  unfold Approx errBound at h
  have : |y| ≤ |y - x| + |x| := by simpa using abs_add_le (y - x) x
  linarith

/-- One more rounding. -/
theorem Approx.round (h : Rounds fl u) {k : ℕ} {x y : ℝ} (hxy : Approx u k x y) :
    Approx u (k + 1) x (fl y) := by
  have h1 := hxy.abs_le
  unfold Approx at *
  have h2 : |fl y - x| ≤ |fl y - y| + |y - x| := by simpa using abs_add_le (fl y - y) (y - x)
  have h3 := h.err y
  have h4 := mul_le_mul_of_nonneg_left h1 h.nonneg
  rw [errBound_add, errBound_one]
  unfold errBound at *
  nlinarith

theorem approx_fl (h : Rounds fl u) (x : ℝ) : Approx u 1 x (fl x) :=
  Approx.round h (Approx.refl x)

theorem fl_zero (h : Rounds fl u) : fl 0 = 0 := by
  have := h.err 0
  simpa using this

theorem fl_ne_zero (h : Rounds fl u) {x : ℝ} (hx : x ≠ 0) : fl x ≠ 0 := by
  intro h0
  have h1 := h.err x
  have h2 := h.le_half
  have h3 : 0 < |x| := abs_pos.2 hx
  rw [h0, zero_sub, abs_neg] at h1
  nlinarith

/-- The reciprocal of a rounded number. -/
theorem Approx.inv_fl (h : Rounds fl u) {x : ℝ} (hx : x ≠ 0) : Approx u 2 (1 / x) (1 / fl x) := by
  have hy := fl_ne_zero h hx
  have h1 := h.err x
  have h2 := h.le_half
  have h0 := h.nonneg
  have h3 : 0 < |x| := abs_pos.2 hx
  have h4 : 0 < |fl x| := abs_pos.2 hy
  have h5 : (1 - u) * |x| ≤ |fl x| := by
    have : |x| ≤ |x - fl x| + |fl x| := by simpa using abs_add_le (x - fl x) (fl x)
    rw [abs_sub_comm] at this
    linarith
  unfold Approx errBound
  have e : 1 / fl x - 1 / x = (x - fl x) / (x * fl x) := by field_simp
  rw [e, abs_div, abs_mul, abs_div, abs_one, div_le_iff₀ (by positivity)]
  have e2 : ((1 + u) ^ 2 - 1) * (1 / |x|) * (|x| * |fl x|) = ((1 + u) ^ 2 - 1) * |fl x| := by
    field_simp
  rw [e2, abs_sub_comm]
  have h6 : 0 ≤ (1 + u) ^ 2 - 1 := by nlinarith
  have h7 := mul_le_mul_of_nonneg_left h5 h6
  have h8 : u * |x| ≤ ((1 + u) ^ 2 - 1) * ((1 - u) * |x|) := by
    have : u ≤ ((1 + u) ^ 2 - 1) * (1 - u) := by nlinarith
    nlinarith
  linarith

/-! ### products -/

theorem approx_foldRight (h : Rounds fl u) {ι : Type} {l : List ι} (hl : l ≠ []) (f g : ι → ℝ) (k : ι → ℕ)
    (hk : ∀ i, Approx u (k i) (f i) (g i)) :
    ∃ y, foldRight (roundedArith fl).mul (l.map fun i => .ok (g i)) = .ok y ∧
      Approx u ((l.map k).sum + (l.length - 1)) (l.map f).prod y := by
  induction l with
  | nil => exact absurd rfl hl
  | cons a l ih =>
    cases l with
    | nil => exact ⟨g a, by simp [foldRight], by simpa using hk a⟩
    | cons b l =>
      obtain ⟨y, hy, hay⟩ := ih (by simp)
      refine ⟨fl (g a * y), ?_, ?_⟩
      · simp only [List.map_cons] at hy ⊢
        rw [foldRight, hy]; rfl
      · have := Approx.round h ((hk a).mul h.nonneg hay)
        simp only [List.map_cons, List.sum_cons, List.prod_cons, List.length_cons] at this ⊢
        convert this using 1
        omega

theorem approx_foldRight_ofFn (h : Rounds fl u) {d : ℕ} (hd : 0 < d) (F : Fin d → Res ℝ) (f g : Fin d → ℝ)
    (k : Fin d → ℕ) (hF : ∀ i, F i = .ok (g i)) (hk : ∀ i, Approx u (k i) (f i) (g i)) :
    ∃ y, foldRight (roundedArith fl).mul (List.ofFn F) = .ok y ∧
      Approx u ((∑ i, k i) + (d - 1)) (∏ i, f i) y := by
  have hne : List.finRange d ≠ [] := by
    intro h0; have := congrArg List.length h0; simp at this; omega
  have e : List.ofFn F = (List.finRange d).map fun i => .ok (g i) := by
    rw [List.ofFn_eq_map]; exact List.map_congr_left fun i _ => hF i
  obtain ⟨y, hy, hay⟩ := approx_foldRight h hne f g k hk
  refine ⟨y, by rw [e, hy], ?_⟩
  rwa [← List.ofFn_eq_map, List.sum_ofFn, ← List.ofFn_eq_map, List.prod_ofFn, List.length_finRange] at hay

/-! ### the Lagrange basis -/

variable {S : Spacing ℝ} {n : ℕ} {c : Fin n → ℝ}

/-- Roundings in one factor; `e1` counts those of the literal one. -/
theorem valueProductTerm_approx (hr : Rounds fl u) {e1 : ℕ} (h1 : Approx u e1 1 (fl 1)) (h : Nodes S n c)
    (j t : Fin n) (x : ℝ) :
    ∃ y, LagrangeBasis.valueProductTerm (roundedArith fl) S (j : ℕ) (t : ℕ) x = .ok y ∧
      Approx u (if j = t then e1 else 5 + e1) (factor c j x t) y := by
  unfold LagrangeBasis.valueProductTerm factor
  by_cases e : j = t
  · subst e
    refine ⟨fl 1, ?_, ?_⟩
    · simp [roundedArith]
    · simpa using h1
  · have e' : ((j : ℕ) : Int) ≠ (t : ℕ) := by
      intro h; exact e (Fin.ext (by exact_mod_cast h))
    have hd : c j - c t ≠ 0 := sub_ne_zero.2 fun h' => e (h.distinct h')
    have hd' := fl_ne_zero hr hd
    refine ⟨fl (fl (x - c t) * fl (fl 1 / fl (c j - c t))), ?_, ?_⟩
    · rw [if_neg e', h.coord (two_le_of_ne e) t, h.coord (two_le_of_ne e) j]
      simp [roundedArith, hd']
    · rw [if_neg e, if_neg e]
      have h2 := Approx.round hr (h1.mul hr.nonneg (Approx.inv_fl hr hd))
      have h3 := Approx.round hr ((approx_fl hr (x - c t)).mul hr.nonneg h2)
      rw [one_mul, mul_one_div (fl 1)] at h3
      have e2 : 1 + (e1 + 2 + 1) + 1 = 5 + e1 := by omega
      rw [e2] at h3
      exact h3

theorem value_approx (hr : Rounds fl u) {e1 : ℕ} (h1 : Approx u e1 1 (fl 1)) {order : ℕ}
    {c : Fin (order + 1) → ℝ} (h : Nodes S (order + 1) c) (j : Fin (order + 1)) (x : ℝ) :
    ∃ y, LagrangeBasis.value (roundedArith fl) S ((order + 1 : ℕ) : Int) (j : ℕ) x = .ok y ∧
      Approx u (order * (6 + e1) + e1) ((Lagrange.basis Finset.univ c j).eval x) y := by
  unfold LagrangeBasis.value
  rw [makeIntegerSequence_ok (by omega), Res.ok_bind, mapUpTo]
  choose g hg hag using fun t => valueProductTerm_approx hr h1 h j t x
  obtain ⟨y, hy, hay⟩ := approx_foldRight_ofFn hr (Nat.succ_pos order) _ _ _ _ hg hag
  refine ⟨y, hy, ?_⟩
  rw [prod_factor_eq] at hay
  convert hay using 1
  rw [← Finset.add_sum_erase _ _ (Finset.mem_univ j), if_pos rfl, Finset.sum_congr rfl
    (g := fun _ => 5 + e1) fun t ht => if_neg (Finset.ne_of_mem_erase ht).symm]
  rw [Finset.sum_const, Finset.card_erase_of_mem (Finset.mem_univ _), Finset.card_univ, Fintype.card_fin]
  simp only [Nat.add_sub_cancel, smul_eq_mul, Nat.succ_eq_add_one]
  ring

/-! ### sums -/

/-- `y` approximates `x` up to `k` roundings of quantities of total magnitude `B`. -/
def Within (u : ℝ) (k : ℕ) (B x y : ℝ) : Prop := |x| ≤ B ∧ |y - x| ≤ errBound u k * B

theorem Approx.within {k : ℕ} {x y : ℝ} (h : Approx u k x y) : Within u k |x| x y := ⟨le_rfl, h⟩

theorem Within.mono (hu : 0 ≤ u) {j k : ℕ} {B x y : ℝ} (h : Within u j B x y) (hjk : j ≤ k) :
    Within u k B x y :=
  ⟨h.1, h.2.trans (mul_le_mul_of_nonneg_right (errBound_mono hu hjk) ((abs_nonneg _).trans h.1))⟩

theorem Within.abs_le {k : ℕ} {B x y : ℝ} (h : Within u k B x y) : |y| ≤ (1 + u) ^ k * B := by
  obtain ⟨h1, h2⟩ := h
  unfold errBound at h2
  have : |y| ≤ |y - x| + |x| := by simpa using abs_add_le (y - x) x
  linarith

theorem Within.round (h : Rounds fl u) {k : ℕ} {B x y : ℝ} (hxy : Within u k B x y) :
    Within u (k + 1) B x (fl y) := by
  have h1 := hxy.abs_le
  refine ⟨hxy.1, ?_⟩
  have h0 := hxy.2
  have h2 : |fl y - x| ≤ |fl y - y| + |y - x| := by simpa using abs_add_le (fl y - y) (y - x)
  have h3 := h.err y
  have h4 := mul_le_mul_of_nonneg_left h1 h.nonneg
  rw [errBound_add, errBound_one]
  unfold errBound at *
  nlinarith

theorem Within.add {k : ℕ} {B B' x x' y y' : ℝ} (h : Within u k B x y)
    (h' : Within u k B' x' y') : Within u k (B + B') (x + x') (y + y') := by
  refine ⟨(abs_add_le _ _).trans (add_le_add h.1 h'.1), ?_⟩
  have e : y + y' - (x + x') = (y - x) + (y' - x') := by ring
  rw [e, mul_add]
  exact (abs_add_le _ _).trans (add_le_add h.2 h'.2)

theorem Within.mul (hu : 0 ≤ u) {j k : ℕ} {B B' x x' y y' : ℝ} (h : Within u j B x y)
    (h' : Within u k B' x' y') : Within u (j + k) (B * B') (x * x') (y * y') := by
  have hB := (abs_nonneg _).trans h.1
  have hB' := (abs_nonneg _).trans h'.1
  have hj := errBound_nonneg hu j
  have hk := errBound_nonneg hu k
  refine ⟨by rw [abs_mul]; exact mul_le_mul h.1 h'.1 (abs_nonneg _) hB, ?_⟩
  have e : y * y' - x * x' = (y - x) * (y' - x') + (y - x) * x' + x * (y' - x') := by ring
  rw [e, errBound_add]
  calc _ ≤ |(y - x) * (y' - x')| + |(y - x) * x'| + |x * (y' - x')| := abs_add_three _ _ _
    _ = |y - x| * |y' - x'| + |y - x| * |x'| + |x| * |y' - x'| := by simp only [abs_mul]
    _ ≤ (errBound u j * B) * (errBound u k * B') + (errBound u j * B) * B' + B * (errBound u k * B') := by
      have h1 := mul_le_mul h.2 h'.2 (abs_nonneg _) (by positivity)
      have h2 := mul_le_mul h.2 h'.1 (abs_nonneg _) (by positivity)
      have h3 := mul_le_mul h.1 h'.2 (abs_nonneg _) hB
      linarith
    _ = _ := by ring

theorem within_foldRight_mul (h : Rounds fl u) {ι : Type} {l : List ι} (hl : l ≠ []) (B f g : ι → ℝ)
    (k : ι → ℕ) (hk : ∀ i, Within u (k i) (B i) (f i) (g i)) :
    ∃ y, foldRight (roundedArith fl).mul (l.map fun i => .ok (g i)) = .ok y ∧
      Within u ((l.map k).sum + (l.length - 1)) (l.map B).prod (l.map f).prod y := by
  induction l with
  | nil => exact absurd rfl hl
  | cons a l ih =>
    cases l with
    | nil => exact ⟨g a, by simp [foldRight], by simpa using hk a⟩
    | cons b l =>
      obtain ⟨y, hy, hay⟩ := ih (by simp)
      refine ⟨fl (g a * y), ?_, ?_⟩
      · simp only [List.map_cons] at hy ⊢
        rw [foldRight, hy]; rfl
      · have := Within.round h ((hk a).mul h.nonneg hay)
        simp only [List.map_cons, List.sum_cons, List.prod_cons, List.length_cons] at this ⊢
        convert this using 1
        omega

theorem within_foldRight_mul_ofFn (h : Rounds fl u) {d : ℕ} (hd : 0 < d) (F : Fin d → Res ℝ)
    (B f g : Fin d → ℝ) (k : Fin d → ℕ) (hF : ∀ i, F i = .ok (g i))
    (hk : ∀ i, Within u (k i) (B i) (f i) (g i)) :
    ∃ y, foldRight (roundedArith fl).mul (List.ofFn F) = .ok y ∧
      Within u ((∑ i, k i) + (d - 1)) (∏ i, B i) (∏ i, f i) y := by
  have hne : List.finRange d ≠ [] := by
    intro h0; have := congrArg List.length h0; simp at this; omega
  have e : List.ofFn F = (List.finRange d).map fun i => .ok (g i) := by
    rw [List.ofFn_eq_map]; exact List.map_congr_left fun i _ => hF i
  obtain ⟨y, hy, hay⟩ := within_foldRight_mul h hne B f g k hk
  refine ⟨y, by rw [e, hy], ?_⟩
  rwa [← List.ofFn_eq_map, List.sum_ofFn, ← List.ofFn_eq_map, List.prod_ofFn, ← List.ofFn_eq_map,
    List.prod_ofFn, List.length_finRange] at hay

theorem within_foldRight_add (h : Rounds fl u) {ι : Type} {l : List ι} (hl : l ≠ []) (B f g : ι → ℝ)
    (k : ℕ) (hk : ∀ i, Within u k (B i) (f i) (g i)) :
    ∃ y, foldRight (roundedArith fl).add (l.map fun i => .ok (g i)) = .ok y ∧
      Within u (k + (l.length - 1)) (l.map B).sum (l.map f).sum y := by
  induction l with
  | nil => exact absurd rfl hl
  | cons a l ih =>
    cases l with
    | nil => exact ⟨g a, by simp [foldRight], by simpa using hk a⟩
    | cons b l =>
      obtain ⟨y, hy, hay⟩ := ih (by simp)
      refine ⟨fl (g a + y), ?_, ?_⟩
      · simp only [List.map_cons] at hy ⊢
        rw [foldRight, hy]; rfl
      · have := Within.round h (((hk a).mono h.nonneg (Nat.le_add_right k _)).add hay)
        simp only [List.map_cons, List.sum_cons, List.length_cons] at this ⊢
        convert this using 1
        omega

theorem within_foldRight_add_ofFn (h : Rounds fl u) {d : ℕ} (hd : 0 < d) (F : Fin d → Res ℝ)
    (B f g : Fin d → ℝ) (k : ℕ) (hF : ∀ i, F i = .ok (g i))
    (hk : ∀ i, Within u k (B i) (f i) (g i)) :
    ∃ y, foldRight (roundedArith fl).add (List.ofFn F) = .ok y ∧
      Within u (k + (d - 1)) (∑ i, B i) (∑ i, f i) y := by
  have hne : List.finRange d ≠ [] := by
    intro h0; have := congrArg List.length h0; simp at this; omega
  have e : List.ofFn F = (List.finRange d).map fun i => .ok (g i) := by
    rw [List.ofFn_eq_map]; exact List.map_congr_left fun i _ => hF i
  obtain ⟨y, hy, hay⟩ := within_foldRight_add h hne B f g k hk
  refine ⟨y, by rw [e, hy], ?_⟩
  rwa [← List.ofFn_eq_map, List.sum_ofFn, ← List.ofFn_eq_map, List.sum_ofFn, List.length_finRange] at hay

/-- An accumulation loop. -/
theorem within_runCalls (h : Rounds fl u) {ι : Type} {L : List ι} {B f g : ι → ℝ} {k : ℕ}
    {body : ι → ℝ → Res ℝ} (hb : ∀ i r, body i r = .ok (fl (r + g i)))
    (hk : ∀ i, Within u k (B i) (f i) (g i)) (m : ℕ) (A x r : ℝ) (hr : Within u (k + m) A x r) :
    ∃ y, runCalls L body r = .ok y ∧
      Within u (k + m + L.length) (A + (L.map B).sum) (x + (L.map f).sum) y := by
  induction L generalizing m A x r with
  | nil => exact ⟨r, by simp, by simpa using hr⟩
  | cons i L ih =>
    have h1 := Within.round h (hr.add ((hk i).mono h.nonneg (Nat.le_add_right k m)))
    obtain ⟨y, hy, hay⟩ := ih (m + 1) _ _ _ h1
    refine ⟨y, by simp [hb, hy], ?_⟩
    simp only [List.map_cons, List.sum_cons, List.length_cons, ← add_assoc] at hay ⊢
    convert hay using 1
    omega

/-! ### tensor products -/

/-- The basis object approximates `f` up to `kv` roundings and `g` up to `kg` roundings of quantities of
magnitude `G`. -/
structure ApproxRealises (u : ℝ) (b : Basis ℝ) (n : ℕ) (f g G : Fin n → ℝ → ℝ) (kv kg : ℕ) : Prop where
  count : b.numSupportPoints = n
  value : ∀ (j : Fin n) (x : ℝ), ∃ y, b.value (j : ℕ) x = .ok y ∧ Approx u kv (f j x) y
  gradient : ∀ (j : Fin n) (x : ℝ), ∃ y, b.gradient (j : ℕ) x = .ok y ∧ Within u kg (G j x) (g j x) y

theorem product_value_approx (hr : Rounds fl u) {d : ℕ} {n : Fin d → ℕ} {b : Fin d → Basis ℝ}
    {f g G : (k : Fin d) → Fin (n k) → ℝ → ℝ} {kv kg : Fin d → ℕ} (hd : 0 < d)
    (h : ∀ k, ApproxRealises u (b k) (n k) (f k) (g k) (G k) (kv k) (kg k))
    (idx : (k : Fin d) → Fin (n k)) (x : Fin d → ℝ) :
    ∃ y, BasisProduct.value (roundedArith fl) (List.ofFn b) (tup idx) (List.ofFn x) = .ok y ∧
      Approx u ((∑ k, kv k) + (d - 1)) (∏ k, f k (idx k) (x k)) y := by
  unfold BasisProduct.value
  rw [staticAssert_bind_true (by simp [tup_length]), tup, expand_ofFn]
  choose v hv hav using fun k => (h k).value (idx k) (x k)
  refine approx_foldRight_ofFn hr hd _ _ v kv (fun k => ?_) hav
  rw [tableAt_ofFn, Res.ok_bind, hv]

theorem product_gradient_within (hr : Rounds fl u) {d : ℕ} {n : Fin d → ℕ} {b : Fin d → Basis ℝ}
    {f g G : (k : Fin d) → Fin (n k) → ℝ → ℝ} {kv kg : Fin d → ℕ} (hd : 0 < d)
    (h : ∀ k, ApproxRealises u (b k) (n k) (f k) (g k) (G k) (kv k) (kg k))
    (idx : (k : Fin d) → Fin (n k)) (x : Fin d → ℝ) :
    ∃ y : Fin d → ℝ,
      BasisProduct.gradient (roundedArith fl) (List.ofFn b) (tup idx) (List.ofFn x) = .ok (List.ofFn y) ∧
      ∀ a, Within u ((∑ k, max (kv k) (kg k)) + (d - 1))
        (∏ k, if a = k then G k (idx k) (x k) else |f k (idx k) (x k)|)
        (∏ k, if a = k then g k (idx k) (x k) else f k (idx k) (x k)) (y a) := by
  unfold BasisProduct.gradient
  rw [staticAssert_bind_true (by simp [tup_length]), staticAssert_bind_true (by simpa using hd),
    List.length_ofFn, makeIntegerSequence_ok (by omega), Res.ok_bind]
  choose v hv hav using fun k => (h k).value (idx k) (x k)
  choose q hq haq using fun k => (h k).gradient (idx k) (x k)
  have hp : ∀ a : Fin d, ∃ y, foldRight (roundedArith fl).mul (BasisProduct.expand (List.ofFn b) (tup idx)
      fun b i k => BasisProduct.gradientComponentHelper b ((a : ℕ) : Int) i k (List.ofFn x)) = .ok y ∧
      Within u ((∑ k, max (kv k) (kg k)) + (d - 1))
        (∏ k, if a = k then G k (idx k) (x k) else |f k (idx k) (x k)|)
        (∏ k, if a = k then g k (idx k) (x k) else f k (idx k) (x k)) y := by
    intro a
    rw [tup, expand_ofFn]
    refine within_foldRight_mul_ofFn hr hd _ _ _ (fun k => if a = k then q k else v k) _
      (fun k => ?_) (fun k => ?_)
    · rw [BasisProduct.gradientComponentHelper, tableAt_ofFn, Res.ok_bind]
      by_cases e : a = k
      · subst e; rw [if_pos rfl, if_pos rfl, hq]
      · have e' : ((a : ℕ) : Int) ≠ (k : ℕ) := by
          intro h; exact e (Fin.ext (by exact_mod_cast h))
        rw [if_neg e', if_neg e, hv]
    · by_cases e : a = k
      · simp only [if_pos e]; exact (haq k).mono hr.nonneg (le_max_right _ _)
      · simp only [if_neg e]; exact (hav k).within.mono hr.nonneg (le_max_left _ _)
  choose y hy hay using hp
  exact ⟨y, sequenceRes_fin _ _ hy, hay⟩

theorem box_length {d : ℕ} {n : Fin d → ℕ} {L : List ((k : Fin d) → Fin (n k))} (hnd : L.Nodup)
    (hall : ∀ idx, idx ∈ L) : L.length = ∏ k, n k := by
  have := sum_box hnd hall (fun _ => 1)
  simpa using this

theorem parent_value_within (hr : Rounds fl u) {d : ℕ} {n : Fin d → ℕ} {b : Fin d → Basis ℝ}
    {f g G : (k : Fin d) → Fin (n k) → ℝ → ℝ} {kv kg : Fin d → ℕ} (hd : 0 < d)
    (h : ∀ k, ApproxRealises u (b k) (n k) (f k) (g k) (G k) (kv k) (kg k)) (x : Fin d → ℝ)
    (var : List Int → Res ℝ) (y : ((k : Fin d) → Fin (n k)) → ℝ) (hy : ∀ idx, var (tup idx) = .ok (y idx)) :
    ∃ r, ParentElement.value (roundedArith fl) (elementOf b) (List.ofFn x) var = .ok r ∧
      Within u ((∑ k, kv k) + d + ∏ k, n k) (∑ idx, |∏ k, f k (idx k) (x k)| * |y idx|)
        (∑ idx, (∏ k, f k (idx k) (x k)) * y idx) r := by
  obtain ⟨L, hL, hnd, hall⟩ := box_list n
  choose v hv hav using fun idx => product_value_approx hr hd h idx x
  rw [ParentElement.value, elementOf_instantiate, Res.ok_bind]
  rw [show (elementOf b).bases = List.ofFn b from rfl, forNested_box hd (fun k => (h k).count) hL]
  have hterm : ∀ idx, Within u ((∑ k, kv k) + d) (|∏ k, f k (idx k) (x k)| * |y idx|)
      ((∏ k, f k (idx k) (x k)) * y idx) (fl (v idx * y idx)) := by
    intro idx
    have := Within.round hr ((hav idx).within.mul hr.nonneg (Approx.refl (u := u) (y idx)).within)
    exact this.mono hr.nonneg (by omega)
  obtain ⟨r, hrr, hw⟩ := within_runCalls hr (L := L) (body := fun idx =>
      ParentElement.valueBody (roundedArith fl) (elementOf b) (List.ofFn x) var (tup idx))
    (g := fun idx => fl (v idx * y idx)) (fun idx r => by
      rw [ParentElement.valueBody, (basisValue_eq _ (elementOf_instantiate b)
        (by simp [tup_length, elementOf]) _).1, show (elementOf b).bases = List.ofFn b from rfl,
        hv, Res.ok_bind, hy, Res.ok_bind]
      rfl) hterm 0 0 0 ((roundedArith fl).lit 0) (by simp [Within, roundedArith, fl_zero hr])
  refine ⟨r, hrr, ?_⟩
  rwa [sum_box hnd hall, sum_box hnd hall, zero_add, zero_add, box_length hnd hall, add_zero] at hw

theorem gradientInner_loop_rounded {d : ℕ} (gr : Fin d → ℝ) (var : List Int → Res ℝ) (idx : List Int) (y : ℝ)
    (hy : var idx = .ok y) {L : List (Fin d)} (hL : L.Nodup) (r : Fin d → ℝ) :
    runCalls L (fun a => ParentElement.gradientInner (roundedArith fl) (List.ofFn gr) var idx ((a : ℕ) : Int))
        (List.ofFn r)
      = .ok (List.ofFn fun k => if k ∈ L then fl (r k + fl (gr k * y)) else r k) := by
  induction L generalizing r with
  | nil => simp
  | cons a L ih =>
    obtain ⟨ha, hL'⟩ := List.nodup_cons.1 hL
    have e1 : ParentElement.gradientInner (roundedArith fl) (List.ofFn gr) var idx ((a : ℕ) : Int) (List.ofFn r)
        = .ok (List.ofFn (Function.update r a (fl (r a + fl (gr a * y))))) := by
      rw [ParentElement.gradientInner, tableAt_ofFn, tableAt_ofFn, hy]
      simp only [Res.ok_bind, Int.toNat_natCast, set_ofFn]
      rfl
    rw [runCalls_cons, e1, Res.ok_bind, ih hL']
    congr 2
    funext k
    by_cases hk : k = a
    · subst hk; simp [ha]
    · simp [hk]

theorem within_runCallsVec (h : Rounds fl u) {ι : Type} {d : ℕ} {L : List ι} {B f g : ι → Fin d → ℝ} {k : ℕ}
    {body : ι → List ℝ → Res (List ℝ)}
    (hb : ∀ i r, body i (List.ofFn r) = .ok (List.ofFn fun a => fl (r a + g i a)))
    (hk : ∀ i a, Within u k (B i a) (f i a) (g i a)) (m : ℕ) (A x r : Fin d → ℝ)
    (hr : ∀ a, Within u (k + m) (A a) (x a) (r a)) :
    ∃ y : Fin d → ℝ, runCalls L body (List.ofFn r) = .ok (List.ofFn y) ∧
      ∀ a, Within u (k + m + L.length) (A a + (L.map fun i => B i a).sum)
        (x a + (L.map fun i => f i a).sum) (y a) := by
  induction L generalizing m A x r with
  | nil => exact ⟨r, by simp, fun a => by simpa using hr a⟩
  | cons i L ih =>
    have h1 := fun a => Within.round h ((hr a).add ((hk i a).mono h.nonneg (Nat.le_add_right k m)))
    obtain ⟨y, hy, hay⟩ := ih (m + 1) _ _ _ h1
    refine ⟨y, by rw [runCalls_cons, hb, Res.ok_bind, hy], fun a => ?_⟩
    have hay := hay a
    simp only [List.map_cons, List.sum_cons, List.length_cons, ← add_assoc] at hay ⊢
    convert hay using 1
    omega

theorem parent_gradient_within (hr : Rounds fl u) {d : ℕ} {n : Fin d → ℕ} {b : Fin d → Basis ℝ}
    {f g G : (k : Fin d) → Fin (n k) → ℝ → ℝ} {kv kg : Fin d → ℕ} (hd : 0 < d)
    (h : ∀ k, ApproxRealises u (b k) (n k) (f k) (g k) (G k) (kv k) (kg k)) (x : Fin d → ℝ)
    (var : List Int → Res ℝ) (y : ((k : Fin d) → Fin (n k)) → ℝ) (hy : ∀ idx, var (tup idx) = .ok (y idx)) :
    ∃ r : Fin d → ℝ,
      ParentElement.gradient (roundedArith fl) (elementOf b) (List.ofFn x) var = .ok (List.ofFn r) ∧
      ∀ a, Within u ((∑ k, max (kv k) (kg k)) + d + ∏ k, n k)
        (∑ idx, (∏ k, if a = k then G k (idx k) (x k) else |f k (idx k) (x k)|) * |y idx|)
        (∑ idx, (∏ k, if a = k then g k (idx k) (x k) else f k (idx k) (x k)) * y idx) (r a) := by
  obtain ⟨L, hL, hnd, hall⟩ := box_list n
  choose v hv hav using fun idx => product_gradient_within hr hd h idx x
  have hz : List.replicate d ((roundedArith fl).lit 0) = List.ofFn (0 : Fin d → ℝ) := by
    simp [roundedArith, List.ofFn_const, Pi.zero_def, fl_zero hr]
  rw [ParentElement.gradient, elementOf_instantiate, Res.ok_bind]
  rw [show (elementOf b).bases = List.ofFn b from rfl, forNested_box hd (fun k => (h k).count) hL,
    List.length_ofFn, hz]
  have hterm : ∀ idx a, Within u ((∑ k, max (kv k) (kg k)) + d)
      ((∏ k, if a = k then G k (idx k) (x k) else |f k (idx k) (x k)|) * |y idx|)
      ((∏ k, if a = k then g k (idx k) (x k) else f k (idx k) (x k)) * y idx) (fl (v idx a * y idx)) := by
    intro idx a
    have := Within.round hr ((hav idx a).mul hr.nonneg (Approx.refl (u := u) (y idx)).within)
    exact this.mono hr.nonneg (by omega)
  obtain ⟨r, hrr, hw⟩ := within_runCallsVec hr (L := L) (body := fun idx =>
      ParentElement.gradientBody (roundedArith fl) (elementOf b) (List.ofFn x) var (tup idx))
    (g := fun idx a => fl (v idx a * y idx)) (fun idx r => by
      rw [ParentElement.gradientBody, (basisValue_eq _ (elementOf_instantiate b)
        (by simp [tup_length, elementOf]) _).2.2.1, show (elementOf b).bases = List.ofFn b from rfl,
        hv, Res.ok_bind, List.length_ofFn, forSequence_eq (by omega),
        upTo_ofFn, List.ofFn_eq_map, runCalls_map,
        gradientInner_loop_rounded _ _ _ _ (hy idx) (List.nodup_finRange d)]
      congr 2
      funext k
      simp) hterm 0 0 0 0 (fun a => by simp [Within])
  refine ⟨r, hrr, fun a => ?_⟩
  have hw := hw a
  rw [sum_box hnd hall, sum_box hnd hall, box_length hnd hall, add_zero] at hw
  simpa using hw

/-! ### gradients -/

theorem valueProductTerm_within (hr : Rounds fl u) {e1 : ℕ} (h1 : Approx u e1 1 (fl 1)) (h : Nodes S n c)
    (j t : Fin n) (x : ℝ) :
    ∃ y, LagrangeBasis.valueProductTerm (roundedArith fl) S (j : ℕ) (t : ℕ) x = .ok y ∧
      Within u (5 + e1) |factor c j x t| (factor c j x t) y := by
  obtain ⟨y, hy, ha⟩ := valueProductTerm_approx hr h1 h j t x
  exact ⟨y, hy, (ha.mono hr.nonneg (by split_ifs <;> omega)).within⟩

theorem gradientOfValueTerm_within (hr : Rounds fl u) {e1 : ℕ} (h1 : Approx u e1 1 (fl 1)) (h : Nodes S n c)
    (j t : Fin n) :
    ∃ y, LagrangeBasis.gradientOfValueTerm (roundedArith fl) S (j : ℕ) (t : ℕ) = .ok y ∧
      Within u (3 + e1) |factorDeriv c j t| (factorDeriv c j t) y := by
  unfold LagrangeBasis.gradientOfValueTerm factorDeriv
  by_cases e : j = t
  · subst e
    refine ⟨0, ?_, ?_⟩
    · simp [roundedArith, fl_zero hr]
    · simp [Within]
  · have e' : ((j : ℕ) : Int) ≠ (t : ℕ) := by
      intro h; exact e (Fin.ext (by exact_mod_cast h))
    have hd : c j - c t ≠ 0 := sub_ne_zero.2 fun h' => e (h.distinct h')
    have hd' := fl_ne_zero hr hd
    refine ⟨fl (fl 1 / fl (c j - c t)), ?_, ?_⟩
    · rw [if_neg e', h.coord (two_le_of_ne e) t, h.coord (two_le_of_ne e) j]
      simp [roundedArith, hd']
    · rw [if_neg e]
      have h2 := Approx.round hr (h1.mul hr.nonneg (Approx.inv_fl hr hd))
      rw [one_mul, mul_one_div (fl 1), show e1 + 2 + 1 = 3 + e1 by omega] at h2
      exact h2.within

theorem gradient_within (hr : Rounds fl u) {e1 : ℕ} (h1 : Approx u e1 1 (fl 1)) {order : ℕ}
    {c : Fin (order + 1) → ℝ} (h : Nodes S (order + 1) c) (j : Fin (order + 1)) (x : ℝ) :
    ∃ y, LagrangeBasis.gradient (roundedArith fl) S ((order + 1 : ℕ) : Int) (j : ℕ) x = .ok y ∧
      Within u ((order + 1) * (7 + e1) + e1 + 2)
        (∑ a, |factorDeriv c j a| * ∏ b, if b = a then 1 else |factor c j x b|)
        ((Polynomial.derivative (Lagrange.basis Finset.univ c j)).eval x) y := by
  unfold LagrangeBasis.gradient
  choose g hg hag using fun t => valueProductTerm_within hr h1 h j t x
  choose q hq haq using fun t => gradientOfValueTerm_within hr h1 h j t
  rw [makeIntegerSequence_ok (by omega), Res.ok_bind, sequenceRes_fin _ _ hg, Res.ok_bind, mapUpTo]
  have hp : ∀ a : Fin (order + 1), ∃ y, foldRight (roundedArith fl).mul ((upTo 0 ((order + 1 : ℕ) : Int)).map
      fun b => LagrangeBasis.valueProductFactor (roundedArith fl) (List.ofFn g) b ((a : ℕ) : Int)) = .ok y ∧
      Within u ((order + 1) * (5 + e1) + order) (∏ b, if b = a then 1 else |factor c j x b|)
        (∏ b, if b = a then 1 else factor c j x b) y := by
    intro a
    rw [mapUpTo]
    obtain ⟨y, hy, hw⟩ := within_foldRight_mul_ofFn hr (Nat.succ_pos order)
      (fun b : Fin (order + 1) => LagrangeBasis.valueProductFactor (roundedArith fl) (List.ofFn g)
        ((b : ℕ) : Int) ((a : ℕ) : Int))
      (fun b => if b = a then 1 else |factor c j x b|) (fun b => if b = a then 1 else factor c j x b)
      (fun b => if b = a then fl 1 else g b) (fun _ => 5 + e1)
      (fun b => by
        unfold LagrangeBasis.valueProductFactor
        by_cases e : b = a
        · subst e; simp [roundedArith]
        · have e' : ((b : ℕ) : Int) ≠ (a : ℕ) := by
            intro h; exact e (Fin.ext (by exact_mod_cast h))
          rw [if_neg e', if_neg e, tableAt_ofFn])
      (fun b => by
        by_cases e : b = a
        · simp only [if_pos e]
          have := (h1.mono hr.nonneg (show e1 ≤ 5 + e1 by omega)).within
          rwa [abs_one] at this
        · simp only [if_neg e]; exact hag b)
    refine ⟨y, hy, ?_⟩
    simpa using hw
  choose p hp hap using hp
  obtain ⟨y, hy, hw⟩ := within_foldRight_add_ofFn hr (Nat.succ_pos order)
    (fun a : Fin (order + 1) => LagrangeBasis.gradientTerm (roundedArith fl) S
      (upTo 0 ((order + 1 : ℕ) : Int)) ((j : ℕ) : Int) (List.ofFn g) ((a : ℕ) : Int))
    (fun a => |factorDeriv c j a| * ∏ b, if b = a then 1 else |factor c j x b|)
    (fun a => factorDeriv c j a * ∏ b, if b = a then 1 else factor c j x b)
    (fun a => fl (q a * p a)) _
    (fun a => by
      unfold LagrangeBasis.gradientTerm
      rw [hq a, Res.ok_bind, hp a]; rfl)
    (fun a => Within.round hr ((haq a).mul hr.nonneg (hap a)))
  refine ⟨y, hy, ?_⟩
  have e : (Polynomial.derivative (Lagrange.basis Finset.univ c j)).eval x
      = ∑ a, factorDeriv c j a * ∏ b, if b = a then 1 else factor c j x b := by
    have h2 := (Lagrange.basis Finset.univ c j).hasDerivAt x
    refine HasDerivAt.unique h2 ?_
    simpa only [prod_factor_eq] using hasDerivAt_prod_factor j x
  rw [e]
  refine hw.mono hr.nonneg ?_
  simp only [Nat.add_sub_cancel, Nat.succ_eq_add_one]
  nlinarith

/-! ### Lagrange elements -/

/-- The functions a Lagrange element approximates, direction by direction. -/
theorem isLagrangeIn_realises (hr : Rounds fl u) {e1 : ℕ} (h1 : Approx u e1 1 (fl 1)) {d : ℕ}
    {order : Fin d → ℕ} {c : (k : Fin d) → Fin (order k + 1) → ℝ}
    {e : Element ℝ} (h : IsLagrangeIn (roundedArith fl) order c e) :
    ∃ b : Fin d → Basis ℝ, e = elementOf b ∧
      ∀ k, ApproxRealises u (b k) (order k + 1)
        (fun j x => (Lagrange.basis Finset.univ (c k) j).eval x)
        (fun j x => (Polynomial.derivative (Lagrange.basis Finset.univ (c k) j)).eval x)
        (fun j x => ∑ a, |factorDeriv (c k) j a| * ∏ t, if t = a then 1 else |factor (c k) j x t|)
        (order k * (6 + e1) + e1) ((order k + 1) * (7 + e1) + e1 + 2) := by
  obtain ⟨b, hb, hk⟩ := h.bases
  refine ⟨b, ?_, fun k => ?_⟩
  · cases e; simp only [elementOf]; congr 1; exact h.shape
  · obtain ⟨hlt, S, hS, hbk⟩ := hk k
    have hadd : iadd (order k : Int) 1 = .ok ((order k + 1 : ℕ) : Int) := by
      push_cast
      exact tnorm_ok ⟨by show (-2147483648 : Int) ≤ _; omega, by show _ ≤ (2147483647 : Int); omega⟩
    rw [lagrangeBasis, hadd] at hbk
    simp only [Res.constexpr_ok, Res.ok_bind, Res.ok.injEq] at hbk
    rw [← hbk]
    exact ⟨rfl, fun j x => value_approx hr h1 hS j x, fun j x => gradient_within hr h1 hS j x⟩

end Verif.Lemmas
