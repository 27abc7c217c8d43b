import Verif.Lemmas.NearNodes
import Verif.Lemmas.NearInverse
import Verif.Props.MixedBasis

/-!
# Properties C100 and C101: finite and accurate results, with underflow

C81 describes results unless an exception was raised on the way.  Here the sizes of the inputs are bounded, and it
follows that the results are finite numbers and accurate, whether or not something underflowed.
-/

namespace Verif.Props

open Verif.Spec Verif.Lemmas Verif.MathUtilities

variable {F : FloatFormat}

theorem tiny_smallest (F : FloatFormat) : 2 * tiny F = smallestPositive F := by
  unfold tiny smallestPositive; ring

theorem smallest_pos (F : FloatFormat) : 0 < smallestPositive F := by unfold smallestPositive; positivity

/-- The error of a computation, in terms of the unit roundoff and the smallest positive number. -/
theorem near_error {k m : ℕ} {M C x y : ℝ} (hM : 0 ≤ M) (hC : 0 ≤ C) (hr : (1 + unitRoundoff F) ^ k ≤ 2)
    (h : |y - x| ≤ (1 + unitRoundoff F) ^ k * (M + m * tiny F * C) - M) {k' : ℕ} (hk : k ≤ k') {A : ℝ} (hA : m * C ≤ A) :
    |y - x| ≤ errBound (unitRoundoff F) k' * M + A * smallestPositive F := by
  have h1 := errBound_mono (roundoff_nonneg F) hk
  have h2 := mul_le_mul_of_nonneg_right h1 hM
  have h3 := tiny_pos F
  have h4 : (1 + unitRoundoff F) ^ k * (m * tiny F * C) ≤ 2 * (m * tiny F * C) :=
    mul_le_mul_of_nonneg_right hr (by positivity)
  have h5 := mul_le_mul_of_nonneg_right hA h3.le
  unfold errBound at h2 ⊢
  rw [← tiny_smallest]
  nlinarith

theorem near_within {k m : ℕ} {M C x : ℝ} {f : Flt} (h : Near F k m M C x f) (hr : (1 + unitRoundoff F) ^ k ≤ 2)
    {k' : ℕ} (hk : k ≤ k') {A : ℝ} (hA : m * C ≤ A) :
    FiniteWithin f x (errBound (unitRoundoff F) k' * M + A * smallestPositive F) := by
  obtain ⟨y, hy, hb⟩ := h.ex
  exact ⟨y, hy, near_error h.mag_nonneg (by linarith [h.one]) hr hb hk hA⟩

theorem format_rel (T : RealType) {k : ℕ} (hk : k ≤ 2 ^ 22) : (1 + unitRoundoff T.format) ^ k ≤ 2 :=
  (formats_room T (m := 0) (C := 0) hk (by norm_num) (by norm_num)).rel

private theorem ofReal_inj {x y : ℝ} (h : (Res.ok (Flt.ofReal x) : Res Flt) = .ok (Flt.ofReal y)) : x = y := by
  have := congrArg Flt.datum (Res.ok.inj h)
  exact Datum.finite.inj this

/-- The nodes of a shipped basis. -/
private theorem shipped_tame (T : RealType) (fam : Family) {order : ℕ} (h1 : 1 ≤ order) (h8 : order ≤ 8)
    (hs : fam.Supports order) {c : Fin (order + 1) → ℝ}
    (hc : ∀ i : Fin (order + 1), (fam.spacingIn T.arith ((order + 1 : ℕ) : Int)).coordCT (i : ℕ) = .ok (Flt.ofReal (c i))) :
    (∀ i, |c i| ≤ 1) ∧ StrictMono c ∧
      TameNodes T.format (order + 1) (fam.spacingIn T.arith ((order + 1 : ℕ) : Int)) c (recipBound c) ∧
      ∀ j, ∏ t, capFactor 2 (recipBound c) j t ≤ 2 ^ 15 := by
  obtain ⟨c', h⟩ := family_tame T fam order h1 h8 hs
  have e : c' = c := by
    funext i
    exact ofReal_inj ((h.2.2.1.coord (by omega) i).symm.trans (hc i))
  exact e ▸ h

/-- **C100, points.** Every shipped family has, for every order from 1 to 8 it supports, points in `[-1,1]` in
`float` and in `double`, and they increase. -/
theorem C100_points (T : RealType) (fam : Family) (order : ℕ) (h1 : 1 ≤ order) (h8 : order ≤ 8) (hs : fam.Supports order) :
    ∃ c : Fin (order + 1) → ℝ, (∀ i, |c i| ≤ 1) ∧ StrictMono c ∧ ∀ i : Fin (order + 1),
      (fam.spacingIn T.arith ((order + 1 : ℕ) : Int)).coordCT (i : ℕ) = .ok (Flt.ofReal (c i)) := by
  obtain ⟨c, ha, hb, hc, -⟩ := family_tame T fam order h1 h8 hs
  exact ⟨c, ha, hb, hc.coord (by omega)⟩

/-- **C100, basis functions.** In `float` and in `double`, a basis function of order 1 to 8 of a shipped family and
its derivative are finite at every point of the parent interval, and accurate up to roundings and a small multiple
of the smallest positive number. -/
theorem C100_basis (T : RealType) (fam : Family) {order : ℕ} (h1 : 1 ≤ order) (h8 : order ≤ 8) (hs : fam.Supports order)
    {c : Fin (order + 1) → ℝ}
    (hc : ∀ i : Fin (order + 1), (fam.spacingIn T.arith ((order + 1 : ℕ) : Int)).coordCT (i : ℕ) = .ok (Flt.ofReal (c i))) :
    ∃ b, T.arith.lagrangeBasis (fam.spacingIn T.arith) order = .ok b ∧
      ∀ (j : Fin (order + 1)) (x : ℝ), |x| ≤ 1 →
        let ℓ := fun x : ℝ => ∏ t ∈ Finset.univ.erase j, (x - c t) / (c j - c t)
        let u := unitRoundoff T.format
        (∃ f, b.value (j : ℕ) (Flt.ofReal x) = .ok f ∧
          FiniteWithin f (ℓ x) (errBound u (6 * order) * |ℓ x| + 2 ^ 22 * smallestPositive T.format)) ∧
        ∃ g, b.gradient (j : ℕ) (Flt.ofReal x) = .ok g ∧
          FiniteWithin g (deriv ℓ x)
            (errBound u (7 * order + 9) * derivMagnitude c j x + 2 ^ 26 * smallestPositive T.format) := by
  obtain ⟨ha, -, ht, hcap⟩ := shipped_tame T fam h1 h8 hs hc
  have hb := lagrangeBasis_ok (floatArith T.format) (fam.spacingIn T.arith) (order := order) (by omega)
  have hk := family_realises T fam order h8 rfl hb ha ht hcap
  refine ⟨_, (C88_basis T _ _).trans hb, fun j x hx => ⟨?_, ?_⟩⟩
  · obtain ⟨y, hy, hn⟩ := hk.value j x hx
    refine ⟨y, hy, ?_⟩
    simp only [lagrange_quotients] at hn
    exact near_within hn (format_rel T (by omega)) le_rfl (by norm_num)
  · obtain ⟨y, hy, hn⟩ := hk.gradient j x hx
    refine ⟨y, hy, ?_⟩
    have e : deriv (fun x => ∏ t ∈ Finset.univ.erase j, (x - c t) / (c j - c t)) x
        = (Polynomial.derivative (Lagrange.basis Finset.univ c j)).eval x := by
      simp only [← lagrange_quotients]
      exact Polynomial.deriv _
    rw [e, ← derivMagnitude_eq]
    exact near_within hn (format_rel T (by omega)) le_rfl (by norm_num)

section element
variable {T : RealType} {d : ℕ} {order : Fin d → ℕ} {c : (k : Fin d) → Fin (order k + 1) → ℝ} {e : Element Flt}

theorem shipped_realises (h : IsShippedIn T order c e) :
    ∃ b : Fin d → Basis Flt, e = elementOf b ∧
      ∀ k, NearRealises T.format (b k) (order k + 1)
        (fun j x => (Lagrange.basis Finset.univ (c k) j).eval x)
        (fun j x => (Polynomial.derivative (Lagrange.basis Finset.univ (c k) j)).eval x)
        (fun j x => ∑ a, |factorDeriv (c k) j a| * ∏ t, if t = a then 1 else |factor (c k) j x t|)
        (6 * order k) (7 * order k + 9) 91 (2 ^ 15) (2 ^ 19) := by
  obtain ⟨fam, b, hb, hk⟩ := h.bases
  refine ⟨b, ?_, fun k => ?_⟩
  · cases e; simp only [elementOf]; congr 1; exact h.shape
  · obtain ⟨hs, hc, hbk⟩ := hk k
    obtain ⟨ha, -, ht, hcap⟩ := shipped_tame T (fam k) (h.orders k).1 (h.orders k).2 hs hc
    exact family_realises T (fam k) (order k) (h.orders k).2 rfl ((C88_basis T _ _).symm.trans hbk) ha ht hcap

private theorem box_small (h : ∀ k, order k ≤ 8) (hd : d ≤ 3) : ∏ k, (order k + 1) ≤ 729 := by
  calc ∏ k, (order k + 1) ≤ ∏ _k : Fin d, 9 := Finset.prod_le_prod' fun k _ => by have := h k; omega
    _ = 9 ^ d := by simp
    _ ≤ 9 ^ 3 := Nat.pow_le_pow_right (by norm_num) hd
    _ = 729 := by norm_num

private theorem sum_small {f : Fin d → ℕ} {K : ℕ} (h : ∀ k, f k ≤ K) (hd : d ≤ 3) : ∑ k, f k ≤ 3 * K := by
  calc ∑ k, f k ≤ ∑ _k : Fin d, K := Finset.sum_le_sum fun k _ => h k
    _ = d * K := by simp
    _ ≤ 3 * K := Nat.mul_le_mul_right _ hd

private theorem cap_small (h : ∀ k, order k ≤ 8) (hd : d ≤ 3) (s : ℕ) {Y : ℝ} (hY : 1 ≤ Y) :
    1 + ((∏ k, (order k + 1) : ℕ) : ℝ) * ((2 ^ s) ^ d * Y) ≤ 2 ^ 10 * 2 ^ (3 * s) * Y := by
  have h1 : ((∏ k, (order k + 1) : ℕ) : ℝ) ≤ 729 := by exact_mod_cast box_small h hd
  have h2 : ((2 : ℝ) ^ s) ^ d ≤ 2 ^ (3 * s) := by
    rw [← pow_mul]; exact pow_le_pow_right₀ (by norm_num) (by nlinarith)
  have h3 : (1 : ℝ) ≤ 2 ^ (3 * s) := one_le_pow₀ (by norm_num)
  have h4 : ((2 : ℝ) ^ s) ^ d * Y ≤ 2 ^ (3 * s) * Y := mul_le_mul_of_nonneg_right h2 (by linarith)
  have h5 : ((∏ k, (order k + 1) : ℕ) : ℝ) * ((2 ^ s) ^ d * Y) ≤ 729 * (2 ^ (3 * s) * Y) :=
    mul_le_mul h1 h4 (by positivity) (by norm_num)
  nlinarith

private theorem sum_slack {f g : Fin d → ℕ} (h : ∀ k, f k + 1 ≤ g k) : (∑ k, f k) + d ≤ ∑ k, g k := by
  have := Finset.sum_le_sum fun k (_ : k ∈ Finset.univ) => h k
  rw [Finset.sum_add_distrib] at this
  simpa using this

/-- The number of roundings and underflows. -/
theorem counts (h : ∀ k, order k ≤ 8) (hd : d ≤ 3) :
    (∑ k, 6 * order k) + d + ∏ k, (order k + 1) ≤ interpolationRoundings order ∧
    (∑ k, max (6 * order k) (7 * order k + 9)) + d + ∏ k, (order k + 1) ≤ gradientRoundings order ∧
    interpolationRoundings order ≤ 2 ^ 10 ∧ gradientRoundings order ≤ 2 ^ 10 ∧
    4 * (d * 91) + 2 * d + ∏ k, (order k + 1) ≤ 2 ^ 11 := by
  have hb := box_small h hd
  refine ⟨?_, ?_, ?_, ?_, by omega⟩
  · have : (∑ k, 6 * order k) + d ≤ ∑ k, (7 * order k + 2) := sum_slack fun k => by omega
    unfold interpolationRoundings; omega
  · have : (∑ k, max (6 * order k) (7 * order k + 9)) + d ≤ ∑ k, (8 * order k + 12) := sum_slack fun k => by omega
    unfold gradientRoundings; omega
  · have := sum_small (f := fun k => 7 * order k + 2) (K := 58) (fun k => by have := h k; omega) hd
    unfold interpolationRoundings; omega
  · have := sum_small (f := fun k => 8 * order k + 12) (K := 76) (fun k => by have := h k; omega) hd
    unfold gradientRoundings; omega

/-- **C100, shape functions.** -/
theorem C100_shape (h : IsShippedIn T order c e) (hd : d ≤ 3) (idx : (k : Fin d) → Fin (order k + 1)) (x : Fin d → ℝ)
    (hx : ∀ k, |x k| ≤ 1) :
    let N := ∏ k, ∏ t ∈ Finset.univ.erase (idx k), (x k - c k t) / (c k (idx k) - c k t)
    ∃ f, ParentElement.basisValue (floatArith T.format) e (tup idx) (List.ofFn fun k => Flt.ofReal (x k)) = .ok f ∧
      InterpolatedShape.value (floatArith T.format) e (tup idx) (List.ofFn fun k => Flt.ofReal (x k)) = .ok f ∧
      FiniteWithin f N (errBound (unitRoundoff T.format) (∑ k, (7 * order k + 2)) * |N|
        + 2 ^ 55 * smallestPositive T.format) := by
  obtain ⟨b, rfl, hk⟩ := shipped_realises h
  have ho := fun k => (h.orders k).2
  have hs := sum_small (f := fun k => 6 * order k) (K := 48) (fun k => by have := ho k; omega) hd
  have hcap : ((2 : ℝ) ^ 15) ^ d ≤ 2 ^ 45 := by
    rw [← pow_mul]; exact pow_le_pow_right₀ (by norm_num) (by omega)
  obtain ⟨y, hy, hn⟩ := product_value_near h.dims hk idx hx
    (formats_room T (by omega) (by omega) (hcap.trans (by norm_num)))
  have hv := basisValue_eq (floatArith T.format) (elementOf_instantiate b) (idx := tup idx) (by simp [tup_length, elementOf])
    (List.ofFn fun k => Flt.ofReal (x k))
  refine ⟨y, hv.1.trans hy, hv.2.1.trans hy, ?_⟩
  simp only [lagrange_quotients] at hn
  refine near_within (hn.mono le_rfl (show 2 * (d * 91) + (d - 1) ≤ 2 ^ 10 by omega) hcap) (format_rel T (by omega)) ?_ (by norm_num)
  have : (∑ k, 6 * order k) + d ≤ ∑ k, (7 * order k + 2) := sum_slack fun k => by omega
  omega

/-- The derivative of a basis function. -/
private theorem deriv_quotients {n : ℕ} (c : Fin n → ℝ) (j : Fin n) (s : ℝ) :
    deriv (fun s => ∏ t ∈ Finset.univ.erase j, (s - c t) / (c j - c t)) s
      = (Polynomial.derivative (Lagrange.basis Finset.univ c j)).eval s := by
  simp only [← lagrange_quotients]
  exact Polynomial.deriv _

/-- **C100, gradients of shape functions.** -/
theorem C100_shape_gradient (h : IsShippedIn T order c e) (hd : d ≤ 3) (idx : (k : Fin d) → Fin (order k + 1)) (x : Fin d → ℝ)
    (hx : ∀ k, |x k| ≤ 1) :
    let ℓ := fun (k : Fin d) (s : ℝ) => ∏ t ∈ Finset.univ.erase (idx k), (s - c k t) / (c k (idx k) - c k t)
    ∃ g : Fin d → Flt,
      ParentElement.basisGradient (floatArith T.format) e (tup idx) (List.ofFn fun k => Flt.ofReal (x k)) = .ok (List.ofFn g) ∧
      InterpolatedShape.gradient (floatArith T.format) e (tup idx) (List.ofFn fun k => Flt.ofReal (x k)) = .ok (List.ofFn g) ∧
      ∀ a, FiniteWithin (g a) (∏ k, if a = k then deriv (ℓ k) (x k) else ℓ k (x k))
        (errBound (unitRoundoff T.format) (∑ k, (8 * order k + 12))
          * (∏ k, if a = k then derivMagnitude (c k) (idx k) (x k) else |ℓ k (x k)|) + 2 ^ 67 * smallestPositive T.format) := by
  obtain ⟨b, rfl, hk⟩ := shipped_realises h
  have ho := fun k => (h.orders k).2
  have hs := sum_small (f := fun k => max (6 * order k) (7 * order k + 9)) (K := 65) (fun k => by have := ho k; omega) hd
  have hcap : ((2 : ℝ) ^ 19) ^ d ≤ 2 ^ 57 := by
    rw [← pow_mul]; exact pow_le_pow_right₀ (by norm_num) (by omega)
  obtain ⟨y, hy, hn⟩ := product_gradient_near h.dims hk (by norm_num) idx hx
    (formats_room T (by omega) (by omega) (hcap.trans (by norm_num)))
  have hv := basisValue_eq (floatArith T.format) (elementOf_instantiate b) (idx := tup idx) (by simp [tup_length, elementOf])
    (List.ofFn fun k => Flt.ofReal (x k))
  refine ⟨y, hv.2.2.1.trans hy, hv.2.2.2.trans hy, fun a => ?_⟩
  have hn := hn a
  simp only [derivMagnitude_eq] at hn
  simp only [deriv_quotients]
  simp only [lagrange_quotients] at hn ⊢
  have : (∑ k, max (6 * order k) (7 * order k + 9)) + d ≤ ∑ k, (8 * order k + 12) := sum_slack fun k => by omega
  exact near_within (hn.mono le_rfl (show 2 * (d * 91) + (d - 1) ≤ 2 ^ 10 by omega) hcap) (format_rel T (by omega)) (by omega)
    (by norm_num)

/-- **C100, interpolation.** -/
theorem C100_interpolation (h : IsShippedIn T order c e) (hd : d ≤ 3) (var : List Int → Res Flt)
    (y : ((k : Fin d) → Fin (order k + 1)) → ℝ) (hy : ∀ idx, var (tup idx) = .ok (Flt.ofReal (y idx)))
    {Y : ℝ} (hY1 : 1 ≤ Y) (hY2 : Y ≤ 2 ^ 56) (hY : ∀ idx, |y idx| ≤ Y) (x : Fin d → ℝ) (hx : ∀ k, |x k| ≤ 1) :
    let N := fun idx : (k : Fin d) → Fin (order k + 1) =>
      ∏ k, ∏ t ∈ Finset.univ.erase (idx k), (x k - c k t) / (c k (idx k) - c k t)
    ∃ f, ParentElement.value (floatArith T.format) e (List.ofFn fun k => Flt.ofReal (x k)) var = .ok f ∧
      FiniteWithin f (∑ idx, N idx * y idx)
        (errBound (unitRoundoff T.format) (interpolationRoundings order) * ∑ idx, |N idx| * |y idx|
          + 2 ^ 66 * Y * smallestPositive T.format) := by
  obtain ⟨b, rfl, hk⟩ := shipped_realises h
  have ho := fun k => (h.orders k).2
  obtain ⟨k1, -, k2, -, k3⟩ := counts ho hd
  have hcap := cap_small ho hd 15 hY1
  obtain ⟨f, hf, hn⟩ := parent_value_near h.dims hk (by norm_num) (fun k => Nat.succ_pos _) hx var y hy hY1 hY
    (formats_room T (by omega) (by omega) (hcap.trans (by norm_num; linarith)))
  refine ⟨f, hf, ?_⟩
  simp only [lagrange_quotients] at hn
  exact near_within (hn.mono le_rfl k3 hcap) (format_rel T (by omega)) k1 (by push_cast; norm_num; linarith)

/-- **C100, gradient of the interpolation.** -/
theorem C100_interpolation_gradient (h : IsShippedIn T order c e) (hd : d ≤ 3) (var : List Int → Res Flt)
    (y : ((k : Fin d) → Fin (order k + 1)) → ℝ) (hy : ∀ idx, var (tup idx) = .ok (Flt.ofReal (y idx)))
    {Y : ℝ} (hY1 : 1 ≤ Y) (hY2 : Y ≤ 2 ^ 56) (hY : ∀ idx, |y idx| ≤ Y) (x : Fin d → ℝ) (hx : ∀ k, |x k| ≤ 1) :
    let ℓ := fun (k : Fin d) (j : Fin (order k + 1)) (s : ℝ) =>
      ∏ t ∈ Finset.univ.erase j, (s - c k t) / (c k j - c k t)
    ∃ g : Fin d → Flt,
      ParentElement.gradient (floatArith T.format) e (List.ofFn fun k => Flt.ofReal (x k)) var = .ok (List.ofFn g) ∧
      ∀ a, FiniteWithin (g a)
        (∑ idx, (∏ k, if a = k then deriv (ℓ k (idx k)) (x k) else ℓ k (idx k) (x k)) * y idx)
        (errBound (unitRoundoff T.format) (gradientRoundings order) * ∑ idx,
          (∏ k, if a = k then derivMagnitude (c k) (idx k) (x k) else |ℓ k (idx k) (x k)|) * |y idx|
          + 2 ^ 78 * Y * smallestPositive T.format) := by
  obtain ⟨b, rfl, hk⟩ := shipped_realises h
  have ho := fun k => (h.orders k).2
  obtain ⟨-, k1, -, k2, k3⟩ := counts ho hd
  have hcap := cap_small ho hd 19 hY1
  obtain ⟨g, hg, hn⟩ := parent_gradient_near h.dims hk (by norm_num) (by norm_num) (fun k => Nat.succ_pos _) hx var y hy hY1 hY
    (formats_room T (by omega) (by omega) (hcap.trans (by norm_num; linarith)))
  refine ⟨g, hg, fun a => ?_⟩
  have e : ∀ k (j : Fin (order k + 1)) (s : ℝ), deriv (fun s => ∏ t ∈ Finset.univ.erase j, (s - c k t) / (c k j - c k t)) s
      = (Polynomial.derivative (Lagrange.basis Finset.univ (c k) j)).eval s := by
    intro k j s
    simp only [← lagrange_quotients]
    exact Polynomial.deriv _
  have hn := hn a
  simp only [derivMagnitude_eq] at hn
  simp only [e]
  simp only [lagrange_quotients] at hn ⊢
  exact near_within (hn.mono le_rfl k3 hcap) (format_rel T (by omega)) k1 (by push_cast; norm_num; linarith)

end element

/-! ### Jacobians -/

section transform
variable {T : RealType} {d : ℕ} {order : Fin d → ℕ} {c : (k : Fin d) → Fin (order k + 1) → ℝ} {t : LinearTransform Flt}
  {X : ((k : Fin d) → Fin (order k + 1)) → Fin d → ℝ}

theorem listInit_zero_float (hd : 0 < d) (hs : d * d ≤ 2147483647) :
    CArray.listInit ((floatArith F).lit 0) [(d : Int), (d : Int)] [(floatArith F).lit 0]
      = .ok (matMem fun _ _ : Fin d => (floatArith F).lit 0) := by
  have hv := validShape_square hd hs
  have hdd : 0 < d * d := Nat.mul_pos hd hd
  have hp : [(d : Int), (d : Int)].prod = ((d * d : ℕ) : Int) := by simp
  simp only [CArray.listInit, size_ok hv.1 hv.2.1 hv.2.2, Res.constexpr_ok, Res.ok_bind, hp]
  rw [staticAssert_bind_true (by exact_mod_cast hdd), staticAssert_bind_true (by simp; omega)]
  congr 1
  apply List.ext_getElem
  · refine Eq.trans ?_ (matMem_length _).symm; simp; omega
  · intro k h1 h2
    simp only [matMem, List.getElem_ofFn, List.getElem_append]
    split <;> simp

theorem shipped_jacobian (h : IsShippedIn T order c t.shape) (hd : d ≤ 3)
    (hX : HoldsPoints t.data fun idx i => Flt.ofReal (X idx i)) {Y : ℝ} (hY1 : 1 ≤ Y) (hY2 : Y ≤ 2 ^ 56)
    (hY : ∀ idx i, |X idx i| ≤ Y) (cfg : Config) (ξ : Fin d → ℝ) (hξ : ∀ k, |ξ k| ≤ 1) (extra : List Flt) :
    ∃ (D : Matrix (Fin d) (Fin d) ℝ) (J : Matrix (Fin d) (Fin d) Flt), IsDerivative (cellMap c X) D ξ ∧ t.numDims = d ∧
      LinearTransform.jacobian cfg (floatArith T.format) t ((List.ofFn fun k => Flt.ofReal (ξ k)) ++ extra)
        (matMem fun _ _ : Fin d => (floatArith T.format).lit 0) = .ok (matMem J) ∧
      ∀ i j, Near T.format (gradientRoundings order) (2 ^ 11) (cellMagnitude c X ξ i j) (2 ^ 67 * Y) (D i j) (J i j) := by
  obtain ⟨b, hb, hk⟩ := shipped_realises h
  have ho := fun k => (h.orders k).2
  obtain ⟨-, k1, -, k2, k3⟩ := counts ho hd
  have hcap := cap_small ho hd 19 hY1
  have hs : d * d ≤ 2147483647 := (Nat.mul_le_mul hd hd).trans (by norm_num)
  have hcell : Cell t b (fun k => order k + 1) fun idx i => Flt.ofReal (X idx i) :=
    ⟨h.dims, hs, by rw [hb]; rfl, by rw [hb]; exact elementOf_instantiate b, fun k => (hk k).count, hX⟩
  obtain ⟨J, hJ, hw⟩ := jacobian_near hcell hk (by norm_num) (by norm_num) (fun k => Nat.succ_pos _) cfg hξ extra hY1 hY
    (formats_room T (by omega) (by omega) (hcap.trans (by norm_num; linarith)))
  refine ⟨_, J, cellMap_derivative c X ξ, by rw [LinearTransform.numDims, hb]; simp [elementOf], hJ, fun i j => ?_⟩
  have hw := hw i j
  simp only [derivMagnitude_eq, lagrange_quotients] at hw
  simp only [cellMagnitude, lagrange_quotients]
  exact hw.mono k1 k3 (hcap.trans (by norm_num))

/-- **C100, Jacobians.** -/
theorem C100_jacobian (h : IsShippedIn T order c t.shape) (hd : d ≤ 3)
    (hX : HoldsPoints t.data fun idx i => Flt.ofReal (X idx i)) {Y : ℝ} (hY1 : 1 ≤ Y) (hY2 : Y ≤ 2 ^ 56)
    (hY : ∀ idx i, |X idx i| ≤ Y) (cfg : Config) (ξ : Fin d → ℝ) (hξ : ∀ k, |ξ k| ≤ 1) (extra : List Flt)
    (he : d + extra.length = 3) :
    ∃ (mem : List Flt) (D : Matrix (Fin d) (Fin d) ℝ) (J : Matrix (Fin d) (Fin d) Flt),
      IsDerivative (cellMap c X) D ξ ∧
      LinearTransform.jacobianValue cfg (floatArith T.format) t ((List.ofFn fun k => Flt.ofReal (ξ k)) ++ extra) = .ok mem ∧
      HoldsMatrix mem J ∧
      ∀ i j, FiniteWithin (J i j) (D i j) (errBound (unitRoundoff T.format) (gradientRoundings order) * cellMagnitude c X ξ i j
        + 2 ^ 78 * Y * smallestPositive T.format) := by
  have hs : d * d ≤ 2147483647 := (Nat.mul_le_mul hd hd).trans (by norm_num)
  obtain ⟨D, J, hD, hn, hJ, hw⟩ := shipped_jacobian h hd hX hY1 hY2 hY cfg ξ hξ extra
  obtain ⟨-, -, -, k2, -⟩ := counts (fun k => (h.orders k).2) hd
  refine ⟨matMem J, D, J, hD, ?_, (holds_iff h.dims hs).2 rfl, fun i j =>
    near_within (hw i j) (format_rel T (by omega)) le_rfl (by push_cast; linarith)⟩
  rw [LinearTransform.jacobianValue, staticAssert_bind_true (by simp [he]), hn, listInit_zero_float h.dims hs, Res.ok_bind, hJ]

end transform

/-- **C100, the classes exist.** For every choice of shipped families and supported orders from 1 to 8 there is such an element
class, in `float` and in `double`. -/
theorem C100_elements (T : RealType) {d : ℕ} (hd : 0 < d) (fam : Fin d → Family) (order : Fin d → ℕ)
    (ho : ∀ k, 1 ≤ order k ∧ order k ≤ 8) (hs : ∀ k, (fam k).Supports (order k)) :
    ∃ (c : (k : Fin d) → Fin (order k + 1) → ℝ) (e : Element Flt), IsShippedIn T order c e ∧
      ∀ k, (∀ i, |c k i| ≤ 1) ∧ StrictMono (c k) := by
  choose c hc using fun k => C100_points T (fam k) (order k) (ho k).1 (ho k).2 (hs k)
  choose b hb using fun k => C100_basis T (fam k) (ho k).1 (ho k).2 (hs k) (hc k).2.2
  exact ⟨c, ⟨.ok d, List.ofFn b⟩, ⟨hd, rfl, ho, fam, b, rfl, fun k => ⟨hs k, (hc k).2.2, (hb k).1⟩⟩,
    fun k => ⟨(hc k).1, (hc k).2.1⟩⟩

/-! ### the hypotheses can be met -/

/-- Non-vacuity of `C100_elements`, and with it of the theorems about elements: the three families with orders 8, 3 and 4. -/
example (T : RealType) : ∃ (c : (k : Fin 3) → Fin ((![8, 3, 4] : Fin 3 → ℕ) k + 1) → ℝ) (e : Element Flt),
    IsShippedIn T ![8, 3, 4] c e := by
  obtain ⟨c, e, h, -⟩ := C100_elements T (d := 3) (by norm_num) ![.equal, .gaussLegendre, .gaussLobatto] ![8, 3, 4]
    (by intro k; fin_cases k <;> simp)
    (by intro k; fin_cases k <;> exact ⟨by norm_num, by norm_num⟩)
  exact ⟨c, e, h⟩

/-- Non-vacuity of `C100_jacobian`: a trilinear element with nodes -1 and 1, set to the parent cube. -/
theorem sample_cell_in (T : RealType) : ∃ t : LinearTransform Flt,
    IsShippedIn T (fun _ : Fin 3 => 1) (fun _ => ![-1, 1]) t.shape ∧
    HoldsPoints t.data (fun (idx : Fin 3 → Fin 2) i => Flt.ofReal ((![-1, 1] : Fin 2 → ℝ) (idx i))) := by
  have hc : ∀ i : Fin (1 + 1), (Family.gaussLobatto.spacingIn T.arith ((1 + 1 : ℕ) : Int)).coordCT (i : ℕ)
      = .ok (Flt.ofReal ((![-1, 1] : Fin 2 → ℝ) i)) := by
    intro i
    fin_cases i
    · have := knownFamily_sound (T := T) (fam := .gaussLobatto) (n := 2) (i := 0) (q := -1) (by cases T <;> decide +kernel)
      simpa using this
    · have := knownFamily_sound (T := T) (fam := .gaussLobatto) (n := 2) (i := 1) (q := 1) (by cases T <;> decide +kernel)
      simpa using this
  obtain ⟨b, hb, -⟩ := C100_basis T .gaussLobatto (order := 1) le_rfl (by norm_num) ⟨by norm_num, by norm_num⟩ hc
  have h : IsShippedIn T (fun _ : Fin 3 => 1) (fun _ => ![-1, 1]) ⟨.ok 3, List.ofFn fun _ : Fin 3 => b⟩ :=
    ⟨by norm_num, rfl, fun _ => ⟨le_rfl, by norm_num⟩, fun _ => .gaussLobatto, fun _ => b, rfl,
      fun _ => ⟨⟨by norm_num, by norm_num⟩, hc, hb⟩⟩
  obtain ⟨bs, hbs, hk⟩ := shipped_realises h
  obtain ⟨t', h1, h2, -, h3, -⟩ := C48_setData checkedHost
    ⟨⟨.ok 3, List.ofFn fun _ : Fin 3 => b⟩, List.replicate 24 (Flt.ofReal 0)⟩ bs (by rw [hbs]; rfl)
    (by rw [hbs]; exact elementOf_instantiate bs) (fun k => (hk k).count) (by simp)
    (fun v i => Flt.ofReal ((![-1, 1] : Fin 2 → ℝ) ⟨(v : ℕ) / 2 ^ (i : ℕ) % 2, Nat.mod_lt _ (by norm_num)⟩))
    (fun r i => .ok (Flt.ofReal ((![-1, 1] : Fin 2 → ℝ) ⟨r.toNat / 2 ^ i.toNat % 2, Nat.mod_lt _ (by norm_num)⟩)))
    (fun v i => by simp)
  refine ⟨t', by rw [h2]; exact h, ?_⟩
  convert h3 using 4 with idx i
  congr 1
  apply Fin.ext
  have a0 := (idx 0).2
  have a1 := (idx 1).2
  have a2 := (idx 2).2
  fin_cases i <;> simp [vertexNumber] <;> omega

end Verif.Props
