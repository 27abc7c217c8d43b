import Verif.Props.Stability
import Verif.Spec.TotalError
import Mathlib.Analysis.SpecialFunctions.Trigonometric.Deriv

/-!
# Property C135: the whole error of interpolating a smooth function in float and double

The nodal values are those of a smooth function, up to an error.  The computed value, or gradient, differs from that of the function by
the truncation error (C103), the amplified errors of the nodal values (C134) and the rounding errors (C100), with explicit constants.
-/

namespace Verif.Props

open Verif.Spec Verif.Lemmas

variable {d : ℕ} {fam : Fin d → Family} {order : Fin d → ℕ} {c : (k : Fin d) → Fin (order k + 1) → ℝ}

private theorem cube_of {x : Fin d → ℝ} (hx : ∀ k, |x k| ≤ 1) : x ∈ cube d := fun k => abs_le.1 (hx k)

section exact
variable (ho : ∀ k, (fam k).Supports (order k) ∧ order k ≤ 8) (hc : ∀ k, 1 ≤ order k → CloseTo (fam k) (order k) (c k))
  (hinj : ∀ k, Function.Injective (c k)) (hI : ∀ k i, c k i ∈ Set.Icc (-1 : ℝ) 1)
  {f : (Fin d → ℝ) → ℝ} {M : Fin d → ℝ}
  (hf : ∀ k, ∀ y ∈ cube d, DerivativeBounded (order k + 1) (fun t => f (Function.update y k t)) (M k))
  {x : Fin d → ℝ} (hx : ∀ k, |x k| ≤ 1)

include hf hx in
private theorem lineTruncation_nonneg (k : Fin d) : 0 ≤ lineTruncation order c M x k := by
  obtain ⟨D, -, hD⟩ := hf k x (cube_of hx)
  have hM : 0 ≤ M k := (abs_nonneg _).trans (hD 0 (by constructor <;> norm_num))
  exact mul_nonneg (div_nonneg hM (by positivity)) (Finset.prod_nonneg fun _ _ => abs_nonneg _)

include ho hc hinj hI hf hx

/-- The truncation error of values on the points `c`. -/
theorem truncation_le :
    |∑ idx : (k : Fin d) → Fin (order k + 1), (∏ k, lineFunction (c k) (idx k) (x k)) * f (fun k => c k (idx k)) - f x| ≤ truncation fam order c M x := by
  refine (tensor_error (fun k j => lineFunction (c k) j (x k)) c (lineTruncation order c M x) f x hI (cube_of hx) fun k y hy => ?_).trans ?_
  · have := interpolation_error (f := fun t => f (Function.update y k t)) (hinj k) (hI k) (hf k y hy) (cube_of hx k)
    simp only [lagrange_quotients] at this
    exact this
  · unfold truncation
    refine Finset.sum_le_sum fun k _ => mul_le_mul_of_nonneg_right ?_ (lineTruncation_nonneg hf hx k)
    rw [Finset.prod_filter]
    refine Finset.prod_le_prod (fun j _ => ?_) fun j _ => ?_
    · split
      · exact Finset.sum_nonneg fun _ _ => abs_nonneg _
      · norm_num
    · split
      · exact lineFunction_le ho hc hx j
      · exact le_rfl

/-- The truncation error of gradients on the points `c`. -/
theorem gradientTruncation_le (a : Fin d) {g : ℝ} (hg : HasDerivWithinAt (fun t => f (Function.update x a t)) g (Set.Icc (-1) 1) (x a)) :
    |∑ idx : (k : Fin d) → Fin (order k + 1), (∏ k, lineSlopes c x a k (idx k)) * f (fun k => c k (idx k)) - g|
      ≤ gradientTruncation fam order c M x a := by
  obtain ⟨d, rfl⟩ : ∃ d', d = d' + 1 := ⟨d - 1, by have := a.2; omega⟩
  have hs := lineSlopes_le ho hc hx a
  refine (tensor_error_direction (lineSlopes c x a) c
    (fun k => if a = k then M k / (order k).factorial * 2 ^ order k else lineTruncation order c M x k) f x a g hI (cube_of hx)
    (fun k hk y hy => ?_) ?_).trans ?_
  · simp only [lineSlopes, if_neg (Ne.symm hk)]
    have := interpolation_error (f := fun t => f (Function.update y k t)) (hinj k) (hI k) (hf k y hy) (cube_of hx k)
    simp only [lagrange_quotients] at this
    exact this
  · simp only [lineSlopes, if_true]
    have := gradient_error (f := fun t => f (Function.update x a t)) (hinj a) (hI a) (hf a x (cube_of hx)) (cube_of hx a) hg
    simp only [← deriv_quotients] at this
    exact this
  · unfold gradientTruncation
    simp only [if_true]
    have hsa := hs a
    rw [if_pos rfl] at hsa
    have h0 : 0 ≤ ∑ k, if k = a then 0 else (∏ j, if j < k ∧ j ≠ a then ∑ i, |lineSlopes c x a j i| else 1) *
        (if a = k then M k / (order k).factorial * 2 ^ order k else lineTruncation order c M x k) := by
      refine Finset.sum_nonneg fun k _ => ?_
      split
      · exact le_rfl
      · next hk =>
        rw [if_neg (Ne.symm hk)]
        refine mul_nonneg (Finset.prod_nonneg fun j _ => ?_) (lineTruncation_nonneg hf hx k)
        split
        · exact Finset.sum_nonneg fun _ _ => abs_nonneg _
        · norm_num
    refine add_le_add le_rfl (mul_le_mul hsa ?_ h0 ((Finset.sum_nonneg fun _ _ => abs_nonneg _).trans hsa))
    rw [Finset.sum_filter]
    refine Finset.sum_le_sum fun k _ => ?_
    by_cases hk : k = a
    · rw [if_pos hk, if_neg (by simpa using hk)]
    · rw [if_neg hk, if_pos hk, if_neg (Ne.symm hk), Finset.prod_filter]
      refine mul_le_mul_of_nonneg_right (Finset.prod_le_prod (fun j _ => ?_) fun j _ => ?_) (lineTruncation_nonneg hf hx k)
      · split
        · exact Finset.sum_nonneg fun _ _ => abs_nonneg _
        · norm_num
      · by_cases hj : j < k ∧ j ≠ a
        · rw [if_pos hj, if_pos hj]
          have := hs j
          rwa [if_neg (Ne.symm hj.2)] at this
        · rw [if_neg hj, if_neg hj]

end exact

/-- The points of an element in `float` or `double`. -/
private theorem shipped_points {T : RealType} {e : Element Flt} (h : IsShippedAs T fam order e)
    (hc : ∀ k (i : Fin (order k + 1)), ((fam k).spacingIn T.arith ((order k + 1 : ℕ) : Int)).coordCT (i : ℕ) = .ok (Flt.ofReal (c k i))) :
    IsShippedIn T order c e ∧ (∀ k, CloseTo (fam k) (order k) (c k)) ∧ (∀ k, Function.Injective (c k)) ∧ ∀ k i, c k i ∈ Set.Icc (-1 : ℝ) 1 := by
  obtain ⟨b, hb, hk⟩ := h.bases
  refine ⟨⟨h.dims, h.shape, fun k => (h.orders k).2, fam, b, hb, fun k => ⟨(h.orders k).1, hc k, hk k⟩⟩,
    fun k => float_close T (h.orders k).2.1 (h.orders k).2.2 (h.orders k).1 (hc k), ?_⟩
  have : ∀ k, StrictMono (c k) ∧ ∀ i, |c k i| ≤ 1 := fun k => by
    obtain ⟨c', h1, h2, h3⟩ := C100_points T (fam k) (order k) (h.orders k).2.1 (h.orders k).2.2 (h.orders k).1
    have : c k = c' := funext fun i => by
      have := congrArg Flt.datum (Res.ok.inj ((hc k i).symm.trans (h3 i)))
      simpa [Flt.ofReal] using this
    rw [this]
    exact ⟨h2, h1⟩
  exact ⟨fun k => (this k).1.injective, fun k i => abs_le.1 ((this k).2 i)⟩

section float
variable {T : RealType} {e : Element Flt} (h : IsShippedAs T fam order e) (hd : d ≤ 3)
  (hc : ∀ k (i : Fin (order k + 1)), ((fam k).spacingIn T.arith ((order k + 1 : ℕ) : Int)).coordCT (i : ℕ) = .ok (Flt.ofReal (c k i)))
  (f : (Fin d → ℝ) → ℝ) (M : Fin d → ℝ)
  (hf : ∀ k, ∀ y ∈ cube d, DerivativeBounded (order k + 1) (fun t => f (Function.update y k t)) (M k))
  (var : List Int → Res Flt) (y : ((k : Fin d) → Fin (order k + 1)) → ℝ) (hy : ∀ idx, var (tup idx) = .ok (Flt.ofReal (y idx)))
  {Y δ : ℝ} (hY1 : 1 ≤ Y) (hY2 : Y ≤ 2 ^ 56) (hY : ∀ idx, |y idx| ≤ Y)
  (hδ : ∀ idx : (k : Fin d) → Fin (order k + 1), |y idx - f (fun k => c k (idx k))| ≤ δ)
  (x : Fin d → ℝ) (hx : ∀ k, |x k| ≤ 1)

include h hd hc hf hy hY1 hY2 hY hδ hx

/-- **C135, values.** Let the nodal values, at most `Y`, be within `δ` of the values of `f` at the support points.  Then the computed value
differs from `f x` by no more than the truncation error, the factor of C134 times `δ`, and the rounding error. -/
theorem C135_value : ∃ r v, ParentElement.value (floatArith T.format) e (List.ofFn fun k => Flt.ofReal (x k)) var = .ok r ∧ r.datum = .finite v ∧
    |v - f x| ≤ truncation fam order c M x + valueFactor fam order * δ
      + (errBound (unitRoundoff T.format) (interpolationRoundings order) * (valueFactor fam order * Y)
        + 2 ^ 66 * Y * smallestPositive T.format) := by
  obtain ⟨hs, hcl, hinj, hI⟩ := shipped_points h hc
  have ho : ∀ k, (fam k).Supports (order k) ∧ order k ≤ 8 := fun k => ⟨(h.orders k).1, (h.orders k).2.2⟩
  have hA := lineFunction_le ho (fun k _ => hcl k) hx
  obtain ⟨r, hr, v, hv, hb⟩ := C100_interpolation hs hd var y hy hY1 hY2 hY x hx
  have key : ∑ idx : (k : Fin d) → Fin (order k + 1), |∏ k, lineFunction (c k) (idx k) (x k)| * |y idx| ≤ valueFactor fam order * Y := by
    simp only [Finset.abs_prod]
    rw [cast_valueFactor]
    exact tensor_sum_le hA hY (by linarith)
  have k1 := mul_le_mul_of_nonneg_left key (roundings_nonneg T (interpolationRoundings order))
  have m2 : |∑ idx : (k : Fin d) → Fin (order k + 1), (∏ k, lineFunction (c k) (idx k) (x k)) * y idx
      - ∑ idx : (k : Fin d) → Fin (order k + 1), (∏ k, lineFunction (c k) (idx k) (x k)) * f (fun k => c k (idx k))| ≤ valueFactor fam order * δ := by
    rw [cast_valueFactor, ← Finset.sum_sub_distrib]
    simp only [← mul_sub]
    exact sum_abs_le (y := fun idx => y idx - f (fun k => c k (idx k))) hA ((abs_nonneg _).trans (hδ fun k => 0)) hδ
  have m3 := truncation_le ho (fun k _ => hcl k) hinj hI hf hx
  refine ⟨r, v, hr, hv, ?_⟩
  have g1 := abs_le.1 (hb.trans (add_le_add_left k1 _))
  have e2 := abs_le.1 m2
  have e3 := abs_le.1 m3
  unfold lineFunction at e2 e3
  rw [abs_le]
  constructor <;> linarith [e2.1, e2.2, e3.1, e3.2, g1.1, g1.2]

/-- **C135, gradients.** Component `a` of the computed gradient, against the derivative `g` of `f` in direction `a`. -/
theorem C135_gradient : ∃ (r : Fin d → Flt) (v : Fin d → ℝ),
    ParentElement.gradient (floatArith T.format) e (List.ofFn fun k => Flt.ofReal (x k)) var = .ok (List.ofFn r) ∧
    ∀ a, (r a).datum = .finite (v a) ∧ ∀ g, HasDerivWithinAt (fun t => f (Function.update x a t)) g (Set.Icc (-1) 1) (x a) →
      |v a - g| ≤ gradientTruncation fam order c M x a + gradientFactor fam order a * δ
        + (errBound (unitRoundoff T.format) (gradientRoundings order) * (gradientFactor fam order a * Y)
          + 2 ^ 78 * Y * smallestPositive T.format) := by
  obtain ⟨hs, hcl, hinj, hI⟩ := shipped_points h hc
  have ho : ∀ k, (fam k).Supports (order k) ∧ order k ≤ 8 := fun k => ⟨(h.orders k).1, (h.orders k).2.2⟩
  obtain ⟨r, hr, hw⟩ := C100_interpolation_gradient hs hd var y hy hY1 hY2 hY x hx
  choose v hv hb using hw
  refine ⟨r, v, hr, fun a => ⟨hv a, fun g hg => ?_⟩⟩
  have hA := lineSlopes_le ho (fun k _ => hcl k) hx a
  have k1 := mul_le_mul_of_nonneg_left (gradient_magnitude_le ho hcl hx a (y := y) (by linarith) hY) (roundings_nonneg T (gradientRoundings order))
  have m2 : |∑ idx : (k : Fin d) → Fin (order k + 1), (∏ k, lineSlopes c x a k (idx k)) * y idx
      - ∑ idx : (k : Fin d) → Fin (order k + 1), (∏ k, lineSlopes c x a k (idx k)) * f (fun k => c k (idx k))| ≤ gradientFactor fam order a * δ := by
    rw [cast_gradientFactor, ← Finset.sum_sub_distrib]
    simp only [← mul_sub]
    exact sum_abs_le (y := fun idx => y idx - f (fun k => c k (idx k))) hA ((abs_nonneg _).trans (hδ fun k => 0)) hδ
  have m3 := gradientTruncation_le ho (fun k _ => hcl k) hinj hI hf hx a hg
  have g1 := abs_le.1 ((hb a).trans (add_le_add_left k1 _))
  have e2 := abs_le.1 m2
  have e3 := abs_le.1 m3
  unfold lineSlopes lineFunction at e2 e3
  rw [abs_le]
  constructor <;> linarith [e2.1, e2.2, e3.1, e3.2, g1.1, g1.2]

end float

/-! ### smaller cells -/

/-- A function on a box, seen from the parent cell. -/
private theorem pulled_back {n : ℕ} {p H : ℝ} (hH : 0 < H) {F : ℝ → ℝ} {M : ℝ} (h : DerivativeBoundedOn p (p + H) n F M) :
    DerivativeBounded n (fun t => F (p + (t + 1) * (H / 2))) (M * (H / 2) ^ n) := by
  obtain ⟨D, h0, h1, h2⟩ := h
  have hm : Set.MapsTo (fun t : ℝ => p + (t + 1) * (H / 2)) (Set.Icc (-1) 1) (Set.Icc p (p + H)) := fun t ht => by
    constructor
    · have : 0 ≤ (t + 1) * (H / 2) := mul_nonneg (by linarith [ht.1]) (by linarith)
      linarith
    · have : (t + 1) * (H / 2) ≤ 2 * (H / 2) := mul_le_mul_of_nonneg_right (by linarith [ht.2]) (by linarith)
      linarith
  refine ⟨fun k t => D k (p + (t + 1) * (H / 2)) * (H / 2) ^ k, ⟨fun t ht => ?_, fun k hk t ht => ?_⟩, fun t ht => ?_⟩
  · simp only [pow_zero, mul_one]
    exact h0 _ (hm ht)
  · have hd : HasDerivWithinAt (fun t : ℝ => p + (t + 1) * (H / 2)) (1 * (H / 2)) (Set.Icc (-1) 1) t :=
      (((hasDerivWithinAt_id t _).add_const 1).mul_const (H / 2)).const_add p
    have := ((h1 k hk _ (hm ht)).comp t hd hm).mul_const ((H / 2) ^ k)
    refine this.congr_deriv ?_
    ring
  · rw [abs_mul, abs_of_nonneg (show 0 ≤ (H / 2) ^ n by positivity)]
    exact mul_le_mul_of_nonneg_right (h2 _ (hm ht)) (by positivity)

/-- **C135, boxes.** Let `F` be a function on a box with corner `p` and edges `H`, with derivatives of order `order k + 1` in direction `k` at most `M k`.
Then its nodal values give, at the point of parent coordinates `x`, the value of `F` with a truncation error in which direction `k` has the factor
`(H k / 2) ^ (order k + 1)`: halving the edges divides it by `2 ^ (order k + 1)`. -/
theorem C135_box {T : RealType} {e : Element Flt} (h : IsShippedAs T fam order e) (hd : d ≤ 3)
    (hc : ∀ k (i : Fin (order k + 1)), ((fam k).spacingIn T.arith ((order k + 1 : ℕ) : Int)).coordCT (i : ℕ) = .ok (Flt.ofReal (c k i)))
    (p H : Fin d → ℝ) (hH : ∀ k, 0 < H k) (F : (Fin d → ℝ) → ℝ) (M : Fin d → ℝ)
    (hF : ∀ k (z : Fin d → ℝ), (∀ j, z j ∈ Set.Icc (p j) (p j + H j)) →
      DerivativeBoundedOn (p k) (p k + H k) (order k + 1) (fun t => F (Function.update z k t)) (M k))
    (var : List Int → Res Flt) (y : ((k : Fin d) → Fin (order k + 1)) → ℝ) (hy : ∀ idx, var (tup idx) = .ok (Flt.ofReal (y idx)))
    {Y δ : ℝ} (hY1 : 1 ≤ Y) (hY2 : Y ≤ 2 ^ 56) (hY : ∀ idx, |y idx| ≤ Y)
    (hδ : ∀ idx : (k : Fin d) → Fin (order k + 1), |y idx - F (boxPoint p H fun k => c k (idx k))| ≤ δ)
    (x : Fin d → ℝ) (hx : ∀ k, |x k| ≤ 1) :
    ∃ r v, ParentElement.value (floatArith T.format) e (List.ofFn fun k => Flt.ofReal (x k)) var = .ok r ∧ r.datum = .finite v ∧
      |v - F (boxPoint p H x)| ≤ truncation fam order c (fun k => M k * (H k / 2) ^ (order k + 1)) x + valueFactor fam order * δ
        + (errBound (unitRoundoff T.format) (interpolationRoundings order) * (valueFactor fam order * Y)
          + 2 ^ 66 * Y * smallestPositive T.format) := by
  refine C135_value h hd hc (fun ξ => F (boxPoint p H ξ)) _ (fun k ξ hξ => ?_) var y hy hY1 hY2 hY hδ x hx
  have hz : ∀ j, boxPoint p H ξ j ∈ Set.Icc (p j) (p j + H j) := fun j => by
    have h1 := hξ j
    have h2 := hH j
    unfold boxPoint
    constructor
    · have : 0 ≤ (ξ j + 1) * (H j / 2) := mul_nonneg (by linarith [h1.1]) (by linarith)
      linarith
    · have : (ξ j + 1) * (H j / 2) ≤ 2 * (H j / 2) := mul_le_mul_of_nonneg_right (by linarith [h1.2]) (by linarith)
      linarith
  have := pulled_back (hH k) (hF k _ hz)
  have e : (fun t => F (boxPoint p H (Function.update ξ k t))) = fun t => F (Function.update (boxPoint p H ξ) k (p k + (t + 1) * (H k / 2))) := by
    funext t
    congr 1
    funext j
    by_cases hj : j = k
    · subst hj; simp [boxPoint]
    · simp [boxPoint, Function.update_of_ne hj]
  show DerivativeBounded _ (fun t => F (boxPoint p H (Function.update ξ k t))) _
  rw [e]
  exact this

/-- **C135, halving.** With the same order `n` in each direction, halving the edges of the box divides the truncation error of `C135_box` by `2 ^ (n + 1)`. -/
theorem C135_halving (n : ℕ) (c : (k : Fin d) → Fin (n + 1) → ℝ) (M H x : Fin d → ℝ) :
    truncation fam (fun _ => n) c (fun k => M k * (H k / 2 / 2) ^ (n + 1)) x
      = truncation fam (fun _ => n) c (fun k => M k * (H k / 2) ^ (n + 1)) x / 2 ^ (n + 1) := by
  unfold truncation lineTruncation
  rw [Finset.sum_div]
  refine Finset.sum_congr rfl fun k _ => ?_
  beta_reduce
  rw [div_pow (H k / 2)]
  ring

/-- The derivatives of the cosine of the sum of the coordinates, along one of them. -/
private theorem cos_bounded (m : ℕ) (k : Fin d) (z : Fin d → ℝ) : DerivativeBounded m (fun t => Real.cos (∑ j, Function.update z k t j)) 1 := by
  have hs : ∀ t, ∑ j, Function.update z k t j = t + ∑ j ∈ Finset.univ \ {k}, z j := fun t => Finset.sum_update_of_mem (Finset.mem_univ k) z t
  simp only [hs]
  refine ⟨fun i t => Real.cos (t + ∑ j ∈ Finset.univ \ {k}, z j + i * (Real.pi / 2)), ⟨fun t _ => by simp, fun i _ t _ => ?_⟩,
    fun t _ => Real.abs_cos_le_one _⟩
  have h1 : HasDerivAt (fun t : ℝ => t + ∑ j ∈ Finset.univ \ {k}, z j + i * (Real.pi / 2)) 1 t :=
    ((hasDerivAt_id t).add_const _).add_const _
  refine (h1.cos.congr_deriv ?_).hasDerivWithinAt
  push_cast
  rw [show t + ∑ j ∈ Finset.univ \ {k}, z j + ((i : ℝ) + 1) * (Real.pi / 2) = t + ∑ j ∈ Finset.univ \ {k}, z j + i * (Real.pi / 2) + Real.pi / 2 by ring,
    Real.cos_add_pi_div_two, mul_one]

/-- Non-vacuity: the cosine of the sum of the coordinates on cells of the three families with the orders 8, 3 and 4, in `float` and `double`,
with nodal values rounded to the format. -/
example (T : RealType) : ∃ (e : Element Flt) (c : (k : Fin 3) → Fin ((![8, 3, 4] : Fin 3 → ℕ) k + 1) → ℝ)
    (y : ((k : Fin 3) → Fin ((![8, 3, 4] : Fin 3 → ℕ) k + 1)) → ℝ),
    IsShippedAs T ![.equal, .gaussLegendre, .gaussLobatto] ![8, 3, 4] e ∧
    (∀ k (i : Fin ((![8, 3, 4] : Fin 3 → ℕ) k + 1)), (((![.equal, .gaussLegendre, .gaussLobatto] : Fin 3 → Family) k).spacingIn T.arith
      (((![8, 3, 4] : Fin 3 → ℕ) k + 1 : ℕ) : Int)).coordCT (i : ℕ) = .ok (Flt.ofReal (c k i))) ∧
    (∀ (k : Fin 3), ∀ z ∈ cube 3, DerivativeBounded ((![8, 3, 4] : Fin 3 → ℕ) k + 1) (fun t => Real.cos (∑ j, Function.update z k t j)) 1) ∧
    (∀ idx, Represents T.format (y idx) ∧ |y idx| ≤ 2) ∧
    ∀ idx, |y idx - Real.cos (∑ k, c k (idx k))| ≤ unitRoundoff T.format + smallestPositive T.format := by
  have hs : ∀ k : Fin 3, ((![.equal, .gaussLegendre, .gaussLobatto] : Fin 3 → Family) k).Supports ((![8, 3, 4] : Fin 3 → ℕ) k) := by
    intro k; fin_cases k <;> exact ⟨by norm_num, by norm_num⟩
  have ho : ∀ k : Fin 3, 1 ≤ (![8, 3, 4] : Fin 3 → ℕ) k ∧ (![8, 3, 4] : Fin 3 → ℕ) k ≤ 8 := by intro k; fin_cases k <;> simp
  choose c hc using fun k => C100_points T _ _ (ho k).1 (ho k).2 (hs k)
  choose b hb using fun k => C100_basis T _ (ho k).1 (ho k).2 (hs k) (hc k).2.2
  have h2 : ∀ z : ℝ, |T.format.nearest (Real.cos z)| ≤ 2 := fun z => by
    have := nearest_le_zpow T.format (M := 1) (by cases T <;> decide) (x := Real.cos z) ((Real.abs_cos_le_one z).trans (by norm_num))
    simpa using this
  refine ⟨⟨.ok (3 : ℕ), List.ofFn b⟩, c, fun idx => T.format.nearest (Real.cos (∑ k, c k (idx k))),
    ⟨by norm_num, rfl, fun k => ⟨hs k, ho k⟩, b, rfl, fun k => (hb k).1⟩, fun k => (hc k).2.2, fun k z _ => cos_bounded _ k z,
    fun idx => ⟨represents_nearest T.format ?_, h2 _⟩, fun idx => (nearest_err T.format _).trans (add_le_add ?_ ?_)⟩
  · intro h
    have h4 : (2 : ℝ) ^ (2 : ℤ) ≤ 2 ^ (T.format.maxExp + 1) := zpow_le_zpow_right₀ (by norm_num) (by cases T <;> decide)
    have := (h4.trans h).trans (h2 _)
    norm_num at this
  · have h1 := Real.abs_cos_le_one (∑ k, c k (idx k))
    have h0 : 0 ≤ unitRoundoff T.format := by unfold unitRoundoff; positivity
    calc _ ≤ unitRoundoff T.format * 1 := mul_le_mul_of_nonneg_left h1 h0
      _ = _ := mul_one _
  · unfold smallestPositive
    have : (0 : ℝ) < 2 ^ (T.format.minExp - T.format.fracBits) := by positivity
    linarith

/-- The truncation error in an example: linear interpolation on a line in the middle of the cell, of a function whose second derivative is at most 1. -/
example : truncation (fun _ : Fin 1 => .gaussLobatto) (fun _ => 1) (fun _ => ![-1, 1]) (fun _ => 1) (fun _ => 0) = 1 / 2 := by
  simp [truncation, lineTruncation, Fin.prod_univ_two]

end Verif.Props
