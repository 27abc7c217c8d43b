import Verif.Props.PointChecks
import Verif.Props.PhysicalGradient
import Verif.Props.Evaluation
import Verif.Spec.PatchError

/-!
# Property C138: gradients in physical coordinates, and the patch test, in `float` and `double`

The gradient of a field in physical coordinates is the product of the gradient `ParentElement::gradient` returns and the inverse Jacobian
`inverseJacobian` returns (C109).  Here both are computed in `float` or `double`; the sum of products itself is taken exactly, so that the bound
is one of the two functions of the library.  The bounds are explicit in the largest coordinate `B`, the largest nodal value `Y` and a lower bound `Δ` of the
determinant.
-/

namespace Verif.Props

open Verif.Spec Verif.Lemmas

variable {c : (k : Fin 3) → Fin 2 → ℝ}

/-- The terms of the gradient of a field on a linear element. -/
private theorem field_slope (hc : ∀ k, c k 0 = -1 ∧ c k 1 = 1) (U : (Fin 3 → Fin 2) → ℝ) (ξ : Fin 3 → ℝ) (a : Fin 3) :
    ∑ idx : Fin 3 → Fin 2, (∏ k, if a = k then deriv (fun s : ℝ => ∏ t ∈ Finset.univ.erase (idx k), (s - c k t) / (c k (idx k) - c k t)) (ξ k)
      else ∏ t ∈ Finset.univ.erase (idx k), (ξ k - c k t) / (c k (idx k) - c k t)) * U idx = cellSlope U ξ a := by
  have h2 := derivative_entry (cellMap_derivative (order := fun _ : Fin 3 => 1) c (fun idx _ => U idx) ξ) 0 a
  rw [pderiv_slope hc] at h2
  refine Eq.trans ?_ h2
  refine Finset.sum_congr rfl fun idx _ => congrArg (· * U idx) (Finset.prod_congr rfl fun k _ => ?_)
  rw [deriv_quotients, lagrange_quotients]

private theorem field_derivative (hc : ∀ k, c k 0 = -1 ∧ c k 1 = 1) (U : (Fin 3 → Fin 2) → ℝ) (ξ : Fin 3 → ℝ) :
    IsDerivative (cellMap (order := fun _ : Fin 3 => 1) c fun idx _ => U idx) (Matrix.of fun _ a => cellSlope U ξ a) ξ := by
  have h1 := cellMap_derivative (order := fun _ : Fin 3 => 1) c (fun idx _ => U idx) ξ
  refine cast (congrArg (fun M => IsDerivative _ M ξ) ?_) h1
  funext i a
  have h2 := derivative_entry h1 i a
  rw [pderiv_slope hc] at h2
  exact h2

private theorem multi_linear (U : (Fin 3 → Fin 2) → ℝ) (X : (Fin 3 → Fin 2) → Fin 3 → ℝ) (α : ℝ) (β ζ : Fin 3 → ℝ) :
    multi (fun idx => U idx - (α + ∑ i, β i * X idx i)) ζ = multi U ζ - (α + ∑ i, β i * multi (fun idx => X idx i) ζ) := by
  simp only [multi, mul_sub, mul_add, Finset.sum_sub_distrib, Finset.sum_add_distrib, ← Finset.sum_mul, sum_hat, one_mul, Finset.mul_sum]
  rw [Finset.sum_comm]
  congr 2
  exact Finset.sum_congr rfl fun i _ => Finset.sum_congr rfl fun idx _ => by ring

private theorem slope_le {d : ℕ} {U : (Fin d → Fin 2) → ℝ} {Y : ℝ} (hU : ∀ idx, |U idx| ≤ Y) {ξ : Fin d → ℝ} (hξ : ξ ∈ cube d) (a : Fin d) :
    |cellSlope U ξ a| ≤ Y := abs_slope_le hU hξ a

/-- The entries of the inverse of a matrix with small entries. -/
private theorem inverse_le {D : Matrix (Fin 3) (Fin 3) ℝ} {B Δ : ℝ} (hD : ∀ i j, |D i j| ≤ B) (hΔ : 0 < Δ) (hd : Δ ≤ |D.det|) (i j : Fin 3) :
    |D⁻¹ i j| ≤ 2 * B ^ 2 / Δ := by
  have hB := (abs_nonneg _).trans (hD 0 0)
  have q : ∀ i j k l, |D i j * D k l| ≤ B ^ 2 := fun i j k l => by
    rw [abs_mul, sq]
    exact mul_le_mul (hD i j) (hD k l) (abs_nonneg _) hB
  have q1 : ∀ i j k l i' j' k' l', |D i j * D k l - D i' j' * D k' l'| ≤ 2 * B ^ 2 := fun i j k l i' j' k' l' => by
    have := abs_sub (D i j * D k l) (D i' j' * D k' l')
    linarith [q i j k l, q i' j' k' l']
  have q2 : ∀ i j k l i' j' k' l', |-(D i j * D k l) + D i' j' * D k' l'| ≤ 2 * B ^ 2 := fun i j k l i' j' k' l' => by
    rw [neg_add_eq_sub]
    exact q1 _ _ _ _ _ _ _ _
  have ha : |D.adjugate i j| ≤ 2 * B ^ 2 := by
    rw [Matrix.adjugate_fin_three]
    fin_cases i <;> fin_cases j <;> first | exact q1 _ _ _ _ _ _ _ _ | exact q2 _ _ _ _ _ _ _ _
  rw [Matrix.inv_def, Matrix.smul_apply, smul_eq_mul, Ring.inverse_eq_inv', abs_mul, abs_inv, inv_mul_eq_div]
  exact div_le_div₀ (by positivity) ha hΔ hd

section
variable {T : RealType} {t : LinearTransform Flt} (h : IsShippedIn T (fun _ : Fin 3 => 1) c t.shape) (hc : ∀ k, c k 0 = -1 ∧ c k 1 = 1)
  {X : (Fin 3 → Fin 2) → Fin 3 → ℝ} (hX : HoldsPoints t.data fun idx i => Flt.ofReal (X idx i))
  {B : ℝ} (hB1 : 1 ≤ B) (hB : B ^ 3 ≤ 2 ^ 120) (hXB : ∀ idx i, |X idx i| ≤ B) (cfg : Config)
  (var : List Int → Res Flt) (U : (Fin 3 → Fin 2) → ℝ) (hU : ∀ idx, var (tup idx) = .ok (Flt.ofReal (U idx)))
  {Y : ℝ} (hY1 : 1 ≤ Y) (hY2 : Y ≤ 2 ^ 56) (hY : ∀ idx, |U idx| ≤ Y)
  {Δ : ℝ} (hΔ : 0 < Δ) (hm : 5018 * unitRoundoff T.format * B ^ 3 ≤ Δ) {ξ : Fin 3 → ℝ} (hξ : ξ ∈ cube 3)
  (hdet : ∀ D, IsDerivative (cellMap (order := fun _ : Fin 3 => 1) c X) D ξ → Δ ≤ |D.det|)
include h hc hX hB1 hB hXB hU hY1 hY2 hY hΔ hm hξ hdet

private theorem physical :
    ∃ (g : Fin 3 → Flt) (γ : Fin 3 → ℝ) (det : Flt) (m : List Flt) (P : Matrix (Fin 3) (Fin 3) Flt) (ρ D : Matrix (Fin 3) (Fin 3) ℝ),
      ParentElement.gradient (floatArith T.format) t.shape (List.ofFn fun k => Flt.ofReal (ξ k)) var = .ok (List.ofFn g) ∧
      (∀ a, (g a).datum = .finite (γ a)) ∧
      LinearTransform.inverseJacobianValue cfg (floatArith T.format) t (List.ofFn fun k => Flt.ofReal (ξ k)) = .ok (det, .ok m) ∧
      HoldsMatrix m P ∧ (∀ i j, (P i j).datum = .finite (ρ i j)) ∧ IsDerivative (cellMap (order := fun _ : Fin 3 => 1) c X) D ξ ∧
      (∀ i j, |D⁻¹ i j| ≤ 2 * B ^ 2 / Δ) ∧
      ∀ i, |∑ a, γ a * ρ a i - ∑ a, cellSlope U ξ a * D⁻¹ a i| ≤ physicalError T B Y Δ := by
  obtain ⟨det, m, P, D, e1, e2, e3, e4⟩ := hexahedron_inverse h hc hX hB1 hB hXB cfg hΔ hm hξ hdet
  obtain ⟨g, f1, f2⟩ := C100_interpolation_gradient h (by norm_num) var U hU hY1 hY2 hY ξ fun k => abs_le.2 (hξ k)
  choose ρ r1 r2 using e4
  choose γ g1 g2 using f2
  have hu0 : 0 ≤ unitRoundoff T.format := roundoff_nonneg T.format
  have hDB : ∀ i j, |D i j| ≤ B := fun i j => by
    rw [derivative_entry e3, pderiv_slope hc]
    exact slope_le (fun idx => hXB idx i) hξ j
  have hinv := inverse_le hDB hΔ (hdet D e3)
  have hg : ∀ a, |γ a - cellSlope U ξ a| ≤ 137 * unitRoundoff T.format * Y := by
    intro a
    have k1 := g2 a
    rw [field_slope hc] at k1
    refine k1.trans ?_
    have k2 : ∑ idx : Fin 3 → Fin 2, (∏ k, if a = k then derivMagnitude (c k) (idx k) (ξ k)
        else |∏ t ∈ Finset.univ.erase (idx k), (ξ k - c k t) / (c k (idx k) - c k t)|) * |U idx| ≤ Y :=
      hexahedron_magnitude (X := fun idx _ => U idx) hc (fun idx _ => hY idx) hξ 0 a
    have k3 : errBound (unitRoundoff T.format) (gradientRoundings fun _ : Fin 3 => 1) ≤ 136 * unitRoundoff T.format := by
      have hu1 := formats_unit T
      rw [show gradientRoundings (fun _ : Fin 3 => 1) = 68 by decide, errBound]
      have := pow_roundoff_le hu0 68 (by norm_num at hu1 ⊢; linarith)
      norm_num at this ⊢
      linarith
    have k4 : 2 ^ 78 * smallestPositive T.format ≤ unitRoundoff T.format := by
      have a1 := formats_tiny T
      have a2 : 1 / 2 ^ 53 ≤ unitRoundoff T.format := by
        cases T <;> norm_num [unitRoundoff, RealType.format, binary32, binary64]
      rw [← tiny_smallest]
      norm_num at a1 a2 ⊢
      linarith
    have k5 := mul_le_mul k3 k2 (Finset.sum_nonneg fun idx _ => mul_nonneg (Finset.prod_nonneg fun k _ => by
      split
      · unfold derivMagnitude; positivity
      · exact abs_nonneg _) (abs_nonneg _)) (by positivity)
    have k6 := mul_le_mul_of_nonneg_right k4 (show 0 ≤ Y by linarith)
    linarith
  refine ⟨g, γ, det, m, P, ρ, D, f1, g1, e1, e2, r1, e3, hinv, fun i => ?_⟩
  have hI0 : 0 ≤ inverseError T B Δ := (abs_nonneg _).trans (r2 0 0)
  rw [← Finset.sum_sub_distrib]
  refine (Finset.abs_sum_le_sum_abs _ _).trans ?_
  have key : ∀ a, |γ a * ρ a i - cellSlope U ξ a * D⁻¹ a i|
      ≤ 137 * unitRoundoff T.format * Y * (2 * B ^ 2 / Δ + inverseError T B Δ) + Y * inverseError T B Δ := by
    intro a
    have hρ : |ρ a i| ≤ 2 * B ^ 2 / Δ + inverseError T B Δ := by
      have := abs_sub_abs_le_abs_sub (ρ a i) (D⁻¹ a i)
      have q : |ρ a i - D⁻¹ a i| ≤ inverseError T B Δ := r2 a i
      linarith [hinv a i]
    rw [show γ a * ρ a i - cellSlope U ξ a * D⁻¹ a i = (γ a - cellSlope U ξ a) * ρ a i + cellSlope U ξ a * (ρ a i - D⁻¹ a i) by ring]
    refine (abs_add_le _ _).trans ?_
    rw [abs_mul, abs_mul]
    exact add_le_add (mul_le_mul (hg a) hρ (abs_nonneg _) (by positivity)) (mul_le_mul (slope_le hY hξ a) (r2 a i) (abs_nonneg _) (by linarith))
  rw [Fin.sum_univ_three, physicalError]
  linarith [key 0, key 1, key 2]

/-- **C138, gradients in physical coordinates.** On a hexahedron with coordinates up to `B` and a determinant of at least `Δ ≥ 5018 u B³` at `ξ`, with nodal
values up to `Y`: gradient and inverse Jacobian are finite, and the sum of their products differs from the physical gradient, the sum of the products of
the derivative `G` of the field and the inverse of the derivative `D` of the map, by at most the explicit bound. -/
theorem C138_gradient :
    ∃ (g : Fin 3 → Flt) (γ : Fin 3 → ℝ) (det : Flt) (m : List Flt) (P : Matrix (Fin 3) (Fin 3) Flt) (ρ D : Matrix (Fin 3) (Fin 3) ℝ) (G : Fin 3 → ℝ),
      ParentElement.gradient (floatArith T.format) t.shape (List.ofFn fun k => Flt.ofReal (ξ k)) var = .ok (List.ofFn g) ∧
      (∀ a, (g a).datum = .finite (γ a)) ∧
      LinearTransform.inverseJacobianValue cfg (floatArith T.format) t (List.ofFn fun k => Flt.ofReal (ξ k)) = .ok (det, .ok m) ∧
      HoldsMatrix m P ∧ (∀ i j, (P i j).datum = .finite (ρ i j)) ∧ IsDerivative (cellMap (order := fun _ : Fin 3 => 1) c X) D ξ ∧
      IsDerivative (cellMap (order := fun _ : Fin 3 => 1) c fun idx _ => U idx) (Matrix.of fun _ a => G a) ξ ∧
      ∀ i, |∑ a, γ a * ρ a i - ∑ a, G a * D⁻¹ a i| ≤ physicalError T B Y Δ := by
  obtain ⟨g, γ, det, m, P, ρ, D, h1, h2, h3, h4, h5, h6, -, h7⟩ := physical h hc hX hB1 hB hXB cfg var U hU hY1 hY2 hY hΔ hm hξ hdet
  refine ⟨g, γ, det, m, P, ρ, D, fun a => cellSlope U ξ a, h1, h2, h3, h4, h5, h6, field_derivative hc U ξ, h7⟩

/-- **C138, patch test.** If the nodal values are those of the linear field `α + β · x` up to an error `η`, the computed physical gradient is `β` up to the
bound and `η` times the largest entry of the inverse. -/
theorem C138_patch_test (α : ℝ) (β : Fin 3 → ℝ) {η : ℝ} (hη : ∀ idx, |U idx - (α + ∑ i, β i * X idx i)| ≤ η) :
    ∃ (g : Fin 3 → Flt) (γ : Fin 3 → ℝ) (det : Flt) (m : List Flt) (P : Matrix (Fin 3) (Fin 3) Flt) (ρ : Matrix (Fin 3) (Fin 3) ℝ),
      ParentElement.gradient (floatArith T.format) t.shape (List.ofFn fun k => Flt.ofReal (ξ k)) var = .ok (List.ofFn g) ∧
      (∀ a, (g a).datum = .finite (γ a)) ∧
      LinearTransform.inverseJacobianValue cfg (floatArith T.format) t (List.ofFn fun k => Flt.ofReal (ξ k)) = .ok (det, .ok m) ∧
      HoldsMatrix m P ∧ (∀ i j, (P i j).datum = .finite (ρ i j)) ∧
      ∀ i, |∑ a, γ a * ρ a i - β i| ≤ physicalError T B Y Δ + 3 * η * (2 * B ^ 2 / Δ) := by
  obtain ⟨g, γ, det, m, P, ρ, D, h1, h2, h3, h4, h5, h6, hinv, h7⟩ := physical h hc hX hB1 hB hXB cfg var U hU hY1 hY2 hY hΔ hm hξ hdet
  refine ⟨g, γ, det, m, P, ρ, h1, h2, h3, h4, h5, fun i => ?_⟩
  have hD : ∀ i j, D i j = cellSlope (fun idx => X idx i) ξ j := fun i j => by rw [derivative_entry h6, pderiv_slope hc]
  have hdet0 : D.det ≠ 0 := abs_pos.1 (lt_of_lt_of_le hΔ (hdet D h6))
  have hs : ∀ a, |cellSlope U ξ a - ∑ i, β i * D i a| ≤ η := by
    intro a
    have := slope_le hη hξ a
    refine le_of_eq_of_le (congrArg abs ?_) this
    simp only [hD, cellSlope, multi_linear]
    simp only [Fin.sum_univ_three]
    ring
  have h8 : ∀ i, ∑ a, (∑ k, β k * D k a) * D⁻¹ a i = β i := by
    intro i
    have : D * D⁻¹ = 1 := Matrix.mul_nonsing_inv D (isUnit_iff_ne_zero.2 hdet0)
    have h9 : ∀ k, ∑ a, D k a * D⁻¹ a i = if k = i then 1 else 0 := fun k => by
      rw [← Matrix.mul_apply, this, Matrix.one_apply]
    simp only [Finset.sum_mul, mul_assoc]
    rw [Finset.sum_comm]
    simp only [← Finset.mul_sum, h9]
    simp
  have h9 : |∑ a, cellSlope U ξ a * D⁻¹ a i - β i| ≤ 3 * η * (2 * B ^ 2 / Δ) := by
    rw [← h8 i, ← Finset.sum_sub_distrib]
    refine (Finset.abs_sum_le_sum_abs _ _).trans ?_
    have : ∀ a, |cellSlope U ξ a * D⁻¹ a i - (∑ k, β k * D k a) * D⁻¹ a i| ≤ η * (2 * B ^ 2 / Δ) := fun a => by
      rw [← sub_mul, abs_mul]
      exact mul_le_mul (hs a) (hinv a i) (abs_nonneg _) ((abs_nonneg _).trans (hs a))
    rw [Fin.sum_univ_three]
    linarith [this 0, this 1, this 2]
  have := abs_sub_le (∑ a, γ a * ρ a i) (∑ a, cellSlope U ξ a * D⁻¹ a i) (β i)
  linarith [h7 i]

end

/-- Non-vacuity: on the parent cube, with the field `x₀`, the hypotheses hold at every point, and the bound is `36360 u`: in `double` the computed gradient is
`(1, 0, 0)` up to `5·10⁻¹²`. -/
example (T : RealType) (cfg : Config) {ξ : Fin 3 → ℝ} (hξ : ξ ∈ cube 3) : ∃ (t : LinearTransform Flt) (var : List Int → Res Flt)
    (g : Fin 3 → Flt) (γ : Fin 3 → ℝ) (det : Flt) (m : List Flt) (P : Matrix (Fin 3) (Fin 3) Flt) (ρ : Matrix (Fin 3) (Fin 3) ℝ),
      ParentElement.gradient (floatArith T.format) t.shape (List.ofFn fun k => Flt.ofReal (ξ k)) var = .ok (List.ofFn g) ∧
      (∀ a, (g a).datum = .finite (γ a)) ∧
      LinearTransform.inverseJacobianValue cfg (floatArith T.format) t (List.ofFn fun k => Flt.ofReal (ξ k)) = .ok (det, .ok m) ∧
      HoldsMatrix m P ∧ (∀ i j, (P i j).datum = .finite (ρ i j)) ∧
      ∀ i, |∑ a, γ a * ρ a i - (if i = 0 then 1 else 0)| ≤ 36360 * unitRoundoff T.format := by
  obtain ⟨t, h, hX⟩ := sample_cell_in T
  have h1 : ∀ (idx : Fin 3 → Fin 2) (i : Fin 3), |(![-1, 1] : Fin 2 → ℝ) (idx i)| ≤ 1 := by
    intro idx i
    have a : ∀ a : Fin 2, a = 0 ∨ a = 1 := by decide
    rcases a (idx i) with e | e <;> simp [e]
  have hu := formats_unit T
  have hu0 := roundoff_nonneg T.format
  have hd : ∀ D, IsDerivative (cellMap (order := fun _ : Fin 3 => 1) (fun _ => ![-1, 1])
      fun (idx : Fin 3 → Fin 2) i => (![-1, 1] : Fin 2 → ℝ) (idx i)) D ξ → 1 ≤ |D.det| := by
    intro D hD
    have : D = 1 := by
      ext i j
      rw [derivative_entry hD, ← derivative_entry (identity_cell_derivative ξ)]
    rw [this, Matrix.det_one, abs_one]
  obtain ⟨g, γ, det, m, P, ρ, r1, r2, r3, r4, r5, r6⟩ := C138_patch_test h (fun k => ⟨rfl, rfl⟩) hX le_rfl (by norm_num) h1 cfg
    (fun l => .ok (Flt.ofReal (if l.headD 0 = 0 then -1 else 1))) (fun idx => (![-1, 1] : Fin 2 → ℝ) (idx 0))
    (fun idx => by
      have a : ∀ a : Fin 2, a = 0 ∨ a = 1 := by decide
      rcases a (idx 0) with e | e <;> simp [tup, List.ofFn_succ, e])
    le_rfl (by norm_num) (fun idx => h1 idx 0) one_pos (by norm_num at hu ⊢; linarith) hξ hd 0 (fun i => if i = 0 then 1 else 0) (η := 0)
    (fun idx => by simp)
  refine ⟨t, _, g, γ, det, m, P, ρ, r1, r2, r3, r4, r5, fun i => (r6 i).trans ?_⟩
  have k4 : 2 ^ 83 * smallestPositive T.format ≤ unitRoundoff T.format := by
    have a1 := formats_tiny T
    have a2 : 1 / 2 ^ 53 ≤ unitRoundoff T.format := by
      cases T <;> norm_num [unitRoundoff, RealType.format, binary32, binary64]
    rw [← tiny_smallest]
    norm_num at a1 a2 ⊢
    linarith
  have hs0 := smallest_pos T.format
  have e1 : inverseError T 1 1 ≤ 11709 * unitRoundoff T.format := by
    rw [inverseError, max_eq_right (by norm_num)]
    norm_num at k4 ⊢
    linarith
  have e2 : inverseError T 1 1 ≤ 1 := by norm_num at hu; linarith
  rw [physicalError]
  have e3 := mul_le_mul_of_nonneg_left e2 hu0
  norm_num at e3 ⊢
  nlinarith

end Verif.Props
