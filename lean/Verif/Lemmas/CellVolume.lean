import Verif.Lemmas.TensorQuadrature
import Mathlib.Algebra.MvPolynomial.Monad
import Mathlib.Algebra.MvPolynomial.PDeriv
import Mathlib.Analysis.Calculus.FDeriv.Pi
import Mathlib.Analysis.Calculus.FDeriv.Add
import Mathlib.Analysis.Calculus.FDeriv.Mul
import Mathlib.LinearAlgebra.Matrix.Determinant.Basic
import Mathlib.LinearAlgebra.Determinant
import Mathlib.MeasureTheory.Function.Jacobian

/-! # Polynomial maps, their Jacobian determinants and the volume of their images -/

namespace Verif.Lemmas

open Verif.Spec MeasureTheory MvPolynomial

variable {d : ℕ}

/-! ### derivatives of polynomials -/

theorem hasFDerivAt_eval (p : MvPolynomial (Fin d) ℝ) (ξ : Fin d → ℝ) :
    HasFDerivAt (fun ξ : Fin d → ℝ => eval ξ p)
      (∑ j, eval ξ (pderiv j p) • (ContinuousLinearMap.proj j : (Fin d → ℝ) →L[ℝ] ℝ)) ξ := by
  induction p using MvPolynomial.induction_on with
  | C a => simpa using hasFDerivAt_const a ξ
  | add p q hp hq =>
    simp only [map_add, add_smul, Finset.sum_add_distrib]
    exact hp.add hq
  | mul_X p k hp =>
    have hX : HasFDerivAt (fun ξ : Fin d → ℝ => ξ k) (ContinuousLinearMap.proj k : (Fin d → ℝ) →L[ℝ] ℝ) ξ :=
      (ContinuousLinearMap.proj k : (Fin d → ℝ) →L[ℝ] ℝ).hasFDerivAt
    have := hp.mul hX
    simp only [map_mul, eval_X]
    refine this.congr_fderiv ?_
    simp only [pderiv_mul, map_add, map_mul, eval_X, add_smul, Finset.sum_add_distrib]
    rw [add_comm, Finset.smul_sum]
    congr 1
    · exact Finset.sum_congr rfl fun j _ => by rw [smul_smul, mul_comm]
    · classical
      rw [Finset.sum_eq_single k]
      · simp
      · intro j _ hj; rw [pderiv_X_of_ne (Ne.symm hj)]; simp
      · simp

theorem degreeOf_pderiv_le (j k : Fin d) (p : MvPolynomial (Fin d) ℝ) {D : ℕ} (h : p.degreeOf k ≤ D) :
    (pderiv j p).degreeOf k ≤ if j = k then D - 1 else D := by
  refine degreeOf_le_iff.2 fun m hm => ?_
  rw [mem_support_iff, coeff_pderiv] at hm
  have h1 : m + Finsupp.single j 1 ∈ p.support := mem_support_iff.2 (left_ne_zero_of_mul hm)
  have h2 := (le_degreeOf_of_mem_support k h1).trans h
  rw [Finsupp.add_apply] at h2
  split
  · rename_i hjk
    subst hjk
    rw [Finsupp.single_eq_same] at h2
    omega
  · omega

/-- The matrix of partial derivatives of a polynomial map. -/
noncomputable def jacobianPoly (x : Fin d → MvPolynomial (Fin d) ℝ) :
    Matrix (Fin d) (Fin d) (MvPolynomial (Fin d) ℝ) := fun i j => pderiv j (x i)

/-- The Jacobian determinant of a polynomial map of degree at most `o k` in variable `k`. -/
theorem degreeOf_det_le (x : Fin d → MvPolynomial (Fin d) ℝ) (o : Fin d → ℕ)
    (h : ∀ i k, (x i).degreeOf k ≤ o k) (k : Fin d) :
    (jacobianPoly x).det.degreeOf k ≤ d * o k - 1 := by
  classical
  rw [Matrix.det_apply]
  refine (degreeOf_sum_le _ _ _).trans (Finset.sup_le fun σ _ => ?_)
  have h1 : (∏ i, jacobianPoly x (σ i) i).degreeOf k ≤ d * o k - 1 := by
    refine (degreeOf_prod_le _ _ _).trans ?_
    refine (Finset.sum_le_sum fun i _ => degreeOf_pderiv_le i k _ (h (σ i) k)).trans ?_
    rw [← Finset.add_sum_erase _ _ (Finset.mem_univ k), if_pos rfl,
      Finset.sum_congr rfl (g := fun _ => o k) (fun i hi => if_neg (Finset.ne_of_mem_erase hi)),
      Finset.sum_const, Finset.card_erase_of_mem (Finset.mem_univ k), Finset.card_univ, Fintype.card_fin,
      smul_eq_mul]
    have hd : 0 < d := k.pos
    obtain ⟨e, rfl⟩ : ∃ e, d = e + 1 := ⟨d - 1, by omega⟩
    rcases Nat.eq_zero_or_pos (o k) with h0 | h0
    · simp [h0]
    · rw [Nat.add_mul]; simp only [Nat.add_sub_cancel]; omega
  rcases Int.units_eq_one_or (Equiv.Perm.sign σ) with hs | hs <;> rw [hs]
  · simpa using h1
  · rw [Units.neg_smul, one_smul]
    exact (degreeOf_neg _ _).le.trans h1

theorem eval_det (x : Fin d → MvPolynomial (Fin d) ℝ) (ξ : Fin d → ℝ) :
    eval ξ (jacobianPoly x).det = (Matrix.of fun i j => eval ξ (pderiv j (x i))).det := by
  rw [RingHom.map_det]; rfl

/-! ### sums of coefficients -/

theorem coeffSum_eq {p : MvPolynomial (Fin d) ℝ} {S : Finset (Fin d →₀ ℕ)} (h : p.support ⊆ S) :
    coeffSum p = ∑ m ∈ S, |p.coeff m| :=
  Finset.sum_subset h fun m _ hm => by simp [notMem_support_iff.1 hm]

theorem coeffSum_nonneg (p : MvPolynomial (Fin d) ℝ) : 0 ≤ coeffSum p :=
  Finset.sum_nonneg fun _ _ => abs_nonneg _

theorem coeffSum_monomial (m : Fin d →₀ ℕ) (a : ℝ) : coeffSum (monomial m a) = |a| := by
  classical
  rw [coeffSum_eq (S := {m}) support_monomial_subset]
  simp

theorem coeffSum_add_le (p q : MvPolynomial (Fin d) ℝ) : coeffSum (p + q) ≤ coeffSum p + coeffSum q := by
  classical
  rw [coeffSum_eq (S := p.support ∪ q.support) support_add,
    coeffSum_eq (S := p.support ∪ q.support) (p := p) Finset.subset_union_left,
    coeffSum_eq (S := p.support ∪ q.support) (p := q) Finset.subset_union_right, ← Finset.sum_add_distrib]
  exact Finset.sum_le_sum fun m _ => by rw [coeff_add]; exact abs_add_le _ _

theorem coeffSum_sum_le {ι : Type} (s : Finset ι) (f : ι → MvPolynomial (Fin d) ℝ) :
    coeffSum (∑ i ∈ s, f i) ≤ ∑ i ∈ s, coeffSum (f i) := by
  classical
  induction s using Finset.induction_on with
  | empty => simp [coeffSum]
  | insert i s hi ih =>
    rw [Finset.sum_insert hi, Finset.sum_insert hi]
    exact (coeffSum_add_le _ _).trans (by linarith)

theorem coeffSum_mul_le (p q : MvPolynomial (Fin d) ℝ) : coeffSum (p * q) ≤ coeffSum p * coeffSum q := by
  have e : p * q = ∑ m ∈ p.support, ∑ n ∈ q.support, monomial (m + n) (p.coeff m * q.coeff n) := by
    conv_lhs => rw [← support_sum_monomial_coeff p, ← support_sum_monomial_coeff q]
    rw [Finset.sum_mul_sum]
    simp only [monomial_mul]
  rw [e]
  refine (coeffSum_sum_le _ _).trans ?_
  rw [coeffSum, coeffSum, Finset.sum_mul_sum]
  refine Finset.sum_le_sum fun m _ => (coeffSum_sum_le _ _).trans (Finset.sum_le_sum fun n _ => ?_)
  rw [coeffSum_monomial, abs_mul]

theorem coeffSum_one : coeffSum (1 : MvPolynomial (Fin d) ℝ) = 1 := by
  have := coeffSum_monomial (d := d) 0 1
  simpa using this

theorem coeffSum_C (a : ℝ) : coeffSum (C a : MvPolynomial (Fin d) ℝ) = |a| := coeffSum_monomial 0 a

theorem coeffSum_X (k : Fin d) : coeffSum (X k : MvPolynomial (Fin d) ℝ) = 1 := by
  have := coeffSum_monomial (d := d) (Finsupp.single k 1) 1
  simpa [X] using this

theorem coeffSum_neg (p : MvPolynomial (Fin d) ℝ) : coeffSum (-p) = coeffSum p := by
  simp [coeffSum]

theorem coeffSum_prod_le {ι : Type} (s : Finset ι) (f : ι → MvPolynomial (Fin d) ℝ) :
    coeffSum (∏ i ∈ s, f i) ≤ ∏ i ∈ s, coeffSum (f i) := by
  classical
  induction s using Finset.induction_on with
  | empty => simp [coeffSum_one]
  | insert i s hi ih =>
    rw [Finset.prod_insert hi, Finset.prod_insert hi]
    exact (coeffSum_mul_le _ _).trans (mul_le_mul_of_nonneg_left ih (coeffSum_nonneg _))

theorem coeffSum_pderiv_le (j : Fin d) (p : MvPolynomial (Fin d) ℝ) {D : ℕ} (h : p.degreeOf j ≤ D) :
    coeffSum (pderiv j p) ≤ D * coeffSum p := by
  classical
  have hinj : Function.Injective fun m : Fin d →₀ ℕ => m + Finsupp.single j 1 := add_left_injective _
  have hsub : (pderiv j p).support.map ⟨_, hinj⟩ ⊆ p.support := by
    intro n hn
    obtain ⟨m, hm, rfl⟩ := Finset.mem_map.1 hn
    rw [mem_support_iff, coeff_pderiv] at hm
    exact mem_support_iff.2 (left_ne_zero_of_mul hm)
  calc coeffSum (pderiv j p)
      ≤ ∑ m ∈ (pderiv j p).support, (D : ℝ) * |p.coeff (m + Finsupp.single j 1)| := by
        refine Finset.sum_le_sum fun m hm => ?_
        rw [coeff_pderiv, abs_mul, mul_comm]
        refine mul_le_mul_of_nonneg_right ?_ (abs_nonneg _)
        rw [mem_support_iff, coeff_pderiv] at hm
        have h2 := (le_degreeOf_of_mem_support j (mem_support_iff.2 (left_ne_zero_of_mul hm))).trans h
        rw [Finsupp.add_apply, Finsupp.single_eq_same] at h2
        rw [abs_of_nonneg (by positivity)]
        exact_mod_cast h2
    _ = D * ∑ n ∈ (pderiv j p).support.map ⟨_, hinj⟩, |p.coeff n| := by
        rw [Finset.sum_map, Finset.mul_sum]; rfl
    _ ≤ D * coeffSum p := by
        refine mul_le_mul_of_nonneg_left ?_ (Nat.cast_nonneg _)
        exact Finset.sum_le_sum_of_subset_of_nonneg hsub fun _ _ _ => abs_nonneg _

theorem coeffSum_det_le (x : Fin d → MvPolynomial (Fin d) ℝ) (o : Fin d → ℕ)
    (h : ∀ i k, (x i).degreeOf k ≤ o k) {B : ℝ} (hB : ∀ i, coeffSum (x i) ≤ B) :
    coeffSum (jacobianPoly x).det ≤ (d.factorial : ℝ) * ∏ k, (o k * B) := by
  classical
  rw [Matrix.det_apply]
  refine (coeffSum_sum_le _ _).trans ?_
  have h1 : ∀ σ ∈ (Finset.univ : Finset (Equiv.Perm (Fin d))),
      coeffSum (Equiv.Perm.sign σ • ∏ i, jacobianPoly x (σ i) i) ≤ ∏ k, (o k * B) := by
    intro σ _
    have h2 : coeffSum (∏ i, jacobianPoly x (σ i) i) ≤ ∏ k, (o k * B) := by
      refine (coeffSum_prod_le _ _).trans (Finset.prod_le_prod (fun _ _ => coeffSum_nonneg _) fun i _ => ?_)
      exact (coeffSum_pderiv_le i _ (h (σ i) i)).trans
        (mul_le_mul_of_nonneg_left (hB _) (Nat.cast_nonneg _))
    rcases Int.units_eq_one_or (Equiv.Perm.sign σ) with hs | hs <;> rw [hs]
    · simpa using h2
    · rw [Units.neg_smul, one_smul, coeffSum_neg]; exact h2
  refine (Finset.sum_le_sum h1).trans ?_
  rw [Finset.sum_const, Finset.card_univ, Fintype.card_perm, Fintype.card_fin, nsmul_eq_mul]

/-! ### volume of the image -/

theorem measurable_cube : MeasurableSet (cube d) := cube_compact.isClosed.measurableSet

/-- Change of variables: the integral of a function over the image of the cube under an injective polynomial
map with nonnegative Jacobian. -/
theorem integral_image (x : Fin d → MvPolynomial (Fin d) ℝ)
    (hinj : Set.InjOn (fun (ξ : Fin d → ℝ) i => eval ξ (x i)) (cube d))
    (hpos : ∀ ξ ∈ cube d, 0 ≤ eval ξ (jacobianPoly x).det) (f : (Fin d → ℝ) → ℝ) :
    ∫ ξ in cube d, f (fun i => eval ξ (x i)) * eval ξ (jacobianPoly x).det
      = ∫ y in (fun (ξ : Fin d → ℝ) i => eval ξ (x i)) '' cube d, f y := by
  have hd : ∀ ξ ∈ cube d, HasFDerivWithinAt (fun (ξ : Fin d → ℝ) i => eval ξ (x i))
      (LinearMap.toContinuousLinearMap (Matrix.toLin' (Matrix.of fun i j => eval ξ (pderiv j (x i)))))
      (cube d) ξ := by
    intro ξ _
    refine HasFDerivAt.hasFDerivWithinAt (hasFDerivAt_pi'.2 fun i => ?_)
    refine (hasFDerivAt_eval (x i) ξ).congr_fderiv ?_
    ext v
    simp [Matrix.mulVec, dotProduct]
  rw [integral_image_eq_integral_abs_det_fderiv_smul volume measurable_cube hd hinj f]
  refine setIntegral_congr_fun measurable_cube fun ξ hξ => ?_
  have := hpos ξ hξ
  rw [eval_det] at this
  simp only [smul_eq_mul]
  rw [eval_det, ContinuousLinearMap.det, LinearMap.coe_toContinuousLinearMap, LinearMap.det_toLin',
    abs_of_nonneg this, mul_comm]

/-- The volume of the image of the cube under an injective polynomial map with nonnegative Jacobian. -/
theorem volume_image (x : Fin d → MvPolynomial (Fin d) ℝ)
    (hinj : Set.InjOn (fun (ξ : Fin d → ℝ) i => eval ξ (x i)) (cube d))
    (hpos : ∀ ξ ∈ cube d, 0 ≤ eval ξ (jacobianPoly x).det) :
    ∫ ξ in cube d, eval ξ (jacobianPoly x).det
      = (volume ((fun (ξ : Fin d → ℝ) i => eval ξ (x i)) '' cube d)).toReal := by
  have h := integral_image x hinj hpos (fun _ => 1)
  simp only [one_mul] at h
  rw [h]
  simp [Measure.real]

/-- The degree of a polynomial of total degree at most `D` applied to a polynomial map. -/
theorem degreeOf_bind_le (x : Fin d → MvPolynomial (Fin d) ℝ) (o : Fin d → ℕ)
    (h : ∀ i k, (x i).degreeOf k ≤ o k) (f : MvPolynomial (Fin d) ℝ) {D : ℕ} (hf : f.totalDegree ≤ D) (k : Fin d) :
    (bind₁ x f).degreeOf k ≤ D * o k := by
  classical
  have e : bind₁ x f = ∑ m ∈ f.support, C (f.coeff m) * ∏ i, x i ^ m i := by
    rw [show bind₁ x f = aeval x f from rfl, aeval_eq_eval₂Hom, coe_eval₂Hom, eval₂_eq']
    rfl
  rw [e]
  refine (degreeOf_sum_le _ _ _).trans (Finset.sup_le fun m hm => ?_)
  refine (degreeOf_C_mul_le _ _ _).trans ((degreeOf_prod_le _ _ _).trans ?_)
  refine (Finset.sum_le_sum fun i _ => (degreeOf_pow_le _ _ _).trans (Nat.mul_le_mul_left (m i) (h i k))).trans ?_
  rw [← Finset.sum_mul]
  refine Nat.mul_le_mul_right _ (le_trans ?_ hf)
  have := le_totalDegree hm
  rwa [Finsupp.sum_fintype _ _ (fun _ => rfl)] at this

end Verif.Lemmas
