import Verif.Lemmas.Tensor
import Mathlib.Analysis.Calculus.MeanValue
import Mathlib.Analysis.Calculus.Deriv.Pi

/-!
# Supporting lemmas: tensor-product polynomials on grids of points
-/

namespace Verif.Lemmas

open Polynomial

variable {d : ℕ} {n : Fin d → ℕ}

/-- The combination with coefficients `y` of the products of the polynomials `f`. -/
noncomputable def tensorEval (f : (k : Fin d) → Fin (n k) → ℝ[X]) (y : ((k : Fin d) → Fin (n k)) → ℝ)
    (x : Fin d → ℝ) : ℝ := ∑ idx, (∏ k, (f k (idx k)).eval (x k)) * y idx

/-- The polynomials with those of direction `a` differentiated. -/
noncomputable def partialOf (a : Fin d) (f : (k : Fin d) → Fin (n k) → ℝ[X]) : (k : Fin d) → Fin (n k) → ℝ[X] :=
  fun k j => if a = k then derivative (f k j) else f k j

/-- On a grid with more points than the degree in every direction, the values at the points determine the function. -/
theorem tensorEval_grid {N : Fin d → ℕ} (p : (k : Fin d) → Fin (N k) → ℝ) (hp : ∀ k, Function.Injective (p k))
    (f : (k : Fin d) → Fin (n k) → ℝ[X]) (hf : ∀ k j, (f k j).degree < N k) (y : ((k : Fin d) → Fin (n k)) → ℝ)
    (x : Fin d → ℝ) :
    tensorEval f y x = ∑ q : (k : Fin d) → Fin (N k),
      (∏ k, (Lagrange.basis Finset.univ (p k) (q k)).eval (x k)) * tensorEval f y fun k => p k (q k) := by
  unfold tensorEval
  simp only [Finset.mul_sum]
  rw [Finset.sum_comm]
  refine Finset.sum_congr rfl fun idx _ => ?_
  simp only [← mul_assoc, ← Finset.prod_mul_distrib]
  rw [← Finset.sum_mul]
  congr 1
  rw [← Fintype.prod_sum fun k (j : Fin (N k)) =>
    (Lagrange.basis Finset.univ (p k) j).eval (x k) * (f k (idx k)).eval (p k j)]
  refine Finset.prod_congr rfl fun k _ => ?_
  have h := Lagrange.eq_interpolate (s := Finset.univ) (v := p k) (f := f k (idx k)) (hp k).injOn
    (by simpa using hf k (idx k))
  conv_lhs => rw [h]
  rw [Lagrange.interpolate_apply, eval_finsetSum]
  refine Finset.sum_congr rfl fun j _ => ?_
  rw [eval_mul, eval_C, mul_comm]

theorem tensorEval_zero_of_grid {N : Fin d → ℕ} (p : (k : Fin d) → Fin (N k) → ℝ) (hp : ∀ k, Function.Injective (p k))
    (f : (k : Fin d) → Fin (n k) → ℝ[X]) (hf : ∀ k j, (f k j).degree < N k) (y : ((k : Fin d) → Fin (n k)) → ℝ)
    (h : ∀ q : (k : Fin d) → Fin (N k), tensorEval f y (fun k => p k (q k)) = 0) (x : Fin d → ℝ) :
    tensorEval f y x = 0 := by
  rw [tensorEval_grid p hp f hf y x]
  exact Finset.sum_eq_zero fun q _ => by rw [h q, mul_zero]

theorem tensorEval_hasFDerivAt (f : (k : Fin d) → Fin (n k) → ℝ[X]) (y : ((k : Fin d) → Fin (n k)) → ℝ)
    (x : Fin d → ℝ) :
    HasFDerivAt (tensorEval f y)
      (∑ a, tensorEval (partialOf a f) y x • (ContinuousLinearMap.proj a : (Fin d → ℝ) →L[ℝ] ℝ)) x := by
  have h1 : ∀ idx ∈ (Finset.univ : Finset ((k : Fin d) → Fin (n k))), HasFDerivAt
      (fun x : Fin d → ℝ => (∏ k, (f k (idx k)).eval (x k)) * y idx)
      (y idx • (∑ a, (∏ k, if a = k then (derivative (f k (idx k))).eval (x k) else (f k (idx k)).eval (x k)) •
          (ContinuousLinearMap.proj a : (Fin d → ℝ) →L[ℝ] ℝ))) x := fun idx _ =>
    (hasFDerivAt_product (F := fun k => fun t => (f k (idx k)).eval t)
      (F' := fun k => fun t => (derivative (f k (idx k))).eval t)
      (fun k t => Polynomial.hasDerivAt _ t) x).mul_const (y idx)
  refine (HasFDerivAt.fun_sum h1).congr_fderiv ?_
  simp only [Finset.smul_sum, smul_smul, tensorEval, Finset.sum_smul]
  rw [Finset.sum_comm]
  refine Finset.sum_congr rfl fun a _ => Finset.sum_congr rfl fun idx _ => ?_
  rw [mul_comm]
  congr 2
  refine Finset.prod_congr rfl fun k _ => ?_
  simp only [partialOf]
  split_ifs <;> rfl

/-- A function whose gradient vanishes is constant. -/
theorem tensorEval_constant (f : (k : Fin d) → Fin (n k) → ℝ[X]) (y : ((k : Fin d) → Fin (n k)) → ℝ)
    (h : ∀ a x, tensorEval (partialOf a f) y x = 0) (x z : Fin d → ℝ) : tensorEval f y x = tensorEval f y z := by
  refine is_const_of_fderiv_eq_zero (𝕜 := ℝ) (fun x => (tensorEval_hasFDerivAt f y x).differentiableAt) (fun x => ?_) x z
  rw [(tensorEval_hasFDerivAt f y x).fderiv]
  exact Finset.sum_eq_zero fun a _ => by rw [h a x, zero_smul]

/-- A function whose derivative in direction `a` vanishes does not depend on that coordinate. -/
theorem tensorEval_update (f : (k : Fin d) → Fin (n k) → ℝ[X]) (y : ((k : Fin d) → Fin (n k)) → ℝ) (a : Fin d)
    (h : ∀ x, tensorEval (partialOf a f) y x = 0) (x : Fin d → ℝ) (t : ℝ) :
    tensorEval f y (Function.update x a t) = tensorEval f y x := by
  have hd : ∀ s, HasDerivAt (fun s => tensorEval f y (Function.update x a s)) 0 s := by
    intro s
    have h1 := tensorEval_hasFDerivAt f y (Function.update x a s)
    have h2 : HasDerivAt (fun s => Function.update x a s) (Pi.single a 1) s := hasDerivAt_update x a s
    refine (h1.comp_hasDerivAt s h2).congr_deriv ?_
    rw [_root_.sum_apply]
    refine Finset.sum_eq_zero fun b _ => ?_
    by_cases hb : b = a
    · subst hb; rw [h, zero_smul]; rfl
    · simp [hb]
  have := is_const_of_deriv_eq_zero (fun s => (hd s).differentiableAt) (fun s => (hd s).deriv) t (x a)
  rw [Function.update_eq_self] at this
  exact this

/-- Interpolating a product of polynomials reproduces it. -/
theorem tensorEval_product {order : Fin d → ℕ} (c : (k : Fin d) → Fin (order k + 1) → ℝ)
    (hc : ∀ k, Function.Injective (c k)) (g : Fin d → ℝ[X]) (hg : ∀ k, (g k).natDegree ≤ order k)
    (L : (k : Fin d) → Fin (order k + 1) → ℝ[X]) (D : Fin d → ℝ[X] →ₗ[ℝ] ℝ[X])
    (hL : ∀ k j, L k j = D k (Lagrange.basis Finset.univ (c k) j)) (x : Fin d → ℝ) :
    tensorEval L (fun idx => ∏ k, (g k).eval (c k (idx k))) x = ∏ k, (D k (g k)).eval (x k) := by
  unfold tensorEval
  simp only [← Finset.prod_mul_distrib]
  rw [← Fintype.prod_sum fun k (j : Fin (order k + 1)) => (L k j).eval (x k) * (g k).eval (c k j)]
  refine Finset.prod_congr rfl fun k _ => ?_
  have h := Lagrange.eq_interpolate (s := Finset.univ) (v := c k) (f := g k) (hc k).injOn (by
    rw [Finset.card_univ, Fintype.card_fin]
    exact lt_of_le_of_lt degree_le_natDegree (by exact_mod_cast Nat.lt_succ_of_le (hg k)))
  conv_rhs => rw [h]
  rw [Lagrange.interpolate_apply, map_sum, eval_finsetSum]
  refine Finset.sum_congr rfl fun j _ => ?_
  rw [← smul_eq_C_mul, map_smul, eval_smul, smul_eq_mul, mul_comm, hL]

end Verif.Lemmas
