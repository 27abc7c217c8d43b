import Verif.Lemmas.Piola
import Verif.Lemmas.TensorQuadrature
import Mathlib.Algebra.MvPolynomial.Funext

/-! # The integral of a Jacobian determinant over the parent cube is a sum over the faces -/

namespace Verif.Lemmas

open Verif.Spec MeasureTheory MvPolynomial

variable {d : ℕ}

theorem integrable_eval (P : MvPolynomial (Fin d) ℝ) : IntegrableOn (fun ξ => eval ξ P) (cube d) :=
  ContinuousOn.integrableOn_compact cube_compact (MvPolynomial.continuous_eval P).continuousOn

theorem integrable_eval_update (a : Fin d) (s : ℝ) (P : MvPolynomial (Fin d) ℝ) :
    IntegrableOn (fun ξ => eval (Function.update ξ a s) P) (cube d) :=
  ContinuousOn.integrableOn_compact cube_compact
    ((MvPolynomial.continuous_eval P).comp (continuous_id.update a continuous_const)).continuousOn

private theorem moment (m : ℕ) : (m : ℝ) * ∫ x in (-1 : ℝ)..1, x ^ (m - 1) = 1 - (-1) ^ m := by
  cases m with
  | zero => simp
  | succ m =>
    rw [Nat.add_sub_cancel, integral_pow]
    have : ((m + 1 : ℕ) : ℝ) ≠ 0 := by positivity
    push_cast at this ⊢
    field_simp
    ring

private theorem monomial_update (m : Fin d →₀ ℕ) (r : ℝ) (a : Fin d) (s : ℝ) (ξ : Fin d → ℝ) :
    eval (Function.update ξ a s) (monomial m r) = r * s ^ m a * ∏ k, ξ k ^ Function.update (⇑m) a 0 k := by
  classical
  rw [eval_monomial, Finsupp.prod_fintype _ _ (by simp), ← Finset.mul_prod_erase _ _ (Finset.mem_univ a),
    ← Finset.mul_prod_erase _ (fun k => ξ k ^ Function.update (⇑m) a 0 k) (Finset.mem_univ a)]
  simp only [Function.update_self, pow_zero, one_mul]
  rw [mul_assoc]
  congr 2
  refine Finset.prod_congr rfl fun k hk => ?_
  rw [Function.update_of_ne (Finset.ne_of_mem_erase hk), Function.update_of_ne (Finset.ne_of_mem_erase hk)]

/-- The fundamental theorem of calculus in direction `a`. -/
theorem integral_pderiv (a : Fin d) (P : MvPolynomial (Fin d) ℝ) :
    ∫ ξ in cube d, eval ξ (pderiv a P)
      = 1 / 2 * ((∫ ξ in cube d, eval (Function.update ξ a 1) P) - ∫ ξ in cube d, eval (Function.update ξ a (-1)) P) := by
  classical
  induction P using MvPolynomial.induction_on' with
  | monomial m r =>
    simp only [monomial_update]
    rw [integral_const_mul, integral_const_mul, integral_monomial_cube, pderiv_monomial]
    have e : ∀ ξ : Fin d → ℝ, eval ξ (monomial (m - Finsupp.single a 1) (r * (m a : ℝ)))
        = r * (m a : ℝ) * ∏ k, ξ k ^ Function.update (⇑m) a (m a - 1) k := fun ξ => by
      rw [eval_monomial, Finsupp.prod_fintype _ _ (by simp)]
      congr 1
      refine Finset.prod_congr rfl fun k _ => ?_
      congr 1
      by_cases hk : k = a
      · subst hk; simp
      · simp [Function.update_of_ne hk, Finsupp.single_eq_of_ne hk]
    simp only [e]
    rw [integral_const_mul, integral_monomial_cube, ← Finset.mul_prod_erase _ _ (Finset.mem_univ a),
      ← Finset.mul_prod_erase _ (fun k => ∫ x in (-1 : ℝ)..1, x ^ Function.update (⇑m) a 0 k) (Finset.mem_univ a)]
    have e2 : ∀ v, ∏ k ∈ Finset.univ.erase a, ∫ x in (-1 : ℝ)..1, x ^ Function.update (⇑m) a v k
        = ∏ k ∈ Finset.univ.erase a, ∫ x in (-1 : ℝ)..1, x ^ m k := fun v =>
      Finset.prod_congr rfl fun k hk => by rw [Function.update_of_ne (Finset.ne_of_mem_erase hk)]
    rw [e2, e2]
    simp only [Function.update_self, pow_zero, one_pow]
    rw [show (∫ _ in (-1 : ℝ)..1, (1 : ℝ)) = 2 by rw [intervalIntegral.integral_const]; norm_num]
    have := moment (m a)
    calc _ = r * ((m a : ℝ) * ∫ x in (-1 : ℝ)..1, x ^ (m a - 1)) * ∏ k ∈ Finset.univ.erase a, ∫ x in (-1 : ℝ)..1, x ^ m k := by ring
      _ = _ := by rw [this]; ring
  | add p q hp hq =>
    simp only [map_add]
    rw [integral_add (integrable_eval _) (integrable_eval _),
      integral_add (integrable_eval_update _ _ _) (integrable_eval_update _ _ _),
      integral_add (integrable_eval_update _ _ _) (integrable_eval_update _ _ _), hp, hq]
    ring

/-- What flows out through a pair of opposite faces: the flux of the first component through the face at `s`. -/
noncomputable def faceFlux (x : Fin 3 → MvPolynomial (Fin 3) ℝ) (a : Fin 3) (s : ℝ) : ℝ :=
  1 / 2 * ∫ ξ in cube 3, eval (Function.update ξ a s) (x 0 * (jacobianPoly x).adjugate a 0)

theorem integral_det (x : Fin 3 → MvPolynomial (Fin 3) ℝ) :
    ∫ ξ in cube 3, eval ξ (jacobianPoly x).det = ∑ a, (faceFlux x a 1 - faceFlux x a (-1)) := by
  have e : (jacobianPoly x).det = ∑ a, pderiv a (x 0 * (jacobianPoly x).adjugate a 0) := by
    have h1 := piola x 0
    have h2 := congrFun (congrFun (Matrix.mul_adjugate (jacobianPoly x)) 0) 0
    rw [Matrix.mul_apply, Matrix.smul_apply, Matrix.one_apply_eq, smul_eq_mul, mul_one] at h2
    simp only [pderiv_mul, Finset.sum_add_distrib, ← Finset.mul_sum]
    rw [h1, mul_zero, add_zero, ← h2]
    rfl
  rw [e]
  simp only [map_sum]
  rw [integral_finsetSum _ fun a _ => integrable_eval _]
  refine Finset.sum_congr rfl fun a _ => ?_
  rw [integral_pderiv, faceFlux, faceFlux, mul_sub]

/-! ### what the flux depends on -/

/-- Variable `a` replaced by a number. -/
noncomputable def atFace (a : Fin d) (s : ℝ) : MvPolynomial (Fin d) ℝ →ₐ[ℝ] MvPolynomial (Fin d) ℝ :=
  aeval (Function.update X a (C s))

theorem eval_atFace (a : Fin d) (s : ℝ) (P : MvPolynomial (Fin d) ℝ) (ξ : Fin d → ℝ) :
    eval ξ (atFace a s P) = eval (Function.update ξ a s) P := by
  induction P using MvPolynomial.induction_on with
  | C r => simp [atFace]
  | add p q hp hq => simp only [map_add, hp, hq]
  | mul_X p k hp =>
    simp only [map_mul, hp]
    congr 1
    by_cases hk : k = a
    · subst hk; simp [atFace]
    · simp [atFace, Function.update_of_ne hk]

theorem pderiv_atFace {a b : Fin d} (h : b ≠ a) (s : ℝ) (P : MvPolynomial (Fin d) ℝ) :
    pderiv b (atFace a s P) = atFace a s (pderiv b P) := by
  classical
  induction P using MvPolynomial.induction_on with
  | C r => simp [atFace]
  | add p q hp hq => simp only [map_add, hp, hq]
  | mul_X p k hp =>
    simp only [map_mul, pderiv_mul, map_add, hp]
    congr 2
    by_cases hk : k = a
    · subst hk
      simp [atFace, pderiv_X, h.symm]
    · have : atFace a s (X k) = X k := by simp [atFace, Function.update_of_ne hk]
      rw [this, pderiv_X, Pi.single_apply]
      split_ifs <;> simp

private theorem adjugate_first (z : Fin 3 → MvPolynomial (Fin 3) ℝ) (a : Fin 3) : (jacobianPoly z).adjugate a 0
    = pderiv (a + 1) (z 1) * pderiv (a + 2) (z 2) - pderiv (a + 1) (z 2) * pderiv (a + 2) (z 1) := by
  rw [Matrix.adjugate_fin_three]
  fin_cases a <;> simp [jacobianPoly] <;> ring

/-- Two maps that agree on a face have the same flux through it. -/
theorem faceFlux_congr {x y : Fin 3 → MvPolynomial (Fin 3) ℝ} {a : Fin 3} {s r : ℝ}
    (h : ∀ i ξ, eval (Function.update ξ a s) (x i) = eval (Function.update ξ a r) (y i)) :
    faceFlux x a s = faceFlux y a r := by
  have h1 : ∀ i, atFace a s (x i) = atFace a r (y i) := fun i =>
    MvPolynomial.funext fun ξ => by rw [eval_atFace, eval_atFace, h]
  have h2 : ∀ i b, b ≠ a → atFace a s (pderiv b (x i)) = atFace a r (pderiv b (y i)) := fun i b hb => by
    rw [← pderiv_atFace hb, ← pderiv_atFace hb, h1]
  have h3 : atFace a s ((jacobianPoly x).adjugate a 0) = atFace a r ((jacobianPoly y).adjugate a 0) := by
    have n1 : a + 1 ≠ a := (by decide : ∀ a : Fin 3, a + 1 ≠ a) a
    have n2 : a + 2 ≠ a := (by decide : ∀ a : Fin 3, a + 2 ≠ a) a
    rw [adjugate_first, adjugate_first]
    simp only [map_sub, map_mul, h2 _ _ n1, h2 _ _ n2]
  have h4 : ∀ ξ, eval (Function.update ξ a s) (x 0 * (jacobianPoly x).adjugate a 0)
      = eval (Function.update ξ a r) (y 0 * (jacobianPoly y).adjugate a 0) := fun ξ => by
    rw [← eval_atFace, ← eval_atFace, map_mul (atFace a s), map_mul (atFace a r), h1, h3]
  simp only [faceFlux, h4]

end Verif.Lemmas
