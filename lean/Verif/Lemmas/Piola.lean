import Verif.Lemmas.CellVolume
import Verif.Lemmas.InterpolationError
import Mathlib.LinearAlgebra.Matrix.Adjugate

/-! # Polynomials along lines, and the divergence of the rows of the adjugate of a Jacobian matrix -/

namespace Verif.Lemmas

open Verif.Spec MvPolynomial

variable {d : ℕ}

/-! ### a polynomial along a line -/

/-- The polynomial `F` along the line in direction `a` through `z`. -/
noncomputable def alongLine (a : Fin (d + 1)) (z : Fin d → ℝ) : MvPolynomial (Fin (d + 1)) ℝ →ₐ[ℝ] Polynomial ℝ :=
  aeval (a.insertNth (α := fun _ => Polynomial ℝ) Polynomial.X fun l => Polynomial.C (z l))

theorem alongLine_X_same (a : Fin (d + 1)) (z : Fin d → ℝ) : alongLine a z (X a) = Polynomial.X := by
  simp [alongLine]

theorem alongLine_X_succAbove (a : Fin (d + 1)) (z : Fin d → ℝ) (l : Fin d) :
    alongLine a z (X (a.succAbove l)) = Polynomial.C (z l) := by
  simp [alongLine]

theorem alongLine_eval (a : Fin (d + 1)) (z : Fin d → ℝ) (t : ℝ) (F : MvPolynomial (Fin (d + 1)) ℝ) :
    (alongLine a z F).eval t = eval (a.insertNth (α := fun _ => ℝ) t z) F := by
  induction F using MvPolynomial.induction_on with
  | C c => simp [alongLine]
  | add p q hp hq => simp [hp, hq]
  | mul_X p k hp =>
    rw [map_mul, Polynomial.eval_mul, hp, map_mul, eval_X]
    congr 1
    revert k
    rw [Fin.forall_iff_succAbove a]
    refine ⟨?_, fun l => ?_⟩
    · rw [alongLine_X_same, Fin.insertNth_apply_same, Polynomial.eval_X]
    · rw [alongLine_X_succAbove, Fin.insertNth_apply_succAbove, Polynomial.eval_C]

theorem alongLine_derivative (a : Fin (d + 1)) (z : Fin d → ℝ) (F : MvPolynomial (Fin (d + 1)) ℝ) :
    Polynomial.derivative (alongLine a z F) = alongLine a z (pderiv a F) := by
  induction F using MvPolynomial.induction_on with
  | C c => simp [alongLine]
  | add p q hp hq => simp [hp, hq]
  | mul_X p k hp =>
    rw [map_mul, Polynomial.derivative_mul, hp, pderiv_mul, map_add, map_mul, map_mul]
    congr 2
    revert k
    rw [Fin.forall_iff_succAbove a]
    refine ⟨?_, fun l => ?_⟩
    · rw [alongLine_X_same, pderiv_X_self, Polynomial.derivative_X, map_one]
    · rw [alongLine_X_succAbove, pderiv_X_of_ne (Fin.succAbove_ne a l), Polynomial.derivative_C, map_zero]

theorem alongLine_eq_sum (a : Fin (d + 1)) (z : Fin d → ℝ) (F : MvPolynomial (Fin (d + 1)) ℝ) :
    alongLine a z F = ∑ m ∈ F.support,
      Polynomial.C (F.coeff m * ∏ l, z l ^ m (a.succAbove l)) * Polynomial.X ^ m a := by
  rw [alongLine, aeval_eq_eval₂Hom, coe_eval₂Hom, eval₂_eq']
  refine Finset.sum_congr rfl fun m _ => ?_
  rw [Fin.prod_univ_succAbove _ a]
  simp only [Fin.insertNth_apply_same, Fin.insertNth_apply_succAbove, Polynomial.C_mul, Polynomial.algebraMap_eq,
    map_prod, Polynomial.C_pow]
  ring

theorem alongLine_natDegree (a : Fin (d + 1)) (z : Fin d → ℝ) {F : MvPolynomial (Fin (d + 1)) ℝ} {D : ℕ}
    (h : F.degreeOf a ≤ D) : (alongLine a z F).natDegree ≤ D := by
  rw [alongLine_eq_sum]
  refine Polynomial.natDegree_sum_le_of_forall_le _ _ fun m hm => ?_
  exact (Polynomial.natDegree_C_mul_X_pow_le _ _).trans ((le_degreeOf_of_mem_support a hm).trans h)

theorem alongLine_coeffs (a : Fin (d + 1)) (z : Fin d → ℝ) (hz : ∀ l, |z l| ≤ 1) (F : MvPolynomial (Fin (d + 1)) ℝ)
    (n : ℕ) : ∑ k ∈ Finset.range n, |(alongLine a z F).coeff k| ≤ coeffSum F := by
  rw [alongLine_eq_sum]
  simp only [Polynomial.finsetSum_coeff, Polynomial.coeff_C_mul_X_pow]
  have h1 : ∀ m : Fin (d + 1) →₀ ℕ, |F.coeff m * ∏ l, z l ^ m (a.succAbove l)| ≤ |F.coeff m| := fun m => by
    rw [abs_mul, Finset.abs_prod]
    refine mul_le_of_le_one_right (abs_nonneg _) (Finset.prod_le_one (fun _ _ => abs_nonneg _) fun l _ => ?_)
    rw [abs_pow]
    exact pow_le_one₀ (abs_nonneg _) (hz l)
  calc _ ≤ ∑ k ∈ Finset.range n, ∑ m ∈ F.support, if k = m a then |F.coeff m| else 0 := by
        refine Finset.sum_le_sum fun k _ => (Finset.abs_sum_le_sum_abs _ _).trans (Finset.sum_le_sum fun m _ => ?_)
        split_ifs
        · exact h1 m
        · simp
    _ = ∑ m ∈ F.support, ∑ k ∈ Finset.range n, if k = m a then |F.coeff m| else 0 := Finset.sum_comm
    _ ≤ coeffSum F := by
        refine Finset.sum_le_sum fun m _ => ?_
        rw [Finset.sum_ite_eq']
        split_ifs
        · exact le_rfl
        · exact abs_nonneg _

/-! ### the rows of the adjugate -/

theorem pderiv_comm (i j : Fin d) (p : MvPolynomial (Fin d) ℝ) : pderiv i (pderiv j p) = pderiv j (pderiv i p) := by
  classical
  induction p using MvPolynomial.induction_on with
  | C a => simp
  | add p q hp hq => simp [hp, hq]
  | mul_X p k hp =>
    have h1 : ∀ a b : Fin d, pderiv a (pderiv b (X k : MvPolynomial (Fin d) ℝ)) = 0 := fun a b => by
      rw [pderiv_X, Pi.single_apply]; split_ifs <;> simp
    simp only [pderiv_mul, map_add, hp, h1, mul_zero, add_zero]
    ring

/-- Piola's identity: in each column of the adjugate of a Jacobian matrix the sum of the derivatives vanishes. -/
theorem piola (x : Fin 3 → MvPolynomial (Fin 3) ℝ) (i : Fin 3) :
    ∑ a, pderiv a ((jacobianPoly x).adjugate a i) = 0 := by
  rw [Matrix.adjugate_fin_three, Fin.sum_univ_three]
  have c10 := fun k => pderiv_comm 1 0 (x k)
  have c20 := fun k => pderiv_comm 2 0 (x k)
  have c21 := fun k => pderiv_comm 2 1 (x k)
  fin_cases i <;>
  · simp [jacobianPoly, c10, c20, c21]
    ring

theorem eval_adjugate (x : Fin d → MvPolynomial (Fin d) ℝ) (ξ : Fin d → ℝ) (a i : Fin d) :
    eval ξ ((jacobianPoly x).adjugate a i) = (Matrix.of fun i j => eval ξ (pderiv j (x i))).adjugate a i := by
  have := congrFun (congrFun (RingHom.map_adjugate (eval ξ) (jacobianPoly x)) a) i
  exact this

/-- An entry of row `a` of the adjugate is a sum of two products of derivatives in the other directions. -/
theorem adjugate_row (x : Fin 3 → MvPolynomial (Fin 3) ℝ) (a i : Fin 3) :
    ∃ (b c j k : Fin 3), b ≠ a ∧ c ≠ a ∧
      (jacobianPoly x).adjugate a i = pderiv b (x j) * pderiv c (x k) - pderiv b (x k) * pderiv c (x j) := by
  rw [Matrix.adjugate_fin_three]
  refine ⟨a + 1, a + 2, i + 1, i + 2, by revert a; decide, by revert a; decide, ?_⟩
  fin_cases a <;> fin_cases i <;> simp [jacobianPoly] <;> ring

theorem degreeOf_adjugate (x : Fin 3 → MvPolynomial (Fin 3) ℝ) (o : Fin 3 → ℕ)
    (h : ∀ i k, (x i).degreeOf k ≤ o k) (a i : Fin 3) : ((jacobianPoly x).adjugate a i).degreeOf a ≤ 2 * o a := by
  obtain ⟨b, c, j, k, hb, hc, e⟩ := adjugate_row x a i
  rw [e, sub_eq_add_neg]
  have h1 : ∀ j k, (pderiv b (x j) * pderiv c (x k)).degreeOf a ≤ 2 * o a := fun j k => by
    have h2 := degreeOf_pderiv_le b a (x j) (h j a)
    have h3 := degreeOf_pderiv_le c a (x k) (h k a)
    rw [if_neg hb] at h2
    rw [if_neg hc] at h3
    exact (degreeOf_mul_le _ _ _).trans (by omega)
  exact (degreeOf_add_le _ _ _).trans (max_le (h1 _ _) ((degreeOf_neg _ _).le.trans (h1 _ _)))

theorem coeffSum_adjugate (x : Fin 3 → MvPolynomial (Fin 3) ℝ) {n : ℕ} (h : ∀ i k, (x i).degreeOf k ≤ n) {B : ℝ}
    (hB : ∀ i, coeffSum (x i) ≤ B) (a i : Fin 3) : coeffSum ((jacobianPoly x).adjugate a i) ≤ 2 * (n * B) ^ 2 := by
  obtain ⟨b, c, j, k, -, -, e⟩ := adjugate_row x a i
  rw [e, sub_eq_add_neg]
  have h1 : ∀ l j, coeffSum (pderiv l (x j)) ≤ n * B := fun l j =>
    (coeffSum_pderiv_le l (x j) (h j l)).trans (mul_le_mul_of_nonneg_left (hB j) (Nat.cast_nonneg _))
  have h0 : 0 ≤ n * B := (coeffSum_nonneg _).trans (h1 0 0)
  have h2 : ∀ j k, coeffSum (pderiv b (x j) * pderiv c (x k)) ≤ (n * B) ^ 2 := fun j k => by
    rw [sq]
    exact (coeffSum_mul_le _ _).trans (mul_le_mul (h1 _ _) (h1 _ _) (coeffSum_nonneg _) h0)
  refine (coeffSum_add_le _ _).trans ?_
  rw [coeffSum_neg]
  linarith [h2 j k, h2 k j]

end Verif.Lemmas
