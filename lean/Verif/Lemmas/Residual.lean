import Verif.Spec.Residual
import Mathlib.LinearAlgebra.Matrix.NonsingularInverse
import Mathlib.Tactic.Positivity
import Mathlib.Tactic.Linarith

/-! # Products of a matrix with an approximation of its inverse -/

namespace Verif.Lemmas

open Verif.Spec

theorem nearlyInverse {B M P : Matrix (Fin 3) (Fin 3) ℝ} (hD : M.det ≠ 0) {a s C : ℝ} (hs : 0 ≤ s) (hC : ∀ i j, |M i j| ≤ C)
    (h : ∀ i j, |P i j - M⁻¹ i j| ≤ a * adjMagnitude B i j + s) : NearlyInverse B M P a (3 * C * s) := by
  have hu : IsUnit M.det := isUnit_iff_ne_zero.2 hD
  intro i j
  constructor
  · have e : (P * M) i j - (1 : Matrix (Fin 3) (Fin 3) ℝ) i j = ∑ k, (P i k - M⁻¹ i k) * M k j := by
      rw [← Matrix.nonsing_inv_mul M hu, Matrix.mul_apply, Matrix.mul_apply, ← Finset.sum_sub_distrib]
      exact Finset.sum_congr rfl fun k _ => by ring
    rw [e]
    refine (Finset.abs_sum_le_sum_abs _ _).trans ?_
    have : ∀ k, |(P i k - M⁻¹ i k) * M k j| ≤ a * (adjMagnitude B i k * |M k j|) + C * s := fun k => by
      rw [abs_mul]
      have h1 := mul_le_mul_of_nonneg_right (h i k) (abs_nonneg (M k j))
      have h2 := mul_le_mul_of_nonneg_left (hC k j) hs
      linarith
    refine (Finset.sum_le_sum fun k _ => this k).trans (le_of_eq ?_)
    rw [Finset.sum_add_distrib, ← Finset.mul_sum, leftMagnitude]
    simp
    ring
  · have e : (M * P) i j - (1 : Matrix (Fin 3) (Fin 3) ℝ) i j = ∑ k, M i k * (P k j - M⁻¹ k j) := by
      rw [← Matrix.mul_nonsing_inv M hu, Matrix.mul_apply, Matrix.mul_apply, ← Finset.sum_sub_distrib]
      exact Finset.sum_congr rfl fun k _ => by ring
    rw [e]
    refine (Finset.abs_sum_le_sum_abs _ _).trans ?_
    have : ∀ k, |M i k * (P k j - M⁻¹ k j)| ≤ a * (|M i k| * adjMagnitude B k j) + C * s := fun k => by
      rw [abs_mul]
      have h1 := mul_le_mul_of_nonneg_left (h k j) (abs_nonneg (M i k))
      have h2 := mul_le_mul_of_nonneg_right (hC i k) hs
      linarith
    refine (Finset.sum_le_sum fun k _ => this k).trans (le_of_eq ?_)
    rw [Finset.sum_add_distrib, ← Finset.mul_sum, rightMagnitude]
    simp
    ring

end Verif.Lemmas
