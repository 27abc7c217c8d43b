import Verif.Spec.Cube
import Verif.Lemmas.Quadrature
import Mathlib.MeasureTheory.Integral.Pi
import Mathlib.Algebra.MvPolynomial.Degrees
import Mathlib.MeasureTheory.Measure.Lebesgue.Basic
import Mathlib.Topology.Algebra.MvPolynomial

/-! # Products of quadrature rules -/

namespace Verif.Lemmas

open Verif.Spec MeasureTheory

variable {d : ℕ}

theorem cube_eq : cube d = Set.univ.pi fun _ => Set.Icc (-1 : ℝ) 1 := by
  ext ξ; exact ⟨fun h k _ => h k, fun h k => h k trivial⟩

theorem cube_compact : IsCompact (cube d) := by
  rw [cube_eq]
  exact isCompact_univ_pi fun _ => isCompact_Icc

theorem integral_monomial_cube (m : Fin d → ℕ) :
    ∫ ξ in cube d, ∏ k, ξ k ^ m k = ∏ k, ∫ x in (-1 : ℝ)..1, x ^ m k := by
  rw [cube_eq, volume_pi, Measure.restrict_pi_pi]
  rw [integral_fintype_prod_eq_prod (fun k x => x ^ m k)]
  refine Finset.prod_congr rfl fun k _ => ?_
  rw [intervalIntegral.integral_of_le (by norm_num), integral_Icc_eq_integral_Ioc]

theorem integral_mvPolynomial (P : MvPolynomial (Fin d) ℝ) :
    ∫ ξ in cube d, MvPolynomial.eval ξ P
      = ∑ m ∈ P.support, P.coeff m * ∏ k, ∫ x in (-1 : ℝ)..1, x ^ m k := by
  have : (fun ξ : Fin d → ℝ => MvPolynomial.eval ξ P)
      = fun ξ => ∑ m ∈ P.support, P.coeff m * ∏ k, ξ k ^ m k := by
    funext ξ; rw [MvPolynomial.eval_eq']
  rw [this, integral_finsetSum]
  · refine Finset.sum_congr rfl fun m _ => ?_
    rw [integral_const_mul, integral_monomial_cube]
  · intro m _
    refine ContinuousOn.integrableOn_compact cube_compact ?_
    fun_prop

theorem prod_near {ι : Type} (s : Finset ι) (a b : ι → ℝ) (ε : ℝ) (hε : 0 ≤ ε)
    (hb : ∀ i ∈ s, |b i| ≤ 2) (hab : ∀ i ∈ s, |a i - b i| ≤ ε) :
    |∏ i ∈ s, a i - ∏ i ∈ s, b i| ≤ (2 + ε) ^ s.card - 2 ^ s.card := by
  classical
  induction s using Finset.induction_on with
  | empty => simp
  | insert i s hi ih =>
    rw [Finset.prod_insert hi, Finset.prod_insert hi, Finset.card_insert_of_notMem hi]
    have h1 := ih (fun j hj => hb j (Finset.mem_insert_of_mem hj))
      (fun j hj => hab j (Finset.mem_insert_of_mem hj))
    have h2 := hb i (Finset.mem_insert_self _ _)
    have h3 := hab i (Finset.mem_insert_self _ _)
    have h4 : |∏ j ∈ s, b j| ≤ 2 ^ s.card := by
      rw [Finset.abs_prod]
      refine (Finset.prod_le_prod (fun _ _ => abs_nonneg _)
        (fun j hj => hb j (Finset.mem_insert_of_mem hj))).trans ?_
      rw [Finset.prod_const]
    have h5 : |a i| ≤ 2 + ε := by
      have := abs_add_le (a i - b i) (b i)
      rw [sub_add_cancel] at this
      linarith
    have e : a i * ∏ j ∈ s, a j - b i * ∏ j ∈ s, b j
        = a i * (∏ j ∈ s, a j - ∏ j ∈ s, b j) + (a i - b i) * ∏ j ∈ s, b j := by ring
    rw [e]
    refine (abs_add_le _ _).trans ?_
    rw [abs_mul, abs_mul]
    have h6 : |a i| * |∏ j ∈ s, a j - ∏ j ∈ s, b j| ≤ (2 + ε) * ((2 + ε) ^ s.card - 2 ^ s.card) :=
      mul_le_mul h5 h1 (abs_nonneg _) (by linarith)
    have h7 : |a i - b i| * |∏ j ∈ s, b j| ≤ ε * 2 ^ s.card :=
      mul_le_mul h3 h4 (abs_nonneg _) hε
    calc _ ≤ (2 + ε) * ((2 + ε) ^ s.card - 2 ^ s.card) + ε * 2 ^ s.card := add_le_add h6 h7
      _ = _ := by ring

/-- A product of rules that integrate monomials of degree at most `D k` up to `ε`. -/
theorem tensor_rule {N : Fin d → ℕ} (c w : (k : Fin d) → Fin (N k) → ℝ) (D : Fin d → ℕ) (ε : ℝ) (hε : 0 ≤ ε)
    (hm : ∀ k, ∀ m ≤ D k, |∑ i, w k i * c k i ^ m - ∫ x in (-1 : ℝ)..1, x ^ m| ≤ ε)
    (P : MvPolynomial (Fin d) ℝ) (hP : ∀ k, P.degreeOf k ≤ D k) :
    |∑ q : (k : Fin d) → Fin (N k), (∏ k, w k (q k)) * MvPolynomial.eval (fun k => c k (q k)) P
        - ∫ ξ in cube d, MvPolynomial.eval ξ P|
      ≤ ((2 + ε) ^ d - 2 ^ d) * coeffSum P := by
  have e1 : ∑ q : (k : Fin d) → Fin (N k), (∏ k, w k (q k)) * MvPolynomial.eval (fun k => c k (q k)) P
      = ∑ m ∈ P.support, P.coeff m * ∏ k, ∑ i, w k i * c k i ^ m k := by
    simp only [MvPolynomial.eval_eq', Finset.mul_sum]
    rw [Finset.sum_comm]
    refine Finset.sum_congr rfl fun m _ => ?_
    rw [Finset.prod_univ_sum, Fintype.piFinset_univ, Finset.mul_sum]
    refine Finset.sum_congr rfl fun q _ => ?_
    rw [Finset.prod_mul_distrib]
    ring
  rw [e1, integral_mvPolynomial, ← Finset.sum_sub_distrib, coeffSum, Finset.mul_sum]
  refine (Finset.abs_sum_le_sum_abs _ _).trans (Finset.sum_le_sum fun m hm' => ?_)
  rw [← mul_sub, abs_mul, mul_comm]
  refine mul_le_mul_of_nonneg_right ?_ (abs_nonneg _)
  have := prod_near Finset.univ (fun k => ∑ i, w k i * c k i ^ m k)
    (fun k => ∫ x in (-1 : ℝ)..1, x ^ m k) ε hε (fun k _ => ?_)
    (fun k _ => hm k (m k) ((MvPolynomial.le_degreeOf_of_mem_support k hm').trans (hP k)))
  · simpa using this
  · rw [integral_monomial]
    have h0 : (0 : ℝ) < (m k : ℝ) + 1 := by positivity
    rw [abs_div, abs_of_pos h0, div_le_iff₀ h0]
    have h2 : |(1 : ℝ) - (-1) ^ (m k + 1)| ≤ 2 := by
      rcases neg_one_pow_eq_or ℝ (m k + 1) with h | h <;> rw [h] <;> norm_num
    have h1 : (0 : ℝ) ≤ m k := by positivity
    linarith

end Verif.Lemmas
