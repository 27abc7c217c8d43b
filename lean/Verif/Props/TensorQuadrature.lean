import Verif.Lemmas.TensorQuadrature
import Verif.Props.Quadrature
import Verif.Props.RoundedNodes

/-! # Property C65: products of quadrature rules on the parent cube -/

namespace Verif.Props

open Verif.Spec Verif.Lemmas MeasureTheory

variable {d : ℕ}

/-- From polynomials to monomials. -/
private theorem monomials {N D E : ℕ} {c w : Fin N → ℝ} {δ ε : ℝ} (hDE : D < E) (hδ : δ ≤ ε)
    (h : ∀ p : Polynomial ℝ, p.natDegree ≤ D →
      |∑ i, w i * p.eval (c i) - ∫ x in (-1 : ℝ)..1, p.eval x| ≤ δ * ∑ k ∈ Finset.range E, |p.coeff k|)
    (m : ℕ) (hm : m ≤ D) : |∑ i, w i * c i ^ m - ∫ x in (-1 : ℝ)..1, x ^ m| ≤ ε := by
  have h1 := h (Polynomial.X ^ m) ((Polynomial.natDegree_X_pow_le m).trans hm)
  simp only [Polynomial.eval_pow, Polynomial.eval_X, Polynomial.coeff_X_pow] at h1
  have h2 : ∑ k ∈ Finset.range E, |(if k = m then (1 : ℝ) else 0)| = 1 := by
    rw [Finset.sum_eq_single m]
    · simp
    · intro k _ hk; simp [hk]
    · intro hk; exact absurd (Finset.mem_range.2 (by omega)) hk
  rw [h2, mul_one] at h1
  exact h1.trans hδ

/-- **C65.** Take a quadrature rule in each of `d` directions, from either family and with any supported
number of points.  The sum over all tuples of points of the product of the weights times the value of a
polynomial `P` at the tuple of coordinates is the integral of `P` over `[-1,1]^d`, whenever the degree of
`P` in each variable is at most that of the rule (2N-1 or 2N-3), up to `(2+ε)^d - 2^d` times the sum of
the absolute values of the coefficients, `ε` being the accuracy of the decimals. -/
theorem C65_tensor_rule (F : Fin d → RuleFamily) (N : Fin d → ℕ) (hS : ∀ k, (F k).Supports (N k))
    (ε : ℝ) (hε : 0 ≤ ε) (htol : ∀ k, (F k).tolerance (N k) ≤ ε) :
    ∃ c w : (k : Fin d) → Fin (N k) → ℝ,
      (∀ k (i : Fin (N k)), ((F k).rule (exactArith ℝ) (N k)).coordCT (i : ℕ) = .ok (c k i)) ∧
      (∀ k (i : Fin (N k)), ((F k).rule (exactArith ℝ) (N k)).weightCT (i : ℕ) = .ok (w k i)) ∧
      ∀ P : MvPolynomial (Fin d) ℝ, (∀ k, P.degreeOf k ≤ (F k).degree (N k)) →
        |∑ q : (k : Fin d) → Fin (N k), (∏ k, w k (q k)) * MvPolynomial.eval (fun k => c k (q k)) P
            - ∫ ξ in cube d, MvPolynomial.eval ξ P|
          ≤ ((2 + ε) ^ d - 2 ^ d) * coeffSum P := by
  have one : ∀ k, ∃ c w : Fin (N k) → ℝ,
      (∀ i : Fin (N k), ((F k).rule (exactArith ℝ) (N k)).coordCT (i : ℕ) = .ok (c i)) ∧
      (∀ i : Fin (N k), ((F k).rule (exactArith ℝ) (N k)).weightCT (i : ℕ) = .ok (w i)) ∧
      ∀ m ≤ (F k).degree (N k), |∑ i, w i * c i ^ m - ∫ x in (-1 : ℝ)..1, x ^ m| ≤ ε := by
    intro k
    have h := hS k
    have ht := htol k
    generalize F k = G at h ht ⊢
    cases G with
    | gaussLegendre =>
      obtain ⟨c, w, h1, h2, h3⟩ := C29_gaussLegendre_exact (N k) h.1 h.2
      have := h.1
      exact ⟨c, w, h1, h2, monomials (by simp only [RuleFamily.degree]; omega) ht h3⟩
    | gaussLobatto =>
      obtain ⟨c, w, h1, h2, h3⟩ := C30_gaussLobatto_exact (N k) h.1 h.2
      have := h.1
      exact ⟨c, w, h1, h2, monomials (by simp only [RuleFamily.degree]; omega) ht h3⟩
  choose c w h1 h2 h3 using one
  exact ⟨c, w, h1, h2, fun P hP => tensor_rule c w _ ε hε h3 P hP⟩

/-- **C65 in floating point.** With unit roundoff `u ≤ 1/1000` the same holds for the computed coordinates
and weights, the sums and products being taken exactly, and `ε` increased by `1700 * u`. -/
theorem C65_tensor_rule_rounded {fl : ℝ → ℝ} {u : ℝ} (hr : Rounds fl u) (hu : 1000 * u ≤ 1)
    (F : Fin d → RuleFamily) (N : Fin d → ℕ) (hS : ∀ k, (F k).Supports (N k))
    (ε : ℝ) (hε : 0 ≤ ε) (htol : ∀ k, (F k).tolerance (N k) + 1700 * u ≤ ε) :
    ∃ c w : (k : Fin d) → Fin (N k) → ℝ,
      (∀ k (i : Fin (N k)), ((F k).rule (roundedArith fl) (N k)).coordCT (i : ℕ) = .ok (c k i)) ∧
      (∀ k (i : Fin (N k)), ((F k).rule (roundedArith fl) (N k)).weightCT (i : ℕ) = .ok (w k i)) ∧
      ∀ P : MvPolynomial (Fin d) ℝ, (∀ k, P.degreeOf k ≤ (F k).degree (N k)) →
        |∑ q : (k : Fin d) → Fin (N k), (∏ k, w k (q k)) * MvPolynomial.eval (fun k => c k (q k)) P
            - ∫ ξ in cube d, MvPolynomial.eval ξ P|
          ≤ ((2 + ε) ^ d - 2 ^ d) * coeffSum P := by
  have one : ∀ k, ∃ c w : Fin (N k) → ℝ,
      (∀ i : Fin (N k), ((F k).rule (roundedArith fl) (N k)).coordCT (i : ℕ) = .ok (c i)) ∧
      (∀ i : Fin (N k), ((F k).rule (roundedArith fl) (N k)).weightCT (i : ℕ) = .ok (w i)) ∧
      ∀ m ≤ (F k).degree (N k), |∑ i, w i * c i ^ m - ∫ x in (-1 : ℝ)..1, x ^ m| ≤ ε := by
    intro k
    have h := hS k
    have ht := htol k
    generalize F k = G at h ht ⊢
    cases G with
    | gaussLegendre =>
      obtain ⟨c, w, h1, h2, -, h3⟩ := C64_gaussLegendre hr hu (N k) h.1 h.2
      have := h.1
      exact ⟨c, w, h1, h2, monomials (by simp only [RuleFamily.degree]; omega) ht h3⟩
    | gaussLobatto =>
      obtain ⟨c, w, h1, h2, -, h3⟩ := C64_gaussLobatto hr hu (N k) h.1 h.2
      have := h.1
      exact ⟨c, w, h1, h2, monomials (by simp only [RuleFamily.degree]; omega) ht h3⟩
  choose c w h1 h2 h3 using one
  exact ⟨c, w, h1, h2, fun P hP => tensor_rule c w _ ε hε h3 P hP⟩

/-- Non-vacuity of C65: a mixed rule in two directions and a polynomial whose integral is 4/15. -/
example : (∀ k, (![RuleFamily.gaussLegendre, .gaussLobatto] k).Supports (![2, 4] k)) ∧
    (∀ k, (![RuleFamily.gaussLegendre, .gaussLobatto] k).tolerance (![2, 4] k) ≤ 1 / 10 ^ 32) ∧
    (∀ k, (MvPolynomial.X 0 ^ 2 * MvPolynomial.X 1 ^ 4 : MvPolynomial (Fin 2) ℝ).degreeOf k
      ≤ (![RuleFamily.gaussLegendre, .gaussLobatto] k).degree (![2, 4] k)) ∧
    ∫ ξ in cube 2, MvPolynomial.eval ξ (MvPolynomial.X 0 ^ 2 * MvPolynomial.X 1 ^ 4 : MvPolynomial (Fin 2) ℝ)
      = 4 / 15 := by
  refine ⟨fun k => ?_, fun k => ?_, fun k => ?_, ?_⟩
  · fin_cases k <;> simp [RuleFamily.Supports]
  · fin_cases k <;> norm_num [RuleFamily.tolerance]
  · classical
    refine (MvPolynomial.degreeOf_mul_le _ _ _).trans ?_
    refine (add_le_add (MvPolynomial.degreeOf_pow_le _ _ _) (MvPolynomial.degreeOf_pow_le _ _ _)).trans ?_
    rw [MvPolynomial.degreeOf_X, MvPolynomial.degreeOf_X]
    fin_cases k <;> simp [RuleFamily.degree]
  · have := integral_monomial_cube (![2, 4] : Fin 2 → ℕ)
    simp only [Fin.prod_univ_two] at this
    simp only [map_mul, map_pow, MvPolynomial.eval_X]
    refine Eq.trans ?_ (this.trans ?_)
    · rfl
    · norm_num [integral_pow]

end Verif.Props
