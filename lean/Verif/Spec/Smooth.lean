import Verif.Model.LagrangeBasis
import Mathlib.Analysis.Calculus.Deriv.Basic
import Mathlib.Algebra.BigOperators.Group.Finset.Basic

/-! # Functions with bounded derivatives on [-1,1], and the sizes of basis functions -/

namespace Verif.Spec

/-- `f` has derivatives up to order `m` on [-1,1] (one-sided at the ends), listed by `D`: `D 0` is `f` and
`D (k+1)` is the derivative of `D k`. -/
structure HasDerivatives (m : ℕ) (f : ℝ → ℝ) (D : ℕ → ℝ → ℝ) : Prop where
  zero : ∀ x ∈ Set.Icc (-1 : ℝ) 1, D 0 x = f x
  succ : ∀ k < m, ∀ x ∈ Set.Icc (-1 : ℝ) 1, HasDerivWithinAt (D k) (D (k + 1) x) (Set.Icc (-1) 1) x

/-- `f` has a derivative of order `m` on [-1,1], and `|f^(m)| ≤ M` there. -/
def DerivativeBounded (m : ℕ) (f : ℝ → ℝ) (M : ℝ) : Prop :=
  ∃ D, HasDerivatives m f D ∧ ∀ x ∈ Set.Icc (-1 : ℝ) 1, |D m x| ≤ M

/-- `f` has a derivative of order `m` on [-1,1], bounded by `M`, and the absolute values of the coefficients of its Taylor
polynomial at 0 of degree `m - 1` sum to at most `A`. -/
def TaylorBounded (m : ℕ) (f : ℝ → ℝ) (M A : ℝ) : Prop :=
  ∃ D, HasDerivatives m f D ∧ (∀ x ∈ Set.Icc (-1 : ℝ) 1, |D m x| ≤ M) ∧
    ∑ k ∈ Finset.range m, |D k 0| / k.factorial ≤ A

/-- At `x`, the absolute values of the `n` basis functions sum to `L`. -/
def ValuesSumTo (b : Basis ℝ) (n : ℕ) (x L : ℝ) : Prop :=
  ∃ φ : Fin n → ℝ, (∀ j : Fin n, b.value (j : ℕ) x = .ok (φ j)) ∧ L = ∑ j, |φ j|

/-- At `x`, the absolute values of the gradients of the `n` basis functions sum to `L`. -/
def GradientsSumTo (b : Basis ℝ) (n : ℕ) (x L : ℝ) : Prop :=
  ∃ γ : Fin n → ℝ, (∀ j : Fin n, b.gradient (j : ℕ) x = .ok (γ j)) ∧ L = ∑ j, |γ j|

end Verif.Spec
