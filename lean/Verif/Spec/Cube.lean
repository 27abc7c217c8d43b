import Verif.Model.Quadrature
import Mathlib.Algebra.MvPolynomial.Basic
import Mathlib.Data.Real.Basic

/-! # The parent cube and quadrature rules on it -/

namespace Verif.Spec

/-- The parent cube `[-1,1]^d`. -/
def cube (d : ℕ) : Set (Fin d → ℝ) := {ξ | ∀ k, -1 ≤ ξ k ∧ ξ k ≤ 1}

/-- The sum of the absolute values of the coefficients of a polynomial. -/
def coeffSum {d : ℕ} (P : MvPolynomial (Fin d) ℝ) : ℝ := ∑ m ∈ P.support, |P.coeff m|

/-- The two families of quadrature rules. -/
inductive RuleFamily where
  | gaussLegendre
  | gaussLobatto
  deriving DecidableEq, Repr

/-- The class template of a family. -/
def RuleFamily.rule {R : Type} (A : Arith R) : RuleFamily → Int → Quadrature R
  | .gaussLegendre => quadratureGaussLegendre A
  | .gaussLobatto => quadratureGaussLobatto A

/-- The numbers of points for which the family has a rule. -/
def RuleFamily.Supports : RuleFamily → ℕ → Prop
  | .gaussLegendre, N => 2 ≤ N ∧ N ≤ 4
  | .gaussLobatto, N => 2 ≤ N ∧ N ≤ 9

/-- The degree up to which the true rule is exact. -/
def RuleFamily.degree : RuleFamily → ℕ → ℕ
  | .gaussLegendre, N => 2 * N - 1
  | .gaussLobatto, N => 2 * N - 3

/-- How far the decimals of the nodes and weights let a rule be from exact. -/
noncomputable def RuleFamily.tolerance : RuleFamily → ℕ → ℝ
  | .gaussLegendre, _ => 1 / 10 ^ 33
  | .gaussLobatto, N => if N ≤ 5 then 2 / 10 ^ 33 else 2 / 10 ^ 14

end Verif.Spec
