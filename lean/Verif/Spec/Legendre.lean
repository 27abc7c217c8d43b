import Mathlib.Algebra.Polynomial.Derivative
import Mathlib.Data.Real.Basic

/-!
# Legendre polynomials

The defining polynomials of the Gauss points, by Bonnet's recursion
`(n+2) P_{n+2} = (2n+3) x P_{n+1} - (n+1) P_n`.
-/

namespace Verif.Spec

open Polynomial

/-- The Legendre polynomial `P_n`. -/
noncomputable def legendre : ℕ → ℝ[X]
  | 0 => 1
  | 1 => X
  | n + 2 => C (1 / ((n : ℝ) + 2)) *
      (C (2 * (n : ℝ) + 3) * X * legendre (n + 1) - C ((n : ℝ) + 1) * legendre n)

/-- `(1 - x^2) P'_{N-1}(x)`, whose roots are the `N` Gauss-Lobatto points. -/
noncomputable def lobattoPoly (N : ℕ) : ℝ[X] := (1 - X ^ 2) * derivative (legendre (N - 1))

end Verif.Spec
