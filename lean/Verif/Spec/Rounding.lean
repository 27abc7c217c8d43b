import Mathlib.Algebra.Order.Round
import Mathlib.Data.Int.Log
import Mathlib.Data.Real.Basic
import Mathlib.Algebra.BigOperators.Fin
import Mathlib.Algebra.Order.Archimedean.Real.Basic
import Mathlib.Data.Fintype.Perm
import Mathlib.Data.Matrix.Basic
import Verif.Spec.Element

/-! # Rounding functions and error bounds -/

namespace Verif.Spec

/-- `fl` rounds every real number with a relative error of at most `u`. -/
structure Rounds (fl : ℝ → ℝ) (u : ℝ) : Prop where
  nonneg : 0 ≤ u
  le_half : u ≤ 1 / 2
  err : ∀ x, |fl x - x| ≤ u * |x|

/-- The error bound `(1 + u)^k - 1` of `k` roundings in a row; to first order `k * u`. -/
noncomputable def errBound (u : ℝ) (k : ℕ) : ℝ := (1 + u) ^ k - 1

/-- Rounding to nearest with a significand of `p + 1` bits and an unbounded exponent. -/
noncomputable def binaryRound (p : ℕ) (x : ℝ) : ℝ :=
  round (x * 2 ^ ((p : ℤ) - Int.log 2 |x|)) / 2 ^ ((p : ℤ) - Int.log 2 |x|)

/-- As `IsLagrange`, for code running in the arithmetic `A`: `c k` are the nodes the code computes. -/
structure IsLagrangeIn (A : Arith ℝ) {d : ℕ} (order : Fin d → ℕ)
    (c : (k : Fin d) → Fin (order k + 1) → ℝ) (e : Element ℝ) : Prop where
  dims : 0 < d
  shape : e.shapeDims = .ok d
  bases : ∃ b : Fin d → Basis ℝ, e.bases = List.ofFn b ∧
    ∀ k, order k < 2147483647 ∧ ∃ S : Int → Spacing ℝ,
      Nodes (S ((order k + 1 : ℕ) : Int)) (order k + 1) (c k) ∧
      lagrangeBasis A S (order k) = .ok (b k)

/-- Number of roundings the interpolation bound allows: `7 * order + 2` in each direction, and one for each
support point. -/
def interpolationRoundings {d : ℕ} (order : Fin d → ℕ) : ℕ :=
  (∑ k, (7 * order k + 2)) + ∏ k, (order k + 1)

/-- Number of roundings the gradient bound allows. -/
def gradientRoundings {d : ℕ} (order : Fin d → ℕ) : ℕ :=
  (∑ k, (8 * order k + 12)) + ∏ k, (order k + 1)

/-- The sum of the absolute values of the terms of the derivative of basis function `j`. -/
noncomputable def derivMagnitude {n : ℕ} (c : Fin n → ℝ) (j : Fin n) (x : ℝ) : ℝ :=
  ∑ a ∈ Finset.univ.erase j, |1 / (c j - c a)| *
    ∏ t ∈ (Finset.univ.erase j).erase a, |(x - c t) / (c j - c t)|

/-- Component `i` of the point of the cell with support points `X` that belongs to the parent point `ξ`:
`Σ_a N_a(ξ) X_a`, with the tensor-product Lagrange functions `N_a` on the nodes `c`. -/
noncomputable def cellMap {d : ℕ} {order : Fin d → ℕ} (c : (k : Fin d) → Fin (order k + 1) → ℝ)
    (X : ((k : Fin d) → Fin (order k + 1)) → Fin d → ℝ) (ξ : Fin d → ℝ) (i : Fin d) : ℝ :=
  ∑ idx, (∏ k, ∏ t ∈ Finset.univ.erase (idx k), (ξ k - c k t) / (c k (idx k) - c k t)) * X idx i

/-- The sum of the absolute values of the terms of the derivative of `cellMap c X · i` in direction `j`. -/
noncomputable def cellMagnitude {d : ℕ} {order : Fin d → ℕ} (c : (k : Fin d) → Fin (order k + 1) → ℝ)
    (X : ((k : Fin d) → Fin (order k + 1)) → Fin d → ℝ) (ξ : Fin d → ℝ) : Matrix (Fin d) (Fin d) ℝ :=
  fun i j => ∑ idx, (∏ k, if j = k then derivMagnitude (c k) (idx k) (ξ k)
    else |∏ t ∈ Finset.univ.erase (idx k), (ξ k - c k t) / (c k (idx k) - c k t)|) * |X idx i|

/-- The sum of the absolute values of the terms of the determinant of `M`. -/
noncomputable def detMagnitude {n : ℕ} (M : Matrix (Fin n) (Fin n) ℝ) : ℝ :=
  ∑ σ : Equiv.Perm (Fin n), ∏ i, |M (σ i) i|

/-- The sum of the absolute values of the terms of entry `(i,j)` of the adjugate of `M`: the terms of the
determinant of `M` without row `j` and column `i`. -/
noncomputable def adjMagnitude (M : Matrix (Fin 3) (Fin 3) ℝ) (i j : Fin 3) : ℝ :=
  detMagnitude (M.submatrix j.succAbove i.succAbove)

end Verif.Spec
