import Mathlib.Data.Real.Basic
import Mathlib.Logic.Function.Basic

/-! # Nodal values and points in order along an axis -/

namespace Verif.Spec

/-- The nodal values `y` of an element of order one do not decrease in direction `k`: of any two nodes that differ in direction `k` only, the upper
one has at least the value of the lower one. -/
def NodesIncrease {d : ℕ} (k : Fin d) (y : (Fin d → Fin 2) → ℝ) : Prop :=
  ∀ i : Fin d → Fin 2, y (Function.update i k 0) ≤ y (Function.update i k 1)

/-- `x'` is `x` moved up in direction `k`, or `x` itself. -/
structure MovedUp {d : ℕ} (k : Fin d) (x x' : Fin d → ℝ) : Prop where
  other : ∀ j, j ≠ k → x j = x' j
  along : x k ≤ x' k

end Verif.Spec
