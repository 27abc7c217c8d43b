import Mathlib.Data.Finset.Powerset
import Mathlib.Data.Fintype.Pi
import Mathlib.Data.Fintype.Option
import Mathlib.Data.Real.Basic
import Mathlib.Algebra.BigOperators.Fin

/-!
# Faces of cubes and simplices

Independent of the code: sets whose sizes the code is supposed to report.
-/

namespace Verif.Spec

/-- The `m`-dimensional faces of the `n`-cube: in each direction a face is at the low side, at the high
side, or spans the direction (`none`); an `m`-face spans exactly `m` directions. -/
def cubeFaces (n m : ℕ) : Finset (Fin n → Option Bool) :=
  Finset.univ.filter fun f => (Finset.univ.filter fun i => f i = none).card = m

/-- The `m`-dimensional faces of the `n`-simplex: the sets of `m+1` of its `n+1` vertices. -/
def simplexFaces (n m : ℕ) : Finset (Finset (Fin (n + 1))) :=
  Finset.univ.filter fun s => s.card = m + 1

/-- The box `[lo,hi]^n`. -/
def box (n : ℕ) (lo hi : ℝ) : Set (Fin n → ℝ) := {x | ∀ i, lo ≤ x i ∧ x i ≤ hi}

/-- The corner simplex of the box `[lo,lo+l]^n` at its low corner. -/
def cornerSimplex (n : ℕ) (lo l : ℝ) : Set (Fin n → ℝ) :=
  {x | (∀ i, lo ≤ x i) ∧ ∑ i, (x i - lo) ≤ l}

end Verif.Spec
