import Mathlib.Data.Real.Basic
import Mathlib.Data.Fin.VecNotation

/-!
# Control values

A polynomial of degree two in one variable is determined by its values at -1, 0 and 1.  Its control values on `[-1,1]` are the coefficients of its
Bernstein form; they are computed from the three values.
-/

namespace Verif.Spec

/-- The points -1, 0 and 1. -/
def threePoints : Fin 3 → ℝ := ![-1, 0, 1]

/-- The control values of a polynomial of degree two with the values `v` at -1, 0 and 1. -/
noncomputable def control (v : Fin 3 → ℝ) : Fin 3 → ℝ := ![v 0, 2 * v 1 - (v 0 + v 2) / 2, v 2]

/-- The control values of a polynomial of degree two in each of three variables with the values `v` at the 27 points with coordinates -1, 0 and 1: the
control values in one direction after the other. -/
noncomputable def control3 (v : Fin 3 → Fin 3 → Fin 3 → ℝ) (i j k : Fin 3) : ℝ :=
  control (fun c => control (fun b => control (fun a => v a b c) i) j) k

end Verif.Spec
