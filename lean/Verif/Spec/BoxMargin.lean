import Mathlib.Data.Real.Basic
import Mathlib.Algebra.BigOperators.Fin
import Mathlib.Algebra.Order.Group.Abs

/-! # How far a distorted box is from being degenerate -/

namespace Verif.Spec

/-- The smallest magnitude the determinant of the Jacobian can have on a box with edges `len` whose vertices are displaced by at most `δ`. -/
noncomputable def boxMargin (len δ : Fin 3 → ℝ) : ℝ := ∏ i, (|len i| / 2 - 3 * δ i)

/-- The largest magnitude it can have. -/
noncomputable def boxReach (len δ : Fin 3 → ℝ) : ℝ := ∏ i, (|len i| / 2 + 3 * δ i)

end Verif.Spec
