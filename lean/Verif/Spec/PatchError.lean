import Verif.Spec.Float
import Verif.Spec.Mixed

/-! # Error bounds for gradients in physical coordinates -/

namespace Verif.Spec

/-- The error of an entry of the computed inverse Jacobian of a hexahedron with coordinates up to `B` and a determinant of at least `Δ`. -/
noncomputable def inverseError (T : RealType) (B Δ : ℝ) : ℝ :=
  2 * (418 * unitRoundoff T.format + 2509 * unitRoundoff T.format * B ^ 3 / Δ) * (2 * B ^ 2 / Δ) + 2 ^ 82 * B ^ 2 * max 1 (2 / Δ) * smallestPositive T.format

/-- The error of a gradient in physical coordinates, for nodal values up to `Y`. -/
noncomputable def physicalError (T : RealType) (B Y Δ : ℝ) : ℝ :=
  3 * (137 * unitRoundoff T.format * Y * (2 * B ^ 2 / Δ + inverseError T B Δ) + Y * inverseError T B Δ)

end Verif.Spec
