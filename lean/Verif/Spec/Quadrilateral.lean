import Mathlib.Data.Real.Basic
import Mathlib.Data.Fin.VecNotation

/-! # Quadrilaterals -/

namespace Verif.Spec

/-- Twice the area of the triangle `p q r`, positive if `r` lies to the left of the line from `p` to `q`. -/
def turn (p q r : Fin 2 → ℝ) : ℝ := (q 0 - p 0) * (r 1 - p 1) - (q 1 - p 1) * (r 0 - p 0)

/-- The corners of a quadrilateral with vertex `V (a, b)` at support point `(a, b)`, in the order in which they follow each other along its boundary. -/
def corners (V : (Fin 2 → Fin 2) → Fin 2 → ℝ) : Fin 4 → Fin 2 → ℝ := ![V ![0, 0], V ![1, 0], V ![1, 1], V ![0, 1]]

/-- Going round the quadrilateral one turns left at every corner: it is strictly convex and its corners are numbered counter-clockwise. -/
def LeftTurns (P : Fin 4 → Fin 2 → ℝ) : Prop := ∀ i, 0 < turn (P i) (P (i + 1)) (P (i + 2))

/-- The area of a quadrilateral from its corners: two triangles. -/
noncomputable def quadrilateralArea (P : Fin 4 → Fin 2 → ℝ) : ℝ := turn (P 0) (P 1) (P 2) / 2 + turn (P 0) (P 2) (P 3) / 2

/-- A hexahedron with vertical edges, as in a mesh made of layers: the horizontal coordinates of the upper vertices are those of the lower ones, every upper vertex
lies above the lower one, and seen from above the cell is a strictly convex quadrilateral with its corners numbered counter-clockwise. -/
structure VerticalEdges (V : (Fin 3 → Fin 2) → Fin 3 → ℝ) : Prop where
  vertical : ∀ a b, V ![a, b, 1] 0 = V ![a, b, 0] 0 ∧ V ![a, b, 1] 1 = V ![a, b, 0] 1
  upward : ∀ a b, V ![a, b, 0] 2 < V ![a, b, 1] 2
  base : LeftTurns (corners fun idx => ![V ![idx 0, idx 1, 0] 0, V ![idx 0, idx 1, 0] 1])

end Verif.Spec
