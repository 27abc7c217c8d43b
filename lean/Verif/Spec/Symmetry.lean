import Mathlib.Data.Fin.Rev
import Mathlib.Data.Real.Basic
import Mathlib.Logic.Equiv.Defs

/-! # Symmetries of the parent cube -/

namespace Verif.Spec

/-- A symmetry of the cube `[-1,1]^d`: coordinate `k` of the image of a point is coordinate `axis k` of the
point, mirrored if `flip k`. -/
structure CubeSymmetry (d : ℕ) where
  axis : Equiv.Perm (Fin d)
  flip : Fin d → Bool

/-- The image of a point. -/
def CubeSymmetry.point {d : ℕ} (s : CubeSymmetry d) (x : Fin d → ℝ) : Fin d → ℝ :=
  fun k => if s.flip k then -x (s.axis k) else x (s.axis k)

/-- The image of a node index when every direction has the same `n` nodes; mirroring reverses their order. -/
def CubeSymmetry.node {d n : ℕ} (s : CubeSymmetry d) (idx : Fin d → Fin n) : Fin d → Fin n :=
  fun k => if s.flip k then (idx (s.axis k)).rev else idx (s.axis k)

end Verif.Spec
