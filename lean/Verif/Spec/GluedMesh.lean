import Verif.Spec.Symmetry
import Mathlib.GroupTheory.Perm.Sign

/-! # Unstructured meshes: cells glued along faces in any orientation -/

namespace Verif.Spec

/-- A symmetry of the cube that is a rotation: it does not exchange left and right. -/
def CubeSymmetry.Proper (s : CubeSymmetry 3) : Prop :=
  (Equiv.Perm.sign s.axis : ℤ) * ∏ k, (if s.flip k then -1 else 1) = 1

/-- A face of a mesh: a cell, a direction, and the upper or the lower end. -/
structure MeshFace (ι : Type) where
  cell : ι
  dir : Fin 3
  upper : Bool

/-- The last node in a direction, or the first. -/
def endNode (m : ℕ) (upper : Bool) : Fin (m + 1) := if upper then Fin.last m else 0

/-- What is glued to a face: another cell, which after renumbering its nodes by a rotation continues the first cell across
the face.  `glue f = none` for a face on the boundary. -/
abbrev Gluing (ι : Type) := MeshFace ι → Option (ι × CubeSymmetry 3)

/-- The face of the other cell: the opposite end of direction `f.dir`, before the renumbering. -/
def MeshFace.other {ι : Type} (f : MeshFace ι) (e : ι) (s : CubeSymmetry 3) : MeshFace ι :=
  ⟨e, s.axis.symm f.dir, if s.flip (s.axis.symm f.dir) then f.upper else !f.upper⟩

/-- The cells are glued by rotations, and gluing is mutual. -/
structure IsGluing {ι : Type} (glue : Gluing ι) : Prop where
  proper : ∀ f e s, glue f = some (e, s) → s.Proper
  back : ∀ f e s, glue f = some (e, s) → ∃ s', glue (f.other e s) = some (f.cell, s') ∧ (f.other e s).other f.cell s' = f

/-- `X e idx` is the position of node `idx` of cell `e`, or a value there: glued faces have their nodes in common. -/
def FitsGluing {ι α : Type} {m : ℕ} (glue : Gluing ι) (X : ι → (Fin 3 → Fin (m + 1)) → α) : Prop :=
  ∀ f e s, glue f = some (e, s) → ∀ idx, X f.cell (Function.update idx f.dir (endNode m f.upper))
    = X e (s.node (Function.update idx f.dir (endNode m !f.upper)))

/-- The same nodes, or values there, on all faces of the boundary. -/
def SameOnBoundary {ι α : Type} {m : ℕ} (glue : Gluing ι) (X X' : ι → (Fin 3 → Fin (m + 1)) → α) : Prop :=
  ∀ f, glue f = none → ∀ idx, idx f.dir = endNode m f.upper → X f.cell idx = X' f.cell idx

end Verif.Spec
