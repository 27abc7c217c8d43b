import Verif.Spec.BlockMesh
import Mathlib.Data.Real.Basic

/-! # Meshes of boxes -/

namespace Verif.Spec

/-- The nodes of a mesh of boxes: cell `e` goes from `a i (e i)` to `a i (e i + 1)` in direction `i`, and its nodes lie there
like those of the parent cube. -/
noncomputable def boxNode {order : Fin 3 → ℕ} (c : (k : Fin 3) → Fin (order k + 1) → ℝ) (a : Fin 3 → ℕ → ℝ) (e : Fin 3 → ℕ)
    (idx : (k : Fin 3) → Fin (order k + 1)) (i : Fin 3) : ℝ :=
  a i (e i) + (c i (idx i) + 1) / 2 * (a i (e i + 1) - a i (e i))

end Verif.Spec
