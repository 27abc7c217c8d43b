import Verif.Spec.Mapping

/-!
# The half edges of a hexahedron at a vertex (specification of C156)
-/

namespace Verif.Spec

/-- The matrix whose column `k` is half of the edge in direction `k` that starts or ends at vertex `v`: the end with the larger parent coordinate minus the other
one, divided by 2. -/
noncomputable def halfEdges {d : ℕ} (X : (Fin d → Fin 2) → Fin d → ℝ) (v : Fin d → Fin 2) : Matrix (Fin d) (Fin d) ℝ :=
  fun i k => (X (Function.update v k 1) i - X (Function.update v k 0) i) / 2

/-- The parent coordinates of vertex `v`. -/
def vertexPoint {d : ℕ} (v : Fin d → Fin 2) : Fin d → ℝ := fun k => if v k = 0 then -1 else 1

end Verif.Spec
