import Mathlib.Data.Real.Basic

/-! # Vertices near those of a box -/

namespace Verif.Spec

/-- The vertices `V` (indexed by 0 or 1 in each direction) are those of the box with corner `o` and edges
`len`, component `i` of each displaced by at most `δ i`. -/
def NearBox {d : ℕ} (o len δ : Fin d → ℝ) (V : (Fin d → Fin 2) → Fin d → ℝ) : Prop :=
  ∀ idx i, |V idx i - (o i + if idx i = 0 then 0 else len i)| ≤ δ i

end Verif.Spec
