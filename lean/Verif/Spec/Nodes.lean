import Verif.Model.Spacing

/-! # Interpolation nodes of a spacing -/

namespace Verif.Spec

/-- `c` lists the `n` coordinates of the spacing, and they are distinct.  A one-point basis never reads its
coordinate, so nothing is required of it then. -/
structure Nodes (S : Spacing ℝ) (n : ℕ) (c : Fin n → ℝ) : Prop where
  coord : 2 ≤ n → ∀ i : Fin n, S.coordCT (i : ℕ) = .ok (c i)
  distinct : Function.Injective c

end Verif.Spec
