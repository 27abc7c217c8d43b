import Verif.Spec.Element
import Verif.Spec.Mapping

/-! # What a user computes on one cell to get gradients in physical coordinates -/

namespace Verif.Spec

/-- `Du` is what `gradient` returns for the variable, `detJ` what `inverseJacobian` returns, and `Inv` the matrix it
leaves behind, where the determinant is not zero. -/
structure CellGradient (cfg : Config) (t : LinearTransform ℝ) (var : List Int → Res ℝ) (detJ : (Fin 3 → ℝ) → ℝ)
    (Du : (Fin 3 → ℝ) → Fin 3 → ℝ) (Inv : (Fin 3 → ℝ) → Matrix (Fin 3) (Fin 3) ℝ) : Prop where
  gradient : ∀ ξ, ParentElement.gradient (exactArith ℝ) t.shape (List.ofFn ξ) var = .ok (List.ofFn (Du ξ))
  inverse : ∀ ξ, ∃ after, LinearTransform.inverseJacobianValue cfg (exactArith ℝ) t (List.ofFn ξ) = .ok (detJ ξ, after) ∧
    (detJ ξ ≠ 0 → ∃ m, after = .ok m ∧ HoldsMatrix m (Inv ξ))

end Verif.Spec
