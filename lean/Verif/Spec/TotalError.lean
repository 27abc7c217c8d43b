import Verif.Spec.Stability
import Verif.Spec.Smooth

/-! # The error of interpolating a smooth function -/

namespace Verif.Spec

variable {d : ℕ} (fam : Fin d → Family) (order : Fin d → ℕ) (c : (k : Fin d) → Fin (order k + 1) → ℝ) (M x : Fin d → ℝ)

/-- What direction `k` contributes to the error of the value at `x`: `M k` bounds the derivative of order `order k + 1`, and `c k` are the points. -/
noncomputable def lineTruncation (k : Fin d) : ℝ := M k / (order k + 1).factorial * ∏ i, |x k - c k i|

/-- Bound of the error of interpolated values in exact arithmetic. -/
noncomputable def truncation : ℝ := ∑ k, (∏ j with j < k, ((fam j).amplification (order j) : ℝ)) * lineTruncation order c M x k

/-- Bound of the error of component `a` of the gradient in exact arithmetic. -/
noncomputable def gradientTruncation (a : Fin d) : ℝ :=
  M a / (order a).factorial * 2 ^ order a + ((fam a).steepness (order a) : ℝ) *
    ∑ k with k ≠ a, (∏ j with j < k ∧ j ≠ a, ((fam j).amplification (order j) : ℝ)) * lineTruncation order c M x k

/-- `f` has a derivative of order `m` on the interval from `a` to `b`, and it is at most `M` there. -/
def DerivativeBoundedOn (a b : ℝ) (m : ℕ) (f : ℝ → ℝ) (M : ℝ) : Prop :=
  ∃ D : ℕ → ℝ → ℝ, (∀ x ∈ Set.Icc a b, D 0 x = f x) ∧
    (∀ k < m, ∀ x ∈ Set.Icc a b, HasDerivWithinAt (D k) (D (k + 1) x) (Set.Icc a b) x) ∧ ∀ x ∈ Set.Icc a b, |D m x| ≤ M

/-- The point of the box with corner `p` and edges `H` that belongs to the point `ξ` of the parent cell. -/
noncomputable def boxPoint {d : ℕ} (p H ξ : Fin d → ℝ) (k : Fin d) : ℝ := p k + (ξ k + 1) * (H k / 2)

end Verif.Spec
