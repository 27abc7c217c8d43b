import Verif.Spec.Mixed
import Verif.Spec.GaussRule

/-! # The error of integrating a smooth function -/

namespace Verif.Spec

/-- Bound of the error of a product of rules for a function whose derivative of order `degree + 1` in direction `k` is at most `M k` and whose Taylor
coefficients in this direction sum to at most `A k`; `τ` is the accuracy of points and weights. -/
noncomputable def quadratureTruncation {d : ℕ} (r : Fin d → Rule) (n : Fin d → ℕ) (τ : ℝ) (M A : Fin d → ℝ) : ℝ :=
  (2 + τ) ^ (d - 1) * ∑ k, ((4 + τ) * (M k / ((r k).degree (n k) + 1).factorial) + τ * A k)

end Verif.Spec
