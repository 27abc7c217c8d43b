import Mathlib.Data.Real.Basic
import Mathlib.Logic.Function.Basic

/-! # Parts of the parent element -/

namespace Verif.Spec

/-- The point of a part of the parent element that has coordinates `x` in the part: the part has centre `a` and half lengths `s`. -/
def inPart {d : ℕ} (a s x : Fin d → ℝ) : Fin d → ℝ := fun k => a k + s k * x k

/-- The part of the parent cube below the plane `ξ_k = τ`: centre and half lengths. -/
noncomputable def lowCentre {d : ℕ} (k : Fin d) (τ : ℝ) : Fin d → ℝ := fun i => if i = k then (τ - 1) / 2 else 0

@[inherit_doc lowCentre]
noncomputable def lowLength {d : ℕ} (k : Fin d) (τ : ℝ) : Fin d → ℝ := fun i => if i = k then (τ + 1) / 2 else 1

/-- The part of the parent cube above the plane `ξ_k = τ`: centre and half lengths. -/
noncomputable def upCentre {d : ℕ} (k : Fin d) (τ : ℝ) : Fin d → ℝ := fun i => if i = k then (1 + τ) / 2 else 0

@[inherit_doc upCentre]
noncomputable def upLength {d : ℕ} (k : Fin d) (τ : ℝ) : Fin d → ℝ := fun i => if i = k then (1 - τ) / 2 else 1

end Verif.Spec
