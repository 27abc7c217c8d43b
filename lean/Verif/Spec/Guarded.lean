import Verif.Model.ErrorHandling

/-!
# What bounds checks may change
-/

namespace Verif.Spec

/-- The run was stopped by a bounds check: checks are on, the code is not evaluated by the compiler, and on the host the program was aborted.  On a device what a failed check does is
undefined (see C59). -/
def Stopped (cfg : Config) {α : Type} (r : Res α) : Prop := cfg.boundsCheck = true ∧ cfg.constEval = false ∧ r = if cfg.device then .ub else .abort

/-- With checks (`r`) and without (`r'`) the outcome is the same, unless the run with checks was stopped by one. -/
def SameOrStopped (cfg : Config) {α : Type} (r r' : Res α) : Prop := r = r' ∨ Stopped cfg r

/-- The same for calls that leave a determinant and a matrix: the determinant is the same, and so is the matrix unless a check stopped the run while it was written. -/
def SameOrStoppedInside (cfg : Config) {α β : Type} (r r' : Res (α × Res β)) : Prop :=
  SameOrStopped cfg r r' ∨ ∃ det after after', r = .ok (det, after) ∧ r' = .ok (det, after') ∧ SameOrStopped cfg after after'

end Verif.Spec
