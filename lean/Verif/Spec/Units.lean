import Verif.Model.Float

/-!
# Changing units by powers of two

What it means that a result in another unit is the same number, up to the factor between the units.
-/

namespace Verif.Spec

/-- `c` is a power of two, or minus one. -/
def IsPowerOfTwo (c : ℝ) : Prop := ∃ k : ℤ, |c| = 2 ^ k

open Classical in
/-- `c` times a datum, for `c` other than zero. -/
noncomputable def timesDatum (c : ℝ) : Datum → Datum
  | .finite x => .finite (c * x)
  | .inf negative => .inf (negative != decide (c < 0))
  | .nan => .nan

/-- Unless an exception was raised for one of them, `b` is exactly `c` times `a`. -/
def ScaledBy (c : ℝ) (a b : Flt) : Prop := a.raised = false → b.raised = false → b.datum = timesDatum c a.datum

end Verif.Spec
