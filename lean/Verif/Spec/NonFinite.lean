import Verif.Model.Float

/-! Infinities and NaN. -/

namespace Verif.Spec

/-- Not a number. -/
def IsNaN (f : Flt) : Prop := f.datum = .nan

/-- An infinity or NaN. -/
def NotFinite (f : Flt) : Prop := ¬ ∃ x, f.datum = .finite x

end Verif.Spec
