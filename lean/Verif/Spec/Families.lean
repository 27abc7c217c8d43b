import Verif.Model.Spacing

/-! # The spacing families shipped with the library -/

namespace Verif.Spec

/-- The three spacing classes. -/
inductive Family where
  | equal
  | gaussLegendre
  | gaussLobatto
  deriving DecidableEq, Repr

/-- The class template of a family. -/
def Family.spacing {R : Type} (A : Arith R) : Family → Int → Spacing R
  | .equal => equalSpacing A
  | .gaussLegendre => gaussLegendreSpacing A
  | .gaussLobatto => gaussLobattoSpacing A

/-- Polynomial orders for which the family has points: any order for equal spacing (as long as the
number of points is an `int`), at most 3 and 8 for the Gauss families. -/
def Family.Supports : Family → Int → Prop
  | .equal, order => 0 ≤ order ∧ order < 2147483647
  | .gaussLegendre, order => 0 ≤ order ∧ order ≤ 3
  | .gaussLobatto, order => 0 ≤ order ∧ order ≤ 8

end Verif.Spec
