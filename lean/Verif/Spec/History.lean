import Mathlib.Data.List.Basic

/-! # Histories of assignments to the elements of an array -/

namespace Verif.Spec

/-- How an element is named in the source: `a( i, j )` or `a[i][j]`. -/
inductive Style where
  | paren
  | bracket
  deriving DecidableEq, Repr

/-- One assignment `a( idx ) = val` or `a[i][j].. = val`. -/
structure Assign (R : Type) where
  style : Style
  idx : List Int
  val : R

/-- The value an element must hold after a history of assignments: that of the last assignment to
its index tuple, or its initial value if there was none. -/
def lastAssigned {R : Type} (init : R) (history : List (Assign R)) (idx : List Int) : R :=
  match (history.filter fun w => w.idx = idx).getLast? with
  | some w => w.val
  | none => init

end Verif.Spec
