import Verif.Model.Scaling
import Mathlib.Data.List.OfFn

/-! # Histories of updates of a scaling transform -/

namespace Verif.Spec

variable {R : Type}

/-- One update of a `Scaling`: `s.setData( h )`, or `s.setData()[ k ] = x`. -/
inductive ScalingUpdate (R : Type) where
  | set (h : Fin 3 → R)
  | assign (k : Fin 3) (x : R)

/-- The length an update gives to direction `k`, if any. -/
def ScalingUpdate.length (k : Fin 3) : ScalingUpdate R → Option R
  | .set h => some (h k)
  | .assign k' x => if k' = k then some x else none

/-- The length of direction `k` after a history: the last one given, or the initial one. -/
def lastLength (init : R) (history : List (ScalingUpdate R)) (k : Fin 3) : R :=
  (history.filterMap (ScalingUpdate.length k)).getLast?.getD init

/-- Running an update. -/
def ScalingUpdate.run (s : Scaling R) : ScalingUpdate R → Res (Scaling R)
  | .set h => s.setData (List.ofFn h)
  | .assign k x => s.assignData ((k : ℕ) : Int) x

/-- Running a history of updates. -/
def runScaling : Scaling R → List (ScalingUpdate R) → Res (Scaling R)
  | s, [] => .ok s
  | s, u :: us => u.run s >>= fun s => runScaling s us

/-- One update of a `UniformScaling`: `s.setData( h )`, or `s.setData() = x`. -/
inductive UniformUpdate (R : Type) where
  | set (h : R)
  | assign (x : R)

/-- Running a history of updates. -/
def runUniform : UniformScaling R → List (UniformUpdate R) → UniformScaling R
  | s, [] => s
  | s, .set h :: us => runUniform (s.setData h) us
  | s, .assign x :: us => runUniform (s.assignData x) us

end Verif.Spec
