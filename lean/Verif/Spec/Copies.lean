import Verif.Spec.Box
import Verif.Spec.History

/-!
# Value and reference semantics of arrays and views

What a program with several arrays and views must mean: an array is a value of its own, a view is another name for
elements of an array.  Nothing here mentions memory.
-/

namespace Verif.Spec

/-- A statement of a straight-line program.  Variables are numbered in the order of their declaration. -/
inductive Stmt (R : Type) where
  /-- `CArrayNd< T, DIMS... > x{ args... };` -/
  | declare (dims : List Int) (args : List R)
  /-- `auto x = y;` -/
  | copy (src : Nat)
  /-- `auto x = y[i]..[k];` with fewer indices than dimensions -/
  | slice (src : Nat) (idx : List Int)
  /-- `CArrayViewNd< T, DIMS... > x( y.data() );` for an array `y` with the same dimensions -/
  | view (src : Nat)
  /-- `x = y;` -/
  | assign (dst src : Nat)
  /-- `x( i, j ) = val;` or `x[i][j] = val;` -/
  | write (dst : Nat) (w : Assign R)

/-- What a variable stands for: an array with a value at every index, or the elements of the array `root` whose index
begins with `pre`. -/
inductive Meaning (R : Type) where
  | array (dims : List Int) (val : List Int → R)
  | view (root : Nat) (dims pre : List Int)

variable {R : Type}

/-- The dimensions of a variable. -/
def Meaning.dims : Meaning R → List Int
  | .array d _ => d
  | .view _ d _ => d

/-- The value of element `idx` of variable `i`. -/
def valueOf (vars : List (Meaning R)) (i : Nat) (idx : List Int) : Option R :=
  match vars[i]? with
  | some (.array d f) => if InBox d idx then some (f idx) else none
  | some (.view r d pre) =>
    if InBox d idx then
      match vars[r]? with
      | some (.array _ f) => some (f (pre ++ idx))
      | _ => none
    else none
  | none => none

/-- Change one element of an array. -/
def setElement (vars : List (Meaning R)) (root : Nat) (idx : List Int) (x : R) : Option (List (Meaning R)) :=
  match vars[root]? with
  | some (.array d f) => some (vars.set root (.array d fun j => if j = idx then x else f j))
  | _ => none

open Classical in
/-- The meaning of one statement; `none` if it is not meaningful (an index or variable out of range, more initialisers
than elements, assignment of anything but arrays of equal dimensions).  `zero` is the value of elements without
initialiser. -/
noncomputable def meaning (zero : R) (vars : List (Meaning R)) : Stmt R → Option (List (Meaning R))
  | .declare d args =>
    if ValidShape d ∧ (args.length : Int) ≤ d.prod then
      some (vars ++ [.array d fun idx => args.getD (rowMajor d idx).toNat zero])
    else none
  | .copy i => (vars[i]?).map fun v => vars ++ [v]
  | .slice i idx =>
    match vars[i]? with
    | some v =>
      if idx ≠ [] ∧ idx.length < v.dims.length ∧ InBox (v.dims.take idx.length) idx then
        match v with
        | .array d _ => some (vars ++ [.view i (d.drop idx.length) idx])
        | .view r d pre => some (vars ++ [.view r (d.drop idx.length) (pre ++ idx)])
      else none
    | none => none
  | .view i =>
    match vars[i]? with
    | some (.array d _) => some (vars ++ [.view i d []])
    | _ => none
  | .assign i j =>
    match vars[i]?, vars[j]? with
    | some (.array d _), some (.array e g) => if d = e then some (vars.set i (.array d g)) else none
    | _, _ => none
  | .write i w =>
    match vars[i]? with
    | some (.array d _) => if InBox d w.idx then setElement vars i w.idx w.val else none
    | some (.view r d pre) => if InBox d w.idx then setElement vars r (pre ++ w.idx) w.val else none
    | none => none

/-- The meaning of a program. -/
noncomputable def meanings (zero : R) : List (Meaning R) → List (Stmt R) → Option (List (Meaning R))
  | vars, [] => some vars
  | vars, s :: ss => (meaning zero vars s).bind fun vars' => meanings zero vars' ss

end Verif.Spec
