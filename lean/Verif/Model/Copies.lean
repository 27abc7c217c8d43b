import Verif.Model.CArrayTypes
import Verif.Spec.Copies

/-!
# Programs with several arrays and views (`include/shiva/common/CArray.hpp`)

Every variable of type `CArrayNd` has its own buffer; a view holds a pointer into the buffer of some array.
Simplification: all variables live until the end of the program, and have the same non-const element type.
-/

namespace Verif.Copies

open Verif.Spec

variable {R : Type}

/-- CArray.hpp 41-42, 219-221: a variable of type `CArrayNd< T, DIMS... >` with its buffer, or of type
`CArrayViewNd< T, DIMS... >` with a pointer into the buffer of variable `target`. -/
inductive Var (R : Type) where
  | array (dims : List Int) (mem : List R)
  | view (target : Nat) (v : View)

/-- The buffer that a variable refers to: the variable that holds it, its contents, and the view onto it.
Used for CArray.hpp 219-221. -/
def deref (vars : List (Var R)) (i : Nat) : Res (Nat × List R × View) :=
  match vars[i]? with
  | some (.array d mem) => .ok (i, mem, CArray.whole d)
  | some (.view t v) =>
    match vars[t]? with
    | some (.array _ mem) => .ok (t, mem, v)
    | _ => .ub
  | none => .illFormed

/-- Replace the contents of the buffer of variable `t`.  Used for CArray.hpp 219-221. -/
def setBuffer (vars : List (Var R)) (t : Nat) (mem : List R) : List (Var R) :=
  match vars[t]? with
  | some (.array d _) => vars.set t (.array d mem)
  | _ => vars

/-- One statement.

* `declare`: CArray.hpp 89-91.
* `copy`: the implicitly declared copy constructor, which copies `m_data`: all elements of a buffer, or the pointer.  The
  constructor template of lines 89-91 is never a copy constructor.
* `slice`: `operator[]`, CArray.hpp 194-216, 225-251.
* `view`: CArray.hpp 78-82, with `data()` of lines 97-98.
* `assign`: the implicitly declared copy assignment, which copies all elements of a buffer; it is deleted if `m_data` is a
  `T * const`.  For another type the right-hand side would have to be converted by the constructor template of lines
  89-91, whose `m_data{ args... }` does not compile for an argument of class type.
* `write`: CArray.hpp 139-216. -/
def step (cfg : Config) (zero : R) (vars : List (Var R)) : Stmt R → Res (List (Var R))
  | .declare d args => do
    let mem ← CArray.listInit zero d args
    .ok (vars ++ [.array d mem])
  | .copy i =>
    match vars[i]? with
    | some (.array d mem) => .ok (vars ++ [.array d mem])
    | some (.view t v) => .ok (vars ++ [.view t v])
    | none => .illFormed
  | .slice i idx => do
    let (t, mem, v) ← deref vars i
    match ← CArray.bracketChain cfg mem.length (.sub v) idx with
    | .sub w => .ok (vars ++ [.view t w])
    | .elem _ => .illFormed
  | .view i =>
    match vars[i]? with
    | some (.array d mem) => do
      let v ← CArrayTypes.viewOfArray false false d mem.length
      .ok (vars ++ [.view i v])
    | _ => .illFormed
  | .assign i j =>
    match vars[i]?, vars[j]? with
    | some (.array d _), some (.array e mem) => if d = e then .ok (setBuffer vars i mem) else .illFormed
    | _, _ => .illFormed
  | .write i w => do
    let (t, mem, v) ← deref vars i
    let mem' ← CArray.assign cfg v mem w
    .ok (setBuffer vars t mem')

/-- A program.  Used for CArray.hpp 69-91, 139-216. -/
def run (cfg : Config) (zero : R) : List (Var R) → List (Stmt R) → Res (List (Var R))
  | vars, [] => .ok vars
  | vars, s :: ss => do
    let vars' ← step cfg zero vars s
    run cfg zero vars' ss

/-- Reading element `idx` of variable `i`, as `x( i, j )` or as `x[i][j]`.  Used for CArray.hpp 153-159, 194-198. -/
def readVar (cfg : Config) (vars : List (Var R)) (i : Nat) (style : Style) (idx : List Int) : Res R := do
  let (_, mem, v) ← deref vars i
  match style with
  | .paren => CArray.read cfg mem v idx
  | .bracket => CArray.readBracket cfg mem v idx

end Verif.Copies
