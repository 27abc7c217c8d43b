import Mathlib.Logic.Function.Basic
import Mathlib.Data.Set.Basic
import Verif.Spec.Copies

/-!
# Threads that share arrays

What threads do that read and write elements of arrays, each one for itself.  Nothing here mentions memory or the order in
which threads take turns.
-/

namespace Verif.Spec

/-- What a thread does from now on: nothing; or it reads an element, and what it does next may depend on the value; or it
writes an element. -/
inductive Thread (R : Type) where
  | ended
  /-- `x( i, j )` or `x[i][j]`, read from variable `var` -/
  | load (var : Nat) (style : Style) (idx : List Int) (next : R → Thread R)
  /-- `x( i, j ) = val;` or `x[i][j] = val;` -/
  | store (var : Nat) (w : Assign R) (next : Thread R)

/-- An element: the number of an array and the index in it. -/
abbrev Elem := Nat × List Int

variable {R : Type}

/-- The element that `x( idx )` names, for the variable number `i`, an array or a view. -/
def elementOf (vars : List (Meaning R)) (i : Nat) (idx : List Int) : Option Elem :=
  match vars[i]? with
  | some (.array d _) => if InBox d idx then some (i, idx) else none
  | some (.view r d pre) => if InBox d idx then some (r, pre ++ idx) else none
  | none => none

/-- The values that the elements have. -/
def valuesIn (zero : R) (vars : List (Meaning R)) (e : Elem) : R := (valueOf vars e.1 e.2).getD zero

/-- The values of all elements after a thread has run alone; `none` if it uses an index out of range. -/
def Thread.alone (vars : List (Meaning R)) : (Elem → R) → Thread R → Option (Elem → R)
  | h, .ended => some h
  | h, .load i _ idx next => (elementOf vars i idx).bind fun e => alone vars h (next (h e))
  | h, .store i w next => (elementOf vars i w.idx).bind fun e => alone vars (Function.update h e w.val) next

/-- The number of accesses of a thread that runs alone. -/
def Thread.accesses (vars : List (Meaning R)) : (Elem → R) → Thread R → Nat
  | _, .ended => 0
  | h, .load i _ idx next => match elementOf vars i idx with
    | some e => accesses vars h (next (h e)) + 1
    | none => 0
  | h, .store i w next => match elementOf vars i w.idx with
    | some e => accesses vars (Function.update h e w.val) next + 1
    | none => 0

/-- A thread that runs alone uses no index out of range, writes only elements in `own`, and reads only elements in `own` or
in `shared`. -/
def Thread.Confined (vars : List (Meaning R)) (own shared : Set Elem) : (Elem → R) → Thread R → Prop
  | _, .ended => True
  | h, .load i _ idx next =>
    ∃ e, elementOf vars i idx = some e ∧ (e ∈ own ∨ e ∈ shared) ∧ Confined vars own shared h (next (h e))
  | h, .store i w next =>
    ∃ e, elementOf vars i w.idx = some e ∧ e ∈ own ∧ Confined vars own shared (Function.update h e w.val) next

end Verif.Spec
