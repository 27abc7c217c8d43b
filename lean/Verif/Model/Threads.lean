import Verif.Model.Copies
import Verif.Spec.Threads

/-!
# Several threads that use the same arrays and views (`include/shiva/common/CArray.hpp`)

Shiva starts no threads; this is about the accesses that threads of the user's program make.  The C++ standard makes a
program with a data race undefined, and lets the accesses of any other program take place one after the other, in an order
that keeps that of each thread ([intro.races] in C++17).  Two accesses are a data race if they are to the same memory
location, one of them is a write, and nothing orders them.  Simplification: nothing orders the accesses of different
threads, that is, there are no locks or atomic variables.
-/

namespace Verif.Threads

open Verif.Spec Verif.Copies

variable {R : Type}

/-- The memory location of element `idx` of variable `i`: the variable with the buffer, and the position there.
Used for CArray.hpp 139-159, 194-216. -/
def location (cfg : Config) (vars : List (Var R)) (i : Nat) (style : Style) (idx : List Int) : Res (Nat × Int) := do
  let (t, mem, v) ← deref vars i
  match style with
  | .paren => do
    let a ← CArray.parenRT cfg mem.length v idx
    .ok (t, a)
  | .bracket => do
    match ← CArray.bracketChain cfg mem.length (.sub v) idx with
    | .elem a => .ok (t, a)
    | .sub _ => .illFormed

/-- The next access of a thread: whether it is a write, and what it names.  Used for CArray.hpp 139-159, 194-216. -/
def nextAccess : Thread R → Option (Bool × Nat × Style × List Int)
  | .ended => none
  | .load i style idx _ => some (false, i, style, idx)
  | .store i w _ => some (true, i, w.style, w.idx)

/-- The next accesses of two threads are a data race.  Used for CArray.hpp 139-159, 194-216. -/
def race (cfg : Config) (vars : List (Var R)) (p q : Thread R) : Bool :=
  match nextAccess p, nextAccess q with
  | some (w, i, style, idx), some (w', i', style', idx') =>
    (w || w') &&
      match location cfg vars i style idx, location cfg vars i' style' idx' with
      | .ok l, .ok l' => l == l'
      | _, _ => false
  | _, _ => false

/-- Two of the threads have a data race now.  Used for CArray.hpp 139-159, 194-216. -/
def anyRace (cfg : Config) (vars : List (Var R)) (ts : List (Thread R)) : Bool :=
  (List.range ts.length).any fun i => (List.range ts.length).any fun j =>
    i != j && race cfg vars (ts.getD i .ended) (ts.getD j .ended)

/-- Thread number `i` takes a turn.  Used for CArray.hpp 139-159, 194-216. -/
def step (cfg : Config) (vars : List (Var R)) (ts : List (Thread R)) (i : Nat) :
    Res (List (Var R) × List (Thread R)) :=
  match ts[i]? with
  | some (.load v style idx next) => do
    let x ← readVar cfg vars v style idx
    .ok (vars, ts.set i (next x))
  | some (.store v w next) => do
    let (t, mem, view) ← deref vars v
    let mem' ← CArray.assign cfg view mem w
    .ok (setBuffer vars t mem', ts.set i next)
  | some .ended => .ok (vars, ts)
  | none => .ok (vars, ts)

/-- The threads take turns as the schedule says; a thread that has ended does nothing in its turn.
Used for CArray.hpp 139-159, 194-216. -/
def run (cfg : Config) : List (Var R) → List (Thread R) → List Nat → Res (List (Var R) × List (Thread R))
  | vars, ts, [] => if anyRace cfg vars ts then .ub else .ok (vars, ts)
  | vars, ts, i :: schedule =>
    if anyRace cfg vars ts then .ub
    else do
      let (vars', ts') ← step cfg vars ts i
      run cfg vars' ts' schedule

end Verif.Threads
