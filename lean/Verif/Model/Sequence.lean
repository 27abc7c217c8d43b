import Verif.Model.Arith

/-!
# `include/shiva/common/SequenceUtilities.hpp` and `NestedSequenceUtilities.hpp`

A loop body is a function of the index (or index tuple) and a state, so that order, omission and
repetition of calls are all observable.  A body may also abort or be undefined.
-/

namespace Verif.Sequence

variable {σ : Type}

/-- `std::make_integer_sequence< int, END >`: `0, 1, .., END-1`; a negative `END` is ill-formed.
Used for SequenceUtilities.hpp 204, 224. -/
def makeIntegerSequence (e : Int) : Res (List Int) :=
  if 0 ≤ e then .ok ((List.range e.toNat).map Int.ofNat) else .illFormed

/-- The comma fold `( func( I ), ... )`: calls from left to right.  Used for SequenceUtilities.hpp 167, 176. -/
def commaFold (func : Int → σ → Res σ) : List Int → σ → Res σ
  | [], s => .ok s
  | i :: is, s => do
    let s' ← func i s
    commaFold func is s'

/-- SequenceUtilities.hpp 155-178, 220-226 `staticFor` and `forSequence< END >( func )`.
Simplification: passing the index as an argument or as a template argument is not distinguished, and the
value of the last call is left out; `forSequenceValue` below models both. -/
def forSequence (e : Int) (func : Int → σ → Res σ) (s : σ) : Res σ := do
  let is ← makeIntegerSequence e
  commaFold func is s

/-- NestedSequenceUtilities.hpp 53-71 `NestedSequenceExpansion< END, REMAINING_ENDS... >::staticForNested`.
The empty pack has no specialisation.  Simplification: compile-time errors of an inner level are
reported when that level is reached. -/
def staticForNested (func : List Int → σ → Res σ) : List Int → List Int → σ → Res σ
  | [], _, _ => .illFormed
  | [e], indices, s => forSequence e (fun idx s => func (indices ++ [idx]) s) s
  | e :: e' :: es, indices, s =>
    forSequence e (fun idx s => staticForNested func (e' :: es) (indices ++ [idx]) s) s

/-- NestedSequenceUtilities.hpp 84-104 `forNestedSequence< ENDS... >( func )`, both overloads. -/
def forNestedSequence (ends : List Int) (func : List Int → σ → Res σ) (s : σ) : Res σ :=
  staticForNested func ends [] s

/-! ### `executeSequence` -/

/-- An argument of a call, as far as overload resolution is concerned: an integral constant, or an
argument passed by the caller, identified by its type.  Used for SequenceUtilities.hpp 130-143. -/
inductive Arg where
  | ic (i : Int)
  | user (ty : Nat)
  deriving DecidableEq, Repr

/-- A callable object.  `invocable args` is `std::is_invocable_v< FUNC, args... >`; `template is args` is
well-formedness of `func.template operator()< is... >( args... )`.  Used for SequenceUtilities.hpp 130-143. -/
structure Callable where
  invocable : List Arg → Bool
  template : List Int → List Arg → Bool

/-- The single call made by `executeSequence`.  Used for SequenceUtilities.hpp 134-143. -/
inductive Call where
  | plain (args : List Arg)
  | templ (is : List Int) (args : List Arg)
  deriving DecidableEq, Repr

/-- SequenceUtilities.hpp 124-145, 199-207 `SequenceExpansion::execute` and `executeSequence`.  The
condition probes `( indices..., args... )` (line 130) but the call is `( args..., indices... )`
(lines 134-135).  The result is the call that is made. -/
def executeSequence (e : Int) (func : Callable) (args : List Arg) : Res Call := do
  let is ← makeIntegerSequence e
  if func.invocable (is.map Arg.ic ++ args) then
    if func.invocable (args ++ is.map Arg.ic) then .ok (.plain (args ++ is.map Arg.ic))
    else .illFormed
  else
    if func.template is args then .ok (.templ is args) else .illFormed

/-- A callable object as seen by `staticFor`.  `plain i` is the call `func( integral_constant< int, i >{} )`,
`templ i` the call `func.template operator()< i >()`; `none` if that call is not well-formed.  A call
changes the state and returns a value.  Used for SequenceUtilities.hpp 162-176. -/
structure Body (σ α : Type) where
  plain : Int → Option (σ → Res (σ × α))
  templ : Int → Option (σ → Res (σ × α))

/-- The comma fold `( E(I), ... )` with its value: that of the last operand, or `void()` (`none`) for an
empty pack.  Used for SequenceUtilities.hpp 167, 176. -/
def commaFoldValue {α : Type} (func : Int → σ → Res (σ × α)) : List Int → σ → Res (σ × Option α)
  | [], s => .ok (s, none)
  | [i], s => do
    let r ← func i s
    .ok (r.1, some r.2)
  | i :: j :: is, s => do
    let r ← func i s
    commaFoldValue func (j :: is) r.1

/-- One operand of the fold, after all operands have been found well-formed.
Used for SequenceUtilities.hpp 167, 176. -/
def callOrIllFormed {α : Type} (func : Int → Option (σ → Res (σ × α))) (i : Int) (s : σ) :
    Res (σ × α) :=
  match func i with
  | some f => f s
  | none => .illFormed

/-- SequenceUtilities.hpp 155-178, 220-226 `forSequence< END >( func )` with the choice of the form of
call (line 162: decided by index 0 alone) and the returned value.  All calls of the chosen form must be
well-formed for the fold to compile. -/
def forSequenceValue {α : Type} (e : Int) (func : Body σ α) (s : σ) : Res (σ × Option α) := do
  let is ← makeIntegerSequence e
  let form := if (func.plain 0).isSome then func.plain else func.templ
  let _ ← Res.staticAssert (∀ i ∈ is, (form i).isSome = true)
  commaFoldValue (callOrIllFormed form) is s

/-- CArrayHelper.hpp 212-220 `IntPeeler< INTS... >`: `first` and `rest`. -/
def intPeeler : List Int → Res (Int × List Int)
  | [] => .illFormed
  | first :: rest => .ok (first, rest)

/-- SequenceUtilities.hpp 65-83 `IntPackPeeler< I, PACK... >::value`. A position outside the pack has no
specialisation. -/
def intPackPeeler : Int → List Int → Res Int
  | _, [] => .illFormed
  | i, first :: rest => if i = 0 then .ok first else intPackPeeler (i - 1) rest

end Verif.Sequence
