/-!
# Outcomes of evaluating C++ code

Every modelled function returns a `Res`.  Only `ok` carries a value, so no property can be
true merely because a partial operation has been given a default value.
-/

namespace Verif

/-- The possible outcomes of compiling and evaluating a C++ expression.

* `ok a` : evaluation finished with value `a`;
* `illFormed` : the program does not compile (failed `static_assert`, a `constexpr` variable whose
  initialiser is not a constant expression, a missing template specialisation);
* `ub` : undefined behaviour (signed overflow, access outside a buffer, integer division by zero);
* `abort` : the program is terminated by an assertion or an explicit abort/trap;
* `nonfinite` : a floating-point division by zero (the C++ result is an infinity or a NaN).
Used for all headers; for example MathUtilities.hpp 93 (ill-formed, undefined), ShivaErrorHandling.hpp 54 (abort). -/
inductive Res (α : Type) where
  | ok (a : α)
  | illFormed
  | ub
  | abort
  | nonfinite
  deriving DecidableEq, Repr

namespace Res

variable {α β γ : Type}

/-- Sequencing: the first non-`ok` outcome wins.
Used for the order of evaluation, for example MathUtilities.hpp 107-134. -/
def bind (x : Res α) (f : α → Res β) : Res β :=
  match x with
  | ok a => f a
  | illFormed => illFormed
  | ub => ub
  | abort => abort
  | nonfinite => nonfinite

/-- Sequencing.  Used for the order of evaluation, for example MathUtilities.hpp 107-134. -/
instance : Monad Res where
  pure := ok
  bind := bind

@[simp] theorem pure_eq (a : α) : (pure a : Res α) = ok a := rfl
@[simp] theorem ok_bind (a : α) (f : α → Res β) : (ok a >>= f) = f a := rfl
@[simp] theorem illFormed_bind (f : α → Res β) : ((illFormed : Res α) >>= f) = illFormed := rfl
@[simp] theorem ub_bind (f : α → Res β) : ((ub : Res α) >>= f) = ub := rfl
@[simp] theorem abort_bind (f : α → Res β) : ((abort : Res α) >>= f) = abort := rfl
@[simp] theorem nonfinite_bind (f : α → Res β) : ((nonfinite : Res α) >>= f) = nonfinite := rfl

/-- Sequencing.  Used for the order of evaluation, for example MathUtilities.hpp 107-134. -/
instance : LawfulMonad Res := LawfulMonad.mk'
  (id_map := fun x => by cases x <;> rfl)
  (pure_bind := fun _ _ => rfl)
  (bind_assoc := fun x _ _ => by cases x <;> rfl)

@[simp] theorem map_ok (f : α → β) (a : α) : f <$> (ok a : Res α) = ok (f a) := rfl

/-- A value required to be a constant expression: undefined behaviour and non-finite arithmetic
are not permitted in a constant expression, so the program is rejected by the compiler.
Used for CArrayHelper.hpp 98, LagrangeBasis.hpp 170-172. -/
def constexpr (x : Res α) : Res α :=
  match x with
  | ok a => ok a
  | _ => illFormed

@[simp] theorem constexpr_ok (a : α) : (ok a : Res α).constexpr = ok a := rfl
@[simp] theorem constexpr_ub : (ub : Res α).constexpr = illFormed := rfl
@[simp] theorem constexpr_nonfinite : (nonfinite : Res α).constexpr = illFormed := rfl
@[simp] theorem constexpr_illFormed : (illFormed : Res α).constexpr = illFormed := rfl
@[simp] theorem constexpr_abort : (abort : Res α).constexpr = illFormed := rfl

/-- Compile-time check (`static_assert`, or the existence of a specialisation).
Used for CArray.hpp 116, MathUtilities.hpp 87-88. -/
def staticAssert (p : Prop) [Decidable p] : Res Unit := if p then ok () else illFormed

/-- `x` finished with some value.  Used for all headers, for example MathUtilities.hpp 75. -/
def IsOk (x : Res α) : Prop := ∃ a, x = ok a

theorem bind_eq_ok {x : Res α} {f : α → Res β} {b : β} :
    (x >>= f) = ok b ↔ ∃ a, x = ok a ∧ f a = ok b := by
  cases x <;> simp

end Res

/-- `x :: xs` with each element produced by an effectful computation, left to right.
Used for LagrangeBasis.hpp 133. -/
def sequenceRes {α : Type} : List (Res α) → Res (List α)
  | [] => .ok []
  | x :: xs => do
    let a ← x
    let as ← sequenceRes xs
    .ok (a :: as)

end Verif
