import Mathlib.Data.Rat.Cast.Defs
import Mathlib.Algebra.Field.Defs
import Mathlib.Data.Rat.Cast.CharZero
import Mathlib.Data.Real.Basic
import Verif.Model.Outcome

/-!
# C++ arithmetic

Signed integer arithmetic is exact arithmetic on `Int` followed by a range check; leaving the range
is undefined behaviour.  Floating-point arithmetic is a record of operations, so that the same model
can be read with exact real arithmetic or with an arbitrary rounding function.
-/

namespace Verif

/-- A signed integer type, given by its range.  Used for MathUtilities.hpp 42-44, 84. -/
structure IntType where
  min : Int
  max : Int

/-- 32-bit `int`, the index type used throughout Shiva.  Used for CArray.hpp 51, CArrayHelper.hpp 47-59. -/
def int32 : IntType := ⟨-2147483648, 2147483647⟩

/-- 64-bit signed integers.  Used for MathUtilities.hpp 42-44. -/
def int64 : IntType := ⟨-9223372036854775808, 9223372036854775807⟩

/-- The value is representable in the type.  Used for CArrayHelper.hpp 57. -/
def IntType.InRange (t : IntType) (x : Int) : Prop := t.min ≤ x ∧ x ≤ t.max

/-- Deciding `IntType.InRange`.  Used for CArrayHelper.hpp 57. -/
instance (t : IntType) (x : Int) : Decidable (t.InRange x) :=
  inferInstanceAs (Decidable (_ ∧ _))

/-- The outcome of an operation whose mathematical result is `x`.
Used for CArrayHelper.hpp 57, MathUtilities.hpp 49. -/
def IntType.norm (t : IntType) (x : Int) : Res Int := if t.InRange x then .ok x else .ub

/-- Signed multiplication.  Used for MathUtilities.hpp 49, 75, 93. -/
def IntType.mul (t : IntType) (a b : Int) : Res Int := t.norm (a * b)
/-- Signed addition.  Used for MathUtilities.hpp 75. -/
def IntType.add (t : IntType) (a b : Int) : Res Int := t.norm (a + b)
/-- Signed subtraction.  Used for MathUtilities.hpp 93. -/
def IntType.sub (t : IntType) (a b : Int) : Res Int := t.norm (a - b)
/-- Signed division, truncating toward zero; division by zero is undefined.  Used for MathUtilities.hpp 93. -/
def IntType.div (t : IntType) (a b : Int) : Res Int :=
  if b = 0 then .ub else t.norm (Int.tdiv a b)

/-- `int` operations.  Used for CArrayHelper.hpp 105, 129. -/
abbrev iadd := int32.add
/-- `int` operations.  Used for NCube.hpp 176, Spacing.hpp 42. -/
abbrev isub := int32.sub
/-- `int` operations.  Used for CArrayHelper.hpp 57, 101, 189. -/
abbrev imul := int32.mul
/-- `int` operations.  Used for MathUtilities.hpp 93. -/
abbrev idiv := int32.div

/-- Floating-point operations of a real type `R`.  `lit q` is a decimal literal or the conversion of
an integer.  Division by zero has no finite value.
Used for the template argument `REAL_TYPE`, for example of LagrangeBasis.hpp 52 and MathUtilities.hpp 102. -/
structure Arith (R : Type) where
  lit : ℚ → R
  add : R → R → R
  sub : R → R → R
  mul : R → R → R
  neg : R → R
  div : R → R → Res R

open Classical in
/-- Exact arithmetic in a field.  This is the reading used for algebraic and calculus properties.
Used for `REAL_TYPE` in LagrangeBasis.hpp 52. -/
noncomputable def exactArith (K : Type) [Field K] : Arith K where
  lit q := (q : K)
  add a b := a + b
  sub a b := a - b
  mul a b := a * b
  neg a := -a
  div a b := if b = 0 then .nonfinite else .ok (a / b)

/-- Exact rational arithmetic, computable, used to evaluate the literal tables.
Used for the literals of Spacing.hpp 72-262 and Quadrature.hpp 57-239. -/
def ratArith : Arith ℚ where
  lit q := q
  add a b := a + b
  sub a b := a - b
  mul a b := a * b
  neg a := -a
  div a b := if b = 0 then .nonfinite else .ok (a / b)

open Classical in
/-- Arithmetic on reals with a rounding function applied to the result of every operation and to
every literal.  Negation is exact, as in IEEE 754.  Overflow and underflow are not modelled.
Used for `REAL_TYPE` in LagrangeBasis.hpp 52. -/
noncomputable def roundedArith (fl : ℝ → ℝ) : Arith ℝ where
  lit q := fl (q : ℝ)
  add a b := fl (a + b)
  sub a b := fl (a - b)
  mul a b := fl (a * b)
  neg a := -a
  div a b := if b = 0 then .nonfinite else .ok (fl (a / b))

end Verif
