import Mathlib.Algebra.Order.Floor.Ring
import Mathlib.Algebra.Ring.Int.Parity
import Mathlib.Data.Int.Log
import Mathlib.Algebra.Order.Archimedean.Real.Basic
import Verif.Model.Arith

/-!
# IEEE 754 arithmetic

`REAL_TYPE` is `float` or `double` in all uses of Shiva.  This file models the arithmetic of these types as
IEEE 754 defines it: binary formats, rounding to nearest with ties to even, gradual underflow, infinities
and NaN.  The sign of zero is dropped: it can only be observed by dividing by zero, which has the outcome
`nonfinite` in this model.  A value also carries one bit saying whether an exception other than `inexact`
was raised while it was computed, which is what the status flags report.
-/

namespace Verif

/-- A binary format: the number of fraction bits and the range of exponents of normal numbers.
Used for `REAL_TYPE` in LagrangeBasis.hpp 52 and MathUtilities.hpp 102. -/
structure FloatFormat where
  fracBits : ℕ
  minExp : ℤ
  maxExp : ℤ
  ordered : minExp ≤ maxExp

/-- `float`.  Used for `REAL_TYPE` in LagrangeBasis.hpp 52 and MathUtilities.hpp 102. -/
def binary32 : FloatFormat := ⟨23, -126, 127, by norm_num⟩
/-- `double`.  Used for `REAL_TYPE` in LagrangeBasis.hpp 52 and MathUtilities.hpp 102. -/
def binary64 : FloatFormat := ⟨52, -1022, 1023, by norm_num⟩

/-- The nearest integer; of two equally near ones the even one.
Used for `REAL_TYPE` in LagrangeBasis.hpp 52 and MathUtilities.hpp 102. -/
noncomputable def roundEven (x : ℝ) : ℤ :=
  if Int.fract x < 1 / 2 then ⌊x⌋
  else if 1 / 2 < Int.fract x then ⌊x⌋ + 1
  else if Even ⌊x⌋ then ⌊x⌋ else ⌊x⌋ + 1

namespace FloatFormat

/-- Numbers of the size of `x` are multiples of 2 to this exponent.
Used for `REAL_TYPE` in LagrangeBasis.hpp 52 and MathUtilities.hpp 102. -/
noncomputable def unitExp (F : FloatFormat) (x : ℝ) : ℤ := max (Int.log 2 |x|) F.minExp - F.fracBits

/-- The number of the format nearest to `x`, if exponents were not bounded above.
Used for `REAL_TYPE` in LagrangeBasis.hpp 52 and MathUtilities.hpp 102. -/
noncomputable def nearest (F : FloatFormat) (x : ℝ) : ℝ :=
  roundEven (x / 2 ^ F.unitExp x) * 2 ^ F.unitExp x

/-- `x` is too large for the format after rounding.
Used for `REAL_TYPE` in LagrangeBasis.hpp 52 and MathUtilities.hpp 102. -/
def Overflows (F : FloatFormat) (x : ℝ) : Prop := 2 ^ (F.maxExp + 1) ≤ |F.nearest x|

/-- `x` is smaller than every normal number and is changed by rounding.
Used for `REAL_TYPE` in LagrangeBasis.hpp 52 and MathUtilities.hpp 102. -/
def Underflows (F : FloatFormat) (x : ℝ) : Prop := |x| < 2 ^ F.minExp ∧ F.nearest x ≠ x

end FloatFormat

/-- A floating-point datum.  Used for `REAL_TYPE` in LagrangeBasis.hpp 52 and MathUtilities.hpp 102. -/
inductive Datum where
  | finite (x : ℝ)
  | inf (negative : Bool)
  | nan

/-- A datum, and whether overflow, underflow, division by zero or an invalid operation occurred in the
computation that led to it.  Used for `REAL_TYPE` in LagrangeBasis.hpp 52 and MathUtilities.hpp 102. -/
structure Flt where
  datum : Datum
  raised : Bool

namespace Flt

/-- The finite number `x`, obtained without exceptions.
Used for `REAL_TYPE` in LagrangeBasis.hpp 52 and MathUtilities.hpp 102. -/
def ofReal (x : ℝ) : Flt := ⟨.finite x, false⟩

/-- The outcome of an operation with the exact result `x`.  `r` says whether an operand carries an
exception.  Used for `REAL_TYPE` in LagrangeBasis.hpp 52 and MathUtilities.hpp 102. -/
noncomputable def round (F : FloatFormat) (r : Bool) (x : ℝ) : Flt :=
  open Classical in
  if F.Overflows x then ⟨.inf (decide (x < 0)), true⟩
  else ⟨.finite (F.nearest x), r || decide (F.Underflows x)⟩

/-- Negation.  Used for `-` in Spacing.hpp 125-126. -/
def neg (a : Flt) : Flt :=
  match a.datum with
  | .finite x => ⟨.finite (-x), a.raised⟩
  | .inf s => ⟨.inf (!s), a.raised⟩
  | .nan => ⟨.nan, a.raised⟩

/-- Addition.  Used for `+` in LagrangeBasis.hpp 140. -/
noncomputable def add (F : FloatFormat) (a b : Flt) : Flt :=
  match a.datum, b.datum with
  | .finite x, .finite y => round F (a.raised || b.raised) (x + y)
  | .nan, _ | _, .nan => ⟨.nan, a.raised || b.raised⟩
  | .inf s, .inf t => if s = t then ⟨.inf s, a.raised || b.raised⟩ else ⟨.nan, true⟩
  | .inf s, .finite _ | .finite _, .inf s => ⟨.inf s, a.raised || b.raised⟩

/-- Subtraction.  Used for `-` in LagrangeBasis.hpp 172-173. -/
noncomputable def sub (F : FloatFormat) (a b : Flt) : Flt := add F a (neg b)

/-- Multiplication.  Used for `*` in LagrangeBasis.hpp 94. -/
noncomputable def mul (F : FloatFormat) (a b : Flt) : Flt :=
  open Classical in
  match a.datum, b.datum with
  | .finite x, .finite y => round F (a.raised || b.raised) (x * y)
  | .nan, _ | _, .nan => ⟨.nan, a.raised || b.raised⟩
  | .inf s, .inf t => ⟨.inf (s != t), a.raised || b.raised⟩
  | .inf s, .finite y | .finite y, .inf s =>
    if y = 0 then ⟨.nan, true⟩ else ⟨.inf (s != decide (y < 0)), a.raised || b.raised⟩

/-- Division.  Dividing by zero has no finite value.  Used for `/` in LagrangeBasis.hpp 172, MathUtilities.hpp 124. -/
noncomputable def div (F : FloatFormat) (a b : Flt) : Res Flt :=
  open Classical in
  match a.datum, b.datum with
  | .nan, _ | _, .nan => .ok ⟨.nan, a.raised || b.raised⟩
  | .inf _, .inf _ => .ok ⟨.nan, true⟩
  | .finite _, .inf _ => .ok ⟨.finite 0, a.raised || b.raised⟩
  | .inf s, .finite y =>
    if y = 0 then .nonfinite else .ok ⟨.inf (s != decide (y < 0)), a.raised || b.raised⟩
  | .finite x, .finite y =>
    if y = 0 then .nonfinite else .ok (round F (a.raised || b.raised) (x / y))

end Flt

/-- Arithmetic in a binary format.  Used for `REAL_TYPE` in LagrangeBasis.hpp 52 and MathUtilities.hpp 102. -/
noncomputable def floatArith (F : FloatFormat) : Arith Flt where
  lit q := Flt.round F false q
  add := Flt.add F
  sub := Flt.sub F
  mul := Flt.mul F
  neg := Flt.neg
  div := Flt.div F

end Verif
