import Verif.Model.Mixed

/-!
# IEEE 754 arithmetic with signed zeros and division by zero

`Model/Float` drops the sign of zero and gives division by zero the outcome `nonfinite`.  This file models
`REAL_TYPE` without these simplifications: zeros have a sign, a finite number other than zero divided by zero is an
infinity, and zero divided by zero is NaN.  Division by zero in a constant expression, which a compiler must
reject, is not distinguished here.
-/

namespace Verif

/-- A floating-point datum with its sign bit; the bit only matters for zeros, because other numbers have a sign of
their own.  Used for `REAL_TYPE` in LagrangeBasis.hpp 52 and MathUtilities.hpp 102. -/
inductive SDatum where
  | finite (negative : Bool) (x : ℝ)
  | inf (negative : Bool)
  | nan

/-- A datum, and whether overflow, underflow, division by zero or an invalid operation occurred in the
computation that led to it.  Used for `REAL_TYPE` in LagrangeBasis.hpp 52 and MathUtilities.hpp 102. -/
structure SFlt where
  datum : SDatum
  raised : Bool

namespace SFlt

open Classical in
/-- The sign of the number `x` with sign bit `s`.
Used for `REAL_TYPE` in LagrangeBasis.hpp 52 and MathUtilities.hpp 102. -/
noncomputable def sign (s : Bool) (x : ℝ) : Bool := if x = 0 then s else decide (x < 0)

open Classical in
/-- The outcome of an operation with the exact result `x`; `s` is the sign if `x` is zero.  A number that underflows
to zero keeps its sign.  Used for `REAL_TYPE` in LagrangeBasis.hpp 52 and MathUtilities.hpp 102. -/
noncomputable def round (F : FloatFormat) (r s : Bool) (x : ℝ) : SFlt :=
  if F.Overflows x then ⟨.inf (decide (x < 0)), true⟩
  else ⟨.finite (sign s x) (F.nearest x), r || decide (F.Underflows x)⟩

/-- Negation.  Used for `-` in Spacing.hpp 125-126. -/
def neg (a : SFlt) : SFlt :=
  match a.datum with
  | .finite s x => ⟨.finite (!s) (-x), a.raised⟩
  | .inf s => ⟨.inf (!s), a.raised⟩
  | .nan => ⟨.nan, a.raised⟩

/-- Addition.  A sum that is zero is positive unless both operands are negative zeros.
Used for `+` in LagrangeBasis.hpp 140. -/
noncomputable def add (F : FloatFormat) (a b : SFlt) : SFlt :=
  match a.datum, b.datum with
  | .finite s x, .finite t y => round F (a.raised || b.raised) (sign s x && sign t y) (x + y)
  | .nan, _ | _, .nan => ⟨.nan, a.raised || b.raised⟩
  | .inf s, .inf t => if s = t then ⟨.inf s, a.raised || b.raised⟩ else ⟨.nan, true⟩
  | .inf s, .finite _ _ | .finite _ _, .inf s => ⟨.inf s, a.raised || b.raised⟩

/-- Subtraction.  Used for `-` in LagrangeBasis.hpp 172-173. -/
noncomputable def sub (F : FloatFormat) (a b : SFlt) : SFlt := add F a (neg b)

open Classical in
/-- Multiplication.  Used for `*` in LagrangeBasis.hpp 94. -/
noncomputable def mul (F : FloatFormat) (a b : SFlt) : SFlt :=
  match a.datum, b.datum with
  | .finite s x, .finite t y => round F (a.raised || b.raised) (sign s x != sign t y) (x * y)
  | .nan, _ | _, .nan => ⟨.nan, a.raised || b.raised⟩
  | .inf s, .inf t => ⟨.inf (s != t), a.raised || b.raised⟩
  | .inf s, .finite _ y | .finite _ y, .inf s =>
    if y = 0 then ⟨.nan, true⟩ else ⟨.inf (s != decide (y < 0)), a.raised || b.raised⟩

open Classical in
/-- Division, also by zero.  Used for `/` in LagrangeBasis.hpp 172, MathUtilities.hpp 124, Scaling.hpp 131-133. -/
noncomputable def div (F : FloatFormat) (a b : SFlt) : SFlt :=
  match a.datum, b.datum with
  | .nan, _ | _, .nan => ⟨.nan, a.raised || b.raised⟩
  | .inf _, .inf _ => ⟨.nan, true⟩
  | .finite s x, .inf t => ⟨.finite (sign s x != t) 0, a.raised || b.raised⟩
  | .inf s, .finite t y => ⟨.inf (s != sign t y), a.raised || b.raised⟩
  | .finite s x, .finite t y =>
    if y = 0 then
      if x = 0 then ⟨.nan, true⟩ else ⟨.inf (sign s x != sign t y), true⟩
    else round F (a.raised || b.raised) (sign s x != sign t y) (x / y)

/-- Conversion to the format `F`.  Used for Spacing.hpp 49, 58, Quadrature.hpp 57-63. -/
noncomputable def convert (F : FloatFormat) (a : SFlt) : SFlt :=
  match a.datum with
  | .finite s x => round F a.raised s x
  | .inf _ | .nan => a

end SFlt

/-- Arithmetic in a binary format with signed zeros.
Used for `REAL_TYPE` in LagrangeBasis.hpp 52 and MathUtilities.hpp 102. -/
noncomputable def signedArith (F : FloatFormat) : Arith SFlt where
  lit q := SFlt.round F false false q
  add := SFlt.add F
  sub := SFlt.sub F
  mul := SFlt.mul F
  neg := SFlt.neg
  div a b := .ok (SFlt.div F a b)

/-- `REAL_TYPE` is `float`, with signed zeros.  Used for Spacing.hpp 32. -/
noncomputable def signedFloatMixed : Mixed SFlt SFlt where
  real := signedArith binary32
  wide := signedArith binary64
  widen := id
  narrow := SFlt.convert binary32
  max := ⟨.finite false binary32.maxFinite, false⟩

/-- `REAL_TYPE` is `double`, with signed zeros.  Used for Spacing.hpp 32. -/
noncomputable def signedDoubleMixed : Mixed SFlt SFlt where
  real := signedArith binary64
  wide := signedArith binary64
  widen := id
  narrow := id
  max := ⟨.finite false binary64.maxFinite, false⟩

end Verif
