import Verif.Model.IndexConversion
import Verif.Model.MathUtilities

/-!
# `pow`, `factorial` and `binomialCoefficient` with any integer type

`Model/MathUtilities.lean` models these templates for signed types that are not promoted.  This file models them for all
integer types other than `bool`: types narrower than `int` are promoted to `int` in every operation, and results are
converted back to the type.
-/

namespace Verif.TypedMath

open Verif.IndexConversion

/-- `a * b` for two operands of type `t`, both promoted: the result has the type `t.withInt`.
Used for MathUtilities.hpp 49, 75, 93. -/
def promotedMul (t : CType) (a b : Int) : Res Int := t.withInt.arith (a * b)

/-- MathUtilities.hpp 49 `result *= base`: the product is formed in the promoted type and converted to `T`. -/
def mulAssign (t : CType) (result base : Int) : Res Int := do
  let p ← promotedMul t result base
  .ok (t.convert p)

/-- MathUtilities.hpp 42-52 `pow< T, EXPONENT >( base )`. -/
def pow (t : CType) (exponent base : Int) : Res Int :=
  MathUtilities.pow 1 (mulAssign t) exponent base

/-- The left fold `( acc * ... * ( ISEQ + 1 ) )`.  Every `ISEQ` has type `T`, so that each sum and each product has the
promoted type.  Used for MathUtilities.hpp 75. -/
def factorialFold (t : CType) : List Int → Int → Res Int
  | [], acc => .ok acc
  | i :: is, acc => do
    let j ← t.withInt.arith (i + 1)
    let acc' ← t.withInt.arith (acc * j)
    factorialFold t is acc'

/-- MathUtilities.hpp 60-76 `factorial< T, N >::value`.  The initialiser is converted to `T`; this is not a narrowing
conversion that the compiler rejects, as there are no braces.  `N` is a constant of type `T`. -/
def factorial (t : CType) (n : Int) : Res Int := do
  let _ ← Res.staticAssert (t.min ≤ n ∧ n ≤ t.max)
  let is ← Sequence.makeIntegerSequence n
  let v ← (factorialFold t is 1).constexpr
  .ok (t.convert v)

/-- MathUtilities.hpp 84-94 `binomialCoefficient< T, N, K >::value`.  Product and quotient of the three factorials are
formed in the promoted type, and the quotient is converted to `T`.  `N` and `K` are constants of type `T`; once
`0 <= K <= N` is asserted, `N - K` is one too. -/
def binomialCoefficient (t : CType) (n k : Int) : Res Int := do
  let _ ← Res.staticAssert ((t.min ≤ n ∧ n ≤ t.max) ∧ (t.min ≤ k ∧ k ≤ t.max))
  let _ ← Res.staticAssert (0 ≤ k)
  let _ ← Res.staticAssert (k ≤ n)
  let fn ← factorial t n
  let fk ← factorial t k
  let fnk ← factorial t (n - k)
  let d ← (promotedMul t fk fnk).constexpr
  let q ← (if d = 0 then .ub else t.withInt.arith (Int.tdiv fn d)).constexpr
  .ok (t.convert q)

end Verif.TypedMath
