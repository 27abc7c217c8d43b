import Verif.Model.Sequence
import Verif.Model.CArray

/-!
# `include/shiva/common/MathUtilities.hpp`
-/

namespace Verif.MathUtilities

variable {α R S : Type}

/-- MathUtilities.hpp 46-50: the loop `for( i = 0; i < EXPONENT; ++i ) result *= base`, with the number
of remaining iterations. -/
def powLoop (mul : α → α → Res α) (base : α) : Nat → α → Res α
  | 0, result => .ok result
  | n + 1, result => do
    let result' ← mul result base
    powLoop mul base n result'

/-- MathUtilities.hpp 42-52 `pow< T, EXPONENT >( base )`; `one` is the conversion of `1` to `T` and `mul`
the multiplication of `T`.  A negative exponent makes no iteration. -/
def pow (one : α) (mul : α → α → Res α) (exponent : Int) (base : α) : Res α :=
  powLoop mul base exponent.toNat one

/-- `pow< T, EXPONENT >` for a signed integer type at least as wide as `int` (no promotion).
Used for MathUtilities.hpp 42-52. -/
def powInt (t : IntType) (exponent base : Int) : Res Int := pow 1 t.mul exponent base

/-- `pow< T, EXPONENT >` for a floating-point type.  Used for MathUtilities.hpp 42-52. -/
def powReal (A : Arith R) (exponent : Int) (base : R) : Res R :=
  pow (A.lit 1) (fun a b => .ok (A.mul a b)) exponent base

/-- The left fold `( acc * ... * ( ISEQ + 1 ) )`.  Used for MathUtilities.hpp 75. -/
def factorialFold (t : IntType) : List Int → Int → Res Int
  | [], acc => .ok acc
  | i :: is, acc => do
    let j ← t.add i 1
    let acc' ← t.mul acc j
    factorialFold t is acc'

/-- MathUtilities.hpp 60-76 `factorial< T, N >::value`, a `static constexpr` member; `T` is a signed integer
type at least as wide as `int` (no promotion). -/
def factorial (t : IntType) (n : Int) : Res Int := do
  let is ← Sequence.makeIntegerSequence n
  (factorialFold t is 1).constexpr

/-- MathUtilities.hpp 84-94 `binomialCoefficient< T, N, K >::value`, a `static constexpr` member. -/
def binomialCoefficient (t : IntType) (n k : Int) : Res Int := do
  let _ ← Res.staticAssert (0 ≤ k)
  let _ ← Res.staticAssert (k ≤ n)
  let fn ← factorial t n
  let fk ← factorial t k
  let nk ← (t.sub n k).constexpr
  let fnk ← factorial t nk
  let d ← (t.mul fk fnk).constexpr
  (t.div fn d).constexpr

/-- Access to the elements of a matrix held in a state `S`.  Used for MathUtilities.hpp 107-134, 150-177. -/
structure MatrixOps (S R : Type) where
  get : S → Int → Int → Res R
  set : S → Int → Int → R → Res S

/-- The subscript `m[ i ][ j ]` of a built-in `T[3][3]`, stored as nine elements; anything outside the
two bounds is undefined.  Used for MathUtilities.hpp 107-134. -/
def nativeIndex (i j : Int) : Res Nat :=
  if 0 ≤ i ∧ i < 3 ∧ 0 ≤ j ∧ j < 3 then .ok (3 * i + j).toNat else .ub

/-- Elements of a built-in array `T[3][3]`.  Used for MathUtilities.hpp 104. -/
def native3 : MatrixOps (List R) R where
  get s i j := do
    let k ← nativeIndex i j
    CArray.load s k
  set s i j x := do
    let k ← nativeIndex i j
    CArray.store s k x

/-- Elements `m( i, j )` of a CArray or a view of one, held in a block of memory.  Used for MathUtilities.hpp 147. -/
def carray (cfg : Config) (v : View) : MatrixOps (List R) R where
  get s i j := CArray.read cfg s v [i, j]
  set s i j x := CArray.write cfg s v [i, j] x

/-- `m( i, j ) *= x`.  Used for MathUtilities.hpp 126-128, 169-171. -/
def MatrixOps.scale (M : MatrixOps S R) (A : Arith R) (s : S) (i j : Int) (x : R) : Res S := do
  let m ← M.get s i j
  M.set s i j (A.mul m x)

/-- MathUtilities.hpp 126-134, the statements after `invDet` in the built-in array overload. -/
def inverseFinishNative (A : Arith R) (m : List R) (invDet s00 s01 s02 s10 s11 s12 s20 s21 s22 : R) :
    Res (List R) := do
  let m ← native3.scale A m 0 0 invDet
  let m ← native3.scale A m 0 1 invDet
  let m ← native3.scale A m 0 2 invDet
  let m ← native3.set m 1 0 (A.mul (A.sub (A.mul s12 s20) (A.mul s10 s22)) invDet)
  let m ← native3.set m 1 1 (A.mul (A.sub (A.mul s00 s22) (A.mul s02 s20)) invDet)
  let m ← native3.set m 1 2 (A.mul (A.sub (A.mul s02 s10) (A.mul s00 s12)) invDet)
  let m ← native3.set m 2 0 (A.mul (A.sub (A.mul s10 s21) (A.mul s11 s20)) invDet)
  let m ← native3.set m 2 1 (A.mul (A.sub (A.mul s01 s20) (A.mul s00 s21)) invDet)
  native3.set m 2 2 (A.mul (A.sub (A.mul s00 s11) (A.mul s01 s10)) invDet)

/-- MathUtilities.hpp 102-135 `inverse( REAL_TYPE (&matrix)[3][3], REAL_TYPE & det )`.  The result is the
value left in `det` and the contents left in `matrix`; the latter is `nonfinite` if `1 / det` is.
Simplification: `det` is not an element of `matrix`. -/
def inverseNative (A : Arith R) (m : List R) : Res (R × Res (List R)) := do
  let s00 ← native3.get m 0 0
  let s01 ← native3.get m 0 1
  let s02 ← native3.get m 0 2
  let s10 ← native3.get m 1 0
  let s11 ← native3.get m 1 1
  let s12 ← native3.get m 1 2
  let s20 ← native3.get m 2 0
  let s21 ← native3.get m 2 1
  let s22 ← native3.get m 2 2
  let m ← native3.set m 0 0 (A.sub (A.mul s11 s22) (A.mul s12 s21))
  let m ← native3.set m 0 1 (A.sub (A.mul s02 s21) (A.mul s01 s22))
  let m ← native3.set m 0 2 (A.sub (A.mul s01 s12) (A.mul s02 s11))
  let m00 ← native3.get m 0 0
  let m01 ← native3.get m 0 1
  let m02 ← native3.get m 0 2
  let det := A.add (A.add (A.mul s00 m00) (A.mul s10 m01)) (A.mul s20 m02)
  .ok (det, do
    let invDet ← A.div (A.lit 1) det
    inverseFinishNative A m invDet s00 s01 s02 s10 s11 s12 s20 s21 s22)

/-- MathUtilities.hpp 169-177, the statements after `invDet` in the generic overload. -/
def inverseFinish (A : Arith R) (M : MatrixOps S R) (m : S)
    (invDet s00 s01 s02 s10 s11 s12 s20 s21 s22 : R) : Res S := do
  let m ← M.scale A m 0 0 invDet
  let m ← M.scale A m 0 1 invDet
  let m ← M.scale A m 0 2 invDet
  let m ← M.set m 1 0 (A.mul (A.sub (A.mul s12 s20) (A.mul s10 s22)) invDet)
  let m ← M.set m 1 1 (A.mul (A.sub (A.mul s00 s22) (A.mul s02 s20)) invDet)
  let m ← M.set m 1 2 (A.mul (A.sub (A.mul s02 s10) (A.mul s00 s12)) invDet)
  let m ← M.set m 2 0 (A.mul (A.sub (A.mul s10 s21) (A.mul s11 s20)) invDet)
  let m ← M.set m 2 1 (A.mul (A.sub (A.mul s01 s20) (A.mul s00 s21)) invDet)
  M.set m 2 2 (A.mul (A.sub (A.mul s00 s11) (A.mul s01 s10)) invDet)

/-- MathUtilities.hpp 145-178 `inverse( MATRIX_TYPE & matrix, value_type & det )`.  The result is the value
left in `det` and the contents left in `matrix`; the latter is `nonfinite` if `1 / det` is.
Simplification: `det` is not an element of `matrix`. -/
def inverse (A : Arith R) (M : MatrixOps S R) (m : S) : Res (R × Res S) := do
  let s00 ← M.get m 0 0
  let s01 ← M.get m 0 1
  let s02 ← M.get m 0 2
  let s10 ← M.get m 1 0
  let s11 ← M.get m 1 1
  let s12 ← M.get m 1 2
  let s20 ← M.get m 2 0
  let s21 ← M.get m 2 1
  let s22 ← M.get m 2 2
  let m ← M.set m 0 0 (A.sub (A.mul s11 s22) (A.mul s12 s21))
  let m ← M.set m 0 1 (A.sub (A.mul s02 s21) (A.mul s01 s22))
  let m ← M.set m 0 2 (A.sub (A.mul s01 s12) (A.mul s02 s11))
  let m00 ← M.get m 0 0
  let m01 ← M.get m 0 1
  let m02 ← M.get m 0 2
  let det := A.add (A.add (A.mul s00 m00) (A.mul s10 m01)) (A.mul s20 m02)
  .ok (det, do
    let invDet ← A.div (A.lit 1) det
    inverseFinish A M m invDet s00 s01 s02 s10 s11 s12 s20 s21 s22)

end Verif.MathUtilities
