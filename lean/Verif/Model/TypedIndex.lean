import Verif.Model.IndexConversion
import Verif.Model.IndexTypes

/-!
# `MultiIndexRange< BASE_INDEX_TYPE, RANGES... >` with any integer type

`Model/IndexTypes.lean` models `MultiIndexRangeI`, that is `BASE_INDEX_TYPE = int`.  This file models what the same
templates do with the other integer types.  `int` is `CType.i32`.
-/

namespace Verif.TypedIndex

open Verif.IndexConversion

variable {σ : Type}

/-- Conversion to any integer type; conversion to `bool` tests for zero.  Used for IndexTypes.hpp 56, 65, 77, 83. -/
def convertTo (t : CType) (x : Int) : Int := if t = .bool then (if x = 0 then 0 else 1) else t.convert x

/-- MultiIndex.hpp 54-78: the declaration of `MultiIndexRange< BASE_INDEX_TYPE, RANGES... >`.  The `RANGES` are constants of
the base type, the array `static constexpr int ranges[NUM_INDICES] = { RANGES ...}` must not be empty, and a constant
that `int` cannot hold is a narrowing conversion. -/
def declare (t : CType) (ranges : List Int) : Res Unit :=
  Res.staticAssert (ranges ≠ [] ∧ ∀ r ∈ ranges, (t.min ≤ r ∧ r ≤ t.max) ∧ int32.InRange r)

/-- IndexTypes.hpp 55-67 `detail::stride< INDEX >`: the product is formed in `int` (`strideHelper` returns `int`) and
then converted to the base type. -/
def stride (t : CType) (ranges : List Int) (k : Nat) : Res Int := do
  let s ← IndexTypes.stride ranges k
  .ok (convertTo t s)

/-- One term `index.data[K] * stride< K >( index )` of the fold: both factors have the base type and are promoted.
Used for IndexTypes.hpp 83. -/
def term (t : CType) (ranges data : List Int) (k : Nat) : Res Int := do
  let s ← stride t ranges k
  t.withInt.arith (data.getD k 0 * s)

/-- IndexTypes.hpp 76-84 `detail::linearIndexHelper`: the right fold over the listed positions, in the promoted type. -/
def linearIndexHelper (t : CType) (ranges data : List Int) : List Nat → Res Int
  | [] => .illFormed
  | [k] => term t ranges data k
  | k :: k' :: ks => do
    let a ← term t ranges data k
    let r ← linearIndexHelper t ranges data (k' :: ks)
    t.withInt.arith (a + r)

/-- IndexTypes.hpp 135-141 `linearIndex( MultiIndexRange )`: the result is converted to the base type. -/
def linearIndex (t : CType) (ranges data : List Int) : Res Int := do
  let _ ← declare t ranges
  let s ← linearIndexHelper t ranges data (List.range ranges.length)
  .ok (convertTo t s)

/-- IndexTypes.hpp 149-154 `linearIndex( LinearIndex< INDEX_TYPE > )`; LinearIndex.hpp 28-29 makes `LinearIndex< T >` the
type `T` itself. -/
def linearIndexOfLinear (index : Index) : Res Index := .ok index

/-- IndexTypes.hpp 98-123, 164-172 `forRange`.  Every level binds `int & a = index.data[DIM]`, which needs elements of
type `int`. -/
def forRange (t : CType) (ranges : List Int) (func : List Int → σ → Res σ) (index : List Int) (s : σ) :
    Res (List Int × σ) := do
  let _ ← declare t ranges
  let _ ← Res.staticAssert (t = .i32)
  IndexTypes.forRange ranges func index s

end Verif.TypedIndex
