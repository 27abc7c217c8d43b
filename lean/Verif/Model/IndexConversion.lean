import Verif.Model.CArray

/-!
# Array accesses with indices of any integer type

`operator()( INDICES... )` is a template on the index types (CArray.hpp 139-159), `operator[]` takes an
`int` (CArray.hpp 51, 195, 206).  `Model/CArray.lean` models the accesses with `int` indices; this file
models the conversions that happen with other integer types, for the usual 8/16/32/64-bit types.
-/

namespace Verif.IndexConversion

/-- The integer types.  `char` is one of the 8-bit types, `long` and `long long` are 64 bits.
Used for `INDEX_TYPE` in CArrayHelper.hpp 112. -/
inductive CType where
  | bool | i8 | u8 | i16 | u16 | i32 | u32 | i64 | u64
  deriving DecidableEq, Repr

/-- Smallest value of the type.  Used for `INDEX_TYPE` in CArrayHelper.hpp 112. -/
def CType.min : CType → Int
  | .i8 => -128 | .i16 => -32768 | .i32 => -2147483648 | .i64 => -9223372036854775808
  | _ => 0

/-- Largest value of the type.  Used for `INDEX_TYPE` in CArrayHelper.hpp 112. -/
def CType.max : CType → Int
  | .bool => 1 | .i8 => 127 | .u8 => 255 | .i16 => 32767 | .u16 => 65535
  | .i32 => 2147483647 | .u32 => 4294967295
  | .i64 => 9223372036854775807 | .u64 => 18446744073709551615

/-- Signed overflow is undefined; unsigned arithmetic wraps.  Used for CArrayHelper.hpp 125-129. -/
def CType.signed : CType → Bool
  | .i8 | .i16 | .i32 | .i64 => true
  | _ => false

/-- The common type of a value of type `t` and an `int` (usual arithmetic conversions).
Used for CArrayHelper.hpp 117, 125-129. -/
def CType.withInt : CType → CType
  | .u32 => .u32 | .i64 => .i64 | .u64 => .u64
  | _ => .i32

/-- Conversion of a value to a type other than `bool`: the representable value congruent modulo two to
the number of bits.  (For signed types this is C++20; earlier it is implementation-defined, and all
compilers do this.)  Used for CArrayHelper.hpp 113, 129, CArray.hpp 195, 206. -/
def CType.convert (t : CType) (x : Int) : Int := (x - t.min) % (t.max - t.min + 1) + t.min

/-- The outcome of an arithmetic operation in type `t` with mathematical result `x`.
Used for CArrayHelper.hpp 125-129. -/
def CType.arith (t : CType) (x : Int) : Res Int :=
  if t.min ≤ x ∧ x ≤ t.max then .ok x
  else if t.signed then .ub
  else .ok (t.convert x)

/-- An index argument: its type and its value.  Used for CArrayHelper.hpp 112-114. -/
structure Index where
  ty : CType
  val : Int
  deriving DecidableEq, Repr

/-- The value is one the type can hold.  Used for CArrayHelper.hpp 112-114. -/
def Index.Valid (i : Index) : Prop := i.ty.min ≤ i.val ∧ i.val ≤ i.ty.max

/-- Deciding `Index.Valid`.  Used for CArrayHelper.hpp 112-114. -/
instance (i : Index) : Decidable i.Valid := inferInstanceAs (Decidable (_ ∧ _))

/-- CArrayHelper.hpp 116-121: the assertion `index >= 0 && index < DIM`, each comparison in the common
type of the index and `int`. -/
def boundsAssertTyped (cfg : Config) (index : Index) (dim : Int) : Res Unit :=
  let c := index.ty.withInt
  if cfg.boundsCheck then
    shivaAssertMsg cfg (decide (c.convert 0 ≤ c.convert index.val ∧ c.convert index.val < c.convert dim))
      boundsFmt 2
  else .ok ()

/-- CArrayHelper.hpp 112-131 `level( indices... )` with indices of any integer types.  Every level
computes in the common type of its index and `int`, and converts its result to `int`. -/
def levelTyped (cfg : Config) : List Int → List Index → Res Int
  | [], _ => .illFormed
  | _ :: _, [] => .illFormed
  | d :: ds, i :: is => do
    let c := i.ty.withInt
    let _ ← boundsAssertTyped cfg i d
    let thisStride ← (CArrayHelper.strideHelper (ds ++ [1])).constexpr
    match ds with
    | [] => do
      let t ← c.arith (c.convert i.val * c.convert thisStride)
      .ok (CType.i32.convert t)
    | e :: es => do
      let t ← c.arith (c.convert i.val * c.convert thisStride)
      let r ← levelTyped cfg (e :: es) is
      let s ← c.arith (t + c.convert r)
      .ok (CType.i32.convert s)

/-- CArray.hpp 139-159 `operator()( indices... )` with indices of any integer types. -/
def parenTyped (cfg : Config) (len : Nat) (v : View) (idx : List Index) : Res Int := do
  let _ ← Res.staticAssert (idx.length = v.dims.length)
  let k ← levelTyped cfg v.dims idx
  CArray.element len v k

/-- CArray.hpp 194-216 a chain `a[i][j]..` with indices of any integer types: each is converted to
`int` when it is passed, before any check. -/
def bracketTyped (cfg : Config) (len : Nat) (r : Ref) (idx : List Index) : Res Ref :=
  CArray.bracketChain cfg len r (idx.map fun i => CType.i32.convert i.val)

end Verif.IndexConversion
