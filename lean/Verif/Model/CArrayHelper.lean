import Verif.Model.Arith
import Verif.Model.ErrorHandling

/-!
# `include/shiva/common/CArrayHelper.hpp`

Template parameter packs of `int` are lists of `Int`.
-/

namespace Verif.CArrayHelper

/-- CArrayHelper.hpp 47-59 `strideHelper< DIM, DIMS... >`.  The empty pack has no specialisation. -/
def strideHelper : List Int → Res Int
  | [] => .illFormed
  | [d] => .ok d
  | d :: e :: ds => do
    let r ← strideHelper (e :: ds)
    imul d r

/-- CArrayHelper.hpp 68-73 `stride< DIM, DIMS... >`. -/
def stride : List Int → Res Int
  | [] => .illFormed
  | _ :: ds => strideHelper (ds ++ [1])

/-- CArrayHelper.hpp 93-107 `linearIndexHelper< DIMS... >::level< INDICES... >()`.  `thisStride` is a
`constexpr` variable.  The result is only used as a constant, so overflow makes it ill-formed. -/
def levelCT : List Int → List Int → Res Int
  | [], _ => .illFormed
  | _ :: _, [] => .illFormed
  | d :: ds, i :: is => do
    let _ ← Res.staticAssert (0 ≤ i ∧ i < d)
    let thisStride ← (strideHelper (ds ++ [1])).constexpr
    match ds with
    | [] => imul i thisStride
    | e :: es => do
      let t ← imul i thisStride
      let r ← levelCT (e :: es) is
      iadd t r

/-- CArrayHelper.hpp 112-131 `linearIndexHelper< DIMS... >::level( indices... )`.
Simplifications: indices are `int`; compile-time errors are reported in evaluation order. -/
def levelRT (cfg : Config) : List Int → List Int → Res Int
  | [], _ => .illFormed
  | _ :: _, [] => .illFormed
  | d :: ds, i :: is => do
    let _ ← boundsAssert cfg i d
    let thisStride ← (strideHelper (ds ++ [1])).constexpr
    match ds with
    | [] => imul i thisStride
    | e :: es => do
      let t ← imul i thisStride
      let r ← levelRT cfg (e :: es) is
      iadd t r

/-- CArrayHelper.hpp 138-143 `linearIndexHelper< DIMS... >::eval< INDICES... >()`. -/
def evalCT (dims idx : List Int) : Res Int := levelCT dims idx

/-- CArrayHelper.hpp 151-156 `linearIndexHelper< DIMS... >::eval( indices... )`. -/
def evalRT (cfg : Config) (dims idx : List Int) : Res Int := levelRT cfg dims idx

/-- CArrayHelper.hpp 167-179 `get< COUNT, INDICES... >`.  A negative `COUNT` recurses until the pack is
exhausted and is then ill-formed; so is a `COUNT` not smaller than the pack. -/
def get : Int → List Int → Res Int
  | _, [] => .illFormed
  | c, x :: xs => if c = 0 then .ok x else get (c - 1) xs

/-- CArrayHelper.hpp 185-190 `size< DIMS... >`, and CArray.hpp 61 `CArray::size`: the right fold
`( DIMS * ... )`.  A unary fold of `*` over an empty pack is ill-formed. -/
def size : List Int → Res Int
  | [] => .illFormed
  | [d] => .ok d
  | d :: e :: ds => do
    let r ← size (e :: ds)
    imul d r

end Verif.CArrayHelper
