import Verif.Model.LagrangeBasis
import Verif.Model.NCube

/-!
# `BasisProduct.hpp`, `InterpolatedShape.hpp` and `ParentElement.hpp`

A coordinate is a list (`parentCoord[ k ]` outside it is undefined).  Simplification: a one-dimensional
`CArrayNd< RealType, numDims >` is its list of elements.  These are the C++17 branches; those of later
standards are in `Standards.lean`.
-/

namespace Verif

variable {R : Type}

namespace BasisProduct

/-- BasisProduct.hpp 191-203 `gradientComponentHelper< BASIS, COMPONENT, BF, COORD_INDEX >( parentCoord )`. -/
def gradientComponentHelper (b : Basis R) (component bf coordIndex : Int) (coord : List R) : Res R := do
  let x ← tableAt coord coordIndex
  if component = coordIndex then b.gradient bf x else b.value bf x

/-- The pack expansion over `BASIS_TYPES`, `BASIS_FUNCTION_INDICES` and the dimension index together.
Used for BasisProduct.hpp 105, 160-163. -/
def expand (bases : List (Basis R)) (idx : List Int) (f : Basis R → Int → Int → Res R) : List (Res R) :=
  (List.range bases.length).zipWith (fun k (p : Basis R × Int) => f p.1 p.2 (Int.ofNat k)) (bases.zip idx)

/-- BasisProduct.hpp 86-109 `value< BASIS_FUNCTION_INDICES... >( parentCoord )`. -/
def value (A : Arith R) (bases : List (Basis R)) (idx : List Int) (coord : List R) : Res R := do
  let _ ← Res.staticAssert (idx.length = bases.length)
  foldRight A.mul (expand bases idx fun b i k => do
    let x ← tableAt coord k
    b.value i x)

/-- BasisProduct.hpp 129-171 `gradient< BASIS_FUNCTION_INDICES... >( parentCoord )`. -/
def gradient (A : Arith R) (bases : List (Basis R)) (idx : List Int) (coord : List R) :
    Res (List R) := do
  let _ ← Res.staticAssert (idx.length = bases.length)
  let _ ← Res.staticAssert (0 < bases.length)
  let dims ← Sequence.makeIntegerSequence bases.length
  sequenceRes (dims.map fun a =>
    foldRight A.mul (expand bases idx fun b i k => gradientComponentHelper b a i k coord))

/-- BasisProduct.hpp 59-64 `supportLoop( func )`. -/
def supportLoop {σ : Type} (bases : List (Basis R)) (func : List Int → σ → Res σ) (s : σ) : Res σ :=
  Sequence.forNestedSequence (bases.map Basis.numSupportPoints) func s

end BasisProduct

/-- The template arguments of `InterpolatedShape` and `ParentElement`: a shape class, given by its
`numDims()`, and the pack of bases.  Used for InterpolatedShape.hpp 39, ParentElement.hpp 43. -/
structure Element (R : Type) where
  shapeDims : Res Int
  bases : List (Basis R)

namespace Element

/-- InterpolatedShape.hpp 74, ParentElement.hpp 71: instantiating the class. -/
def instantiate (e : Element R) : Res Unit := do
  let d ← e.shapeDims
  Res.staticAssert ((e.bases.length : Int) = d)

end Element

namespace InterpolatedShape

/-- InterpolatedShape.hpp 77-82 `supportLoop( func )`. -/
def supportLoop {σ : Type} (e : Element R) (func : List Int → σ → Res σ) (s : σ) : Res σ := do
  let _ ← e.instantiate
  BasisProduct.supportLoop e.bases func s

/-- InterpolatedShape.hpp 87-93 `value< BASIS_FUNCTION_INDICES... >( parentCoord )`. -/
def value (A : Arith R) (e : Element R) (idx : List Int) (coord : List R) : Res R := do
  let _ ← e.instantiate
  let _ ← Res.staticAssert (idx.length = e.bases.length)
  BasisProduct.value A e.bases idx coord

/-- InterpolatedShape.hpp 98-104 `gradient< BASIS_FUNCTION_INDICES... >( parentCoord )`. -/
def gradient (A : Arith R) (e : Element R) (idx : List Int) (coord : List R) : Res (List R) := do
  let _ ← e.instantiate
  let _ ← Res.staticAssert (idx.length = e.bases.length)
  BasisProduct.gradient A e.bases idx coord

end InterpolatedShape

namespace ParentElement

/-- ParentElement.hpp 76-82 `value< BASIS_FUNCTION_INDICES... >( parentCoord )`. -/
def basisValue (A : Arith R) (e : Element R) (idx : List Int) (coord : List R) : Res R := do
  let _ ← e.instantiate
  let _ ← Res.staticAssert (idx.length = e.bases.length)
  BasisProduct.value A e.bases idx coord

/-- ParentElement.hpp 88-94 `gradient< BASIS_FUNCTION_INDICES... >( parentCoord )`. -/
def basisGradient (A : Arith R) (e : Element R) (idx : List Int) (coord : List R) : Res (List R) := do
  let _ ← e.instantiate
  let _ ← Res.staticAssert (idx.length = e.bases.length)
  BasisProduct.gradient A e.bases idx coord

/-- ParentElement.hpp 112-115 the body of the loop in `value( parentCoord, var )`. -/
def valueBody (A : Arith R) (e : Element R) (coord : List R) (var : List Int → Res R) (idx : List Int)
    (rval : R) : Res R := do
  let v ← basisValue A e idx coord
  let y ← var idx
  .ok (A.add rval (A.mul v y))

/-- ParentElement.hpp 106-117 `value( parentCoord, var )`.  `var` is any callable with index arguments. -/
def value (A : Arith R) (e : Element R) (coord : List R) (var : List Int → Res R) : Res R := do
  let _ ← e.instantiate
  Sequence.forNestedSequence (e.bases.map Basis.numSupportPoints) (valueBody A e coord var) (A.lit 0)

/-- ParentElement.hpp 135-138 the inner loop body in `gradient( parentCoord, var )`. -/
def gradientInner (A : Arith R) (grad : List R) (var : List Int → Res R) (idx : List Int) (a : Int)
    (rval : List R) : Res (List R) := do
  let r ← tableAt rval a
  let g ← tableAt grad a
  let y ← var idx
  .ok (rval.set a.toNat (A.add r (A.mul g y)))

/-- ParentElement.hpp 132-139 the outer loop body in `gradient( parentCoord, var )`. -/
def gradientBody (A : Arith R) (e : Element R) (coord : List R) (var : List Int → Res R) (idx : List Int)
    (rval : List R) : Res (List R) := do
  let grad ← basisGradient A e idx coord
  Sequence.forSequence e.bases.length (gradientInner A grad var idx) rval

/-- ParentElement.hpp 127-141 `gradient( parentCoord, var )`: `rval = {0.0}` is an array of `numDims`
zeros. -/
def gradient (A : Arith R) (e : Element R) (coord : List R) (var : List Int → Res R) :
    Res (List R) := do
  let _ ← e.instantiate
  Sequence.forNestedSequence (e.bases.map Basis.numSupportPoints) (gradientBody A e coord var)
    (List.replicate e.bases.length (A.lit 0))

end ParentElement
end Verif
