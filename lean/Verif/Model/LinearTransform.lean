import Verif.Model.BasisProduct
import Verif.Model.IndexTypes
import Verif.Model.MathUtilities

/-!
# `LinearTransform.hpp`, and its use by `JacobianTransforms.hpp`
-/

namespace Verif

variable {R : Type}

/-- LinearTransform.hpp 49-132 `LinearTransform< REAL_TYPE, INTERPOLATED_SHAPE >`: the template argument
and the contents of the member `m_vertexCoords`. -/
structure LinearTransform (R : Type) where
  shape : Element R
  data : List R

namespace LinearTransform

/-- LinearTransform.hpp 61 `numDims`. -/
def numDims (t : LinearTransform R) : Int := t.shape.bases.length

/-- LinearTransform.hpp 75-79 `DataType`: a `CArrayNd` with one dimension per direction and a last one for
the components. -/
def dataView (t : LinearTransform R) : View :=
  CArray.whole (t.shape.bases.map Basis.numSupportPoints ++ [t.numDims])

/-- LinearTransform.hpp 67 `JacobianType`. -/
def jacobianView (t : LinearTransform R) : View := CArray.whole [t.numDims, t.numDims]

/-- The run-time loop `for( int i = 0; i < n; ++i ) body`.  Used for LinearTransform.hpp 122. -/
def forInt {σ : Type} (n : Int) (body : Int → σ → Res σ) (s : σ) : Res σ :=
  Sequence.commaFold body ((List.range n.toNat).map Int.ofNat) s

/-- LinearTransform.hpp 122-125, the loop over components in `setData`. -/
def setDataRow (cfg : Config) (t : LinearTransform R) (coords : Int → Int → Res R) (a b c : Int)
    (mem : List R) : Res (List R) :=
  forInt t.numDims (fun i mem => do
    let b2 ← imul 2 b
    let ab ← iadd a b2
    let c4 ← imul 4 c
    let row ← iadd ab c4
    let x ← coords row i
    CArray.write cfg mem t.dataView [a, b, c, i] x) mem

/-- LinearTransform.hpp 116-126, the body of the loop over support points in `setData`. -/
def setDataBody (cfg : Config) (t : LinearTransform R) (coords : Int → Int → Res R) (aa : List Int)
    (mem : List R) : Res (List R) := do
  let a ← tableAt aa 0
  let b ← tableAt aa 1
  let c ← tableAt aa 2
  setDataRow cfg t coords a b c mem

/-- LinearTransform.hpp 111-127 `setData( coords )`; `coords` is any object with `coords[ row ][ i ]`.
`index = {0, 0, 0}` (line 116) has too many initialisers below three dimensions, and
`m_vertexCoords( a, b, c, i )` (line 124) has too few indices above. -/
def setData (cfg : Config) (t : LinearTransform R) (coords : Int → Int → Res R) :
    Res (LinearTransform R) := do
  let _ ← t.shape.instantiate
  let _ ← Res.staticAssert (t.shape.bases.length = 3)
  let r ← IndexTypes.forRange (t.shape.bases.map Basis.numSupportPoints) (setDataBody cfg t coords)
    [0, 0, 0] t.data
  .ok { t with data := r.2 }

/-- LinearTransform.hpp 179, `J( i, j ) = J( i, j ) + dNadXi( k ) * nodeCoords( sp..., i )`.
Simplification: `dNadXi` is a list (see `BasisProduct`). -/
def accumulate (cfg : Config) (A : Arith R) (t : LinearTransform R) (grad : List R) (sp : List Int)
    (i j : Int) (J : List R) : Res (List R) := do
  let r ← CArray.read cfg J t.jacobianView [i, j]
  let g ← tableAt grad j
  let x ← CArray.read cfg t.data t.dataView (sp ++ [i])
  CArray.write cfg J t.jacobianView [i, j] (A.add r (A.mul g x))

/-- LinearTransform.hpp 171-182, the body of the loop over support points. -/
def jacobianBody (cfg : Config) (A : Arith R) (t : LinearTransform R) (coord : List R) (sp : List Int)
    (J : List R) : Res (List R) := do
  let grad ← InterpolatedShape.gradient A t.shape sp coord
  Sequence.forNestedSequence [t.numDims, t.numDims]
    (fun ij J => do
      let i ← tableAt ij 0
      let j ← tableAt ij 1
      accumulate cfg A t grad sp i j J) J

/-- LinearTransform.hpp 158-183 `jacobian( transform, pointCoordsParent, J )`. -/
def jacobian (cfg : Config) (A : Arith R) (t : LinearTransform R) (coord : List R) (J : List R) :
    Res (List R) :=
  InterpolatedShape.supportLoop t.shape (jacobianBody cfg A t coord) J

/-- LinearTransform.hpp 216 `constexpr REAL_TYPE qcoords[3] = { QUADRATURE::coordinate< QA >()... }`: more
than three initialisers are ill-formed, missing ones are zero. -/
def quadratureCoords (A : Arith R) (Q : Spacing R) (qa : List Int) : Res (List R) := do
  let _ ← Res.staticAssert (qa.length ≤ 3)
  let cs ← sequenceRes (qa.map fun q => (Q.coordCT q).constexpr)
  .ok (cs ++ List.replicate (3 - cs.length) (A.lit 0))

/-- LinearTransform.hpp 218-239, the body of the loop over support points; here `dNadXi` is a `constexpr`
variable, and in the inner loop the component is `j` and the direction is `i`. -/
def jacobianQuadratureBody (cfg : Config) (A : Arith R) (t : LinearTransform R) (coord : List R)
    (sp : List Int) (J : List R) : Res (List R) := do
  let grad ← (InterpolatedShape.gradient A t.shape sp coord).constexpr
  Sequence.forNestedSequence [t.numDims, t.numDims]
    (fun ij J => do
      let i ← tableAt ij 0
      let j ← tableAt ij 1
      accumulate cfg A t grad sp j i J) J

/-- LinearTransform.hpp 203-240 `jacobian< QUADRATURE, QA... >( transform, J )`.  Only the coordinates of
`QUADRATURE` are used. -/
def jacobianQuadrature (cfg : Config) (A : Arith R) (t : LinearTransform R) (Q : Spacing R)
    (qa : List Int) (J : List R) : Res (List R) := do
  let coord ← quadratureCoords A Q qa
  InterpolatedShape.supportLoop t.shape (jacobianQuadratureBody cfg A t coord) J

/-- LinearTransform.hpp 254-265 `inverseJacobian( transform, parentCoords, invJ, detJ )`: the values left
in `detJ` and `invJ`. -/
def inverseJacobian (cfg : Config) (A : Arith R) (t : LinearTransform R) (coord : List R)
    (invJ : List R) : Res (R × Res (List R)) := do
  let J ← jacobian cfg A t coord invJ
  MathUtilities.inverse A (MathUtilities.carray cfg t.jacobianView) J

/-- JacobianTransforms.hpp 46-54 `jacobian( cell, parentCoords )` for an array of three coordinates. -/
def jacobianValue (cfg : Config) (A : Arith R) (t : LinearTransform R) (coord : List R) :
    Res (List R) := do
  let _ ← Res.staticAssert (coord.length = 3)
  let J ← CArray.listInit (A.lit 0) [t.numDims, t.numDims] [A.lit 0]
  jacobian cfg A t coord J

/-- JacobianTransforms.hpp 56-65 `inverseJacobian( cell, parentCoords )`, returning `( detJ, invJ )`. -/
def inverseJacobianValue (cfg : Config) (A : Arith R) (t : LinearTransform R) (coord : List R) :
    Res (R × Res (List R)) := do
  let _ ← Res.staticAssert (coord.length = 3)
  let J ← CArray.listInit (A.lit 0) [t.numDims, t.numDims] [A.lit 0]
  inverseJacobian cfg A t coord J

end LinearTransform
end Verif
