import Verif.Model.MathUtilities

/-!
# `include/shiva/geometry/shapes/NCube.hpp` and `NSimplex.hpp`
-/

namespace Verif

/-- The template arguments `N, MIN, MAX, DIVISOR` of `NCube` and `NSimplex`.  Used for NCube.hpp 44. -/
structure ShapeArgs where
  n : Int
  min : Int
  max : Int
  divisor : Int
  deriving DecidableEq, Repr

namespace ShapeArgs

variable {R : Type}

/-- Instantiating the class: the two static assertions (NCube.hpp 49-50, NSimplex.hpp 49-50) and the array
type `REAL_TYPE[N]` (NCube.hpp 62, NSimplex.hpp 62).  Simplification: `N = 0` is accepted, as by
GCC and Clang without `-pedantic-errors`. -/
def instantiate (s : ShapeArgs) : Res Unit := do
  let _ ← Res.staticAssert (s.min < s.max)
  let _ ← Res.staticAssert (s.divisor > 0)
  Res.staticAssert (0 ≤ s.n)

/-- NCube.hpp 56, NSimplex.hpp 56 `numDims()`. -/
def numDims (s : ShapeArgs) : Res Int := do
  let _ ← s.instantiate
  .ok s.n

/-- NCube.hpp 156-159, NSimplex.hpp 153-156 `minCoord()`. -/
def minCoord (A : Arith R) (s : ShapeArgs) : Res R := do
  let _ ← s.instantiate
  A.div (A.lit s.min) (A.lit s.divisor)

/-- NCube.hpp 164-167, NSimplex.hpp 161-164 `maxCoord()`. -/
def maxCoord (A : Arith R) (s : ShapeArgs) : Res R := do
  let _ ← s.instantiate
  A.div (A.lit s.max) (A.lit s.divisor)

/-- NCube.hpp 174-177, NSimplex.hpp 171-174 `length()`: the subtraction `MAX - MIN` is in `int`. -/
def length (A : Arith R) (s : ShapeArgs) : Res R := do
  let _ ← s.instantiate
  let d ← isub s.max s.min
  A.div (A.lit d) (A.lit s.divisor)

end ShapeArgs

namespace NCube

variable {R : Type}

/-- NCube.hpp 75-80 `numMCubes< M >()`. -/
def numMCubes (s : ShapeArgs) (m : Int) : Res Int := do
  let _ ← s.instantiate
  let _ ← Res.staticAssert (m ≤ s.n)
  let nm ← (isub s.n m).constexpr
  let fn ← MathUtilities.factorial int32 s.n
  let fm ← MathUtilities.factorial int32 m
  let fnm ← MathUtilities.factorial int32 nm
  let p ← MathUtilities.powInt int32 nm 2
  let a ← imul p fn
  let b ← imul fm fnm
  idiv a b

/-- NCube.hpp 86-89 `numVertices()`. -/
def numVertices (s : ShapeArgs) : Res Int := numMCubes s 0

/-- NCube.hpp 95-105 `numEdges()`. -/
def numEdges (s : ShapeArgs) : Res Int :=
  if s.n > 0 then numMCubes s 1 else do let _ ← s.instantiate; .ok 0

/-- NCube.hpp 111-121 `numFaces()`. -/
def numFaces (s : ShapeArgs) : Res Int :=
  if s.n > 1 then numMCubes s 2 else do let _ ← s.instantiate; .ok 0

/-- NCube.hpp 127-137 `numCells()`. -/
def numCells (s : ShapeArgs) : Res Int :=
  if s.n > 2 then numMCubes s 3 else do let _ ← s.instantiate; .ok 0

/-- NCube.hpp 148-151 `numHyperFaces()`. -/
def numHyperFaces (s : ShapeArgs) : Res Int := do
  let _ ← s.instantiate
  imul 2 s.n

/-- NCube.hpp 199-211 `volumeHelper< DIM >()`. -/
def volumeHelper (A : Arith R) (s : ShapeArgs) : Nat → Res R
  | 0 => .ok (A.lit 1)
  | dim + 1 => do
    let l ← s.length A
    let v ← volumeHelper A s dim
    .ok (A.mul l v)

/-- NCube.hpp 184-190 `volume()`, enabled for `N > 0`. -/
def volume (A : Arith R) (s : ShapeArgs) : Res R := do
  let _ ← s.instantiate
  let _ ← Res.staticAssert (s.n > 0)
  volumeHelper A s s.n.toNat

end NCube

namespace NSimplex

variable {R : Type}

/-- NSimplex.hpp 72-77 `numMSimplexes< M >()`. -/
def numMSimplexes (s : ShapeArgs) (m : Int) : Res Int := do
  let _ ← s.instantiate
  let _ ← Res.staticAssert (m ≤ s.n)
  let n1 ← (iadd s.n 1).constexpr
  let m1 ← (iadd m 1).constexpr
  MathUtilities.binomialCoefficient int32 n1 m1

/-- NSimplex.hpp 83-86 `numVertices()`. -/
def numVertices (s : ShapeArgs) : Res Int := numMSimplexes s 0

/-- NSimplex.hpp 92-102 `numEdges()`. -/
def numEdges (s : ShapeArgs) : Res Int :=
  if s.n > 0 then numMSimplexes s 1 else do let _ ← s.instantiate; .ok 0

/-- NSimplex.hpp 108-118 `numFaces()`. -/
def numFaces (s : ShapeArgs) : Res Int :=
  if s.n > 1 then numMSimplexes s 2 else do let _ ← s.instantiate; .ok 0

/-- NSimplex.hpp 124-134 `numCells()`. -/
def numCells (s : ShapeArgs) : Res Int :=
  if s.n > 2 then numMSimplexes s 3 else do let _ ← s.instantiate; .ok 0

/-- NSimplex.hpp 145-148 `numHyperFaces()`. -/
def numHyperFaces (s : ShapeArgs) : Res Int := do
  let _ ← s.instantiate
  let m ← (isub s.n 1).constexpr
  numMSimplexes s m

/-- NSimplex.hpp 196-208 `volumeHelper< DIM >()`; `length() / DIM * ...` associates to the left. -/
def volumeHelper (A : Arith R) (s : ShapeArgs) : Nat → Res R
  | 0 => .ok (A.lit 1)
  | dim + 1 => do
    let l ← s.length A
    let q ← A.div l (A.lit ((dim + 1 : Nat) : ℚ))
    let v ← volumeHelper A s dim
    .ok (A.mul q v)

/-- NSimplex.hpp 181-187 `volume()`, enabled for `N > 0`. -/
def volume (A : Arith R) (s : ShapeArgs) : Res R := do
  let _ ← s.instantiate
  let _ ← Res.staticAssert (s.n > 0)
  volumeHelper A s s.n.toNat

end NSimplex
end Verif
