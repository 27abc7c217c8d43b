import Verif.Model.Spacing
import Verif.Model.CArray

/-!
# `Scaling.hpp` and `UniformScaling.hpp`

The value-returning wrappers of `JacobianTransforms.hpp` for these two classes are included.
-/

namespace Verif

variable {R : Type}

/-- Scaling.hpp 41-92 `Scaling`: the member `m_length`, an array of three numbers. -/
structure Scaling (R : Type) where
  length : List R
  deriving DecidableEq, Repr

namespace Scaling

/-- Scaling.hpp 91 `m_length{1.0, 1.0, 1.0}`. -/
def init (A : Arith R) : Scaling R := ⟨[A.lit 1, A.lit 1, A.lit 1]⟩

/-- Scaling.hpp 68 `getData()`. -/
def getData (s : Scaling R) : List R := s.length

/-- Scaling.hpp 74 `setData()[ k ] = x`, an assignment through the returned reference to the array. -/
def assignData (s : Scaling R) (k : Int) (x : R) : Res (Scaling R) := do
  let l ← CArray.store s.length k x
  .ok ⟨l⟩

/-- Scaling.hpp 81-86 `setData( h )`. -/
def setData (s : Scaling R) (h : List R) : Res (Scaling R) := do
  let h0 ← tableAt h 0
  let l ← CArray.store s.length 0 h0
  let h1 ← tableAt h 1
  let l ← CArray.store l 1 h1
  let h2 ← tableAt h 2
  let l ← CArray.store l 2 h2
  .ok ⟨l⟩

/-- Scaling.hpp 104-113 `jacobian( cell, J )`. -/
def jacobian (cfg : Config) (A : Arith R) (s : Scaling R) (J : List R) : Res (List R) := do
  let h0 ← tableAt s.getData 0
  let J ← CArray.write cfg J (CArray.whole [3]) [0] (A.mul (A.lit (1 / 2)) h0)
  let h1 ← tableAt s.getData 1
  let J ← CArray.write cfg J (CArray.whole [3]) [1] (A.mul (A.lit (1 / 2)) h1)
  let h2 ← tableAt s.getData 2
  CArray.write cfg J (CArray.whole [3]) [2] (A.mul (A.lit (1 / 2)) h2)

/-- Scaling.hpp 131-133, the three assignments to `invJ`. -/
def inverseEntries (cfg : Config) (A : Arith R) (h0 h1 h2 : R) (invJ : List R) : Res (List R) := do
  let q0 ← A.div (A.lit 2) h0
  let invJ ← CArray.write cfg invJ (CArray.whole [3]) [0] q0
  let q1 ← A.div (A.lit 2) h1
  let invJ ← CArray.write cfg invJ (CArray.whole [3]) [1] q1
  let q2 ← A.div (A.lit 2) h2
  CArray.write cfg invJ (CArray.whole [3]) [2] q2

/-- Scaling.hpp 125-135 `inverseJacobian( cell, invJ, detJ )`.  The result is the value left in `detJ` and
the contents left in `invJ`; the latter is `nonfinite` if one of the quotients is. -/
def inverseJacobian (cfg : Config) (A : Arith R) (s : Scaling R) (invJ : List R) :
    Res (R × Res (List R)) := do
  let h0 ← tableAt s.getData 0
  let h1 ← tableAt s.getData 1
  let h2 ← tableAt s.getData 2
  .ok (A.mul (A.mul (A.mul (A.lit (1 / 8)) h0) h1) h2, inverseEntries cfg A h0 h1 h2 invJ)

/-- JacobianTransforms.hpp 27-34 `jacobian( cell )`: `uninit` is the indeterminate contents of the local
`J`. -/
def jacobianValue (cfg : Config) (A : Arith R) (s : Scaling R) (uninit : List R) : Res (List R) :=
  jacobian cfg A s uninit

/-- JacobianTransforms.hpp 36-44 `inverseJacobian( cell )`, returning `( detJ, invJ )`. -/
def inverseJacobianValue (cfg : Config) (A : Arith R) (s : Scaling R) (uninit : List R) :
    Res (R × Res (List R)) :=
  inverseJacobian cfg A s uninit

end Scaling

/-- UniformScaling.hpp 35-79 `UniformScaling`: the member `m_length`. -/
structure UniformScaling (R : Type) where
  length : R
  deriving DecidableEq, Repr

namespace UniformScaling

/-- UniformScaling.hpp 78 `m_length{1.0}`. -/
def init (A : Arith R) : UniformScaling R := ⟨A.lit 1⟩

/-- UniformScaling.hpp 60 `getData()`. -/
def getData (s : UniformScaling R) : R := s.length

/-- UniformScaling.hpp 66 `setData() = x`, an assignment through the returned reference. -/
def assignData (_ : UniformScaling R) (x : R) : UniformScaling R := ⟨x⟩

/-- UniformScaling.hpp 72-73 `setData( h )`. -/
def setData (_ : UniformScaling R) (h : R) : UniformScaling R := ⟨h⟩

/-- UniformScaling.hpp 92-98 `jacobian( cell, J )`; `Scalar< REAL_TYPE >` is a CArray of one element
(CArray.hpp 258). -/
def jacobian (cfg : Config) (A : Arith R) (s : UniformScaling R) (J : List R) : Res (List R) :=
  CArray.write cfg J (CArray.whole [1]) [0] (A.mul (A.lit (1 / 2)) s.getData)

/-- UniformScaling.hpp 114, the assignment to `invJ`. -/
def inverseEntry (cfg : Config) (A : Arith R) (h : R) (invJ : List R) : Res (List R) := do
  let q ← A.div (A.lit 2) h
  CArray.write cfg invJ (CArray.whole [1]) [0] q

/-- UniformScaling.hpp 108-116 `inverseJacobian( cell, invJ, detJ )`: the values left in `detJ` and
`invJ`. -/
def inverseJacobian (cfg : Config) (A : Arith R) (s : UniformScaling R) (invJ : List R) :
    R × Res (List R) :=
  (A.mul (A.mul (A.mul (A.lit (1 / 8)) s.getData) s.getData) s.getData,
    inverseEntry cfg A s.getData invJ)

/-- JacobianTransforms.hpp 27-34 `jacobian( cell )`: `uninit` is the indeterminate contents of the local
`J`. -/
def jacobianValue (cfg : Config) (A : Arith R) (s : UniformScaling R) (uninit : List R) :
    Res (List R) :=
  jacobian cfg A s uninit

/-- JacobianTransforms.hpp 36-44 `inverseJacobian( cell )`, returning `( detJ, invJ )`. -/
def inverseJacobianValue (cfg : Config) (A : Arith R) (s : UniformScaling R) (uninit : List R) :
    R × Res (List R) :=
  inverseJacobian cfg A s uninit

end UniformScaling
end Verif
