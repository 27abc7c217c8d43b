import Verif.Model.MathUtilities

/-!
# `inverse( matrix, det )` with `det` an element of the matrix

`MathUtilities.inverse` assumes that `det` is not an element of the matrix.  Nothing in the code requires that.
-/

namespace Verif.MathUtilities

variable {R S : Type}

/-- MathUtilities.hpp 164-177, from the assignment of `x` to `det`, which is `matrix( p, q )`. -/
def inverseAliasedFinish (A : Arith R) (M : MatrixOps S R) (m : S) (p q : Int) (x s00 s01 s02 s10 s11 s12 s20 s21 s22 : R) :
    Res S := do
  let m ← M.set m p q x
  let det ← M.get m p q
  let invDet ← A.div (A.lit 1) det
  inverseFinish A M m invDet s00 s01 s02 s10 s11 s12 s20 s21 s22

/-- MathUtilities.hpp 147-178 `inverse( matrix, matrix( p, q ) )`; with `M := native3` the overload in 104-135,
`inverse( matrix, matrix[ p ][ q ] )`.  The result is the contents left in `matrix`. -/
def inverseAliased (A : Arith R) (M : MatrixOps S R) (m : S) (p q : Int) : Res S := do
  let s00 ← M.get m 0 0
  let s01 ← M.get m 0 1
  let s02 ← M.get m 0 2
  let s10 ← M.get m 1 0
  let s11 ← M.get m 1 1
  let s12 ← M.get m 1 2
  let s20 ← M.get m 2 0
  let s21 ← M.get m 2 1
  let s22 ← M.get m 2 2
  let m ← M.set m 0 0 (A.sub (A.mul s11 s22) (A.mul s12 s21))
  let m ← M.set m 0 1 (A.sub (A.mul s02 s21) (A.mul s01 s22))
  let m ← M.set m 0 2 (A.sub (A.mul s01 s12) (A.mul s02 s11))
  let m00 ← M.get m 0 0
  let m01 ← M.get m 0 1
  let m02 ← M.get m 0 2
  inverseAliasedFinish A M m p q (A.add (A.add (A.mul s00 m00) (A.mul s10 m01)) (A.mul s20 m02))
    s00 s01 s02 s10 s11 s12 s20 s21 s22

end Verif.MathUtilities
