import Verif.Model.Arith
import Mathlib.Data.Int.Bitwise

/-!
# `include/shiva/functions/spacing/Spacing.hpp`

Simplification for all floating-point code: every operation is in the template parameter
`REAL_TYPE`, also where an expression mixes it with `double` literals.
-/

namespace Verif

/-- A spacing class: the number of points and the two `coordinate` functions.  User supplied spacings
are also covered by this type.  Used for LagrangeBasis.hpp 54-60, Spacing.hpp 32-59. -/
structure Spacing (R : Type) where
  numPoints : Int
  coordRT : Int → Res R
  coordCT : Int → Res R

variable {R : Type}

/-- A constant array `T a[] = {..}` and the subscript `a[ i ]`; outside the array it is undefined.
Used for Spacing.hpp 97-99, 179-180. -/
def tableAt (t : List R) (i : Int) : Res R :=
  if h : 0 ≤ i ∧ i < t.length then .ok (t[i.toNat]'(by omega)) else .ub

/-- A chain `if constexpr ( INDEX == 0 ) return t0; if constexpr ( INDEX == 1 ) return t1; ..` followed by
a default.  Used for Spacing.hpp 125-128, 209-262. -/
def tableCT (t : List R) (dflt : R) (i : Int) : R :=
  if h : 0 ≤ i ∧ i < t.length then t[i.toNat]'(by omega) else dflt

namespace EqualSpacing

/-- Spacing.hpp 42 `interval()`. -/
def interval (A : Arith R) (n : Int) : Res R := do
  let d ← isub n 1
  A.div (A.lit 2) (A.lit d)

/-- Spacing.hpp 49 `coordinate( index )`. -/
def coordRT (A : Arith R) (n : Int) (index : Int) : Res R := do
  let h ← interval A n
  .ok (A.add (A.lit (-1)) (A.mul (A.lit index) h))

/-- Spacing.hpp 57-58 `coordinate< INDEX >()`. -/
def coordCT (A : Arith R) (n : Int) (index : Int) : Res R := do
  let h ← interval A n
  .ok (A.add (A.neg (A.lit 1)) (A.mul (A.lit index) h))

end EqualSpacing

/-- Spacing.hpp 32-59 `EqualSpacing< REAL_TYPE, N >`. -/
def equalSpacing (A : Arith R) (n : Int) : Spacing R :=
  ⟨n, EqualSpacing.coordRT A n, EqualSpacing.coordCT A n⟩

namespace GaussLegendre

/-- Spacing.hpp 72 -/
def invSqrt3 (A : Arith R) : R := A.lit 0.57735026918962576450914878050195745565
/-- Spacing.hpp 75 -/
def sqrt3div5 (A : Arith R) : R := A.lit 0.77459666924148337703585307995647992217
/-- Spacing.hpp 97-98, 123-124 -/
def c4 (A : Arith R) : List R :=
  [A.lit 0.8611363115940525752239464888928095051, A.lit 0.3399810435848562648026657591032446872]

/-- Spacing.hpp 85-102 `coordinate( index )`. -/
def coordRT (A : Arith R) (n : Int) (index : Int) : Res R :=
  if n = 2 then do
    let k ← imul index 2
    .ok (A.mul (invSqrt3 A) (A.add (A.neg (A.lit 1)) (A.lit k)))
  else if n = 3 then
    .ok (A.mul (sqrt3div5 A) (A.add (A.neg (A.lit 1)) (A.lit index)))
  else if n = 4 then do
    let i1 ← iadd index 1
    let c ← tableAt (c4 A) (Int.shiftRight (Int.land i1 2) 1)
    .ok (A.mul c (A.lit ((Int.land index 2 - 1 : Int) : ℚ)))
  else .ok (A.lit 0)

/-- Spacing.hpp 110-132 `coordinate< INDEX >()`. -/
def coordCT (A : Arith R) (n : Int) (index : Int) : Res R :=
  if n = 2 then
    .ok (A.mul (invSqrt3 A) (A.add (A.neg (A.lit 1)) (A.mul (A.lit index) (A.lit 2))))
  else if n = 3 then
    .ok (A.mul (sqrt3div5 A) (A.add (A.neg (A.lit 1)) (A.lit index)))
  else if n = 4 then
    .ok (tableCT [A.neg (A.lit 0.8611363115940525752239464888928095051),
      A.neg (A.lit 0.3399810435848562648026657591032446872),
      A.lit 0.3399810435848562648026657591032446872,
      A.lit 0.8611363115940525752239464888928095051] (A.lit 0) index)
  else .ok (A.lit 0)

end GaussLegendre

/-- Spacing.hpp 68-133 `GaussLegendreSpacing< REAL_TYPE, N >`. -/
def gaussLegendreSpacing (A : Arith R) (n : Int) : Spacing R :=
  ⟨n, GaussLegendre.coordRT A n, GaussLegendre.coordCT A n⟩

namespace GaussLobatto

/-- Spacing.hpp 146 -/
def invSqrt5 (A : Arith R) : R := A.lit 0.44721359549995793928183473374625524709
/-- Spacing.hpp 149 -/
def sqrt3div7 (A : Arith R) : R := A.lit 0.65465367070797714379829245624685835557

/-- Spacing.hpp 159-188 `coordinate( index )`. -/
def coordRT (A : Arith R) (n : Int) (index : Int) : Res R :=
  if n = 2 then
    .ok (A.add (A.neg (A.lit 1)) (A.mul (A.lit index) (A.lit 2)))
  else if n = 3 then
    .ok (A.add (A.neg (A.lit 1)) (A.lit index))
  else if n = 4 then do
    let i1 ← iadd index 1
    .ok (A.mul (A.lit ((Int.land index 2 - 1 : Int) : ℚ))
      (A.sub (A.lit 1) (A.mul (A.lit ((Int.shiftRight (Int.land i1 2) 1 : Int) : ℚ))
        (A.sub (A.lit 1) (invSqrt5 A)))))
  else if n = 5 then
    tableAt [A.neg (A.lit 1), A.neg (sqrt3div7 A), A.lit 0, sqrt3div7 A, A.lit 1] index
  else .ok (A.lit 0)

/-- Spacing.hpp 196-265 `coordinate< INDEX >()`. -/
def coordCT (A : Arith R) (n : Int) (index : Int) : Res R :=
  if n = 2 then
    .ok (A.add (A.neg (A.lit 1)) (A.mul (A.lit index) (A.lit 2)))
  else if n = 3 then
    .ok (A.add (A.neg (A.lit 1)) (A.lit index))
  else if n = 4 then
    .ok (tableCT [A.neg (A.lit 1), A.neg (invSqrt5 A), invSqrt5 A, A.lit 1] (A.lit 0) index)
  else if n = 5 then
    .ok (tableCT [A.neg (A.lit 1), A.neg (sqrt3div7 A), A.lit 0, sqrt3div7 A, A.lit 1] (A.lit 0) index)
  else if n = 6 then
    .ok (tableCT [A.neg (A.lit 1), A.neg (A.lit 0.7650553239294648), A.neg (A.lit 0.2852315164806455),
      A.lit 0.2852315164806455, A.lit 0.7650553239294648, A.lit 1] (A.lit 0) index)
  else if n = 7 then
    .ok (tableCT [A.neg (A.lit 1), A.neg (A.lit 0.83022389627857), A.neg (A.lit 0.4688487934707),
      A.lit 0, A.lit 0.4688487934707, A.lit 0.83022389627857, A.lit 1] (A.lit 0) index)
  else if n = 8 then
    .ok (tableCT [A.neg (A.lit 1), A.neg (A.lit 0.87174014850961), A.neg (A.lit 0.59170018143314),
      A.neg (A.lit 0.20929921790248), A.lit 0.20929921790248, A.lit 0.59170018143314,
      A.lit 0.87174014850961, A.lit 1] (A.lit 0) index)
  else if n = 9 then
    .ok (tableCT [A.neg (A.lit 1), A.neg (A.lit 0.89975799541146), A.neg (A.lit 0.67718627951074),
      A.neg (A.lit 0.36311746382618), A.lit 0, A.lit 0.36311746382618, A.lit 0.67718627951074,
      A.lit 0.89975799541146, A.lit 1] (A.lit 0) index)
  else .ok (A.lit 0)

end GaussLobatto

/-- Spacing.hpp 142-267 `GaussLobattoSpacing< REAL_TYPE, N >`. -/
def gaussLobattoSpacing (A : Arith R) (n : Int) : Spacing R :=
  ⟨n, GaussLobatto.coordRT A n, GaussLobatto.coordCT A n⟩

end Verif
