import Verif.Model.Float
import Verif.Model.LagrangeBasis
import Verif.Model.Quadrature
import Verif.Model.Scaling

/-!
# Expressions that mix `REAL_TYPE` with `double` literals

The other modules evaluate every operation in `REAL_TYPE`.  This one models the functions of Shiva that have
`double` literals with the types C++ gives their subexpressions: an operation with a `double` operand is done in
`double`, one with operands of type `REAL_TYPE` and `int` in `REAL_TYPE`, and a `double` is converted where it is
returned as, or assigned to, a `REAL_TYPE`.
-/

namespace Verif

/-- Arithmetic in `REAL_TYPE` (`R`) and in `double` (`W`), the conversions between them, and
`std::numeric_limits< REAL_TYPE >::max()`.  Used for Spacing.hpp 42-58, Quadrature.hpp 57-65. -/
structure Mixed (R W : Type) where
  real : Arith R
  wide : Arith W
  widen : R → W
  narrow : W → R
  max : R

namespace Flt

/-- Conversion to the format `F`.  Used for Spacing.hpp 49, 58, Quadrature.hpp 57-63. -/
noncomputable def convert (F : FloatFormat) (a : Flt) : Flt :=
  match a.datum with
  | .finite x => round F a.raised x
  | .inf _ | .nan => a

end Flt

/-- The largest finite number of a format.  Used for Quadrature.hpp 65, 118. -/
noncomputable def FloatFormat.maxFinite (F : FloatFormat) : ℝ := (2 - (2 : ℝ)⁻¹ ^ F.fracBits) * 2 ^ F.maxExp

/-- `REAL_TYPE` is `float`.  Used for Spacing.hpp 32. -/
noncomputable def floatMixed : Mixed Flt Flt where
  real := floatArith binary32
  wide := floatArith binary64
  widen := id
  narrow := Flt.convert binary32
  max := Flt.ofReal binary32.maxFinite

/-- `REAL_TYPE` is `double`.  Used for Spacing.hpp 32. -/
noncomputable def doubleMixed : Mixed Flt Flt where
  real := floatArith binary64
  wide := floatArith binary64
  widen := id
  narrow := id
  max := Flt.ofReal binary64.maxFinite

namespace Mixed

variable {R W : Type}

/-- A `double` literal used as a `REAL_TYPE`.  Used for Spacing.hpp 72, LagrangeBasis.hpp 166. -/
def lit (M : Mixed R W) (q : ℚ) : R := M.narrow (M.wide.lit q)

/-- `-q` for a `double` literal `q`, used as a `REAL_TYPE`.  Used for Spacing.hpp 209, 225. -/
def negLit (M : Mixed R W) (q : ℚ) : R := M.narrow (M.wide.neg (M.wide.lit q))

namespace EqualSpacing

/-- Spacing.hpp 42 `interval()`: `2.0 / ( numPoints - 1 )` is in `double`. -/
def interval (M : Mixed R W) (n : Int) : Res R := do
  let d ← isub n 1
  let h ← M.wide.div (M.wide.lit 2) (M.wide.lit d)
  .ok (M.narrow h)

/-- Spacing.hpp 49 `coordinate( index )`: `-1 + index * interval()` is in `REAL_TYPE`. -/
def coordRT (M : Mixed R W) (n : Int) (index : Int) : Res R := do
  let h ← interval M n
  .ok (M.real.add (M.real.lit (-1)) (M.real.mul (M.real.lit index) h))

/-- Spacing.hpp 57-58 `coordinate< INDEX >()`: in `-1.0 + INDEX * interval()` the product is in `REAL_TYPE` and
the sum in `double`. -/
def coordCT (M : Mixed R W) (n : Int) (index : Int) : Res R := do
  let h ← interval M n
  .ok (M.narrow (M.wide.add (M.wide.neg (M.wide.lit 1)) (M.widen (M.real.mul (M.real.lit index) h))))

end EqualSpacing

/-- Spacing.hpp 32-59 `EqualSpacing< REAL_TYPE, N >`. -/
def equalSpacing (M : Mixed R W) (n : Int) : Spacing R :=
  ⟨n, EqualSpacing.coordRT M n, EqualSpacing.coordCT M n⟩

namespace GaussLegendre

/-- Spacing.hpp 72 -/
def invSqrt3 (M : Mixed R W) : R := M.lit 0.57735026918962576450914878050195745565
/-- Spacing.hpp 75 -/
def sqrt3div5 (M : Mixed R W) : R := M.lit 0.77459666924148337703585307995647992217
/-- Spacing.hpp 97, 123 -/
def c40 (M : Mixed R W) : R := M.lit 0.8611363115940525752239464888928095051
/-- Spacing.hpp 98, 124 -/
def c41 (M : Mixed R W) : R := M.lit 0.3399810435848562648026657591032446872

/-- Spacing.hpp 85-102 `coordinate( index )`. -/
def coordRT (M : Mixed R W) (n : Int) (index : Int) : Res R :=
  if n = 2 then do
    let k ← imul index 2
    .ok (M.narrow (M.wide.mul (M.widen (invSqrt3 M)) (M.wide.add (M.wide.neg (M.wide.lit 1)) (M.wide.lit k))))
  else if n = 3 then
    .ok (M.narrow (M.wide.mul (M.widen (sqrt3div5 M)) (M.wide.add (M.wide.neg (M.wide.lit 1)) (M.wide.lit index))))
  else if n = 4 then do
    let i1 ← iadd index 1
    let c ← tableAt [c40 M, c41 M] (Int.shiftRight (Int.land i1 2) 1)
    .ok (M.real.mul c (M.real.lit ((Int.land index 2 - 1 : Int) : ℚ)))
  else .ok (M.real.lit 0)

/-- Spacing.hpp 110-132 `coordinate< INDEX >()`. -/
def coordCT (M : Mixed R W) (n : Int) (index : Int) : Res R :=
  if n = 2 then
    .ok (M.narrow (M.wide.mul (M.widen (invSqrt3 M))
      (M.wide.add (M.wide.neg (M.wide.lit 1)) (M.wide.mul (M.wide.lit index) (M.wide.lit 2)))))
  else if n = 3 then
    .ok (M.narrow (M.wide.mul (M.widen (sqrt3div5 M)) (M.wide.add (M.wide.neg (M.wide.lit 1)) (M.wide.lit index))))
  else if n = 4 then
    .ok (tableCT [M.real.neg (c40 M), M.real.neg (c41 M), c41 M, c40 M] (M.real.lit 0) index)
  else .ok (M.real.lit 0)

end GaussLegendre

/-- Spacing.hpp 68-133 `GaussLegendreSpacing< REAL_TYPE, N >`. -/
def gaussLegendreSpacing (M : Mixed R W) (n : Int) : Spacing R :=
  ⟨n, GaussLegendre.coordRT M n, GaussLegendre.coordCT M n⟩

namespace GaussLobatto

/-- Spacing.hpp 146 -/
def invSqrt5 (M : Mixed R W) : R := M.lit 0.44721359549995793928183473374625524709
/-- Spacing.hpp 149 -/
def sqrt3div7 (M : Mixed R W) : R := M.lit 0.65465367070797714379829245624685835557

/-- Spacing.hpp 159-188 `coordinate( index )`. -/
def coordRT (M : Mixed R W) (n : Int) (index : Int) : Res R :=
  if n = 2 then
    .ok (M.narrow (M.wide.add (M.wide.neg (M.wide.lit 1)) (M.wide.mul (M.wide.lit index) (M.wide.lit 2))))
  else if n = 3 then
    .ok (M.narrow (M.wide.add (M.wide.neg (M.wide.lit 1)) (M.wide.lit index)))
  else if n = 4 then do
    let i1 ← iadd index 1
    .ok (M.narrow (M.wide.mul (M.wide.lit ((Int.land index 2 - 1 : Int) : ℚ))
      (M.wide.sub (M.wide.lit 1) (M.wide.mul (M.wide.lit ((Int.shiftRight (Int.land i1 2) 1 : Int) : ℚ))
        (M.wide.sub (M.wide.lit 1) (M.widen (invSqrt5 M)))))))
  else if n = 5 then
    tableAt [M.negLit 1, M.real.neg (sqrt3div7 M), M.real.lit 0, sqrt3div7 M, M.lit 1] index
  else .ok (M.real.lit 0)

/-- Spacing.hpp 196-265 `coordinate< INDEX >()`. -/
def coordCT (M : Mixed R W) (n : Int) (index : Int) : Res R :=
  if n = 2 then
    .ok (M.narrow (M.wide.add (M.wide.neg (M.wide.lit 1)) (M.wide.mul (M.wide.lit index) (M.wide.lit 2))))
  else if n = 3 then
    .ok (M.narrow (M.wide.add (M.wide.neg (M.wide.lit 1)) (M.wide.lit index)))
  else if n = 4 then
    .ok (tableCT [M.negLit 1, M.real.neg (invSqrt5 M), invSqrt5 M, M.lit 1] (M.real.lit 0) index)
  else if n = 5 then
    .ok (tableCT [M.negLit 1, M.real.neg (sqrt3div7 M), M.real.lit 0, sqrt3div7 M, M.lit 1] (M.real.lit 0) index)
  else if n = 6 then
    .ok (tableCT [M.negLit 1, M.negLit 0.7650553239294648, M.negLit 0.2852315164806455,
      M.lit 0.2852315164806455, M.lit 0.7650553239294648, M.lit 1] (M.real.lit 0) index)
  else if n = 7 then
    .ok (tableCT [M.negLit 1, M.negLit 0.83022389627857, M.negLit 0.4688487934707,
      M.lit 0, M.lit 0.4688487934707, M.lit 0.83022389627857, M.lit 1] (M.real.lit 0) index)
  else if n = 8 then
    .ok (tableCT [M.negLit 1, M.negLit 0.87174014850961, M.negLit 0.59170018143314,
      M.negLit 0.20929921790248, M.lit 0.20929921790248, M.lit 0.59170018143314,
      M.lit 0.87174014850961, M.lit 1] (M.real.lit 0) index)
  else if n = 9 then
    .ok (tableCT [M.negLit 1, M.negLit 0.89975799541146, M.negLit 0.67718627951074,
      M.negLit 0.36311746382618, M.lit 0, M.lit 0.36311746382618, M.lit 0.67718627951074,
      M.lit 0.89975799541146, M.lit 1] (M.real.lit 0) index)
  else .ok (M.real.lit 0)

end GaussLobatto

/-- Spacing.hpp 142-267 `GaussLobattoSpacing< REAL_TYPE, N >`. -/
def gaussLobattoSpacing (M : Mixed R W) (n : Int) : Spacing R :=
  ⟨n, GaussLobatto.coordRT M n, GaussLobatto.coordCT M n⟩

namespace QuadratureGaussLegendre

/-- Quadrature.hpp 46-66 `weight( index )`. -/
def weightRT (M : Mixed R W) (n : Int) (index : Int) : Res R := do
  let _ ← Res.staticAssert (n ≥ 2 ∧ n ≤ 4)
  if n = 2 then .ok (M.lit 1)
  else if n = 3 then
    .ok (M.narrow (M.wide.add (M.wide.lit 0.5555555555555555555555555555555556)
      (M.wide.mul (M.wide.lit 0.3333333333333333333333333333333333) (M.wide.lit ((Int.land index 1 : Int) : ℚ)))))
  else if n = 4 then do
    let i1 ← iadd index 1
    .ok (M.narrow (M.wide.add (M.wide.lit 0.5) (M.wide.mul (M.wide.lit ((-1 + Int.land i1 2 : Int) : ℚ))
      (M.wide.lit 0.15214515486254614262693605077800059277))))
  else .ok M.max

/-- Quadrature.hpp 74-119 `weight< INDEX >()`. -/
def weightCT (M : Mixed R W) (n : Int) (index : Int) : Res R := do
  let _ ← Res.staticAssert (n ≥ 2 ∧ n ≤ 4)
  if n = 2 then .ok (M.lit 1)
  else if n = 3 then
    .ok (tableCT [M.lit 0.5555555555555555555555555555555556, M.lit 0.8888888888888888888888888888888889,
      M.lit 0.5555555555555555555555555555555556] M.max index)
  else if n = 4 then
    .ok (tableCT [M.narrow (M.wide.sub (M.wide.lit 0.5) (M.wide.lit 0.15214515486254614262693605077800059277)),
      M.narrow (M.wide.add (M.wide.lit 0.5) (M.wide.lit 0.15214515486254614262693605077800059277)),
      M.narrow (M.wide.add (M.wide.lit 0.5) (M.wide.lit 0.15214515486254614262693605077800059277)),
      M.narrow (M.wide.sub (M.wide.lit 0.5) (M.wide.lit 0.15214515486254614262693605077800059277))] M.max index)
  else .ok M.max

end QuadratureGaussLegendre

/-- Quadrature.hpp 38-120 `QuadratureGaussLegendre< REAL_TYPE, N >`. -/
def quadratureGaussLegendre (M : Mixed R W) (n : Int) : Quadrature R :=
  { gaussLegendreSpacing M n with
    weightRT := QuadratureGaussLegendre.weightRT M n
    weightCT := QuadratureGaussLegendre.weightCT M n }

namespace QuadratureGaussLobatto

/-- Quadrature.hpp 138-162 `weight( index )`. -/
def weightRT (M : Mixed R W) (n : Int) (index : Int) : Res R := do
  let _ ← Res.staticAssert (n ≥ 2 ∧ n ≤ 5)
  if n = 2 then .ok (M.lit 1)
  else if n = 3 then
    .ok (M.narrow (M.wide.add (M.wide.lit 0.3333333333333333333333333333333333)
      (M.wide.lit ((Int.land index 1 : Int) : ℚ))))
  else if n = 4 then do
    let i1 ← iadd index 1
    .ok (M.narrow (M.wide.add (M.wide.lit 0.1666666666666666666666666666666667)
      (M.wide.mul (M.wide.lit ((Int.shiftRight (Int.land i1 2) 1 : Int) : ℚ))
        (M.wide.lit 0.6666666666666666666666666666666667))))
  else if n = 5 then do
    let i2 ← isub index 2
    .ok (M.narrow (M.wide.add (M.wide.add (M.wide.lit 0.1)
        (M.wide.mul (M.wide.lit ((Int.land index 1 : Int) : ℚ)) (M.wide.lit 0.4444444444444444444444444444444444)))
      (M.wide.mul (M.wide.lit (if i2 = 0 then 1 else 0)) (M.wide.lit 0.6111111111111111111111111111111111))))
  else .ok M.max

/-- Quadrature.hpp 171-242 `weight< INDEX >()`. -/
def weightCT (M : Mixed R W) (n : Int) (index : Int) : Res R := do
  let _ ← Res.staticAssert (n ≥ 2 ∧ n ≤ 9)
  if n = 2 then .ok (M.lit 1)
  else if n = 3 then
    .ok (M.narrow (M.wide.add (M.wide.lit 0.3333333333333333333333333333333333)
      (M.wide.lit ((Int.land index 1 : Int) : ℚ))))
  else if n = 4 then
    .ok (tableCT [M.lit 0.1666666666666666666666666666666667, M.lit 0.8333333333333333333333333333333333,
      M.lit 0.8333333333333333333333333333333333, M.lit 0.1666666666666666666666666666666667] M.max index)
  else if n = 5 then
    .ok (tableCT [M.lit 0.1, M.lit 0.5444444444444444444444444444444444,
      M.lit 0.7111111111111111111111111111111111, M.lit 0.5444444444444444444444444444444444,
      M.lit 0.1] M.max index)
  else if n = 6 then
    .ok (tableCT [M.lit 0.06666666666667, M.lit 0.37847495629785, M.lit 0.55485837703548,
      M.lit 0.55485837703548, M.lit 0.37847495629785, M.lit 0.06666666666667] M.max index)
  else if n = 7 then
    .ok (tableCT [M.lit 0.047619047619048, M.lit 0.27682604736157, M.lit 0.43174538120986,
      M.lit 0.48761904761905, M.lit 0.43174538120986, M.lit 0.27682604736157,
      M.lit 0.047619047619048] M.max index)
  else if n = 8 then
    .ok (tableCT [M.lit 0.035714285714286, M.lit 0.2107042271435, M.lit 0.34112269248351,
      M.lit 0.4124587946587, M.lit 0.4124587946587, M.lit 0.3411226924835, M.lit 0.21070422714351,
      M.lit 0.035714285714286] M.max index)
  else if n = 9 then
    .ok (tableCT [M.lit 0.02777777777778, M.lit 0.16549536156081, M.lit 0.27453871250016,
      M.lit 0.34642851097305, M.lit 0.37151927437642, M.lit 0.34642851097305, M.lit 0.27453871250016,
      M.lit 0.16549536156081, M.lit 0.02777777777778] M.max index)
  else .ok M.max

end QuadratureGaussLobatto

/-- Quadrature.hpp 129-243 `QuadratureGaussLobatto< REAL_TYPE, N >`. -/
def quadratureGaussLobatto (M : Mixed R W) (n : Int) : Quadrature R :=
  { gaussLobattoSpacing M n with
    weightRT := QuadratureGaussLobatto.weightRT M n
    weightCT := QuadratureGaussLobatto.weightCT M n }

namespace LagrangeBasis

/-- LagrangeBasis.hpp 160-175 `valueProductTerm< BF_INDEX, TERM_INDEX >( coord )`: the quotient
`1.0 / ( coordinate_BF - coordinate_FI )` is in `double`, the difference in `REAL_TYPE`. -/
def valueProductTerm (M : Mixed R W) (S : Spacing R) (bf term : Int) (coord : R) : Res R :=
  if bf = term then .ok (M.lit 1)
  else do
    let cFI ← (S.coordCT term).constexpr
    let cBF ← (S.coordCT bf).constexpr
    let denom ← (M.wide.div (M.wide.lit 1) (M.widen (M.real.sub cBF cFI))).constexpr
    .ok (M.real.mul (M.real.sub coord cFI) (M.narrow denom))

/-- LagrangeBasis.hpp 192-204 `valueProductFactor< TERM_INDEX, DERIVATIVE_INDEX >( values )`. -/
def valueProductFactor (M : Mixed R W) (values : List R) (term deriv : Int) : Res R :=
  if term = deriv then .ok (M.lit 1) else tableAt values term

/-- LagrangeBasis.hpp 214-228 `gradientOfValueTerm< BF_INDEX, TERM_INDEX >()`. -/
def gradientOfValueTerm (M : Mixed R W) (S : Spacing R) (bf term : Int) : Res R :=
  if bf = term then .ok (M.lit 0)
  else do
    let cFI ← (S.coordCT term).constexpr
    let cBF ← (S.coordCT bf).constexpr
    let q ← M.wide.div (M.wide.lit 1) (M.widen (M.real.sub cBF cFI))
    .ok (M.narrow q)

/-- LagrangeBasis.hpp 80-97 `value< BF_INDEX >( coord )`; `n` is `numSupportPoints`. -/
def value (M : Mixed R W) (S : Spacing R) (n bf : Int) (coord : R) : Res R := do
  let is ← Sequence.makeIntegerSequence n
  foldRight M.real.mul (is.map fun a => valueProductTerm M S bf a coord)

/-- LagrangeBasis.hpp 134-138 the lambda `func( aa, b... )`. -/
def gradientTerm (M : Mixed R W) (S : Spacing R) (is : List Int) (bf : Int) (values : List R) (a : Int) :
    Res R := do
  let g ← gradientOfValueTerm M S bf a
  let p ← foldRight M.real.mul (is.map fun b => valueProductFactor M values b a)
  .ok (M.real.mul g p)

/-- LagrangeBasis.hpp 114-143 `gradient< BF_INDEX >( coord )`, C++17 branch. -/
def gradient (M : Mixed R W) (S : Spacing R) (n bf : Int) (coord : R) : Res R := do
  let is ← Sequence.makeIntegerSequence n
  let values ← sequenceRes (is.map fun a => valueProductTerm M S bf a coord)
  foldRight M.real.add (is.map fun a => gradientTerm M S is bf values a)

end LagrangeBasis

/-- LagrangeBasis.hpp 52-66 `LagrangeBasis< REAL_TYPE, ORDER, SPACING_TYPE >`. -/
def lagrangeBasis (M : Mixed R W) (S : Int → Spacing R) (order : Int) : Res (Basis R) := do
  let n ← (iadd order 1).constexpr
  .ok ⟨n, LagrangeBasis.value M (S n) n, LagrangeBasis.gradient M (S n) n⟩

namespace Scaling

/-- Scaling.hpp 104-113 `jacobian( cell, J )`: `0.5 * h[ k ]` is in `double`. -/
def jacobian (cfg : Config) (M : Mixed R W) (s : Scaling R) (J : List R) : Res (List R) := do
  let h0 ← tableAt s.getData 0
  let J ← CArray.write cfg J (CArray.whole [3]) [0] (M.narrow (M.wide.mul (M.wide.lit (1 / 2)) (M.widen h0)))
  let h1 ← tableAt s.getData 1
  let J ← CArray.write cfg J (CArray.whole [3]) [1] (M.narrow (M.wide.mul (M.wide.lit (1 / 2)) (M.widen h1)))
  let h2 ← tableAt s.getData 2
  CArray.write cfg J (CArray.whole [3]) [2] (M.narrow (M.wide.mul (M.wide.lit (1 / 2)) (M.widen h2)))

/-- Scaling.hpp 131-133, the three assignments to `invJ`. -/
def inverseEntries (cfg : Config) (M : Mixed R W) (h0 h1 h2 : R) (invJ : List R) : Res (List R) := do
  let q0 ← M.wide.div (M.wide.lit 2) (M.widen h0)
  let invJ ← CArray.write cfg invJ (CArray.whole [3]) [0] (M.narrow q0)
  let q1 ← M.wide.div (M.wide.lit 2) (M.widen h1)
  let invJ ← CArray.write cfg invJ (CArray.whole [3]) [1] (M.narrow q1)
  let q2 ← M.wide.div (M.wide.lit 2) (M.widen h2)
  CArray.write cfg invJ (CArray.whole [3]) [2] (M.narrow q2)

/-- Scaling.hpp 125-135 `inverseJacobian( cell, invJ, detJ )`: `0.125 * h[0] * h[1] * h[2]` is in `double`. -/
def inverseJacobian (cfg : Config) (M : Mixed R W) (s : Scaling R) (invJ : List R) :
    Res (R × Res (List R)) := do
  let h0 ← tableAt s.getData 0
  let h1 ← tableAt s.getData 1
  let h2 ← tableAt s.getData 2
  .ok (M.narrow (M.wide.mul (M.wide.mul (M.wide.mul (M.wide.lit (1 / 8)) (M.widen h0)) (M.widen h1)) (M.widen h2)),
    inverseEntries cfg M h0 h1 h2 invJ)

end Scaling

namespace UniformScaling

/-- UniformScaling.hpp 92-98 `jacobian( cell, J )`. -/
def jacobian (cfg : Config) (M : Mixed R W) (s : UniformScaling R) (J : List R) : Res (List R) :=
  CArray.write cfg J (CArray.whole [1]) [0] (M.narrow (M.wide.mul (M.wide.lit (1 / 2)) (M.widen s.getData)))

/-- UniformScaling.hpp 114, the assignment to `invJ`: `2 / h` is in `REAL_TYPE`. -/
def inverseEntry (cfg : Config) (M : Mixed R W) (h : R) (invJ : List R) : Res (List R) := do
  let q ← M.real.div (M.real.lit 2) h
  CArray.write cfg invJ (CArray.whole [1]) [0] q

/-- UniformScaling.hpp 108-116 `inverseJacobian( cell, invJ, detJ )`. -/
def inverseJacobian (cfg : Config) (M : Mixed R W) (s : UniformScaling R) (invJ : List R) :
    R × Res (List R) :=
  (M.narrow (M.wide.mul (M.wide.mul (M.wide.mul (M.wide.lit (1 / 8)) (M.widen s.getData)) (M.widen s.getData))
    (M.widen s.getData)), inverseEntry cfg M s.getData invJ)

end UniformScaling
end Mixed
end Verif
