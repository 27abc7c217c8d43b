import Verif.Model.Spacing

/-!
# `include/shiva/functions/quadrature/Quadrature.hpp`
-/

namespace Verif

/-- A quadrature class: a spacing and the two `weight` functions.  Used for Quadrature.hpp 39, 46-47, 74-76. -/
structure Quadrature (R : Type) extends Spacing R where
  weightRT : Int → Res R
  weightCT : Int → Res R

variable {R : Type}

/-- `std::numeric_limits< REAL_TYPE >::max()`.  Simplification: the value for `double`.
Used for Quadrature.hpp 65, 118, 161, 241. -/
def realMax : ℚ := ((2 ^ 1024 - 2 ^ 971 : ℤ) : ℚ)

namespace QuadratureGaussLegendre

/-- Quadrature.hpp 46-66 `weight( index )`. -/
def weightRT (A : Arith R) (n : Int) (index : Int) : Res R := do
  let _ ← Res.staticAssert (n ≥ 2 ∧ n ≤ 4)
  if n = 2 then .ok (A.lit 1)
  else if n = 3 then
    .ok (A.add (A.lit 0.5555555555555555555555555555555556)
      (A.mul (A.lit 0.3333333333333333333333333333333333) (A.lit ((Int.land index 1 : Int) : ℚ))))
  else if n = 4 then do
    let i1 ← iadd index 1
    .ok (A.add (A.lit 0.5) (A.mul (A.lit ((-1 + Int.land i1 2 : Int) : ℚ))
      (A.lit 0.15214515486254614262693605077800059277)))
  else .ok (A.lit realMax)

/-- Quadrature.hpp 74-119 `weight< INDEX >()`. -/
def weightCT (A : Arith R) (n : Int) (index : Int) : Res R := do
  let _ ← Res.staticAssert (n ≥ 2 ∧ n ≤ 4)
  if n = 2 then .ok (A.lit 1)
  else if n = 3 then
    .ok (tableCT [A.lit 0.5555555555555555555555555555555556, A.lit 0.8888888888888888888888888888888889,
      A.lit 0.5555555555555555555555555555555556] (A.lit realMax) index)
  else if n = 4 then
    .ok (tableCT [A.sub (A.lit 0.5) (A.lit 0.15214515486254614262693605077800059277),
      A.add (A.lit 0.5) (A.lit 0.15214515486254614262693605077800059277),
      A.add (A.lit 0.5) (A.lit 0.15214515486254614262693605077800059277),
      A.sub (A.lit 0.5) (A.lit 0.15214515486254614262693605077800059277)] (A.lit realMax) index)
  else .ok (A.lit realMax)

end QuadratureGaussLegendre

/-- Quadrature.hpp 38-120 `QuadratureGaussLegendre< REAL_TYPE, N >`. -/
def quadratureGaussLegendre (A : Arith R) (n : Int) : Quadrature R :=
  { gaussLegendreSpacing A n with
    weightRT := QuadratureGaussLegendre.weightRT A n
    weightCT := QuadratureGaussLegendre.weightCT A n }

namespace QuadratureGaussLobatto

/-- Quadrature.hpp 138-162 `weight( index )`. -/
def weightRT (A : Arith R) (n : Int) (index : Int) : Res R := do
  let _ ← Res.staticAssert (n ≥ 2 ∧ n ≤ 5)
  if n = 2 then .ok (A.lit 1)
  else if n = 3 then
    .ok (A.add (A.lit 0.3333333333333333333333333333333333) (A.lit ((Int.land index 1 : Int) : ℚ)))
  else if n = 4 then do
    let i1 ← iadd index 1
    .ok (A.add (A.lit 0.1666666666666666666666666666666667)
      (A.mul (A.lit ((Int.shiftRight (Int.land i1 2) 1 : Int) : ℚ))
        (A.lit 0.6666666666666666666666666666666667)))
  else if n = 5 then do
    let i2 ← isub index 2
    .ok (A.add (A.add (A.lit 0.1)
        (A.mul (A.lit ((Int.land index 1 : Int) : ℚ)) (A.lit 0.4444444444444444444444444444444444)))
      (A.mul (A.lit (if i2 = 0 then 1 else 0)) (A.lit 0.6111111111111111111111111111111111)))
  else .ok (A.lit realMax)

/-- Quadrature.hpp 171-242 `weight< INDEX >()`. -/
def weightCT (A : Arith R) (n : Int) (index : Int) : Res R := do
  let _ ← Res.staticAssert (n ≥ 2 ∧ n ≤ 9)
  if n = 2 then .ok (A.lit 1)
  else if n = 3 then
    .ok (A.add (A.lit 0.3333333333333333333333333333333333) (A.lit ((Int.land index 1 : Int) : ℚ)))
  else if n = 4 then
    .ok (tableCT [A.lit 0.1666666666666666666666666666666667, A.lit 0.8333333333333333333333333333333333,
      A.lit 0.8333333333333333333333333333333333, A.lit 0.1666666666666666666666666666666667]
      (A.lit realMax) index)
  else if n = 5 then
    .ok (tableCT [A.lit 0.1, A.lit 0.5444444444444444444444444444444444,
      A.lit 0.7111111111111111111111111111111111, A.lit 0.5444444444444444444444444444444444,
      A.lit 0.1] (A.lit realMax) index)
  else if n = 6 then
    .ok (tableCT [A.lit 0.06666666666667, A.lit 0.37847495629785, A.lit 0.55485837703548,
      A.lit 0.55485837703548, A.lit 0.37847495629785, A.lit 0.06666666666667] (A.lit realMax) index)
  else if n = 7 then
    .ok (tableCT [A.lit 0.047619047619048, A.lit 0.27682604736157, A.lit 0.43174538120986,
      A.lit 0.48761904761905, A.lit 0.43174538120986, A.lit 0.27682604736157,
      A.lit 0.047619047619048] (A.lit realMax) index)
  else if n = 8 then
    .ok (tableCT [A.lit 0.035714285714286, A.lit 0.2107042271435, A.lit 0.34112269248351,
      A.lit 0.4124587946587, A.lit 0.4124587946587, A.lit 0.3411226924835, A.lit 0.21070422714351,
      A.lit 0.035714285714286] (A.lit realMax) index)
  else if n = 9 then
    .ok (tableCT [A.lit 0.02777777777778, A.lit 0.16549536156081, A.lit 0.27453871250016,
      A.lit 0.34642851097305, A.lit 0.37151927437642, A.lit 0.34642851097305, A.lit 0.27453871250016,
      A.lit 0.16549536156081, A.lit 0.02777777777778] (A.lit realMax) index)
  else .ok (A.lit realMax)

end QuadratureGaussLobatto

/-- Quadrature.hpp 129-243 `QuadratureGaussLobatto< REAL_TYPE, N >`. -/
def quadratureGaussLobatto (A : Arith R) (n : Int) : Quadrature R :=
  { gaussLobattoSpacing A n with
    weightRT := QuadratureGaussLobatto.weightRT A n
    weightCT := QuadratureGaussLobatto.weightCT A n }

end Verif
