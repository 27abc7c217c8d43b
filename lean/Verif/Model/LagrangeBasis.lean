import Verif.Model.Spacing
import Verif.Model.Sequence

/-!
# `include/shiva/functions/bases/LagrangeBasis.hpp`

These are the C++17 branches; those of later standards are in `Standards.lean`.
-/

namespace Verif

variable {R : Type}

/-- The unary right fold `( E op ... )`: `E1 op ( E2 op ( .. op En ) )`.  For `*` and `+` the fold of an empty
pack is ill-formed.  Used for LagrangeBasis.hpp 94, 137, 140. -/
def foldRight (op : R → R → R) : List (Res R) → Res R
  | [] => .illFormed
  | [x] => x
  | x :: y :: xs => do
    let a ← x
    let b ← foldRight op (y :: xs)
    .ok (op a b)

/-- A one-dimensional basis class, as used by `BasisProduct`: `numSupportPoints`, `value< BF >( x )` and
`gradient< BF >( x )`.  Used for BasisProduct.hpp 33, 47, 105, 197. -/
structure Basis (R : Type) where
  numSupportPoints : Int
  value : Int → R → Res R
  gradient : Int → R → Res R

namespace LagrangeBasis

/-- LagrangeBasis.hpp 160-175 `valueProductTerm< BF_INDEX, TERM_INDEX >( coord )`. -/
def valueProductTerm (A : Arith R) (S : Spacing R) (bf term : Int) (coord : R) : Res R :=
  if bf = term then .ok (A.lit 1)
  else do
    let cFI ← (S.coordCT term).constexpr
    let cBF ← (S.coordCT bf).constexpr
    let denom ← (A.div (A.lit 1) (A.sub cBF cFI)).constexpr
    .ok (A.mul (A.sub coord cFI) denom)

/-- LagrangeBasis.hpp 192-204 `valueProductFactor< TERM_INDEX, DERIVATIVE_INDEX >( values )`. -/
def valueProductFactor (A : Arith R) (values : List R) (term deriv : Int) : Res R :=
  if term = deriv then .ok (A.lit 1) else tableAt values term

/-- LagrangeBasis.hpp 214-228 `gradientOfValueTerm< BF_INDEX, TERM_INDEX >()`. -/
def gradientOfValueTerm (A : Arith R) (S : Spacing R) (bf term : Int) : Res R :=
  if bf = term then .ok (A.lit 0)
  else do
    let cFI ← (S.coordCT term).constexpr
    let cBF ← (S.coordCT bf).constexpr
    A.div (A.lit 1) (A.sub cBF cFI)

/-- LagrangeBasis.hpp 80-97 `value< BF_INDEX >( coord )`; `n` is `numSupportPoints`. -/
def value (A : Arith R) (S : Spacing R) (n bf : Int) (coord : R) : Res R := do
  let is ← Sequence.makeIntegerSequence n
  foldRight A.mul (is.map fun a => valueProductTerm A S bf a coord)

/-- LagrangeBasis.hpp 134-138 the lambda `func( aa, b... )`: the contribution of one factor to the
derivative. -/
def gradientTerm (A : Arith R) (S : Spacing R) (is : List Int) (bf : Int) (values : List R) (a : Int) :
    Res R := do
  let g ← gradientOfValueTerm A S bf a
  let p ← foldRight A.mul (is.map fun b => valueProductFactor A values b a)
  .ok (A.mul g p)

/-- LagrangeBasis.hpp 114-143 `gradient< BF_INDEX >( coord )`, C++17 branch. -/
def gradient (A : Arith R) (S : Spacing R) (n bf : Int) (coord : R) : Res R := do
  let is ← Sequence.makeIntegerSequence n
  let values ← sequenceRes (is.map fun a => valueProductTerm A S bf a coord)
  foldRight A.add (is.map fun a => gradientTerm A S is bf values a)

end LagrangeBasis

/-- LagrangeBasis.hpp 52-66 `LagrangeBasis< REAL_TYPE, ORDER, SPACING_TYPE >`: `numSupportPoints` is the
constant `ORDER + 1`, also passed to the spacing.  `S n` is `SPACING_TYPE< REAL_TYPE, n >`. -/
def lagrangeBasis (A : Arith R) (S : Int → Spacing R) (order : Int) : Res (Basis R) := do
  let n ← (iadd order 1).constexpr
  .ok ⟨n, LagrangeBasis.value A (S n) n, LagrangeBasis.gradient A (S n) n⟩

end Verif
