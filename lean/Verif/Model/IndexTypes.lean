import Verif.Model.Sequence

/-!
# `include/shiva/common/MultiIndex.hpp` and `IndexTypes.hpp`

A `MultiIndexRange< int, RANGES... >` is its static list of ranges together with its `data` member.
-/

namespace Verif.IndexTypes

variable {σ : Type}

/-- IndexTypes.hpp 37-45 `detail::strideHelper`: the fold `( ranges[INDICES] * ... * 1 )`. -/
def strideHelper : List Int → Res Int
  | [] => .ok 1
  | r :: rs => do
    let t ← strideHelper rs
    imul r t

/-- IndexTypes.hpp 55-67 `detail::stride< INDEX >`: `strideHelper` over the integer sequence
`0 .. (NUM_INDICES-1) - INDEX - 1`, that is over the *leading* ranges. -/
def stride (ranges : List Int) (k : Nat) : Res Int :=
  if k ≤ ranges.length - 1 then strideHelper (ranges.take ((ranges.length - 1) - k)) else .illFormed

/-- IndexTypes.hpp 76-84 `detail::linearIndexHelper`: the right fold
`( ( index.data[K] * stride< K >( index ) ) + ... )` over the listed positions `K`. -/
def linearIndexHelper (ranges data : List Int) : List Nat → Res Int
  | [] => .illFormed
  | [k] => do
    let s ← stride ranges k
    imul (data.getD k 0) s
  | k :: k' :: ks => do
    let s ← stride ranges k
    let t ← imul (data.getD k 0) s
    let r ← linearIndexHelper ranges data (k' :: ks)
    iadd t r

/-- IndexTypes.hpp 135-141 `linearIndex( MultiIndexRange )`. -/
def linearIndex (ranges data : List Int) : Res Int :=
  linearIndexHelper ranges data (List.range ranges.length)

/-- The loop `for ( a = ..; a < range; ++a ) step` of IndexTypes.hpp 108-112 and 117-121, where `a` is a
reference to `index.data[dim]`; the initial assignment has been done.  `fuel` bounds the number of
iterations; running out of it is reported as `ub` and does not happen when `fuel` is the distance to
the range. -/
def forLoop (dim : Nat) (range : Int) (step : List Int × σ → Res (List Int × σ)) :
    Nat → List Int × σ → Res (List Int × σ)
  | 0, st => if st.1.getD dim 0 < range then .ub else .ok st
  | fuel + 1, st =>
    if st.1.getD dim 0 < range then do
      let st' ← step st
      let a ← iadd (st'.1.getD dim 0) 1
      forLoop dim range step fuel (st'.1.set dim a, st'.2)
    else .ok st

/-- IndexTypes.hpp 98-123 `detail::forRangeHelper< DIM >`, with `rem = NUM_INDICES - 1 - DIM`.
Simplification: the body receives the index but does not modify it (`Model/ForRangeBody` treats bodies that do). -/
def forRangeHelper (ranges start : List Int) (func : List Int → σ → Res σ) :
    Nat → Nat → List Int × σ → Res (List Int × σ)
  | 0, dim, st =>
    forLoop dim (ranges.getD dim 0)
      (fun st => do
        let s' ← func st.1 st.2
        .ok (st.1, s'))
      (ranges.getD dim 0 - start.getD dim 0).toNat
      (st.1.set dim (start.getD dim 0), st.2)
  | rem + 1, dim, st =>
    forLoop dim (ranges.getD dim 0)
      (fun st => forRangeHelper ranges start func rem (dim + 1) st)
      (ranges.getD dim 0 - start.getD dim 0).toNat
      (st.1.set dim (start.getD dim 0), st.2)

/-- IndexTypes.hpp 164-172 `forRange( index, func )`.  Returns the final index and state.  A
`MultiIndexRange` without ranges would be an array of length zero. -/
def forRange (ranges : List Int) (func : List Int → σ → Res σ) (index : List Int) (s : σ) :
    Res (List Int × σ) :=
  if ranges = [] then .illFormed
  else forRangeHelper ranges index func (ranges.length - 1) 0 (index, s)

/-- MultiIndex.hpp 77 `data[NUM_INDICES] = {0}`: the default index. -/
def defaultIndex (ranges : List Int) : List Int := List.replicate ranges.length 0

end Verif.IndexTypes
