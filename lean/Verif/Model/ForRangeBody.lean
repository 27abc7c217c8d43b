import Verif.Model.Arith

/-!
# `forRange` with a body that changes the index

`include/shiva/common/IndexTypes.hpp` 98-123 and 164-172.  `forRange` hands its own index to the body by reference, and
the loop variables are references to its entries, so that a body that takes a `MultiIndexRange &` can change them.
`Model/IndexTypes` covers bodies that do not; here the body returns the index as well.  Such a loop need not end:
`none` says that it has not ended within `fuel` rounds of any of the loops.
-/

namespace Verif.IndexTypes.Body

variable {σ : Type}

/-- The loop `for ( a = ..; a < range; ++a ) step` of IndexTypes.hpp 109-112 and 118-121, where `a` is a reference to
`index.data[dim]`; the initial assignment has been done. -/
def loop (dim : Nat) (range : Int) (step : List Int × σ → Option (Res (List Int × σ))) :
    Nat → List Int × σ → Option (Res (List Int × σ))
  | 0, _ => none
  | fuel + 1, st =>
    if st.1.getD dim 0 < range then
      match step st with
      | some (.ok st') =>
        match iadd (st'.1.getD dim 0) 1 with
        | .ok a => loop dim range step fuel (st'.1.set dim a, st'.2)
        | _ => some .ub
      | r => r
    else some (.ok st)

/-- IndexTypes.hpp 98-123 `detail::forRangeHelper< DIM >`, with `rem = NUM_INDICES - 1 - DIM`. -/
def forRangeHelper (ranges start : List Int) (func : List Int × σ → Res (List Int × σ)) (fuel : Nat) :
    Nat → Nat → List Int × σ → Option (Res (List Int × σ))
  | 0, dim, st =>
    loop dim (ranges.getD dim 0) (fun st => some (func st)) fuel (st.1.set dim (start.getD dim 0), st.2)
  | rem + 1, dim, st =>
    loop dim (ranges.getD dim 0) (fun st => forRangeHelper ranges start func fuel rem (dim + 1) st) fuel
      (st.1.set dim (start.getD dim 0), st.2)

/-- IndexTypes.hpp 164-172 `forRange( index, func )`; `start` is a copy of the index. -/
def forRange (ranges : List Int) (func : List Int × σ → Res (List Int × σ)) (fuel : Nat) (index : List Int) (s : σ) :
    Option (Res (List Int × σ)) :=
  if ranges = [] then some .illFormed
  else forRangeHelper ranges index func fuel (ranges.length - 1) 0 (index, s)

end Verif.IndexTypes.Body
