import Verif.Model.Outcome
import Verif.Spec.Box

/-! # Odometers -/

namespace Verif.Spec

/-- What becomes of a reading. -/
inductive Advance where
  | next (reading : List Int)
  | done (reading : List Int)
  | overflow
  deriving DecidableEq, Repr

/-- Advancing an odometer with the given ranges and starting values: the last position that is not exhausted goes up by
one and the positions behind it go back to their start; if all are exhausted, each has gone up by one and the odometer
is done.  A position at `INT_MAX` cannot go up. -/
def advance : (ranges start reading : List Int) → Advance
  | r :: rs, _ :: ss, t :: ts =>
    match advance rs ss ts with
    | .next ts' => .next (t :: ts')
    | .done ts' =>
      if t = 2147483647 then .overflow
      else if t + 1 < r then .next ((t + 1) :: ss)
      else .done ((t + 1) :: ts')
    | .overflow => .overflow
  | _, _, _ => .done []

/-- Running `body` on the reading, which it may change, and advancing, until the odometer is done or the body does not
finish normally; `none` if that has not happened after `n` calls. -/
def odometer {σ : Type} (ranges start : List Int) (body : List Int × σ → Res (List Int × σ)) :
    (n : ℕ) → List Int × σ → Option (Res (List Int × σ))
  | 0, _ => none
  | n + 1, st =>
    match body st with
    | .ok (t, s) =>
      match advance ranges start t with
      | .next t' => odometer ranges start body n (t', s)
      | .done t' => some (.ok (t', s))
      | .overflow => some .ub
    | r => some r

end Verif.Spec

namespace Verif.Spec

/-- Calling `body` for the listed arguments, in list order, until one of the calls asks to stop. -/
def callsUntil {σ ι α : Type} (body : ι → σ → Res (σ × Option α)) : List ι → σ → Res (σ × Option α)
  | [], s => .ok (s, none)
  | i :: is, s =>
    match body i s with
    | .ok (s', none) => callsUntil body is s'
    | r => r

end Verif.Spec
