import Verif.Model.Outcome

/-! # Sequences of calls to a stateful body -/

namespace Verif.Spec

/-- Calling `body` once for each listed argument, in list order, threading the state; the first call
that does not finish normally ends the run. -/
def runCalls {σ ι : Type} (calls : List ι) (body : ι → σ → Res σ) (s : σ) : Res σ :=
  calls.foldlM (fun s i => body i s) s

/-- Calling a body that also returns a value once for each listed argument, in list order; the result
is the final state and the value returned by the last call, if there was one. -/
def runCallsLast {σ ι α : Type} (calls : List ι) (body : ι → σ → Res (σ × α)) (s : σ) :
    Res (σ × Option α) :=
  runCalls calls (fun i p => do
    let r ← body i p.1
    .ok (r.1, some r.2)) (s, none)

end Verif.Spec
