import Verif.Lemmas.Sequence
import Verif.Lemmas.CArrayAccess

/-! # Properties C67 and C68: integer packs; calls and values of the compile-time loop -/

namespace Verif.Props

open Verif.Spec Verif.Lemmas

theorem intPackPeeler_eq_get (i : Int) (pack : List Int) :
    Sequence.intPackPeeler i pack = CArrayHelper.get i pack := by
  induction pack generalizing i with
  | nil => rfl
  | cons x xs ih =>
    simp only [Sequence.intPackPeeler, CArrayHelper.get]
    split
    · rfl
    · exact ih _

/-- **C67.** For every pack and every position: `IntPackPeeler<I,PACK...>::value()` is the element of the
pack at position `I`, counted from zero, and does not compile when there is none.  Peeling the first
element off repeatedly visits the same elements. -/
theorem C67_pack_element (pack : List Int) (i : Int) :
    (∀ (h : 0 ≤ i) (h' : i < pack.length),
      Sequence.intPackPeeler i pack = .ok (pack[i.toNat]'(by omega))) ∧
    (i < 0 ∨ pack.length ≤ i → Sequence.intPackPeeler i pack = .illFormed) ∧
    (∀ first rest, Sequence.intPeeler pack = .ok (first, rest) ↔
      Sequence.intPackPeeler 0 pack = .ok first ∧ rest.length + 1 = pack.length ∧
        ∀ k : Nat, k < rest.length →
          Sequence.intPackPeeler (k + 1) pack = Sequence.intPackPeeler k rest) := by
  have key : ∀ (l : List Int) (k : Nat) (h : k < l.length),
      Sequence.intPackPeeler k l = .ok l[k] := by
    intro l k h
    rw [intPackPeeler_eq_get, get_ok h]
  refine ⟨fun h h' => ?_, fun h => ?_, fun first rest => ?_⟩
  · have := key pack i.toNat (by omega)
    rwa [Int.toNat_of_nonneg h] at this
  · rw [intPackPeeler_eq_get, get_illFormed h]
  · cases pack with
    | nil => simp [Sequence.intPeeler, Sequence.intPackPeeler]
    | cons x xs =>
      constructor
      · intro h
        have h' : x = first ∧ xs = rest := by simpa [Sequence.intPeeler] using h
        obtain ⟨rfl, rfl⟩ := h'
        refine ⟨rfl, rfl, fun k hk => ?_⟩
        have e := key (x :: xs) (k + 1) (by simpa using hk)
        push_cast at e
        rw [e, key xs k hk]; rfl
      · rintro ⟨h1, h2, h3⟩
        have e1 : x = first := by simpa [Sequence.intPackPeeler] using h1
        have e2 : xs = rest := by
          simp only [List.length_cons] at h2
          apply List.ext_getElem (by omega)
          intro k hk hk'
          have e := h3 k hk'
          have e' := key (x :: xs) (k + 1) (by simpa using hk)
          push_cast at e'
          rw [e', key rest k hk'] at e
          simpa using e
        rw [e1, e2]; rfl

/-- Non-vacuity of C67: the last position, one past it, and a negative one. -/
example : Sequence.intPackPeeler 2 [7, 8, 9] = .ok 9 ∧ Sequence.intPackPeeler 3 [7, 8, 9] = .illFormed ∧
    Sequence.intPackPeeler (-1) [7, 8, 9] = .illFormed ∧
    Sequence.intPeeler [7, 8, 9] = .ok (7, [8, 9]) := by
  refine ⟨?_, ?_, ?_, ?_⟩ <;> decide

theorem commaFoldValue_eq {σ α : Type} (f : Int → σ → Res (σ × α)) (is : List Int) :
    ∀ (s : σ) (o : Option α), is ≠ [] → Sequence.commaFoldValue f is s
      = runCalls is (fun i p => do
          let r ← f i p.1
          .ok (r.1, some r.2)) (s, o) := by
  induction is with
  | nil => intro s o h; exact absurd rfl h
  | cons i is ih =>
    intro s o _
    cases is with
    | nil =>
      simp only [Sequence.commaFoldValue, runCalls_cons, runCalls_nil]
      cases f i s <;> rfl
    | cons j js =>
      simp only [Sequence.commaFoldValue]
      rw [runCalls_cons]
      cases h : f i s with
      | ok r => simp only [Res.ok_bind]; exact ih r.1 (some r.2) (by simp)
      | _ => rfl

/-- The value of a comma fold is the value of the last call. -/
theorem commaFoldValue_last {σ α : Type} (f : Int → σ → Res (σ × α)) (is : List Int) (s : σ) :
    Sequence.commaFoldValue f is s = runCallsLast is f s := by
  cases is with
  | nil => rfl
  | cons i is => exact commaFoldValue_eq f (i :: is) s none (by simp)

theorem callOrIllFormed_some {σ α : Type} {form : Int → Option (σ → Res (σ × α))}
    {f : Int → σ → Res (σ × α)} {i : Int} (h : form i = some (f i)) (s : σ) :
    Sequence.callOrIllFormed form i s = f i s := by
  simp [Sequence.callOrIllFormed, h]

/-- **C68.** `forSequence<END>(f)`, for every callable.  If `f` accepts each index of `[0,END)` as a
function argument, or accepts index 0 in no such way but each index as a template argument, then `f` is
called in that form once for each index in ascending order, and the result is the value of the last
call, or nothing when `END` is 0.  If the form chosen by index 0 is not accepted for some index the
program does not compile, and neither does it for a negative `END`. -/
theorem C68_forSequence_value {σ α : Type} (e : Int) (b : Sequence.Body σ α) :
    (e < 0 → ∀ s, Sequence.forSequenceValue e b s = .illFormed) ∧
    (0 ≤ e → ∃ calls : List Int, (∀ i, i ∈ calls ↔ 0 ≤ i ∧ i < e) ∧ calls.Pairwise (· < ·) ∧
      (∀ f : Int → σ → Res (σ × α), (b.plain 0).isSome → (∀ i ∈ calls, b.plain i = some (f i)) →
        ∀ s, Sequence.forSequenceValue e b s = runCallsLast calls f s) ∧
      (∀ f : Int → σ → Res (σ × α), b.plain 0 = none → (∀ i ∈ calls, b.templ i = some (f i)) →
        ∀ s, Sequence.forSequenceValue e b s = runCallsLast calls f s) ∧
      ((b.plain 0).isSome → (∃ i ∈ calls, b.plain i = none) →
        ∀ s, Sequence.forSequenceValue e b s = .illFormed) ∧
      (b.plain 0 = none → (∃ i ∈ calls, b.templ i = none) →
        ∀ s, Sequence.forSequenceValue e b s = .illFormed)) := by
  have hcongr : ∀ (is : List Int) (form : Int → Option (σ → Res (σ × α)))
      (f : Int → σ → Res (σ × α)), (∀ i ∈ is, form i = some (f i)) → ∀ s,
      Sequence.commaFoldValue (Sequence.callOrIllFormed form) is s = runCallsLast is f s := by
    intro is form f h s
    rw [commaFoldValue_last]
    exact runCalls_congr (fun i hi p => by rw [callOrIllFormed_some (h i hi)]) _
  constructor
  · intro h s
    simp [Sequence.forSequenceValue, Sequence.makeIntegerSequence, not_le.2 h]
  · intro h
    refine ⟨upTo 0 e, fun i => mem_upTo, upTo_pairwise 0 e, ?_, ?_, ?_, ?_⟩
    · intro f h0 hf s
      simp only [Sequence.forSequenceValue, makeIntegerSequence_ok h, Res.ok_bind, h0, if_true]
      rw [staticAssert_true (fun i hi => by rw [hf i hi]; rfl)]
      exact hcongr _ _ _ hf s
    · intro f h0 hf s
      have h0' : (b.plain 0).isSome = false := by rw [h0]; rfl
      simp only [Sequence.forSequenceValue, makeIntegerSequence_ok h, Res.ok_bind, h0',
        Bool.false_eq_true, if_false]
      rw [staticAssert_true (fun i hi => by rw [hf i hi]; rfl)]
      exact hcongr _ _ _ hf s
    · rintro h0 ⟨i, hi, hn⟩ s
      simp only [Sequence.forSequenceValue, makeIntegerSequence_ok h, Res.ok_bind, h0, if_true]
      rw [staticAssert_false (fun hc => by have := hc i hi; rw [hn] at this; cases this)]
      rfl
    · rintro h0 ⟨i, hi, hn⟩ s
      have h0' : (b.plain 0).isSome = false := by rw [h0]; rfl
      simp only [Sequence.forSequenceValue, makeIntegerSequence_ok h, Res.ok_bind, h0',
        Bool.false_eq_true, if_false]
      rw [staticAssert_false (fun hc => by have := hc i hi; rw [hn] at this; cases this)]
      rfl

/-- The state left by the loop is the one C10 speaks of. -/
theorem C68_same_calls {σ α : Type} (e : Int) (he : 0 ≤ e) (f : Int → σ → Res (σ × α))
    (templ : Int → Option (σ → Res (σ × α))) (s : σ) :
    Prod.fst <$> Sequence.forSequenceValue e ⟨fun i => some (f i), templ⟩ s
      = Sequence.forSequence e (fun i s => Prod.fst <$> f i s) s := by
  have hrun : ∀ (is : List Int) (s : σ) (o : Option α),
      Prod.fst <$> runCalls is (fun i (p : σ × Option α) => do
          let r ← f i p.1
          .ok (r.1, some r.2)) (s, o)
        = runCalls is (fun i s => Prod.fst <$> f i s) s := by
    intro is
    induction is with
    | nil => intro s o; rfl
    | cons i is ih =>
      intro s o
      rw [runCalls_cons, runCalls_cons]
      cases h : f i s with
      | ok r => simp only [Res.ok_bind, Res.map_ok]; exact ih r.1 (some r.2)
      | _ => rfl
  rw [forSequence_eq he, Sequence.forSequenceValue, makeIntegerSequence_ok he]
  simp only [Res.ok_bind, Option.isSome_some, if_true]
  rw [staticAssert_true (fun _ _ => trivial)]
  simp only [Res.ok_bind]
  rw [commaFoldValue_last]
  exact hrun _ s none

/-- Non-vacuity of C68: a body that counts its calls and returns ten times the index, as an argument
form, as a template form, with no call, and a body that accepts only index 0 as an argument. -/
example :
    Sequence.forSequenceValue 4 ⟨fun i => some fun n => .ok (n + 1, 10 * i), fun _ => none⟩ 0
      = .ok (4, some 30) ∧
    Sequence.forSequenceValue 4 ⟨fun _ => none, fun i => some fun n => .ok (n + 1, 10 * i)⟩ 0
      = .ok (4, some 30) ∧
    Sequence.forSequenceValue 0 ⟨fun i => some fun n => .ok (n + 1, 10 * i), fun _ => none⟩ 7
      = .ok ((7 : Nat), none) ∧
    Sequence.forSequenceValue 2
      ⟨fun i => if i = 0 then some fun n => .ok (n + 1, 10 * i) else none,
        fun i => some fun n => .ok (n + 1, 10 * i)⟩ (0 : Nat) = .illFormed := by
  refine ⟨?_, ?_, ?_, ?_⟩ <;> decide

end Verif.Props
