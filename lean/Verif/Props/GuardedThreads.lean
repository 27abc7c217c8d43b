import Verif.Lemmas.Guarded
import Verif.Model.Threads

/-!
# Property C158 for several threads
-/

namespace Verif.Props

open Verif.Spec Verif.Lemmas Verif.Threads Verif.Copies

variable {cfg cfg' : Config} {R : Type}

/-- What of a variable the place of its elements depends on. -/
private def shape : Var R → (List Int × Nat) ⊕ (Nat × View)
  | .array d mem => .inl (d, mem.length)
  | .view t v => .inr (t, v)

/-- The place of an element after its variable was found. -/
private def placed (cfg : Config) (style : Style) (idx : List Int) (p : Nat × Nat × View) : Res (Nat × Int) :=
  match style with
  | .paren => do
    let a ← CArray.parenRT cfg p.2.1 p.2.2 idx
    .ok (p.1, a)
  | .bracket => do
    match ← CArray.bracketChain cfg p.2.1 (.sub p.2.2) idx with
    | .elem a => .ok (p.1, a)
    | .sub _ => .illFormed

private def found (shapes : Nat → Option ((List Int × Nat) ⊕ (Nat × View))) (i : Nat) : Res (Nat × Nat × View) :=
  match shapes i with
  | some (.inl (d, n)) => .ok (i, n, CArray.whole d)
  | some (.inr (t, v)) =>
    match shapes t with
    | some (.inl (_, n)) => .ok (t, n, v)
    | _ => .ub
  | none => .illFormed

private theorem location_shape (vars : List (Var R)) (i : Nat) (style : Style) (idx : List Int) :
    location cfg vars i style idx = found (fun k => vars[k]?.map shape) i >>= placed cfg style idx := by
  unfold location deref found
  dsimp only
  rcases hi : vars[i]? with _ | (⟨d, mem⟩ | ⟨t, v⟩)
  · rfl
  · cases style <;> rfl
  · simp only [Option.map_some, shape]
    rcases ht : vars[t]? with _ | (⟨d, mem⟩ | ⟨t', v'⟩)
    · rfl
    · cases style <;> rfl
    · rfl

private theorem location_congr {vars vars' : List (Var R)} (h : ∀ k : Nat, vars[k]?.map shape = vars'[k]?.map shape) (i : Nat) (style : Style) (idx : List Int) :
    location cfg vars i style idx = location cfg vars' i style idx := by
  rw [location_shape, location_shape, show (fun k : Nat => vars[k]?.map shape) = fun k : Nat => vars'[k]?.map shape from funext h]

private theorem setBuffer_shape {vars : List (Var R)} {i t : Nat} {mem mem' : List R} {v : View} (h : deref vars i = .ok (t, mem, v)) (hl : mem'.length = mem.length) (k : Nat) :
    vars[k]?.map shape = (setBuffer vars t mem')[k]?.map shape := by
  have ht : ∃ d, vars[t]? = some (.array d mem) := by
    unfold deref at h
    rcases hi : vars[i]? with _ | (⟨d, m⟩ | ⟨t', v'⟩) <;> rw [hi] at h
    · cases h
    · cases h
      exact ⟨d, hi⟩
    · rcases ht : vars[t']? with _ | (⟨d, m⟩ | ⟨t'', v''⟩) <;> simp only [ht] at h <;> cases h
      exact ⟨d, ht⟩
  obtain ⟨d, hd⟩ := ht
  unfold setBuffer
  simp only [hd]
  rw [List.getElem?_set]
  split_ifs with e e2
  · subst e
    rw [hd]
    simp [shape, hl]
  · subst e
    rw [List.getElem?_eq_none (by omega)] at hd
    cases hd
  · rfl

private theorem store_length {mem mem' : List R} {a : Int} {x : R} (h : CArray.store mem a x = .ok mem') : mem'.length = mem.length := by
  unfold CArray.store at h
  split_ifs at h
  cases h
  simp

private theorem assign_location {vars : List (Var R)} {i t : Nat} {mem mem' : List R} {v : View} (h : deref vars i = .ok (t, mem, v)) {w : Assign R}
    (ha : CArray.assign cfg v mem w = .ok mem') : mem'.length = mem.length ∧ ∃ l, location cfg vars i w.style w.idx = .ok l := by
  unfold CArray.assign at ha
  unfold location
  rw [h, Res.ok_bind]
  rcases w with ⟨_ | _, idx, x⟩
  · obtain ⟨a, h1, h2⟩ := Res.bind_eq_ok.1 ha
    exact ⟨store_length h2, (t, a), by dsimp only; rw [h1]; rfl⟩
  · obtain ⟨r, h1, h2⟩ := Res.bind_eq_ok.1 ha
    cases r with
    | elem a => exact ⟨store_length h2, (t, a), by dsimp only; rw [h1]; rfl⟩
    | sub v => cases h2

private theorem read_location {vars : List (Var R)} {i : Nat} {style : Style} {idx : List Int} {x : R} (h : readVar cfg vars i style idx = .ok x) :
    ∃ l, location cfg vars i style idx = .ok l := by
  unfold readVar at h
  obtain ⟨⟨t, mem, v⟩, h1, h2⟩ := Res.bind_eq_ok.1 h
  unfold location
  rw [h1, Res.ok_bind]
  cases style
  · obtain ⟨a, h3, h4⟩ := Res.bind_eq_ok.1 h2
    exact ⟨(t, a), by dsimp only; rw [h3]; rfl⟩
  · obtain ⟨r, h3, h4⟩ := Res.bind_eq_ok.1 h2
    cases r with
    | elem a => exact ⟨(t, a), by dsimp only; rw [h3]; rfl⟩
    | sub v => cases h4

/-- All next accesses of all threads have a place. -/
private def AllPlaced (cfg : Config) (vars : List (Var R)) (ts : List (Thread R)) : Prop :=
  ∀ k w i style idx, nextAccess (ts.getD k .ended) = some (w, i, style, idx) → ∃ l, location cfg vars i style idx = .ok l

private theorem ended_run : ∀ {schedule : List Nat} {vars vars' : List (Var R)} {ts ts' : List (Thread R)}, Threads.run cfg vars ts schedule = .ok (vars', ts') →
    (∀ p ∈ ts', p = .ended) → AllPlaced cfg vars ts := by
  intro schedule
  induction schedule with
  | nil =>
    intro vars vars' ts ts' h he k w i style idx hn
    unfold Threads.run at h
    split_ifs at h
    cases h
    have : ts.getD k .ended = .ended := by
      rw [List.getD_eq_getElem?_getD]
      rcases e : ts[k]? with _ | p
      · rfl
      · exact he p (List.mem_of_getElem? e)
    rw [this] at hn
    cases hn
  | cons n schedule ih =>
    intro vars vars' ts ts' h he k w i style idx hn
    unfold Threads.run at h
    split_ifs at h
    obtain ⟨⟨vars1, ts1⟩, h1, h2⟩ := Res.bind_eq_ok.1 h
    have hp := ih h2 he
    unfold Threads.step at h1
    have keep : ∀ p : Thread R, n ≠ k → (ts.set n p).getD k .ended = ts.getD k .ended := fun p hne => by
      rw [List.getD_eq_getElem?_getD, List.getD_eq_getElem?_getD, List.getElem?_set_ne hne]
    rcases hts : ts[n]? with _ | (_ | ⟨v, st, id, next⟩ | ⟨v, a, next⟩) <;> rw [hts] at h1
    · cases h1
      exact hp k w i style idx hn
    · cases h1
      exact hp k w i style idx hn
    · obtain ⟨x, h3, h4⟩ := Res.bind_eq_ok.1 h1
      cases h4
      by_cases hk : n = k
      · subst hk
        rw [List.getD_eq_getElem?_getD, hts] at hn
        cases hn
        exact read_location h3
      · exact hp k w i style idx (by rw [keep _ hk]; exact hn)
    · obtain ⟨⟨t, mem, view⟩, h3, h4⟩ := Res.bind_eq_ok.1 h1
      obtain ⟨mem', h5, h6⟩ := Res.bind_eq_ok.1 h4
      cases h6
      obtain ⟨hl, hloc⟩ := assign_location h3 h5
      by_cases hk : n = k
      · subst hk
        rw [List.getD_eq_getElem?_getD, hts] at hn
        cases hn
        exact hloc
      · obtain ⟨l, hl'⟩ := hp k w i style idx (by rw [keep _ hk]; exact hn)
        exact ⟨l, by rw [location_congr (setBuffer_shape h3 hl)]; exact hl'⟩

private theorem ok_same {α : Type} {r r' : Res α} {a : α} (h : SameOrStopped cfg r r') (hr : r = .ok a) : r' = .ok a := by
  rcases h with h | ⟨-, -, h⟩
  · rw [← h, hr]
  · rw [hr] at h
    split_ifs at h

private theorem location_guarded (h' : cfg'.boundsCheck = false) (vars : List (Var R)) (i : Nat) (style : Style) (idx : List Int) :
    SameOrStopped cfg (location cfg vars i style idx) (location cfg' vars i style idx) := by
  refine guarded_same fun a => ?_
  cases style
  · exact guarded_bind (paren_guarded h' _ _ _) fun _ => guarded_refl _
  · exact guarded_bind (chain_guarded h' _ _ _) fun _ => guarded_refl _

private theorem race_same (h' : cfg'.boundsCheck = false) {vars : List (Var R)} {ts : List (Thread R)} (h : AllPlaced cfg vars ts) (j k : Nat) :
    race cfg vars (ts.getD j .ended) (ts.getD k .ended) = race cfg' vars (ts.getD j .ended) (ts.getD k .ended) := by
  unfold race
  rcases hj : nextAccess (ts.getD j .ended) with _ | ⟨w, i, style, idx⟩
  · rfl
  · rcases hk : nextAccess (ts.getD k .ended) with _ | ⟨w', i', style', idx'⟩
    · rfl
    · obtain ⟨l, h1⟩ := h j _ _ _ _ hj
      obtain ⟨l', h2⟩ := h k _ _ _ _ hk
      dsimp only
      rw [h1, h2, ok_same (location_guarded h' _ _ _ _) h1, ok_same (location_guarded h' _ _ _ _) h2]

private theorem threadStep_guarded (h' : cfg'.boundsCheck = false) (vars : List (Var R)) (ts : List (Thread R)) (n : Nat) :
    SameOrStopped cfg (Threads.step cfg vars ts n) (Threads.step cfg' vars ts n) := by
  unfold Threads.step
  rcases ts[n]? with _ | (_ | ⟨v, st, id, next⟩ | ⟨v, a, next⟩)
  · exact guarded_refl _
  · exact guarded_refl _
  · exact guarded_bind (readVar_guarded h' _ _ _ _) fun _ => guarded_refl _
  · exact guarded_same fun _ => guarded_bind (assign_guarded h' _ _ _) fun _ => guarded_refl _

/-- **C158, threads.** If several threads that read and write shared arrays and views run to their ends with bounds checks, in some order of their accesses, then in the same order
they run to their ends without checks, free of data races, and leave the same values. -/
theorem C158_threads (h' : cfg'.boundsCheck = false) {vars vars' : List (Var R)} {ts ts' : List (Thread R)} {schedule : List Nat}
    (h : Threads.run cfg vars ts schedule = .ok (vars', ts')) (he : ∀ p ∈ ts', p = .ended) : Threads.run cfg' vars ts schedule = .ok (vars', ts') := by
  induction schedule generalizing vars ts with
  | nil =>
    have hp := ended_run h he
    unfold Threads.run at h ⊢
    rwa [show anyRace cfg' vars ts = anyRace cfg vars ts by unfold anyRace; simp only [race_same h' hp]]
  | cons n schedule ih =>
    have hp := ended_run h he
    unfold Threads.run at h ⊢
    rw [show anyRace cfg' vars ts = anyRace cfg vars ts by unfold anyRace; simp only [race_same h' hp]]
    split_ifs at h ⊢
    obtain ⟨⟨vars1, ts1⟩, h1, h2⟩ := Res.bind_eq_ok.1 h
    rw [ok_same (threadStep_guarded h' vars ts n) h1, Res.ok_bind]
    exact ih h2

/-- Non-vacuity of `C158_threads`: one thread writes an element of an array of two and another adds one to the other element. -/
example : Threads.run checkedHost [.array [2] [3, 4]] [.store 0 ⟨.paren, [0], 7⟩ .ended, .load 0 .bracket [1] fun x : Int => .store 0 ⟨.bracket, [1], x + 1⟩ .ended] [1, 0, 1]
    = .ok ([.array [2] [7, 5]], [.ended, .ended]) := rfl

end Verif.Props
