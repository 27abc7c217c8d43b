import Verif.Model.Threads
import Verif.Props.Copies

/-!
# Property C116: threads that work on different elements do not interfere
-/

namespace Verif.Props

open Verif.Spec Verif.Lemmas

variable {R : Type}

/-! ### Names, elements and memory -/

private theorem elementOf_eq {m : List (Meaning R)} {i : Nat} {idx : List Int} {e : Elem} :
    elementOf m i idx = some e ↔
      ∃ x, m[i]? = some x ∧ InBox x.dims idx ∧ e = ((rootOf i x).1, (rootOf i x).2 ++ idx) := by
  unfold elementOf
  cases hx : m[i]? with
  | none => simp
  | some x =>
    cases x with
    | array d f =>
      constructor
      · intro h
        simp only at h
        split_ifs at h with hb
        cases h
        exact ⟨_, rfl, hb, rfl⟩
      · rintro ⟨_, hy, hb, rfl⟩
        cases hy
        exact if_pos hb
    | view r d pre =>
      constructor
      · intro h
        simp only at h
        split_ifs at h with hb
        cases h
        exact ⟨_, rfl, hb, rfl⟩
      · rintro ⟨_, hy, hb, rfl⟩
        cases hy
        exact if_pos hb

private theorem location_ok (cfg : Config) {m : List (Meaning R)} {s : List (Copies.Var R)} (h : Holds m s) {i : Nat}
    {idx : List Int} {e : Elem} (he : elementOf m i idx = some e) (style : Style) :
    ∃ dr, ArrayDims m e.1 dr ∧ InBox dr e.2 ∧ Threads.location cfg s i style idx = .ok (e.1, rowMajor dr e.2) := by
  obtain ⟨x, hx, hin, rfl⟩ := elementOf_eq.1 he
  obtain ⟨mem, v, dr, fr, hd, hdims, hv, h0, h1, hmr, hsr, hvr, hlen, hload, haddr⟩ := copies_deref_ok h hx
  rw [← hdims] at hin
  obtain ⟨hbox, hadd⟩ := haddr _ hin
  refine ⟨dr, ⟨fr, hmr⟩, hbox, ?_⟩
  cases style
  · simp only [Threads.location, hd, Res.ok_bind, parenRT_ok cfg hv ⟨h0, h1⟩ hin, hadd]
  · simp only [Threads.location, hd, Res.ok_bind, bracketChain_ok cfg hv ⟨h0, h1⟩ hin, hadd]

private theorem location_inj (cfg : Config) {m : List (Meaning R)} {s : List (Copies.Var R)} (h : Holds m s) {i j : Nat}
    {idx jdx : List Int} {e f : Elem} (he : elementOf m i idx = some e) (hf : elementOf m j jdx = some f)
    {st su : Style} {l : Nat × Int} (hl : Threads.location cfg s i st idx = .ok l)
    (hl' : Threads.location cfg s j su jdx = .ok l) : e = f := by
  obtain ⟨d, ⟨g, hg⟩, hb, h1⟩ := location_ok cfg h he st
  obtain ⟨d', ⟨g', hg'⟩, hb', h1'⟩ := location_ok cfg h hf su
  rw [hl] at h1
  rw [hl'] at h1'
  have e1 := Res.ok.inj h1
  have e2 := Res.ok.inj h1'
  rw [e1] at e2
  obtain ⟨e3, e4⟩ := Prod.mk.inj e2
  rw [e3, hg'] at hg
  cases hg
  exact Prod.ext e3 (rowMajor_inj hb hb' e4)

/-- The values of the elements are those of `H`. -/
private def HeapOf (m : List (Meaning R)) (H : Elem → R) : Prop :=
  ∀ i idx e, elementOf m i idx = some e → valueOf m i idx = some (H e)

private theorem root_array {m : List (Meaning R)} {s : List (Copies.Var R)} (h : Holds m s) {i : Nat} {x : Meaning R}
    (hx : m[i]? = some x) : ∃ dr fr, m[(rootOf i x).1]? = some (.array dr fr) := by
  obtain ⟨mem, v, dr, fr, -, -, -, -, -, hmr, -⟩ := copies_deref_ok h hx
  exact ⟨dr, fr, hmr⟩

private theorem valueOf_root {m : List (Meaning R)} {i : Nat} {idx : List Int} {x : Meaning R} (hx : m[i]? = some x)
    (hin : InBox x.dims idx) {dr : List Int} {fr : List Int → R} (hr : m[(rootOf i x).1]? = some (.array dr fr)) :
    valueOf m i idx = some (fr ((rootOf i x).2 ++ idx)) := by
  cases x with
  | array d f =>
    simp only [rootOf] at hr
    rw [hx] at hr
    cases hr
    simp only [valueOf, hx]
    exact if_pos hin
  | view r d pre =>
    simp only [rootOf] at hr
    simp only [valueOf, hx, hr]
    exact if_pos hin

/-- Writing an element. -/
private theorem store_ok (cfg : Config) {m : List (Meaning R)} {s : List (Copies.Var R)} (h : Holds m s) {H : Elem → R}
    (hH : HeapOf m H) {i : Nat} {w : Assign R} {e : Elem} (he : elementOf m i w.idx = some e) :
    ∃ m' s', Copies.step cfg w.val s (.write i w) = .ok s' ∧ Holds m' s' ∧ HeapOf m' (Function.update H e w.val) ∧
      ∀ j idx, elementOf m' j idx = elementOf m j idx := by
  obtain ⟨x, hx, hin, rfl⟩ := elementOf_eq.1 he
  obtain ⟨dr, fr, hr⟩ := root_array h hx
  obtain ⟨r, pre, hrp⟩ : ∃ r pre, (r, pre) = rootOf i x := ⟨_, _, rfl⟩
  rw [← hrp] at hr ⊢
  simp only at hr ⊢
  obtain ⟨f', hf'⟩ : ∃ f', f' = fun k => if k = pre ++ w.idx then w.val else fr k := ⟨_, rfl⟩
  have hset : setElement m r (pre ++ w.idx) w.val = some (m.set r (.array dr f')) := by
    simp only [setElement, hr, hf']
  have hrlt : r < m.length := (List.getElem?_eq_some_iff.1 hr).1
  obtain ⟨s', h1, h2⟩ := copies_write_ok cfg h hx hin (m' := m.set r (.array dr f')) (by rw [← hrp]; exact hset) w.val
  have hget : ∀ j y, m[j]? = some y → ∃ y', (m.set r (.array dr f'))[j]? = some y' ∧ y'.dims = y.dims ∧
      rootOf j y' = rootOf j y := by
    intro j y hy
    by_cases hj : r = j
    · subst hj
      rw [hr] at hy
      cases hy
      exact ⟨_, List.getElem?_set_self hrlt, rfl, rfl⟩
    · exact ⟨y, by rw [List.getElem?_set_ne hj]; exact hy, rfl, rfl⟩
  have hsame : ∀ j idx, elementOf (m.set r (.array dr f')) j idx = elementOf m j idx := by
    intro j idx
    cases hy : m[j]? with
    | none =>
      have : (m.set r (.array dr f'))[j]? = none := by
        rw [List.getElem?_eq_none_iff] at hy ⊢
        simpa using hy
      simp only [elementOf, hy, this]
    | some y =>
      obtain ⟨y', hy', hd, hro⟩ := hget j y hy
      refine Option.ext fun e => ?_
      rw [elementOf_eq, elementOf_eq]
      constructor
      · rintro ⟨z, hz, hb, rfl⟩
        rw [hy'] at hz
        cases hz
        exact ⟨y, hy, hd ▸ hb, by rw [hro]⟩
      · rintro ⟨z, hz, hb, rfl⟩
        rw [hy] at hz
        cases hz
        exact ⟨y', hy', by rw [hd]; exact hb, by rw [hro]⟩
  refine ⟨_, s', h1, h2, fun j idx e he' => ?_, hsame⟩
  rw [hsame] at he'
  have hold := hH j idx e he'
  obtain ⟨y, hy, hb, rfl⟩ := elementOf_eq.1 he'
  obtain ⟨y', hy', hd, hro⟩ := hget j y hy
  obtain ⟨dj, fj, hrj⟩ := root_array h hy
  rw [valueOf_root hy hb hrj] at hold
  by_cases hj : r = (rootOf j y).1
  · rw [← hj, hr] at hrj
    cases hrj
    rw [valueOf_root (fr := f') hy' (by rw [hd]; exact hb)
      (by rw [hro, ← hj]; exact List.getElem?_set_self hrlt), hro, hf', ← hj]
    by_cases hk : (rootOf j y).2 ++ idx = pre ++ w.idx
    · simp [hk]
    · rw [Function.update_of_ne (fun hc => hk (Prod.mk.inj hc).2), hj]
      simp only [if_neg hk]
      exact hold
  · rw [valueOf_root (fr := fj) hy' (by rw [hd]; exact hb)
      (by rw [hro, List.getElem?_set_ne hj]; exact hrj), hro]
    rw [Function.update_of_ne (fun hc => hj (Prod.mk.inj hc).1.symm)]
    exact hold

/-! ### No data race, and one turn -/

private theorem confined_next {m : List (Meaning R)} {own shared : Set Elem} {h : Elem → R} {p : Thread R}
    (hc : p.Confined m own shared h) {w : Bool} {i : Nat} {st : Style} {idx : List Int}
    (hn : Threads.nextAccess p = some (w, i, st, idx)) :
    ∃ e, elementOf m i idx = some e ∧ (e ∈ own ∨ e ∈ shared) ∧ (w = true → e ∈ own) := by
  cases p with
  | ended => cases hn
  | load v su jdx next =>
    cases hn
    obtain ⟨e, h1, h2, -⟩ := hc
    exact ⟨e, h1, h2, fun h => by cases h⟩
  | store v u next =>
    cases hn
    obtain ⟨e, h1, h2, -⟩ := hc
    exact ⟨e, h1, .inl h2, fun _ => h2⟩

private theorem no_race (cfg : Config) {m : List (Meaning R)} {s : List (Copies.Var R)} (h : Holds m s)
    {A B shared : Set Elem} {g k : Elem → R} {p q : Thread R} (hp : p.Confined m A shared g) (hq : q.Confined m B shared k)
    (hAB : Disjoint A B) (hA : Disjoint A shared) (hB : Disjoint B shared) : Threads.race cfg s p q = false := by
  unfold Threads.race
  rcases hn : Threads.nextAccess p with _ | ⟨w, i, st, idx⟩
  · rfl
  rcases hn' : Threads.nextAccess q with _ | ⟨w', i', st', idx'⟩
  · rfl
  obtain ⟨e, he, he1, he2⟩ := confined_next hp hn
  obtain ⟨f, hf, hf1, hf2⟩ := confined_next hq hn'
  simp only
  cases hl : Threads.location cfg s i st idx with
  | ok l =>
    cases hl' : Threads.location cfg s i' st' idx' with
    | ok l' =>
      simp only
      by_cases hll : l = l'
      · subst hll
        obtain rfl := location_inj cfg h he hf hl hl'
        have hw : w = false := by
          by_contra hc
          have hc : w = true := by simpa using hc
          rcases hf1 with hf1 | hf1
          · exact Set.disjoint_left.1 hAB (he2 hc) hf1
          · exact Set.disjoint_left.1 hA (he2 hc) hf1
        have hw' : w' = false := by
          by_contra hc
          have hc : w' = true := by simpa using hc
          rcases he1 with he1 | he1
          · exact Set.disjoint_left.1 hAB he1 (hf2 hc)
          · exact Set.disjoint_left.1 hB (hf2 hc) he1
        rw [hw, hw']; rfl
      · rw [show (l == l') = false from beq_false_of_ne hll, Bool.and_false]
    | _ => simp
  | _ => simp

/-- What holds between two turns: every thread is as if it had run alone so far, on values of its own that agree with the
true ones on the elements it may use. -/
private structure ThreadsInv (m₀ m : List (Meaning R)) (s : List (Copies.Var R)) (H : Elem → R) (ts : List (Thread R))
    (own : Nat → Set Elem) (shared : Set Elem) (hs : Nat → Elem → R) : Prop where
  holds : Holds m s
  names : ∀ j idx, elementOf m j idx = elementOf m₀ j idx
  heap : HeapOf m H
  disjoint : ∀ i j, i < ts.length → j < ts.length → i ≠ j → Disjoint (own i) (own j)
  private_shared : ∀ i, i < ts.length → Disjoint (own i) shared
  confined : ∀ i (p : Thread R), ts[i]? = some p → p.Confined m₀ (own i) shared (hs i)
  agree : ∀ i, i < ts.length → ∀ e, e ∈ own i ∨ e ∈ shared → hs i e = H e

private theorem confined_names {m₀ m : List (Meaning R)} (hn : ∀ j idx, elementOf m j idx = elementOf m₀ j idx)
    {own shared : Set Elem} {h : Elem → R} {p : Thread R} (hc : p.Confined m₀ own shared h) :
    p.Confined m own shared h := by
  induction p generalizing h with
  | ended => trivial
  | load v su jdx next ih =>
    obtain ⟨e, h1, h2, h3⟩ := hc
    exact ⟨e, by rw [hn]; exact h1, h2, ih _ h3⟩
  | store v u next ih =>
    obtain ⟨e, h1, h2, h3⟩ := hc
    exact ⟨e, by rw [hn]; exact h1, h2, ih h3⟩

private theorem ThreadsInv.noRace (cfg : Config) {m₀ m : List (Meaning R)} {s : List (Copies.Var R)} {H : Elem → R}
    {ts : List (Thread R)} {own : Nat → Set Elem} {shared : Set Elem} {hs : Nat → Elem → R}
    (I : ThreadsInv m₀ m s H ts own shared hs) : Threads.anyRace cfg s ts = false := by
  unfold Threads.anyRace
  rw [List.any_eq_false]
  intro i hi
  rw [Bool.not_eq_true, List.any_eq_false]
  intro j hj
  rw [List.mem_range] at hi hj
  by_cases hij : i = j
  · simp [hij]
  rw [List.getD_eq_getElem?_getD, List.getD_eq_getElem?_getD, List.getElem?_eq_getElem hi, List.getElem?_eq_getElem hj]
  have hp := confined_names I.names (I.confined i _ (List.getElem?_eq_getElem hi))
  have hq := confined_names I.names (I.confined j _ (List.getElem?_eq_getElem hj))
  simp only [Option.getD_some]
  rw [no_race cfg I.holds hp hq (I.disjoint i j hi hj hij) (I.private_shared i hi) (I.private_shared j hj)]
  simp

private theorem ThreadsInv.turn (cfg : Config) {m₀ m : List (Meaning R)} {s : List (Copies.Var R)} {H : Elem → R}
    {ts : List (Thread R)} {own : Nat → Set Elem} {shared : Set Elem} {hs : Nat → Elem → R}
    (I : ThreadsInv m₀ m s H ts own shared hs) (t : Nat) :
    ∃ m' s' H' ts' hs', Threads.step cfg s ts t = .ok (s', ts') ∧ ThreadsInv m₀ m' s' H' ts' own shared hs' ∧
      ts'.length = ts.length ∧ (∀ e, (∀ i, i < ts.length → e ∉ own i) → H' e = H e) ∧
      ∀ i p, ts[i]? = some p → ∃ p', ts'[i]? = some p' ∧ p'.alone m₀ (hs' i) = p.alone m₀ (hs i) ∧
        p'.accesses m₀ (hs' i) = p.accesses m₀ (hs i) - if t = i then 1 else 0 := by
  cases ht : ts[t]? with
  | none =>
    refine ⟨m, s, H, ts, hs, by simp only [Threads.step, ht], I, rfl, fun _ _ => rfl, fun i p hp => ⟨p, hp, rfl, ?_⟩⟩
    rw [if_neg (fun hc => by rw [hc, hp] at ht; cases ht)]; rfl
  | some q =>
    have htl : t < ts.length := (List.getElem?_eq_some_iff.1 ht).1
    have hcq := I.confined t q ht
    cases q with
    | ended =>
      refine ⟨m, s, H, ts, hs, by simp only [Threads.step, ht], I, rfl, fun _ _ => rfl, fun i p hp => ⟨p, hp, rfl, ?_⟩⟩
      by_cases hti : t = i
      · subst hti
        rw [ht] at hp
        cases hp
        simp [Thread.accesses]
      · rw [if_neg hti]; rfl
    | load v st idx next =>
      obtain ⟨e, h1, h2, h3⟩ := hcq
      have hval : hs t e = H e := I.agree t htl e h2
      have hread := copies_read_ok cfg I.holds v st idx (H e) (I.heap v idx e (by rw [I.names]; exact h1))
      refine ⟨m, s, H, ts.set t (next (H e)), hs, by simp only [Threads.step, ht, hread, Res.ok_bind],
        ⟨I.holds, I.names, I.heap, by simpa using I.disjoint, by simpa using I.private_shared, fun i p hp => ?_,
          by simpa using I.agree⟩, by simp, fun _ _ => rfl, fun i p hp => ?_⟩
      · by_cases hti : t = i
        · subst hti
          rw [List.getElem?_set_self htl] at hp
          cases hp
          rw [← hval]; exact h3
        · rw [List.getElem?_set_ne hti] at hp
          exact I.confined i p hp
      · by_cases hti : t = i
        · subst hti
          rw [ht] at hp
          cases hp
          refine ⟨_, List.getElem?_set_self htl, ?_, ?_⟩
          · simp only [Thread.alone, h1, Option.bind_some, hval]
          · simp [Thread.accesses, h1, hval]
        · exact ⟨p, by rw [List.getElem?_set_ne hti]; exact hp, rfl, by rw [if_neg hti]; rfl⟩
    | store v w next =>
      obtain ⟨e, h1, h2, h3⟩ := hcq
      obtain ⟨m', s', hst, hh, hheap, hnames⟩ := store_ok cfg I.holds I.heap (w := w) (by rw [I.names]; exact h1)
      have hstep : Threads.step cfg s ts t = .ok (s', ts.set t next) := by
        simp only [Copies.step] at hst
        simp only [Threads.step, ht]
        obtain ⟨⟨a, mem, b⟩, hx, hst⟩ := Res.bind_eq_ok.1 hst
        obtain ⟨mem', hy, hst⟩ := Res.bind_eq_ok.1 hst
        simp only [hx, Res.ok_bind, hy, Res.ok.inj hst]
      refine ⟨m', s', Function.update H e w.val, ts.set t next, Function.update hs t (Function.update (hs t) e w.val), hstep,
        ⟨hh, fun j idx => (hnames j idx).trans (I.names j idx), hheap, by simpa using I.disjoint,
          by simpa using I.private_shared, fun i p hp => ?_, fun i hi f hf => ?_⟩, by simp, fun f hf => ?_, fun i p hp => ?_⟩
      · by_cases hti : t = i
        · subst hti
          rw [List.getElem?_set_self htl] at hp
          cases hp
          rw [Function.update_self]; exact h3
        · rw [List.getElem?_set_ne hti] at hp
          rw [Function.update_of_ne (Ne.symm hti)]
          exact I.confined i p hp
      · rw [List.length_set] at hi
        by_cases hti : t = i
        · subst hti
          rw [Function.update_self]
          by_cases hfe : f = e
          · rw [hfe, Function.update_self, Function.update_self]
          · rw [Function.update_of_ne hfe, Function.update_of_ne hfe]
            exact I.agree t htl f hf
        · rw [Function.update_of_ne (Ne.symm hti)]
          have hfe : f ≠ e := by
            rintro rfl
            rcases hf with hf | hf
            · exact Set.disjoint_left.1 (I.disjoint t i htl hi hti) h2 hf
            · exact Set.disjoint_left.1 (I.private_shared t htl) h2 hf
          rw [Function.update_of_ne hfe]
          exact I.agree i hi f hf
      · rw [Function.update_of_ne]
        rintro rfl
        exact hf t htl h2
      · by_cases hti : t = i
        · subst hti
          rw [ht] at hp
          cases hp
          refine ⟨_, List.getElem?_set_self htl, ?_, ?_⟩
          · simp only [Thread.alone, h1, Option.bind_some, Function.update_self]
          · simp [Thread.accesses, h1]
        · refine ⟨p, by rw [List.getElem?_set_ne hti]; exact hp, ?_, ?_⟩
          · rw [Function.update_of_ne (Ne.symm hti)]
          · rw [if_neg hti, Function.update_of_ne (Ne.symm hti)]; rfl

private theorem ThreadsInv.run (cfg : Config) {m₀ m : List (Meaning R)} {s : List (Copies.Var R)} {H : Elem → R}
    {ts : List (Thread R)} {own : Nat → Set Elem} {shared : Set Elem} {hs : Nat → Elem → R}
    (I : ThreadsInv m₀ m s H ts own shared hs) (schedule : List Nat) :
    ∃ m' s' H' ts' hs', Threads.run cfg s ts schedule = .ok (s', ts') ∧ ThreadsInv m₀ m' s' H' ts' own shared hs' ∧
      ts'.length = ts.length ∧ (∀ e, (∀ i, i < ts.length → e ∉ own i) → H' e = H e) ∧
      ∀ i p, ts[i]? = some p → ∃ p', ts'[i]? = some p' ∧ p'.alone m₀ (hs' i) = p.alone m₀ (hs i) ∧
        p'.accesses m₀ (hs' i) = p.accesses m₀ (hs i) - schedule.count i := by
  induction schedule generalizing m s H ts hs with
  | nil =>
    exact ⟨m, s, H, ts, hs, by simp [Threads.run, I.noRace cfg], I, rfl, fun _ _ => rfl,
      fun i p hp => ⟨p, hp, rfl, by simp⟩⟩
  | cons t schedule ih =>
    obtain ⟨m1, s1, H1, ts1, hs1, a1, a2, a3, a4, a5⟩ := I.turn cfg t
    obtain ⟨m2, s2, H2, ts2, hs2, b1, b2, b3, b4, b5⟩ := ih a2
    refine ⟨m2, s2, H2, ts2, hs2, ?_, b2, b3.trans a3, fun e he => ?_, fun i p hp => ?_⟩
    · simp [Threads.run, I.noRace cfg, a1, b1]
    · rw [b4 e (by rw [a3]; exact he), a4 e he]
    · obtain ⟨p1, c1, c2, c3⟩ := a5 i p hp
      obtain ⟨p2, d1, d2, d3⟩ := b5 i p1 c1
      refine ⟨p2, d1, d2.trans c2, ?_⟩
      rw [d3, c3, List.count_cons, Nat.sub_sub, Nat.add_comm]
      congr 2
      simp

private theorem valuesIn_heap {m : List (Meaning R)} {s : List (Copies.Var R)} (h : Holds m s) (zero : R) :
    HeapOf m (valuesIn zero m) := by
  intro i idx e he
  obtain ⟨x, hx, hin, rfl⟩ := elementOf_eq.1 he
  obtain ⟨mem, v, dr, fr, hd, hdims, hv, h0, h1, hmr, hsr, hvr, hlen, hload, haddr⟩ := copies_deref_ok h hx
  have hbox := (haddr idx (by rw [hdims]; exact hin)).1
  rw [valueOf_root hx hin hmr]
  unfold valuesIn
  simp only [valueOf, hmr, if_pos hbox, Option.getD_some]

private theorem alone_some {m : List (Meaning R)} {own shared : Set Elem} {h : Elem → R} {p : Thread R}
    (hc : p.Confined m own shared h) : ∃ g, p.alone m h = some g := by
  induction p generalizing h with
  | ended => exact ⟨h, rfl⟩
  | load v su jdx next ih =>
    obtain ⟨e, h1, h2, h3⟩ := hc
    simpa only [Thread.alone, h1, Option.bind_some] using ih _ h3
  | store v u next ih =>
    obtain ⟨e, h1, h2, h3⟩ := hc
    simpa only [Thread.alone, h1, Option.bind_some] using ih h3

private theorem ended_of {m : List (Meaning R)} {own shared : Set Elem} {h : Elem → R} {p : Thread R}
    (hc : p.Confined m own shared h) (h0 : p.accesses m h = 0) : p = .ended := by
  cases p with
  | ended => rfl
  | load v su jdx next =>
    obtain ⟨e, h1, h2, h3⟩ := hc
    simp [Thread.accesses, h1] at h0
  | store v u next =>
    obtain ⟨e, h1, h2, h3⟩ := hc
    simp [Thread.accesses, h1] at h0

/-- **C116.** After any program of C93, threads read and write elements, through arrays, views and slices alike.  No element
is written by a thread and used by another one.  Then, for every order in which the threads take turns, there is no data
race, no access outside an array and no other error; a thread that had enough turns has ended; every element of a thread
that has ended reads, through every name and in either notation, as if the thread had run alone; and every element that
no thread writes reads as before. -/
theorem C116_threads (cfg : Config) (zero : R) (prog : List (Stmt R)) (m : List (Meaning R))
    (h : meanings zero [] prog = some m) (ts : List (Thread R)) (own : Nat → Set Elem) (shared : Set Elem)
    (hown : ∀ i j, i < ts.length → j < ts.length → i ≠ j → Disjoint (own i) (own j))
    (hshared : ∀ i, i < ts.length → Disjoint (own i) shared)
    (hts : ∀ i (p : Thread R), ts[i]? = some p → p.Confined m (own i) shared (valuesIn zero m)) (schedule : List Nat) :
    ∃ vars vars' ts', Copies.run cfg zero [] prog = .ok vars ∧ Threads.run cfg vars ts schedule = .ok (vars', ts') ∧
      ts'.length = ts.length ∧
      (∀ i (p : Thread R), ts[i]? = some p → ∃ g, p.alone m (valuesIn zero m) = some g ∧
        (p.accesses m (valuesIn zero m) ≤ schedule.count i → ts'[i]? = some .ended) ∧
        (ts'[i]? = some .ended → ∀ n style idx e, elementOf m n idx = some e → e ∈ own i →
          Copies.readVar cfg vars' n style idx = .ok (g e))) ∧
      ∀ n style idx e, elementOf m n idx = some e → (∀ i, i < ts.length → e ∉ own i) →
        Copies.readVar cfg vars' n style idx = .ok (valuesIn zero m e) := by
  obtain ⟨s, h1, h2⟩ := copies_run_ok cfg zero prog (m := []) (s := []) ⟨rfl, fun i x y hx => by simp at hx⟩ h
  have I : ThreadsInv m m s (valuesIn zero m) ts own shared (fun _ => valuesIn zero m) :=
    ⟨h2, fun _ _ => rfl, valuesIn_heap h2 zero, hown, hshared, hts, fun _ _ _ _ => rfl⟩
  obtain ⟨m', s', H', ts', hs', a1, a2, a3, a4, a5⟩ := I.run cfg schedule
  have hread : ∀ n style idx e, elementOf m n idx = some e → Copies.readVar cfg s' n style idx = .ok (H' e) :=
    fun n style idx e he => copies_read_ok cfg a2.holds n style idx _ (a2.heap n idx e (by rw [a2.names]; exact he))
  refine ⟨s, s', ts', h1, a1, a3, fun i p hp => ?_, fun n style idx e he hne => ?_⟩
  · have hi : i < ts.length := (List.getElem?_eq_some_iff.1 hp).1
    obtain ⟨g, hg⟩ := alone_some (hts i p hp)
    obtain ⟨p', b1, b2, b3⟩ := a5 i p hp
    refine ⟨g, hg, fun hle => ?_, fun hend n style idx e he hmem => ?_⟩
    · rw [b1, ended_of (a2.confined i p' b1) (by rw [b3]; omega)]
    · rw [b1] at hend
      cases hend
      rw [hg] at b2
      simp only [Thread.alone, Option.some.injEq] at b2
      rw [hread n style idx e he, ← b2, a2.agree i (by rw [a3]; exact hi) e (.inl hmem)]
  · rw [hread n style idx e he, a4 e hne]

/-- The next access of a thread: whether it is a write, the variable and the index. -/
def Accesses (p : Thread R) (write : Bool) (i : Nat) (idx : List Int) : Prop :=
  match p with
  | .ended => False
  | .load v _ jdx _ => write = false ∧ v = i ∧ jdx = idx
  | .store v w _ => write = true ∧ v = i ∧ w.idx = idx

/-- **C116, conflicts.** If the next accesses of two threads are to the same element, under whatever names, and one of them is a write, then
the program has a data race, whatever the order: it is undefined. -/
theorem C116_conflict (cfg : Config) (zero : R) (prog : List (Stmt R)) (m : List (Meaning R))
    (h : meanings zero [] prog = some m) (ts : List (Thread R)) {a b : Nat} (hab : a ≠ b) {p q : Thread R}
    (hp : ts[a]? = some p) (hq : ts[b]? = some q) {wp wq : Bool} {i j : Nat} {idx jdx : List Int}
    (ap : Accesses p wp i idx) (aq : Accesses q wq j jdx) (hw : wp = true ∨ wq = true) {e : Elem}
    (he : elementOf m i idx = some e) (hf : elementOf m j jdx = some e) (schedule : List Nat) :
    ∃ vars, Copies.run cfg zero [] prog = .ok vars ∧ Threads.run cfg vars ts schedule = .ub := by
  obtain ⟨s, h1, h2⟩ := copies_run_ok cfg zero prog (m := []) (s := []) ⟨rfl, fun i x y hx => by simp at hx⟩ h
  have next : ∀ {p : Thread R} {w i idx}, Accesses p w i idx → ∃ style, Threads.nextAccess p = some (w, i, style, idx) := by
    intro p w i idx hp
    cases p with
    | ended => exact hp.elim
    | load v st jdx k => obtain ⟨rfl, rfl, rfl⟩ := hp; exact ⟨st, rfl⟩
    | store v u k => obtain ⟨rfl, rfl, rfl⟩ := hp; exact ⟨u.style, rfl⟩
  obtain ⟨sp, np⟩ := next ap
  obtain ⟨sq, nq⟩ := next aq
  obtain ⟨dr, ⟨fr, hdr⟩, -, lp⟩ := location_ok cfg h2 he sp
  obtain ⟨dr', ⟨fr', hdr'⟩, -, lq⟩ := location_ok cfg h2 hf sq
  have hd : dr = dr' := by
    have := hdr.symm.trans hdr'
    cases this
    rfl
  subst hd
  have hr : Threads.race cfg s p q = true := by
    unfold Threads.race
    rw [np, nq]
    dsimp only
    rw [lp, lq]
    rcases hw with rfl | rfl <;> simp
  have hany : Threads.anyRace cfg s ts = true := by
    have ha := (List.getElem?_eq_some_iff.1 hp).1
    have hb := (List.getElem?_eq_some_iff.1 hq).1
    refine List.any_eq_true.2 ⟨a, List.mem_range.2 ha, List.any_eq_true.2 ⟨b, List.mem_range.2 hb, ?_⟩⟩
    rw [List.getD_eq_getElem?_getD, List.getD_eq_getElem?_getD, hp, hq]
    simp [hab, hr]
  refine ⟨s, h1, ?_⟩
  cases schedule <;> simp [Threads.run, hany]

/-! ### Two threads, with and without a race -/

/-- An array `x`, its row `x[1]`, and an array with one element. -/
private def twoArrays : List (Stmt Int) :=
  [.declare [2, 2] [1, 2, 3, 4], .slice 0 [1], .declare [1] [10]]

/-- Both threads read the element of the small array; the first one adds it to `x( 0, 1 )`, the second one to `x( 1, 1 )`,
which it reaches through the row. -/
private def twoThreads : List (Thread Int) :=
  [.load 2 .paren [0] fun a => .load 0 .bracket [0, 1] fun b => .store 0 ⟨.paren, [0, 1], a + b⟩ .ended,
   .load 2 .bracket [0] fun a => .load 1 .paren [1] fun b => .store 1 ⟨.bracket, [1], a + b⟩ .ended]

/-- Non-vacuity of C116: whatever the order, if both threads have three turns, `x( 0, 1 )` is 12 and `x( 1, 1 )` is 14. -/
example (cfg : Config) (schedule : List Nat) (h0 : 3 ≤ schedule.count 0) (h1 : 3 ≤ schedule.count 1) :
    ∃ vars vars' ts', Copies.run cfg (0 : Int) [] twoArrays = .ok vars ∧
      Threads.run cfg vars twoThreads schedule = .ok (vars', ts') ∧
      Copies.readVar cfg vars' 0 .paren [0, 1] = .ok 12 ∧ Copies.readVar cfg vars' 0 .bracket [1, 1] = .ok 14 ∧
      Copies.readVar cfg vars' 0 .paren [0, 0] = .ok 1 := by
  have hs : ValidShape [2, 2] := ⟨by decide, by decide, by decide⟩
  have hs' : ValidShape [1] := ⟨by decide, by decide, by decide⟩
  obtain ⟨m, hm, hm0, hm1, hm2⟩ : ∃ m, meanings (0 : Int) [] twoArrays = some m ∧
      (∃ f, m[0]? = some (.array [2, 2] f) ∧ f [0, 0] = 1 ∧ f [0, 1] = 2 ∧ f [1, 1] = 4) ∧ m[1]? = some (.view 0 [2] [1]) ∧
      (∃ f, m[2]? = some (.array [1] f) ∧ f [0] = 10) := by
    refine ⟨_, by simp [twoArrays, meanings, meaning, hs, hs', Meaning.dims, InBox]; rfl, ⟨_, rfl, ?_, ?_, ?_⟩, rfl,
      ⟨_, rfl, ?_⟩⟩ <;> simp [rowMajor, List.range_succ]
  obtain ⟨f, hf, hf0, hf1, hf2⟩ := hm0
  obtain ⟨k, hk, hk0⟩ := hm2
  have e00 : elementOf m 0 [0, 0] = some (0, [0, 0]) := by simp [elementOf, hf, InBox]
  have e01 : elementOf m 0 [0, 1] = some (0, [0, 1]) := by simp [elementOf, hf, InBox]
  have e11 : elementOf m 0 [1, 1] = some (0, [1, 1]) := by simp [elementOf, hf, InBox]
  have e1 : elementOf m 1 [1] = some (0, [1, 1]) := by simp [elementOf, hm1, InBox]
  have e2 : elementOf m 2 [0] = some (2, [0]) := by simp [elementOf, hk, InBox]
  have v00 : valuesIn 0 m (0, [0, 0]) = 1 := by simp [valuesIn, valueOf, hf, InBox, hf0]
  have v01 : valuesIn 0 m (0, [0, 1]) = 2 := by simp [valuesIn, valueOf, hf, InBox, hf1]
  have v11 : valuesIn 0 m (0, [1, 1]) = 4 := by simp [valuesIn, valueOf, hf, InBox, hf2]
  have v2 : valuesIn 0 m (2, [0]) = 10 := by simp [valuesIn, valueOf, hk, InBox, hk0]
  obtain ⟨vars, vars', ts', a1, a2, -, a3, a4⟩ := C116_threads cfg (0 : Int) twoArrays m hm twoThreads
    (fun i => {(0, [(i : Int), 1])}) {(2, [0])}
    (fun i j _ _ hij => by simpa using fun h : i = j => (hij h))
    (fun i _ => by simp)
    (fun i p hp => by
      match i with
      | 0 =>
        cases hp
        exact ⟨_, e2, .inr rfl, _, e01, .inl rfl, _, e01, rfl, trivial⟩
      | 1 =>
        cases hp
        exact ⟨_, e2, .inr rfl, _, e1, .inl rfl, _, e1, rfl, trivial⟩
      | i + 2 => simp [twoThreads] at hp) schedule
  refine ⟨vars, vars', ts', a1, a2, ?_, ?_, ?_⟩
  · obtain ⟨g, hg, hend, hval⟩ := a3 0 _ rfl
    rw [hval (hend (by simpa [Thread.accesses, e2, e01] using h0)) 0 .paren [0, 1] _ e01 rfl]
    simp only [Thread.alone, e2, e01, Option.bind_some, Option.some.injEq, v2, v01] at hg
    rw [← hg, Function.update_self]; rfl
  · obtain ⟨g, hg, hend, hval⟩ := a3 1 _ rfl
    rw [hval (hend (by simpa [Thread.accesses, e2, e1] using h1)) 0 .bracket [1, 1] _ e11 rfl]
    simp only [Thread.alone, e2, e1, Option.bind_some, Option.some.injEq, v2, v11] at hg
    rw [← hg, Function.update_self]; rfl
  · rw [a4 0 .paren [0, 0] _ e00 (fun i _ => by simp), v00]

/-- Two threads that write the same element, one of them through the row, have a data race, whatever the order: the
hypothesis of C116 that the elements differ cannot be dropped. -/
example : ∃ vars, Copies.run ⟨true, false, false⟩ (0 : Int) [] twoArrays = .ok vars ∧ ∀ schedule,
    Threads.run ⟨true, false, false⟩ vars [.store 0 ⟨.paren, [1, 0], 5⟩ .ended, .store 1 ⟨.bracket, [0], 6⟩ .ended] schedule
      = .ub := by
  obtain ⟨vars, h⟩ : ∃ vars, Copies.run ⟨true, false, false⟩ (0 : Int) [] twoArrays = .ok vars := ⟨_, rfl⟩
  refine ⟨vars, h, fun schedule => ?_⟩
  have hr : Threads.anyRace ⟨true, false, false⟩ vars
      [.store 0 ⟨.paren, [1, 0], 5⟩ .ended, .store 1 ⟨.bracket, [0], 6⟩ .ended] = true := by
    cases h
    decide +kernel
  cases schedule <;> simp [Threads.run, hr]

end Verif.Props
