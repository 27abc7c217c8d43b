import Verif.Model.Standards
import Verif.Lemmas.Headers

/-!
# The language standards
-/

namespace Verif.Lemmas

open Verif.Spec Verif.Sequence Verif.Standards

variable {R : Type}

theorem constants_ic (is : List Int) : constants (is.map .ic) = .ok is := by
  induction is with
  | nil => rfl
  | cons i is ih =>
    rw [List.map_cons, constants, ih]
    rfl

/-- The packs of the two forms of lambda are the same. -/
theorem pack_eq (cpp : Nat) (n : Int) :
    (executeSequence n (if 202002 ≤ cpp then templateLambda else argumentLambda) [] >>= packOf) = makeIntegerSequence n := by
  unfold executeSequence
  by_cases h : 0 ≤ n
  · have e : makeIntegerSequence n = .ok ((List.range n.toNat).map Int.ofNat) := if_pos h
    rw [e]
    generalize (List.range n.toNat).map Int.ofNat = is
    simp only [Res.ok_bind, List.append_nil, List.nil_append]
    split
    · cases is with
      | nil => rfl
      | cons i is => rfl
    · simp only [argumentLambda, if_true, Res.ok_bind, packOf, constants_ic]
  · have e : makeIntegerSequence n = .illFormed := if_neg h
    rw [e]
    rfl

theorem execute_leading {n : Int} {is : List Int} (h : makeIntegerSequence n = .ok is) (a : Int) :
    executeSequence n leadingLambda [.ic a] = .ok (.plain (.ic a :: is.map .ic)) := by
  unfold executeSequence
  rw [h]
  simp [leadingLambda]

theorem execute_factor {n : Int} {is : List Int} (h : makeIntegerSequence n = .ok is) (a : Int) :
    executeSequence n factorLambda [.ic a] = .ok (if is = [] then .plain [.ic a] else .templ is [.ic a]) := by
  unfold executeSequence
  rw [h]
  cases is with
  | nil => rfl
  | cons i is => simp [factorLambda]

theorem expandOver_eq (bases : List (Basis R)) (idx : List Int) (f : Basis R → Int → Int → Res R) :
    expandOver bases idx ((List.range bases.length).map Int.ofNat) f = BasisProduct.expand bases idx f := by
  unfold expandOver BasisProduct.expand
  rw [List.zipWith_map_left]

theorem makeIntegerSequence_natCast (n : Nat) : makeIntegerSequence (n : Int) = .ok ((List.range n).map Int.ofNat) := by
  unfold makeIntegerSequence
  rw [if_pos (by omega)]
  rfl

/-! ### Headers -/

/-- Files that are the same where they matter are read the same. -/
structure SameOn (fs gs : HeaderFiles) (D : Place → Prop) : Prop where
  search : fs.search = gs.search
  there : ∀ p, (fs.file p).isSome = (gs.file p).isSome
  file : ∀ p, D p → fs.file p = gs.file p
  closed : ∀ p h, D p → gs.file p = some h → ∀ n, HeaderItem.quoted n ∈ h.items → ∀ q, gs.find p n = some q → D q

theorem SameOn.find {fs gs : HeaderFiles} {D : Place → Prop} (h : SameOn fs gs D) : fs.find = gs.find := by
  funext p n
  unfold HeaderFiles.find
  rw [h.search, funext h.there]

theorem SameOn.findOutside {fs gs : HeaderFiles} {D : Place → Prop} (h : SameOn fs gs D) :
    fs.findOutside = gs.findOutside := by
  funext n
  unfold HeaderFiles.findOutside
  rw [h.search, funext h.there]

theorem readItems_same {e e' : Seen → Place → Except Problem Seen} {find : Text → Option Place} {lib : Text → List Text}
    {D : Place → Prop} (he : ∀ s q, D q → e s q = e' s q) : ∀ (items : List HeaderItem) (s : Seen),
    (∀ n, HeaderItem.quoted n ∈ items → ∀ q, find n = some q → D q) → readItems e find lib s items = readItems e' find lib s items
  | [], _, _ => rfl
  | i :: items, s, h => by
    have ih := fun s => readItems_same (lib := lib) he items s fun n hn => h n (List.mem_cons_of_mem _ hn)
    cases i with
    | quoted n =>
      rw [readItems, readItems]
      cases hf : find n with
      | none => rfl
      | some q =>
        dsimp only
        rw [he s q (h n List.mem_cons_self q hf)]
        cases e' s q with
        | error _ => rfl
        | ok s => exact ih s
    | system n => exact ih _
    | declares ns =>
      rw [readItems, readItems]
      cases ns.find? (fun n => decide (n ∈ s.names)) with
      | some n => rfl
      | none => exact ih _
    | uses ns =>
      rw [readItems, readItems]
      cases ns.find? (fun n => decide (n ∉ s.names)) with
      | some n => rfl
      | none => exact ih _
    | usesLibrary ns =>
      rw [readItems, readItems]
      cases ns.find? (fun n => decide (n ∉ s.library)) with
      | some n => rfl
      | none => exact ih _
    | stops => rfl

theorem SameOn.enter {fs gs : HeaderFiles} {D : Place → Prop} (h : SameOn fs gs D) (lib : Text → List Text) :
    ∀ (d : Nat) (s : Seen) (p : Place), D p → fs.enter lib d s p = gs.enter lib d s p
  | 0, _, _, _ => rfl
  | d + 1, s, p, hp => by
    rw [HeaderFiles.enter, HeaderFiles.enter, h.file p hp]
    cases hf : gs.file p with
    | none => rfl
    | some x =>
      dsimp only
      rw [h.find, readItems_same (fun s q hq => h.enter lib d s q hq) x.items _ fun n hn q hq => h.closed p x hp hf n hn q hq]

theorem SameOn.translate {fs gs : HeaderFiles} {D : Place → Prop} (h : SameOn fs gs D) (lib : Text → List Text)
    (given names : List Text) (hn : ∀ n ∈ names, ∀ q, gs.findOutside n = some q → D q) :
    fs.translate lib given names = gs.translate lib given names := by
  unfold HeaderFiles.translate
  rw [h.findOutside]
  refine readItems_same (fun s q hq => h.enter lib 200 s q hq) _ _ fun n hm => ?_
  obtain ⟨m, hm, e⟩ := List.mem_map.1 hm
  cases e
  exact hn n hm

/-- A property of what has been read that successful reading keeps. -/
theorem readItems_keeps {P : Seen → Prop} {e : Seen → Place → Except Problem Seen} {find : Text → Option Place}
    {lib : Text → List Text} (he : ∀ s q t, P s → e s q = .ok t → P t)
    (hl : ∀ s ns, P s → P { s with library := ns }) :
    ∀ (items : List HeaderItem) (s t : Seen),
    (∀ ns, HeaderItem.declares ns ∈ items → ∀ s, P s → P { s with names := ns ++ s.names }) → P s →
      readItems e find lib s items = .ok t → P t
  | [], s, t, _, hs, h => by
    cases h
    exact hs
  | i :: items, s, t, hd, hs, h => by
    have ih := fun s => readItems_keeps (find := find) (lib := lib) he hl items s t
      fun ns hn => hd ns (List.mem_cons_of_mem _ hn)
    cases i with
    | quoted n =>
      rw [readItems] at h
      revert h
      cases find n with
      | none => exact fun h => by cases h
      | some q =>
        dsimp only
        cases hq : e s q with
        | error _ => exact fun h => by cases h
        | ok s' => exact fun h => ih s' (he s q s' hs hq) h
    | system n => exact ih _ (hl s _ hs) h
    | declares ns =>
      rw [readItems] at h
      revert h
      cases ns.find? (fun n => decide (n ∈ s.names)) with
      | some n => exact fun h => by cases h
      | none => exact fun h => ih _ (hd ns List.mem_cons_self s hs) h
    | uses ns =>
      rw [readItems] at h
      revert h
      cases ns.find? (fun n => decide (n ∉ s.names)) with
      | some n => exact fun h => by cases h
      | none => exact fun h => ih _ hs h
    | usesLibrary ns =>
      rw [readItems] at h
      revert h
      cases ns.find? (fun n => decide (n ∉ s.library)) with
      | some n => exact fun h => by cases h
      | none => exact fun h => ih _ hs h
    | stops => cases h

/-- Nothing declares the name. -/
def Unknown (fs : HeaderFiles) (name : Text) : Prop :=
  ∀ p h, fs.file p = some h → ∀ ns, HeaderItem.declares ns ∈ h.items → name ∉ ns

theorem enter_unknown {fs : HeaderFiles} {name : Text} (hu : Unknown fs name) (lib : Text → List Text) :
    ∀ (d : Nat) (s : Seen) (p : Place) (t : Seen), name ∉ s.names → fs.enter lib d s p = .ok t → name ∉ t.names
  | 0, _, _, _, _, h => by cases h
  | d + 1, s, p, t, hs, h => by
    rw [HeaderFiles.enter] at h
    revert h
    cases hf : fs.file p with
    | none => exact fun h => by cases h
    | some x =>
      dsimp only
      split
      · intro h
        cases h
        exact hs
      · refine readItems_keeps (P := fun s => name ∉ s.names) (fun s q t => enter_unknown hu lib d s q t)
          (fun s ns h => h) x.items _ t (fun ns hn s hs => ?_) ?_
        · exact fun hm => (List.mem_append.1 hm).elim (hu p x hf ns hn) hs
        · split
          · exact hs
          · exact hs

/-- A state in which neither the name is declared nor one of the files read. -/
def Fresh (name : Text) (bad : List Place) (s : Seen) : Prop := name ∉ s.names ∧ ∀ p ∈ bad, p ∉ s.once

theorem readItems_fresh {fs : HeaderFiles} {name : Text} {bad : List Place} {lib : Text → List Text}
    (hu : Unknown fs name) {d : Nat}
    (he : ∀ s q t, Fresh name bad s → fs.enter lib d s q = .ok t → Fresh name bad t) {p : Place} {h : Header}
    (hf : fs.file p = some h) (find : Text → Option Place) (items : List HeaderItem) (hsub : ∀ i ∈ items, i ∈ h.items)
    (s t : Seen) (hs : Fresh name bad s) (hr : readItems (fs.enter lib d) find lib s items = .ok t) : Fresh name bad t :=
  readItems_keeps (P := Fresh name bad) he (fun _ _ h => h) items s t
    (fun ns hn _ hs => ⟨fun hm => (List.mem_append.1 hm).elim (hu p h hf ns (hsub _ hn)) hs.1, hs.2⟩) hs hr

/-- A file that uses the name, and has not been read before, is not read successfully. -/
theorem user_fails {fs : HeaderFiles} {name : Text} (hu : Unknown fs name) (lib : Text → List Text) {b : Place} {h : Header}
    (hb : fs.file b = some h) {pre post : List HeaderItem} (hi : h.items = pre ++ .uses [name] :: post) {d : Nat} {s t : Seen}
    (hs : Fresh name [b] s) : fs.enter lib d s b ≠ .ok t := by
  intro hr
  cases d with
  | zero => cases hr
  | succ d =>
    rw [HeaderFiles.enter, hb] at hr
    dsimp only at hr
    rw [if_neg (fun x => hs.2 b List.mem_cons_self x.2), hi] at hr
    obtain ⟨u, h1, h2⟩ := readItems_append _ _ _ _ _ _ _ hr
    have hun : name ∉ u.names := by
      refine readItems_keeps (P := fun s => name ∉ s.names) (fun s q t => enter_unknown hu lib d s q t)
        (fun s ns h => h) pre _ u (fun ns hn s hs => ?_) ?_ h1
      · exact fun hm => (List.mem_append.1 hm).elim
          (hu b h hb ns (hi ▸ List.mem_append_left _ hn)) hs
      · split
        · exact hs.1
        · exact hs.1
    rw [readItems, List.find?_cons] at h2
    rw [decide_eq_true hun] at h2
    cases h2

/-- After reading anything successfully, the file has not been read. -/
theorem enter_fresh {fs : HeaderFiles} {name : Text} (hu : Unknown fs name) (lib : Text → List Text) {b : Place} {h : Header}
    (hb : fs.file b = some h) {pre post : List HeaderItem} (hi : h.items = pre ++ .uses [name] :: post) :
    ∀ (d : Nat) (s : Seen) (p : Place) (t : Seen), Fresh name [b] s → fs.enter lib d s p = .ok t → Fresh name [b] t
  | 0, _, _, _, _, h => by cases h
  | d + 1, s, p, t, hs, hr => by
    by_cases e : p = b
    · subst e
      exact absurd hr (user_fails hu lib hb hi hs)
    · rw [HeaderFiles.enter] at hr
      revert hr
      cases hf : fs.file p with
      | none => exact fun h => by cases h
      | some x =>
        dsimp only
        split
        · intro h
          cases h
          exact hs
        · intro hr
          refine readItems_fresh hu (fun s q t => enter_fresh hu lib hb hi d s q t) hf _ x.items (fun _ h => h) _ t ?_ hr
          split
          · refine ⟨hs.1, fun q hq hm => ?_⟩
            rcases List.mem_cons.1 hm with rfl | hm
            · exact e (List.mem_singleton.1 hq)
            · exact hs.2 q hq hm
          · exact hs

/-- A file that includes one that uses the name is not read successfully either. -/
theorem includer_fails {fs : HeaderFiles} {name : Text} (hu : Unknown fs name) (lib : Text → List Text) {b : Place} {h : Header}
    (hb : fs.file b = some h) {pre post : List HeaderItem} (hi : h.items = pre ++ .uses [name] :: post)
    {c : Place} {g : Header} (hc : fs.file c = some g) (hne : c ≠ b) {n : Text} {pre' post' : List HeaderItem}
    (hi' : g.items = pre' ++ .quoted n :: post') (hfind : fs.find c n = some b)
    {d : Nat} {s t : Seen} (hs : Fresh name [b] s) (hcs : c ∉ s.once) : fs.enter lib d s c ≠ .ok t := by
  intro hr
  cases d with
  | zero => cases hr
  | succ d =>
    rw [HeaderFiles.enter, hc] at hr
    dsimp only at hr
    rw [if_neg (fun x => hcs x.2), hi'] at hr
    obtain ⟨u, h1, h2⟩ := readItems_append _ _ _ _ _ _ _ hr
    have hfu : Fresh name [b] u := by
      refine readItems_fresh hu (fun s q t => enter_fresh hu lib hb hi d s q t) hc _ pre'
        (fun i hm => hi' ▸ List.mem_append_left _ hm) _ u ?_ h1
      split
      · refine ⟨hs.1, fun q hq hm => ?_⟩
        rcases List.mem_cons.1 hm with rfl | hm
        · exact hne (List.mem_singleton.1 hq)
        · exact hs.2 q hq hm
      · exact hs
    rw [readItems, hfind] at h2
    dsimp only at h2
    revert h2
    cases he : fs.enter lib d u b with
    | error _ => exact fun h => by cases h
    | ok v => exact fun _ => user_fails hu lib hb hi hfu he

/-- After reading anything successfully, neither has been read. -/
theorem enter_fresh_includer {fs : HeaderFiles} {name : Text} (hu : Unknown fs name) (lib : Text → List Text) {b : Place}
    {h : Header} (hb : fs.file b = some h) {pre post : List HeaderItem} (hi : h.items = pre ++ .uses [name] :: post)
    {c : Place} {g : Header} (hc : fs.file c = some g) (hne : c ≠ b) {n : Text} {pre' post' : List HeaderItem}
    (hi' : g.items = pre' ++ .quoted n :: post') (hfind : fs.find c n = some b) :
    ∀ (d : Nat) (s : Seen) (p : Place) (t : Seen), Fresh name [b, c] s → fs.enter lib d s p = .ok t → Fresh name [b, c] t
  | 0, _, _, _, _, h => by cases h
  | d + 1, s, p, t, hs, hr => by
    have hs1 : Fresh name [b] s := ⟨hs.1, fun q hq => hs.2 q (by
      rw [List.mem_singleton.1 hq]; exact List.mem_cons_self)⟩
    by_cases e : p = b
    · subst e
      exact absurd hr (user_fails hu lib hb hi hs1)
    by_cases e' : p = c
    · subst e'
      exact absurd hr (includer_fails hu lib hb hi hc hne hi' hfind hs1
        (hs.2 p (List.mem_cons_of_mem _ List.mem_cons_self)))
    · rw [HeaderFiles.enter] at hr
      revert hr
      cases hf : fs.file p with
      | none => exact fun h => by cases h
      | some x =>
        dsimp only
        split
        · intro h
          cases h
          exact hs
        · intro hr
          refine readItems_fresh hu (fun s q t => enter_fresh_includer hu lib hb hi hc hne hi' hfind d s q t) hf _ x.items
            (fun _ h => h) _ t ?_ hr
          split
          · refine ⟨hs.1, fun q hq hm => ?_⟩
            rcases List.mem_cons.1 hm with rfl | hm
            · rcases List.mem_cons.1 hq with hq | hq
              · exact e hq
              · exact e' (List.mem_singleton.1 hq)
            · exact hs.2 q hq hm
          · exact hs

/-- A list of includes with one that always fails. -/
theorem translate_fails {fs : HeaderFiles} {lib : Text → List Text} {P : Seen → Prop} {c : Place}
    (hl : ∀ s ns, P s → P { s with library := ns })
    (he : ∀ s q t, P s → fs.enter lib 200 s q = .ok t → P t) (hc : ∀ s t, P s → fs.enter lib 200 s c ≠ .ok t)
    (given names : List Text) (h0 : P ⟨[], [], given⟩) {n : Text} (hn : n ∈ names) (hfind : fs.findOutside n = some c) (t : Seen) :
    fs.translate lib given names ≠ .ok t := by
  intro h
  obtain ⟨a, b, rfl⟩ := List.append_of_mem hn
  unfold HeaderFiles.translate at h
  rw [List.map_append] at h
  obtain ⟨u, h1, h2⟩ := readItems_append _ _ _ _ _ _ _ h
  have hu : P u := readItems_keeps he hl _ _ u (fun ns hm => by
    obtain ⟨m, -, e⟩ := List.mem_map.1 hm
    cases e) h0 h1
  rw [List.map_cons, readItems, hfind] at h2
  dsimp only at h2
  revert h2
  cases e : fs.enter lib 200 u c with
  | error _ => exact fun h => by cases h
  | ok v => exact fun _ => hc u v hu e

end Verif.Lemmas
