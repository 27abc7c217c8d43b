import Verif.Model.Headers
import Mathlib.Tactic.ByContra
import Mathlib.Data.List.Nodup

/-!
# Lemmas for C124: headers that are sufficient can be included in any order
-/

namespace Verif.Lemmas

open Verif.Spec

/-- The names declared by items. -/
def declaredBy (items : List HeaderItem) : List Text := items.flatMap fun
  | .declares ns => ns
  | _ => []

/-- The names declared by a file itself. -/
def ownNames (fs : HeaderFiles) (p : Place) : List Text := match fs.file p with
  | some h => declaredBy h.items
  | none => []

/-- The items of a file use only what has been declared before, given what has been, and include only files of lower rank; `cn`
and `cl` say which names are declared once a file has been included. -/
def sufficientItems (find : Text → Option Place) (lib : Text → List Text) (D : List Place) (rank : Place → Nat)
    (cn cl : Place → List Text) (p : Place) : List Text → List Text → List HeaderItem → Bool
  | avail, availLib, [] => (cn p).all (fun n => decide (n ∈ avail)) && (cl p).all (fun n => decide (n ∈ availLib))
  | avail, availLib, .quoted n :: rest => match find n with
    | none => false
    | some q => decide (q ∈ D) && decide (rank q < rank p) &&
      sufficientItems find lib D rank cn cl p (cn q ++ avail) (cl q ++ availLib) rest
  | avail, availLib, .system n :: rest => sufficientItems find lib D rank cn cl p avail (lib n ++ availLib) rest
  | avail, availLib, .declares ns :: rest => sufficientItems find lib D rank cn cl p (ns ++ avail) availLib rest
  | avail, availLib, .uses ns :: rest => ns.all (fun n => decide (n ∈ avail)) &&
      sufficientItems find lib D rank cn cl p avail availLib rest
  | avail, availLib, .usesLibrary ns :: rest => ns.all (fun n => decide (n ∈ availLib)) &&
      sufficientItems find lib D rank cn cl p avail availLib rest
  | _, _, .stops :: _ => false

/-- A set of files that are sufficient and do not declare the same names. -/
structure Sufficient (fs : HeaderFiles) (lib : Text → List Text) (given : List Text) (D : List Place) (rank : Place → Nat)
    (cn cl : Place → List Text) : Prop where
  files : ∀ p ∈ D, ∃ h, fs.file p = some h ∧ (h.once = true ∨ declaredBy h.items = []) ∧
    sufficientItems (fs.find p) lib D rank cn cl p [] given h.items = true ∧
    declaredBy h.items ⊆ cn p
  apart : ∀ p ∈ D, ∀ q ∈ D, ∀ n ∈ ownNames fs p, n ∈ ownNames fs q → p = q
  names : ∀ p ∈ D, (ownNames fs p).Nodup

section

variable {fs : HeaderFiles} {usualLib lib : Text → List Text} {given : List Text} {D : List Place} {rank : Place → Nat} {cn cl : Place → List Text}

/-- All names that are promised for the file at a place are declared. -/
def Complete (cn cl : Place → List Text) (p : Place) (s : Seen) : Prop := cn p ⊆ s.names ∧ cl p ⊆ s.library

/-- One state has everything the other has. -/
def Grown (s t : Seen) : Prop := s.once ⊆ t.once ∧ s.names ⊆ t.names ∧ s.library ⊆ t.library

theorem Grown.refl (s : Seen) : Grown s s := ⟨fun _ h => h, fun _ h => h, fun _ h => h⟩

theorem Grown.trans {s t u : Seen} (h : Grown s t) (h' : Grown t u) : Grown s u :=
  ⟨fun _ x => h'.1 (h.1 x), fun _ x => h'.2.1 (h.2.1 x), fun _ x => h'.2.2 (h.2.2 x)⟩

theorem Complete.grown {p : Place} {s t : Seen} (h : Complete cn cl p s) (g : Grown s t) :
    Complete cn cl p t := ⟨fun _ x => g.2.1 (h.1 x), fun _ x => g.2.2 (h.2 x)⟩

/-- Names are declared by files that have been read. -/
def Consistent (fs : HeaderFiles) (D : List Place) (given : List Text) (s : Seen) : Prop :=
  (∀ p ∈ s.once, p ∈ D) ∧ (∀ n ∈ s.names, ∃ p ∈ s.once, n ∈ ownNames fs p) ∧ given ⊆ s.library

/-- What reading some items has done: `declared` may be new, and files of rank below `r`. -/
structure Step (fs : HeaderFiles) (given : List Text) (D : List Place) (rank : Place → Nat) (cn cl : Place → List Text)
    (r : Nat) (declared : List Text) (s t : Seen) : Prop where
  grown : Grown s t
  consistent : Consistent fs D given t
  once : ∀ p ∈ t.once, p ∈ s.once ∨ (rank p < r ∧ Complete cn cl p t)
  names : ∀ n ∈ t.names, n ∈ s.names ∨ n ∈ declared ∨ ∃ p ∈ D, rank p < r ∧ n ∈ ownNames fs p

theorem Step.refl {r : Nat} {s : Seen} (h : Consistent fs D given s) : Step fs given D rank cn cl r [] s s :=
  ⟨.refl s, h, fun _ h => .inl h, fun _ h => .inl h⟩

theorem Step.trans {r : Nat} {a b : List Text} {s t u : Seen} (h : Step fs given D rank cn cl r a s t)
    (h' : Step fs given D rank cn cl r b t u) : Step fs given D rank cn cl r (a ++ b) s u := by
  refine ⟨h.grown.trans h'.grown, h'.consistent, fun p hp => ?_, fun n hn => ?_⟩
  · rcases h'.once p hp with h1 | h1
    · rcases h.once p h1 with h2 | h2
      · exact .inl h2
      · exact .inr ⟨h2.1, h2.2.grown h'.grown⟩
    · exact .inr h1
  · rcases h'.names n hn with h1 | h1 | h1
    · rcases h.names n h1 with h2 | h2 | h2
      · exact .inl h2
      · exact .inr (.inl (List.mem_append_left _ h2))
      · exact .inr (.inr h2)
    · exact .inr (.inl (List.mem_append_right _ h1))
    · exact .inr (.inr h1)

/-- Files of lower rank can be included. -/
def CanEnter (fs : HeaderFiles) (given : List Text) (D : List Place) (rank : Place → Nat) (cn cl : Place → List Text)
    (r : Nat) (enter : Seen → Place → Except Problem Seen) : Prop :=
  ∀ q ∈ D, rank q < r → ∀ s, Consistent fs D given s →
    (∀ p ∈ s.once, rank p ≤ rank q → Complete cn cl p s) →
    ∃ t, enter s q = .ok t ∧ Step fs given D rank cn cl (rank q + 1) [] s t ∧ Complete cn cl q t

/-- Reading the items of a file. -/
theorem readItems_ok (hl : ∀ n, usualLib n ⊆ lib n) {p : Place} (hp : p ∈ D)
    (hap : ∀ p ∈ D, ∀ q ∈ D, ∀ n ∈ ownNames fs p, n ∈ ownNames fs q → p = q)
    {enter : Seen → Place → Except Problem Seen} (he : CanEnter fs given D rank cn cl (rank p) enter) :
    ∀ (items : List HeaderItem) (avail availLib : List Text) (s : Seen),
      sufficientItems (fs.find p) usualLib D rank cn cl p avail availLib items = true →
      (∀ n ∈ declaredBy items, n ∈ ownNames fs p) → (declaredBy items).Nodup →
      (∀ n ∈ declaredBy items, n ∉ s.names) →
      (declaredBy items ≠ [] → p ∈ s.once) → Consistent fs D given s →
      (∀ q ∈ s.once, rank q < rank p → Complete cn cl q s) →
      avail ⊆ s.names → availLib ⊆ s.library →
      ∃ t, readItems enter (fs.find p) lib s items = .ok t ∧
        Step fs given D rank cn cl (rank p) (declaredBy items) s t ∧
        Complete cn cl p t
  | [], _, _, s, hs, _, _, _, _, hc, _, ha, hal => by
    rw [sufficientItems, Bool.and_eq_true, List.all_eq_true, List.all_eq_true] at hs
    exact ⟨s, rfl, .refl hc, fun n hn => ha (of_decide_eq_true (hs.1 n hn)), fun n hn => hal (of_decide_eq_true (hs.2 n hn))⟩
  | .quoted n :: rest, avail, availLib, s, hs, ho, hnd, hf, hm, hc, hr, ha, hal => by
    rw [sufficientItems] at hs
    cases hq : fs.find p n with
    | none => rw [hq] at hs; cases hs
    | some q =>
      rw [hq] at hs
      simp only [Bool.and_eq_true, decide_eq_true_eq] at hs
      obtain ⟨⟨hqD, hqr⟩, hs⟩ := hs
      obtain ⟨t, ht, hst, hcq⟩ := he q hqD hqr s hc fun p' hp' hle => hr p' hp' (Nat.lt_of_le_of_lt hle hqr)
      have hdecl : declaredBy (HeaderItem.quoted n :: rest) = declaredBy rest := rfl
      rw [hdecl] at ho hnd hf hm
      have hst' : Step fs given D rank cn cl (rank p) [] s t :=
        ⟨hst.grown, hst.consistent, fun p' hp' => (hst.once p' hp').imp id fun h => ⟨by omega, h.2⟩,
          fun m hm' => by
            rcases hst.names m hm' with h | h | ⟨p', h1, h2, h3⟩
            · exact .inl h
            · exact .inr (.inl h)
            · exact .inr (.inr ⟨p', h1, by omega, h3⟩)⟩
      obtain ⟨u, hu, hsu, hi⟩ := readItems_ok hl hp hap he rest _ _ t hs ho hnd (fun m hm' hmt => by
          rcases hst'.names m hmt with h | h | ⟨p', h1, h2, h3⟩
          · exact hf m hm' h
          · cases h
          · have := hap p hp p' h1 m (ho m hm') h3
            subst this
            omega)
        (fun h => hst.grown.1 (hm h)) hst.consistent (fun q' hq' hlt => by
          rcases hst'.once q' hq' with h | h
          · exact (hr q' h hlt).grown hst.grown
          · exact h.2)
        (fun m hm' => (List.mem_append.1 hm').elim (fun h => hcq.1 h) fun h => hst.grown.2.1 (ha h))
        (fun m hm' => (List.mem_append.1 hm').elim (fun h => hcq.2 h) fun h => hst.grown.2.2 (hal h))
      refine ⟨u, ?_, ?_, ?_⟩
      · rw [readItems, hq]
        dsimp only
        rw [ht]
        exact hu
      · exact hst'.trans hsu
      · exact hi
  | .system n :: rest, avail, availLib, s, hs, ho, hnd, hf, hm, hc, hr, ha, hal => by
    rw [sufficientItems] at hs
    have g : Grown s { s with library := lib n ++ s.library } :=
      ⟨fun _ h => h, fun _ h => h, fun _ h => List.mem_append_right _ h⟩
    have hc' : Consistent fs D given { s with library := lib n ++ s.library } :=
      ⟨hc.1, hc.2.1, fun _ h => List.mem_append_right _ (hc.2.2 h)⟩
    obtain ⟨u, hu, hsu, hi⟩ := readItems_ok hl hp hap he rest _ _ { s with library := lib n ++ s.library } hs ho hnd hf hm hc'
      (fun q hq h => (hr q hq h).grown g) ha
      (fun m hm' => (List.mem_append.1 hm').elim (fun h => List.mem_append_left _ (hl n h))
        fun h => List.mem_append_right _ (hal h))
    refine ⟨u, by rw [readItems]; exact hu, ?_, ?_⟩
    · have h0 : Step fs given D rank cn cl (rank p) [] s { s with library := lib n ++ s.library } :=
        ⟨g, hc', fun _ h => .inl h, fun _ h => .inl h⟩
      exact h0.trans hsu
    · exact hi
  | .declares ns :: rest, avail, availLib, s, hs, ho, hnd, hf, hm, hc, hr, ha, hal => by
    rw [sufficientItems] at hs
    have hdecl : declaredBy (HeaderItem.declares ns :: rest) = ns ++ declaredBy rest := rfl
    rw [hdecl] at ho hnd hf hm
    have g : Grown s { s with names := ns ++ s.names } :=
      ⟨fun _ h => h, fun _ h => List.mem_append_right _ h, fun _ h => h⟩
    have hc' : Consistent fs D given { s with names := ns ++ s.names } := by
      refine ⟨hc.1, fun n hn => ?_, hc.2.2⟩
      rcases List.mem_append.1 hn with h | h
      · exact ⟨p, hm (List.ne_nil_of_mem (List.mem_append_left _ h)), ho n (List.mem_append_left _ h)⟩
      · exact hc.2.1 n h
    obtain ⟨u, hu, hsu, hi⟩ := readItems_ok hl hp hap he rest _ _ { s with names := ns ++ s.names } hs
      (fun n hn => ho n (List.mem_append_right _ hn)) (List.nodup_append.1 hnd).2.1
      (fun n hn h => by
        rcases List.mem_append.1 h with h | h
        · exact (List.nodup_append.1 hnd).2.2 n h n hn rfl
        · exact hf n (List.mem_append_right _ hn) h)
      (fun h => hm (fun e => h (List.append_eq_nil_iff.1 e).2)) hc'
      (fun q hq h => (hr q hq h).grown g)
      (fun m hm' => (List.mem_append.1 hm').elim (fun h => List.mem_append_left _ h)
        fun h => List.mem_append_right _ (ha h)) hal
    refine ⟨u, ?_, ?_, ?_⟩
    · have hfind : ns.find? (fun n => decide (n ∈ s.names)) = none :=
        List.find?_eq_none.2 fun n hn => by
          rw [decide_eq_true_iff]
          exact hf n (List.mem_append_left _ hn)
      rw [readItems, hfind]
      exact hu
    · have h0 : Step fs given D rank cn cl (rank p) ns s { s with names := ns ++ s.names } :=
        ⟨g, hc', fun _ h => .inl h, fun n hn => (List.mem_append.1 hn).elim (fun h => .inr (.inl h)) .inl⟩
      exact h0.trans hsu
    · exact hi
  | .uses ns :: rest, avail, availLib, s, hs, ho, hnd, hf, hm, hc, hr, ha, hal => by
    rw [sufficientItems, Bool.and_eq_true, List.all_eq_true] at hs
    obtain ⟨u, hu, hsu, hi⟩ := readItems_ok hl hp hap he rest _ _ s hs.2 ho hnd hf hm hc hr ha hal
    refine ⟨u, ?_, hsu, ?_⟩
    · have hfind : ns.find? (fun n => decide (n ∉ s.names)) = none :=
        List.find?_eq_none.2 fun n hn => by
          rw [decide_eq_true_iff, Decidable.not_not]
          exact ha (of_decide_eq_true (hs.1 n hn))
      rw [readItems, hfind]
      exact hu
    · exact hi
  | .usesLibrary ns :: rest, avail, availLib, s, hs, ho, hnd, hf, hm, hc, hr, ha, hal => by
    rw [sufficientItems, Bool.and_eq_true, List.all_eq_true] at hs
    obtain ⟨u, hu, hsu, hi⟩ := readItems_ok hl hp hap he rest _ _ s hs.2 ho hnd hf hm hc hr ha hal
    refine ⟨u, ?_, hsu, ?_⟩
    · have hfind : ns.find? (fun n => decide (n ∉ s.library)) = none :=
        List.find?_eq_none.2 fun n hn => by
          rw [decide_eq_true_iff, Decidable.not_not]
          exact hal (of_decide_eq_true (hs.1 n hn))
      rw [readItems, hfind]
      exact hu
    · exact hi
  | .stops :: _, _, _, _, hs, _, _, _, _, _, _, _, _ => by rw [sufficientItems] at hs; cases hs

/-- Including a file of a sufficient set. -/
theorem enter_ok (hS : Sufficient fs usualLib given D rank cn cl) (hl : ∀ n, usualLib n ⊆ lib n) (d : Nat) :
    CanEnter fs given D rank cn cl d (fs.enter lib d) := by
  induction d with
  | zero => exact fun q _ h => absurd h (Nat.not_lt_zero _)
  | succ d ih =>
    intro q hq hd s hc hr
    obtain ⟨h, hh, hfile⟩ := hS.files q hq
    have hown : ownNames fs q = declaredBy h.items := by rw [ownNames, hh]
    rw [HeaderFiles.enter, hh]
    dsimp only
    by_cases hin : h.once = true ∧ q ∈ s.once
    · rw [if_pos hin]
      have hst : Step fs given D rank cn cl (rank q + 1) [] s s := .refl hc
      exact ⟨s, rfl, hst, hr q hin.2 (Nat.le_refl _)⟩
    · rw [if_neg hin]
      obtain ⟨s1, hs1⟩ : ∃ s1, s1 = (if h.once = true then { s with once := q :: s.once } else s) := ⟨_, rfl⟩
      rw [← hs1]
      have names1 : s1.names = s.names := by rw [hs1]; split <;> rfl
      have lib1 : s1.library = s.library := by rw [hs1]; split <;> rfl
      have once1 : ∀ p ∈ s1.once, p ∈ s.once ∨ p = q := by
        intro p hp
        rw [hs1] at hp
        split at hp
        · exact (List.mem_cons.1 hp).symm
        · exact .inl hp
      have once2 : s.once ⊆ s1.once := by
        rw [hs1]
        split
        · exact fun _ h => List.mem_cons_of_mem _ h
        · exact fun _ h => h
      have g1 : Grown s s1 := ⟨once2, by rw [names1]; exact fun _ h => h, by rw [lib1]; exact fun _ h => h⟩
      have hc1 : Consistent fs D given s1 := by
        refine ⟨fun p hp => ?_, fun n hn => ?_, by rw [lib1]; exact hc.2.2⟩
        · rcases once1 p hp with h | h
          · exact hc.1 p h
          · rw [h]; exact hq
        · rw [names1] at hn
          obtain ⟨p, h1, h2⟩ := hc.2.1 n hn
          exact ⟨p, once2 h1, h2⟩
      obtain ⟨t, ht, hst, hcq⟩ := readItems_ok hl hq hS.apart
        (fun q' hq' hlt => ih q' hq' (by omega)) h.items [] given s1 hfile.2.1
        (fun n hn => by rw [hown]; exact hn) (by rw [← hown]; exact hS.names q hq)
        (fun n hn hns => by
          rw [names1] at hns
          obtain ⟨p, h1, h2⟩ := hc.2.1 n hns
          have := hS.apart p (hc.1 p h1) q hq n h2 (by rw [hown]; exact hn)
          subst this
          rcases hfile.1 with h3 | h3
          · exact hin ⟨h3, h1⟩
          · rw [h3] at hn; cases hn)
        (fun hne => by
          rcases hfile.1 with h3 | h3
          · rw [hs1, if_pos h3]; exact List.mem_cons_self
          · rw [h3] at hne; exact absurd rfl hne)
        hc1 (fun p hp hlt => by
          rcases once1 p hp with h | h
          · exact (hr p h (Nat.le_of_lt hlt)).grown g1
          · rw [h] at hlt; exact absurd hlt (Nat.lt_irrefl _))
        (List.nil_subset _) (by rw [lib1]; exact hc.2.2)
      refine ⟨t, ht, ⟨g1.trans hst.grown, hst.consistent, fun p hp => ?_, fun n hn => ?_⟩, hcq⟩
      · rcases hst.once p hp with h1 | h1
        · rcases once1 p h1 with h2 | h2
          · exact .inl h2
          · rw [h2]; exact .inr ⟨Nat.lt_succ_self _, hcq⟩
        · exact .inr ⟨by omega, h1.2⟩
      · rcases hst.names n hn with h1 | h1 | ⟨p, h1, h2, h3⟩
        · rw [names1] at h1; exact .inl h1
        · exact .inr (.inr ⟨q, hq, Nat.lt_succ_self _, by rw [hown]; exact h1⟩)
        · exact .inr (.inr ⟨p, h1, by omega, h3⟩)

/-- **Any order.** A source file that includes any headers of a sufficient set, in any order and any number of times,
compiles, and all names of the headers are declared. -/
theorem translate_ok (hS : Sufficient fs usualLib given D rank cn cl) (hl : ∀ n, usualLib n ⊆ lib n) {given' : List Text}
    (hg : given ⊆ given') (hrank : ∀ p ∈ D, rank p < 200) (names : List Text)
    (hn : ∀ n ∈ names, ∃ p ∈ D, fs.findOutside n = some p) :
    ∃ t, fs.translate lib given' names = .ok t ∧ Consistent fs D given t ∧ (∀ p ∈ t.once, Complete cn cl p t) ∧
      ∀ n ∈ names, ∀ p, fs.findOutside n = some p → Complete cn cl p t := by
  have key : ∀ (names : List Text), (∀ n ∈ names, ∃ p ∈ D, fs.findOutside n = some p) → ∀ s : Seen, Consistent fs D given s →
      (∀ p ∈ s.once, Complete cn cl p s) →
      ∃ t, readItems (fs.enter lib 200) fs.findOutside lib s (names.map .quoted) = .ok t ∧ Grown s t ∧
        Consistent fs D given t ∧ (∀ p ∈ t.once, Complete cn cl p t) ∧
        ∀ n ∈ names, ∀ p, fs.findOutside n = some p → Complete cn cl p t := by
    intro names
    induction names with
    | nil => exact fun _ s hc h => ⟨s, rfl, .refl s, hc, h, fun _ h => (by cases h)⟩
    | cons n rest ih =>
      intro hn s hc h
      obtain ⟨p, hp, hf⟩ := hn n List.mem_cons_self
      obtain ⟨t, ht, hst, hcp⟩ := enter_ok hS hl 200 p hp (hrank p hp) s hc fun q hq _ => h q hq
      obtain ⟨u, hu, g, hcu, hall, hin⟩ := ih (fun m hm => hn m (List.mem_cons_of_mem _ hm)) t hst.consistent
        (fun q hq => (hst.once q hq).elim (fun h1 => (h q h1).grown hst.grown) fun h1 => h1.2)
      refine ⟨u, ?_, hst.grown.trans g, hcu, hall, fun m hm q hq => ?_⟩
      · rw [List.map_cons, readItems, hf]
        dsimp only
        rw [ht]
        exact hu
      · rcases List.mem_cons.1 hm with rfl | hm
        · rw [hf] at hq
          cases hq
          exact hcp.grown g
        · exact hin m hm q hq
  obtain ⟨t, ht, -, hc, hall, hin⟩ := key names hn ⟨[], [], given'⟩
    ⟨fun _ h => (by cases h), fun _ h => (by cases h), hg⟩ (fun _ h => (by cases h))
  exact ⟨t, ht, hc, hall, hin⟩

end

theorem lookup_map_value {β γ : Type} (f : β → γ) (k : Loc) : ∀ l : List (Loc × β),
    (l.map fun x => (x.1, f x.2)).lookup k = (l.lookup k).map f
  | [] => rfl
  | (m, b) :: l => by
    by_cases h : k = m
    · subst h; simp
    · have : (k == m) = false := beq_false_of_ne h
      simp [List.lookup_cons, this, lookup_map_value f k l]

theorem lookup_of_nodup {β : Type} {k : Loc} {v : β} : ∀ {l : List (Loc × β)}, (l.map (·.1)).Nodup → (k, v) ∈ l →
    l.lookup k = some v
  | [], _, h => by cases h
  | (m, b) :: l, hn, h => by
    rw [List.map_cons, List.nodup_cons] at hn
    rcases List.mem_cons.1 h with h | h
    · cases h; simp
    · have hne : k ≠ m := fun e => hn.1 (e ▸ List.mem_map_of_mem (f := (·.1)) h)
      have : (k == m) = false := beq_false_of_ne hne
      simp [List.lookup_cons, this, lookup_of_nodup hn.2 h]

/-- Lists without a common element. -/
theorem apart_of_nodup {α β : Type} {f : α → List β} : ∀ {D : List α}, (D.flatMap f).Nodup →
    ∀ p ∈ D, ∀ q ∈ D, ∀ n ∈ f p, n ∈ f q → p = q
  | [], _, _, h, _, _, _, _, _ => by cases h
  | d :: D, hn, p, hp, q, hq, n, h1, h2 => by
    rw [List.flatMap_cons, List.nodup_append] at hn
    rcases List.mem_cons.1 hp with rfl | hp' <;> rcases List.mem_cons.1 hq with rfl | hq'
    · rfl
    · exact absurd rfl (hn.2.2 n h1 n (List.mem_flatMap.2 ⟨q, hq', h2⟩))
    · exact absurd rfl (hn.2.2 n h2 n (List.mem_flatMap.2 ⟨p, hp', h1⟩))
    · exact apart_of_nodup hn.2.1 p hp' q hq' n h1 h2

theorem nodup_of_flatMap {α β : Type} {f : α → List β} {D : List α} (h : (D.flatMap f).Nodup) : ∀ p ∈ D, (f p).Nodup :=
  (List.nodup_flatMap.1 h).1

/-- A list of includes ends when one of them fails. -/
theorem readItems_append (enter : Seen → Place → Except Problem Seen) (find : Text → Option Place) (lib : Text → List Text)
    (a b : List HeaderItem) (s u : Seen) (h : readItems enter find lib s (a ++ b) = .ok u) :
    ∃ t, readItems enter find lib s a = .ok t ∧ readItems enter find lib t b = .ok u := by
  induction a generalizing s with
  | nil => exact ⟨s, rfl, h⟩
  | cons i a ih =>
    cases i with
    | quoted n =>
      rw [List.cons_append, readItems] at h
      rw [readItems]
      revert h
      cases find n with
      | none => exact fun h => by cases h
      | some q =>
        dsimp only
        cases enter s q with
        | error e => exact fun h => by cases h
        | ok s' => exact ih s'
    | system n => exact ih _ h
    | declares ns =>
      rw [List.cons_append, readItems] at h
      rw [readItems]
      revert h
      cases ns.find? (fun n => decide (n ∈ s.names)) with
      | some n => exact fun h => by cases h
      | none => exact ih _
    | uses ns =>
      rw [List.cons_append, readItems] at h
      rw [readItems]
      revert h
      cases ns.find? (fun n => decide (n ∉ s.names)) with
      | some n => exact fun h => by cases h
      | none => exact ih _
    | usesLibrary ns =>
      rw [List.cons_append, readItems] at h
      rw [readItems]
      revert h
      cases ns.find? (fun n => decide (n ∉ s.library)) with
      | some n => exact fun h => by cases h
      | none => exact ih _
    | stops => rw [List.cons_append, readItems] at h; cases h

end Verif.Lemmas
