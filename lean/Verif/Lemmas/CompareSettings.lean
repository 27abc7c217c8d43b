import Verif.Lemmas.SplitText
import Verif.Model.CompareSettings
import Verif.Spec.Settings

/-! # Comparing settings -/

namespace Verif.Lemmas

open Verif.Spec Verif.PyPath Verif.CompareSettings

theorem lookup_insert {β : Type} (d : List (Text × β)) (k : Text) (v : β) (m : Text) :
    (insert d k v).lookup m = if m = k then some v else d.lookup m := by
  induction d with
  | nil =>
    by_cases h : m = k
    · subst h; simp [CompareSettings.insert]
    · have : (m == k) = false := beq_false_of_ne h
      simp [CompareSettings.insert, List.lookup_cons, this, h]
  | cons e d ih =>
    obtain ⟨a, b⟩ := e
    rw [CompareSettings.insert]
    by_cases ha : a = k
    · subst ha
      rw [if_pos rfl, List.lookup_cons, List.lookup_cons]
      by_cases h : m = a
      · subst h; simp
      · have : (m == a) = false := beq_false_of_ne h
        simp [this, h]
    · rw [if_neg ha, List.lookup_cons, List.lookup_cons, ih]
      by_cases h : m = a
      · subst h; simp [ha]
      · have : (m == a) = false := beq_false_of_ne h
        simp [this]

theorem keys_insert {β : Type} (d : List (Text × β)) (k : Text) (v : β) (m : Text) :
    m ∈ (insert d k v).map Prod.fst ↔ m = k ∨ m ∈ d.map Prod.fst := by
  induction d with
  | nil => simp [CompareSettings.insert]
  | cons e d ih =>
    obtain ⟨a, b⟩ := e
    rw [CompareSettings.insert]
    by_cases ha : a = k
    · rw [if_pos ha, ha]; simp
    · rw [if_neg ha, List.map_cons, List.mem_cons, ih, List.map_cons, List.mem_cons]; tauto

theorem nodup_insert {β : Type} {d : List (Text × β)} (h : (d.map Prod.fst).Nodup) (k : Text) (v : β) :
    ((insert d k v).map Prod.fst).Nodup := by
  induction d with
  | nil => simp [CompareSettings.insert]
  | cons e d ih =>
    obtain ⟨a, b⟩ := e
    rw [List.map_cons, List.nodup_cons] at h
    rw [CompareSettings.insert]
    by_cases ha : a = k
    · rw [if_pos ha, List.map_cons, List.nodup_cons]; exact ⟨ha ▸ h.1, h.2⟩
    · rw [if_neg ha, List.map_cons, List.nodup_cons]
      refine ⟨fun hm => ?_, ih h.2⟩
      rcases (keys_insert d k v a).1 hm with e | e
      · exact ha e
      · exact h.1 e

theorem lookup_none_of_notMem {β : Type} {d : List (Text × β)} {m : Text} (h : m ∉ d.map Prod.fst) : d.lookup m = none := by
  rw [List.lookup_eq_none_iff]
  intro p hp
  rw [bne_iff_ne]
  rintro rfl
  exact h (List.mem_map.2 ⟨p, hp, rfl⟩)

theorem mem_iff_lookup {β : Type} {d : List (Text × β)} (h : (d.map Prod.fst).Nodup) (m : Text) (v : β) :
    (m, v) ∈ d ↔ d.lookup m = some v := by
  induction d with
  | nil => simp
  | cons e d ih =>
    obtain ⟨a, b⟩ := e
    rw [List.map_cons, List.nodup_cons] at h
    rw [List.mem_cons, List.lookup_cons]
    by_cases ha : m = a
    · subst ha
      simp only [beq_self_eq_true, Option.some.injEq, Prod.mk.injEq, true_and]
      refine ⟨fun hh => ?_, fun hh => .inl hh.symm⟩
      rcases hh with hh | hh
      · exact hh.symm
      · exact absurd (List.mem_map.2 ⟨_, hh, rfl⟩) h.1
    · have : (m == a) = false := beq_false_of_ne ha
      simp [this, ih h.2, ha]

/-! ### one line -/

theorem dropWhile_stop {α : Type} {f : α → Bool} {a : List α} {x : α} {b : List α} (ha : ∀ y ∈ a, f y = true) (hx : f x = false) :
    (a ++ x :: b).dropWhile f = x :: b := by
  rw [dropWhile_append_of_all ha, List.dropWhile_cons_of_neg (by simp [hx])]

theorem strip_spaces {a : Text} (ha : ∀ c ∈ a, isSpace c = true) : strip a = [] := by
  unfold strip
  have : a.dropWhile isSpace = [] := by
    have := dropWhile_append_of_all (b := []) ha
    simpa using this
  rw [this]; rfl

/-- What is left of a text by `strip`. -/
theorem strip_eq {a w b : Text} (ha : ∀ c ∈ a, isSpace c = true) (hb : ∀ c ∈ b, isSpace c = true)
    (h1 : ∃ x w', w = x :: w' ∧ isSpace x = false) (h2 : ∃ w' x, w = w' ++ [x] ∧ isSpace x = false) :
    strip (a ++ w ++ b) = w := by
  unfold strip
  obtain ⟨x, w', e1, hx⟩ := h1
  obtain ⟨w'', y, e2, hy⟩ := h2
  have h : (a ++ w ++ b).dropWhile isSpace = w ++ b := by
    rw [List.append_assoc, e1, List.cons_append]; exact dropWhile_stop ha hx
  rw [h, List.reverse_append, e2, List.reverse_append, List.reverse_singleton, List.singleton_append,
    dropWhile_stop (fun c hc => hb c (by simpa using hc)) hy]
  simp

theorem plain_notSpace {w : Text} (h : PlainWord w) : ∀ c ∈ w, isSpace c = false := by
  intro c hc
  obtain ⟨-, h2, h3⟩ := h.2 c hc
  unfold isSpace
  simp
  omega

theorem plain_ends {w : Text} (h : PlainWord w) : (∃ x w', w = x :: w' ∧ isSpace x = false) ∧
    ∃ w' x, w = w' ++ [x] ∧ isSpace x = false := by
  refine ⟨?_, ?_⟩
  · obtain ⟨x, w', e⟩ := List.exists_cons_of_ne_nil h.1
    exact ⟨x, w', e, plain_notSpace h x (by simp [e])⟩
  · refine ⟨w.dropLast, w.getLast h.1, (List.dropLast_append_getLast h.1).symm, plain_notSpace h _ (List.getLast_mem h.1)⟩

theorem blank_space {c : Char} (h : blank c = true) : isSpace c = true := by
  unfold blank at h
  simp at h
  rcases h with rfl | rfl <;> decide

/-- The end of a text without its blanks. -/
theorem exists_rstrip (s : Text) : ∃ r y : Text, s = r ++ y ∧ (∀ c ∈ y, isSpace c = true) ∧
    (r = [] ∨ ∃ w' x, r = w' ++ [x] ∧ isSpace x = false) := by
  refine ⟨(s.reverse.dropWhile isSpace).reverse, (s.reverse.takeWhile isSpace).reverse, ?_, ?_, ?_⟩
  · rw [← List.reverse_append, List.takeWhile_append_dropWhile, List.reverse_reverse]
  · intro c hc
    have h : (s.reverse.takeWhile isSpace).all isSpace = true := List.all_takeWhile
    exact List.all_eq_true.1 h c (by simpa using hc)
  · cases h : s.reverse.dropWhile isSpace with
    | nil => exact .inl rfl
    | cons x l =>
      refine .inr ⟨l.reverse, x, by simp, ?_⟩
      have := List.head_dropWhile_not isSpace (l := s.reverse) (by rw [h]; simp)
      simpa [h] using this

theorem takeWhile_stop {α : Type} {f : α → Bool} {a : List α} {x : α} {b : List α} (ha : ∀ y ∈ a, f y = true) (hx : f x = false) :
    (a ++ x :: b).takeWhile f = a := by
  rw [List.takeWhile_append_of_pos ha, List.takeWhile_cons_of_neg (by simp [hx]), List.append_nil]

theorem splitEqual_eq {k r : Text} (hk : '=' ∉ k) : splitEqual (k ++ '=' :: r) = (k, some r) := by
  have h : ∀ y ∈ k, decide (y ≠ '=') = true := fun y hy => by
    simp only [decide_eq_true_eq]; rintro rfl; exact hk hy
  unfold splitEqual
  rw [dropWhile_stop h (by simp), takeWhile_stop h (by simp)]

theorem beforeHash_eq {v r : Text} (hv : '#' ∉ v) : beforeHash (v ++ '#' :: r) = v := by
  unfold beforeHash
  exact takeWhile_stop (fun y hy => by simp only [decide_eq_true_eq]; rintro rfl; exact hv hy) (by simp)

theorem beforeHash_none {v : Text} (hv : '#' ∉ v) : beforeHash v = v := by
  unfold beforeHash
  have := List.takeWhile_append_of_pos (p := fun c : Char => decide (c ≠ '#')) (l₁ := v) (l₂ := [])
    (fun y hy => by simp only [decide_eq_true_eq]; rintro rfl; exact hv hy)
  simpa using this

theorem value_ends {v : Text} (h : PlainValue v) (hv : v ≠ []) :
    (∃ x w, v = x :: w ∧ isSpace x = false) ∧ ∃ w x, v = w ++ [x] ∧ isSpace x = false := by
  have hs : ∀ c : Char, c.toNat < 128 ∧ 32 < c.toNat → isSpace c = false := by
    intro c hc
    unfold isSpace
    simp only [Bool.or_eq_false_iff, Bool.and_eq_false_iff, decide_eq_false_iff_not, beq_eq_false_iff_ne]
    simp
    omega
  constructor
  · cases v with
    | nil => exact absurd rfl hv
    | cons x w => exact ⟨x, w, rfl, hs x (h.2 x (by simp))⟩
  · refine ⟨v.dropLast, v.getLast hv, (List.dropLast_append_getLast hv).symm, hs _ (h.2 _ ?_)⟩
    rw [List.getLast?_eq_some_getLast hv]
    simp

theorem strip_value {a v b : Text} (ha : ∀ c ∈ a, isSpace c = true) (hb : ∀ c ∈ b, isSpace c = true) (h : PlainValue v) :
    strip (a ++ v ++ b) = v := by
  by_cases hv : v = []
  · subst hv
    refine strip_spaces fun c hc => ?_
    rw [List.append_nil] at hc
    rcases List.mem_append.1 hc with hc | hc
    · exact ha c hc
    · exact hb c hc
  · exact strip_eq ha hb (value_ends h hv).1 (value_ends h hv).2

/-- A line that sets something. -/
theorem readLine_of {d : List (Text × Text)} {line a k b r y : Text} (e : line = a ++ (k ++ b ++ '=' :: r) ++ y)
    (ha : ∀ c ∈ a, isSpace c = true) (hy : ∀ c ∈ y, isSpace c = true) (hk : PlainWord k) (hb : ∀ c ∈ b, isSpace c = true)
    (hbe : '=' ∉ b) (hr : ∃ w' x, '=' :: r = w' ++ [x] ∧ isSpace x = false) :
    readLine d line = insert d k (strip (beforeHash r)) := by
  obtain ⟨x, k', e1, hx⟩ := (plain_ends hk).1
  obtain ⟨w', z, e2, hz⟩ := hr
  have hs : strip line = k ++ b ++ '=' :: r := by
    rw [e]
    refine strip_eq ha hy ⟨x, k' ++ b ++ '=' :: r, by rw [e1]; simp, hx⟩ ⟨k ++ b ++ w', z, by rw [e2]; simp, hz⟩
  have hke : '=' ∉ k ++ b := by
    intro h
    rcases List.mem_append.1 h with h | h
    · exact (hk.2 _ h).1 (by simp)
    · exact hbe h
  have hkb : strip (k ++ b) = k := by
    have := strip_eq (a := []) (w := k) (b := b) (by simp) hb (plain_ends hk).1 (plain_ends hk).2
    simpa using this
  have hx2 : x ≠ '#' := by
    rintro rfl
    exact (hk.2 '#' (by rw [e1]; simp)).1 (by simp)
  unfold readLine
  dsimp only
  rw [hs, if_pos, splitEqual_eq hke]
  · dsimp only
    rw [hkb]
  · refine ⟨by rw [e1]; simp, ?_⟩
    rw [e1]
    simpa using hx2

theorem notMem_blank {b : Text} (h : ∀ x ∈ b, blank x = true) {c : Char} (hc : blank c = false) : c ∉ b := by
  intro hm
  rw [h c hm] at hc
  cases hc

/-- What one line does. -/
theorem readLine_valid (d : List (Text × Text)) {l : SettingLine} (hl : l.Valid) :
    readLine d (l.text ++ ['\n']) = match l.sets with
      | none => d
      | some (k, v) => insert d k v := by
  have nl : isSpace '\n' = true := by decide
  cases l with
  | remark b c =>
    obtain ⟨hb, -⟩ := hl
    unfold SettingLine.text SettingLine.sets
    cases c with
    | none =>
      unfold readLine
      dsimp only
      rw [strip_spaces]
      · simp
      · intro x hx
        simp only [SettingLine.commentText, List.append_nil, List.mem_append, List.mem_singleton] at hx
        rcases hx with hx | rfl
        · exact blank_space (hb x hx)
        · exact nl
    | some c =>
      obtain ⟨r, y, e, hy, hr⟩ := exists_rstrip (c ++ ['\n'])
      have hs : strip (b ++ '#' :: c ++ ['\n']) = '#' :: r := by
        have e2 : b ++ '#' :: c ++ ['\n'] = b ++ ('#' :: r) ++ y := by
          rw [List.append_assoc, List.cons_append, e]; simp
        rw [e2]
        refine strip_eq (fun x hx => blank_space (hb x hx)) hy ⟨_, _, rfl, by decide⟩ ?_
        rcases hr with rfl | ⟨w, x, rfl, hx⟩
        · exact ⟨[], '#', rfl, by decide⟩
        · exact ⟨'#' :: w, x, rfl, hx⟩
      unfold readLine
      dsimp only [SettingLine.commentText]
      rw [hs, if_neg (by simp)]
  | assign b1 k b2 b3 v b4 c =>
    obtain ⟨hb, hk, hv, -⟩ := hl
    have h1 : ∀ x ∈ b1, blank x = true := fun x hx => hb x (by simp [hx])
    have h2 : ∀ x ∈ b2, blank x = true := fun x hx => hb x (by simp [hx])
    have h3 : ∀ x ∈ b3, blank x = true := fun x hx => hb x (by simp [hx])
    have h4 : ∀ x ∈ b4, blank x = true := fun x hx => hb x (by simp [hx])
    have hvh : '#' ∉ v := fun hm => hv.1 _ hm (by simp)
    have n3 : '#' ∉ b3 := notMem_blank h3 (by decide)
    have n4 : '#' ∉ b4 := notMem_blank h4 (by decide)
    unfold SettingLine.text SettingLine.sets
    dsimp only
    cases c with
    | none =>
      have hy : ∀ c ∈ b4 ++ ['\n'], isSpace c = true := by
        intro c hc
        rcases List.mem_append.1 hc with hc | hc
        · exact blank_space (h4 c hc)
        · rw [List.mem_singleton.1 hc]; exact nl
      by_cases hv0 : v = []
      · subst hv0
        rw [readLine_of (k := k) (a := b1) (b := b2) (r := []) (y := b3 ++ (b4 ++ ['\n']))
          (by simp [SettingLine.commentText]) (fun c hc => blank_space (h1 c hc)) ?_ hk
          (fun c hc => blank_space (h2 c hc)) (notMem_blank h2 (by decide)) ⟨[], '=', rfl, by decide⟩]
        · rfl
        · intro c hc
          rcases List.mem_append.1 hc with hc | hc
          · exact blank_space (h3 c hc)
          · exact hy c hc
      obtain ⟨w, x, ev, hx⟩ := (value_ends hv hv0).2
      rw [readLine_of (k := k) (a := b1) (b := b2) (r := b3 ++ v) (y := b4 ++ ['\n'])
        (by simp [SettingLine.commentText]) (fun c hc => blank_space (h1 c hc)) hy hk
        (fun c hc => blank_space (h2 c hc)) (notMem_blank h2 (by decide)) ⟨'=' :: (b3 ++ w), x, by rw [ev]; simp, hx⟩,
        beforeHash_none (by simp [n3, hvh])]
      have := strip_value (a := b3) (v := v) (b := []) (fun c hc => blank_space (h3 c hc)) (by simp) hv
      rw [List.append_nil] at this
      rw [this]
    | some c =>
      obtain ⟨r, y, e, hy, hr⟩ := exists_rstrip (c ++ ['\n'])
      rw [readLine_of (k := k) (a := b1) (b := b2) (r := b3 ++ v ++ b4 ++ '#' :: r) (y := y) ?_
        (fun c hc => blank_space (h1 c hc)) hy hk (fun c hc => blank_space (h2 c hc)) (notMem_blank h2 (by decide)) ?_,
        beforeHash_eq (by simp [n3, n4, hvh])]
      · rw [strip_value (a := b3) (v := v) (b := b4) (fun c hc => blank_space (h3 c hc))
          (fun c hc => blank_space (h4 c hc)) hv]
      · simp only [SettingLine.commentText, List.append_assoc, List.cons_append, e]
      · rcases hr with rfl | ⟨w, x, rfl, hx⟩
        · exact ⟨'=' :: (b3 ++ v ++ b4), '#', by simp, by decide⟩
        · exact ⟨'=' :: (b3 ++ v ++ b4 ++ '#' :: w), x, by simp, hx⟩

theorem noNewline_text {l : SettingLine} (hl : l.Valid) : '\n' ∉ l.text := by
  have hc : ∀ c : Option Text, (∀ t ∈ c, '\n' ∉ t ∧ '\r' ∉ t) → '\n' ∉ SettingLine.commentText c := by
    intro c h
    cases c with
    | none => simp [SettingLine.commentText]
    | some t => simpa [SettingLine.commentText] using (h t rfl).1
  cases l with
  | remark b c =>
    unfold SettingLine.text
    simp only [List.mem_append, not_or]
    exact ⟨notMem_blank hl.1 (by decide), hc c hl.2⟩
  | assign b1 k b2 b3 v b4 c =>
    obtain ⟨hb, hk, hv, hcm⟩ := hl
    unfold SettingLine.text
    have nk : '\n' ∉ k := fun hm => (hk.2 _ hm).1 (by simp)
    have nv : '\n' ∉ v := fun hm => hv.1 _ hm (by simp)
    have := notMem_blank hb (c := '\n') (by decide)
    simp only [List.mem_append, not_or, List.mem_cons] at this ⊢
    exact ⟨⟨⟨this.1.1.1, nk⟩, this.1.1.2⟩, by decide, ⟨⟨this.1.2, nv⟩, this.2⟩, hc c hcm⟩

theorem readConfig_eq {ls : List SettingLine} (hv : ∀ l ∈ ls, l.Valid) :
    (((readConfig (settingsText ls)).map Prod.fst).Nodup) ∧
    ∀ m, (readConfig (settingsText ls)).lookup m = settingOf ls m := by
  have hlines : lines (settingsText ls) = ls.map fun l => l.text ++ ['\n'] := by
    unfold settingsText
    rw [List.flatMap_def]
    refine lines_flatten fun l hl => ?_
    obtain ⟨x, hx, rfl⟩ := List.mem_map.1 hl
    exact ⟨x.text, noNewline_text (hv x hx), rfl⟩
  unfold readConfig
  rw [hlines]
  have key : ∀ (ls : List SettingLine) (d : List (Text × Text)), (∀ l ∈ ls, l.Valid) → (d.map Prod.fst).Nodup →
      (((ls.map fun l => l.text ++ ['\n']).foldl readLine d).map Prod.fst).Nodup ∧
      ∀ m, ((ls.map fun l => l.text ++ ['\n']).foldl readLine d).lookup m = (settingOf ls m).or (d.lookup m) := by
    intro ls
    induction ls with
    | nil => intro d _ hd; exact ⟨hd, fun m => by simp [settingOf]⟩
    | cons l ls ih =>
      intro d hv hd
      rw [List.map_cons, List.foldl_cons, readLine_valid d (hv l (by simp))]
      have hs : ∀ m, settingOf (l :: ls) m = (settingOf ls m).or (match l.sets with
          | none => none
          | some (k, v) => if m = k then some v else none) := by
        intro m
        unfold settingOf
        rw [List.filterMap_cons]
        cases hl : l.sets with
        | none => simp
        | some kv =>
          obtain ⟨k, v⟩ := kv
          dsimp only
          rw [List.reverse_cons, List.lookup_append, List.lookup_cons]
          by_cases hm : m = k
          · subst hm; simp
          · have : (m == k) = false := beq_false_of_ne hm
            simp [this, hm]
      cases hl : l.sets with
      | none =>
        obtain ⟨i1, i2⟩ := ih d (fun x hx => hv x (by simp [hx])) hd
        refine ⟨i1, fun m => ?_⟩
        dsimp only
        rw [i2, hs, hl]
        simp
      | some kv =>
        obtain ⟨k, v⟩ := kv
        obtain ⟨i1, i2⟩ := ih (insert d k v) (fun x hx => hv x (by simp [hx])) (nodup_insert hd k v)
        refine ⟨i1, fun m => ?_⟩
        dsimp only
        rw [i2, hs, hl, lookup_insert]
        by_cases hm : m = k
        · simp [hm]
        · simp [hm]
  obtain ⟨k1, k2⟩ := key ls [] hv (by simp)
  exact ⟨k1, fun m => by rw [k2]; simp⟩

/-! ### comparing -/

theorem compare_eq {c1 c2 : List (Text × Text)} (h1 : (c1.map Prod.fst).Nodup) (h2 : (c2.map Prod.fst).Nodup) :
    (((CompareSettings.compare c1 c2).1.map Prod.fst).Nodup) ∧ (((CompareSettings.compare c1 c2).2.map Prod.fst).Nodup) ∧
    ∀ m, (CompareSettings.compare c1 c2).1.lookup m = (if c1.lookup m = c2.lookup m then c1.lookup m else none) ∧
      (CompareSettings.compare c1 c2).2.lookup m
        = if c1.lookup m = c2.lookup m then none else some (c1.lookup m, c2.lookup m) := by
  have f1 : ∀ (l : List (Text × Text)) (acc : List (Text × Text) × List (Text × Option Text × Option Text)),
      (l.map Prod.fst).Nodup → (acc.1.map Prod.fst).Nodup → (acc.2.map Prod.fst).Nodup →
      let r := l.foldl (fun (acc : List (Text × Text) × List (Text × Option Text × Option Text)) kv =>
        match c2.lookup kv.1 with
        | some v2 => if v2 = kv.2 then (insert acc.1 kv.1 kv.2, acc.2) else (acc.1, insert acc.2 kv.1 (some kv.2, some v2))
        | none => (acc.1, insert acc.2 kv.1 (some kv.2, none))) acc
      (r.1.map Prod.fst).Nodup ∧ (r.2.map Prod.fst).Nodup ∧ ∀ m,
        r.1.lookup m = (if (l.lookup m).isSome ∧ l.lookup m = c2.lookup m then l.lookup m else acc.1.lookup m) ∧
        r.2.lookup m = if (l.lookup m).isSome ∧ l.lookup m ≠ c2.lookup m then some (l.lookup m, c2.lookup m)
          else acc.2.lookup m := by
    intro l
    induction l with
    | nil => intro acc _ a1 a2; exact ⟨a1, a2, fun m => by simp⟩
    | cons kv l ih =>
      intro acc hl a1 a2
      obtain ⟨k, v⟩ := kv
      rw [List.map_cons, List.nodup_cons] at hl
      have hz := lookup_none_of_notMem hl.1
      dsimp only at hz
      have hcons : ∀ m, ((k, v) :: l).lookup m = if m = k then some v else l.lookup m := by
        intro m
        rw [List.lookup_cons]
        by_cases hm : m = k
        · subst hm; simp
        · have : (m == k) = false := beq_false_of_ne hm
          simp [this, hm]
      simp only [List.foldl_cons]
      cases hc : c2.lookup k with
      | none =>
        dsimp only
        obtain ⟨i1, i2, i3⟩ := ih (acc.1, insert acc.2 k (some v, none)) hl.2 a1 (nodup_insert a2 _ _)
        refine ⟨i1, i2, fun m => ?_⟩
        obtain ⟨j1, j2⟩ := i3 m
        rw [j1, j2]
        have em := hcons m
        by_cases hm : m = k
        · rw [if_pos hm] at em; rw [em]; subst hm; simp [hz, hc, lookup_insert]
        · rw [if_neg hm] at em; rw [em]; simp [hm, lookup_insert]
      | some v2 =>
        dsimp only
        by_cases he : v2 = v
        · rw [if_pos he]
          obtain ⟨i1, i2, i3⟩ := ih (insert acc.1 k v, acc.2) hl.2 (nodup_insert a1 _ _) a2
          refine ⟨i1, i2, fun m => ?_⟩
          obtain ⟨j1, j2⟩ := i3 m
          rw [j1, j2]
          have em := hcons m
          by_cases hm : m = k
          · rw [if_pos hm] at em; rw [em]; subst hm; simp [hz, hc, lookup_insert, he]
          · rw [if_neg hm] at em; rw [em]; simp [hm, lookup_insert]
        · rw [if_neg he]
          obtain ⟨i1, i2, i3⟩ := ih (acc.1, insert acc.2 k (some v, some v2)) hl.2 a1 (nodup_insert a2 _ _)
          refine ⟨i1, i2, fun m => ?_⟩
          obtain ⟨j1, j2⟩ := i3 m
          rw [j1, j2]
          have em := hcons m
          by_cases hm : m = k
          · rw [if_pos hm] at em; rw [em]; subst hm
            have he' : v ≠ v2 := fun e => he e.symm
            simp [hz, hc, lookup_insert, he']
          · rw [if_neg hm] at em; rw [em]; simp [hm, lookup_insert]
  have f2 : ∀ (l : List (Text × Text)) (acc : List (Text × Option Text × Option Text)),
      (l.map Prod.fst).Nodup → (acc.map Prod.fst).Nodup →
      let r := l.foldl (fun acc kv => match c1.lookup kv.1 with
        | some _ => acc
        | none => insert acc kv.1 (none, some kv.2)) acc
      (r.map Prod.fst).Nodup ∧ ∀ m, r.lookup m
        = if (l.lookup m).isSome ∧ c1.lookup m = none then some (none, l.lookup m) else acc.lookup m := by
    intro l
    induction l with
    | nil => intro acc _ a; exact ⟨a, fun m => by simp⟩
    | cons kv l ih =>
      intro acc hl a
      obtain ⟨k, v⟩ := kv
      rw [List.map_cons, List.nodup_cons] at hl
      have hz := lookup_none_of_notMem hl.1
      dsimp only at hz
      have hcons : ∀ m, ((k, v) :: l).lookup m = if m = k then some v else l.lookup m := by
        intro m
        rw [List.lookup_cons]
        by_cases hm : m = k
        · subst hm; simp
        · have : (m == k) = false := beq_false_of_ne hm
          simp [this, hm]
      simp only [List.foldl_cons]
      cases hc : c1.lookup k with
      | none =>
        dsimp only
        obtain ⟨i1, i2⟩ := ih (insert acc k (none, some v)) hl.2 (nodup_insert a _ _)
        refine ⟨i1, fun m => ?_⟩
        rw [i2]
        have em := hcons m
        by_cases hm : m = k
        · rw [if_pos hm] at em; rw [em]; subst hm; simp [hz, hc, lookup_insert]
        · rw [if_neg hm] at em; rw [em]; simp [hm, lookup_insert]
      | some v2 =>
        dsimp only
        obtain ⟨i1, i2⟩ := ih acc hl.2 a
        refine ⟨i1, fun m => ?_⟩
        rw [i2]
        have em := hcons m
        by_cases hm : m = k
        · rw [if_pos hm] at em; rw [em]; subst hm; simp [hz, hc]
        · rw [if_neg hm] at em; rw [em]
  obtain ⟨g1, g2, g3⟩ := f1 c1 ([], []) h1 (by simp) (by simp)
  obtain ⟨g4, g5⟩ := f2 c2 _ h2 g2
  refine ⟨g1, g4, fun m => ?_⟩
  obtain ⟨j1, j2⟩ := g3 m
  refine ⟨?_, ?_⟩
  · unfold CompareSettings.compare
    dsimp only
    refine j1.trans ?_
    cases ha : c1.lookup m <;> cases hb : c2.lookup m <;> simp
  · unfold CompareSettings.compare
    dsimp only
    refine (g5 m).trans ?_
    rw [j2]
    cases ha : c1.lookup m <;> cases hb : c2.lookup m <;> simp

end Verif.Lemmas
