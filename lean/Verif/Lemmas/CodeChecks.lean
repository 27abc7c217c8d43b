import Verif.Model.CodeChecks

/-! # Lemmas about the sources given to the code checks -/

namespace Verif.Lemmas

open Verif.Spec Verif.CodeChecks

/-! ### regular expressions -/

theorem star_iff {c : Char} {rest : Text → Bool} {s : Text} :
    star c rest s = true ↔ ∃ n t, s = List.replicate n c ++ t ∧ rest t = true := by
  induction s with
  | nil =>
    rw [star]
    constructor
    · exact fun h => ⟨0, [], rfl, h⟩
    · rintro ⟨n, t, e, h⟩
      obtain ⟨-, rfl⟩ := List.append_eq_nil_iff.1 e.symm
      exact h
  | cons d s ih =>
    rw [star, Bool.or_eq_true, Bool.and_eq_true, beq_iff_eq, ih]
    constructor
    · rintro (h | ⟨rfl, n, t, rfl, h⟩)
      · exact ⟨0, _, rfl, h⟩
      · exact ⟨n + 1, t, rfl, h⟩
    · rintro ⟨n, t, e, h⟩
      cases n with
      | zero => obtain rfl : d :: s = t := e; exact .inl h
      | succ n =>
        obtain ⟨rfl, rfl⟩ := List.cons.inj (e.trans (by rw [List.replicate_succ, List.cons_append]))
        exact .inr ⟨rfl, n, t, rfl, h⟩

private theorem denotes_star {c : Char} {p u : Text} :
    Denotes (c :: '*' :: p) u ↔ ∃ n v, u = List.replicate n c ++ v ∧ Denotes p v := by
  constructor
  · intro h
    obtain ⟨q, hq⟩ : ∃ q, q = c :: '*' :: p := ⟨_, rfl⟩
    rw [← hq] at h
    induction h with
    | done => cases hq
    | char c' p' s h1 h2 ih =>
      obtain ⟨-, rfl⟩ := List.cons.inj hq
      exact absurd rfl h1
    | none c' p' s h ih =>
      obtain ⟨rfl, e⟩ := List.cons.inj hq
      obtain ⟨-, rfl⟩ := List.cons.inj e
      exact ⟨0, s, rfl, h⟩
    | more c' p' s h ih =>
      obtain ⟨n, v, rfl, hv⟩ := ih hq
      obtain ⟨rfl, e⟩ := List.cons.inj hq
      exact ⟨n + 1, v, rfl, hv⟩
  · rintro ⟨n, v, rfl, h⟩
    induction n with
    | zero => exact .none c p v h
    | succ n ih => exact .more c p _ ih

theorem matchHere_iff : ∀ (n : Nat) (p : Text), p.length ≤ n → ∀ s : Text,
    (matchHere p s = true ↔ ∃ u t, s = u ++ t ∧ Denotes p u) := by
  intro n
  induction n with
  | zero =>
    intro p hp s
    obtain rfl := List.length_eq_zero_iff.1 (Nat.le_zero.1 hp)
    rw [matchHere]
    exact ⟨fun _ => ⟨[], s, rfl, .done⟩, fun _ => rfl⟩
  | succ n ih =>
    intro p hp s
    match p with
    | [] =>
      rw [matchHere]
      exact ⟨fun _ => ⟨[], s, rfl, .done⟩, fun _ => rfl⟩
    | c :: p =>
      by_cases hs : ∃ q, p = '*' :: q
      · obtain ⟨q, rfl⟩ := hs
        rw [matchHere, star_iff]
        constructor
        · rintro ⟨k, t, rfl, h⟩
          obtain ⟨u, v, rfl, hu⟩ := (ih q (by simp only [List.length_cons] at hp; omega) t).1 h
          exact ⟨List.replicate k c ++ u, v, by rw [List.append_assoc], denotes_star.2 ⟨k, u, rfl, hu⟩⟩
        · rintro ⟨u, t, rfl, hu⟩
          obtain ⟨k, v, rfl, hv⟩ := denotes_star.1 hu
          exact ⟨k, v ++ t, by rw [List.append_assoc],
            (ih q (by simp only [List.length_cons] at hp; omega) _).2 ⟨v, t, rfl, hv⟩⟩
      · have hne : ∀ q, p = '*' :: q → False := fun q e => hs ⟨q, e⟩
        have hh : p.head? ≠ some '*' := by
          intro e
          cases p with
          | nil => cases e
          | cons x q => exact hne q (by rw [show x = '*' from Option.some.inj e])
        cases s with
        | nil =>
          rw [matchHere]
          · refine ⟨fun h => (by cases h), ?_⟩
            rintro ⟨u, t, e, h⟩
            obtain ⟨rfl, -⟩ := List.append_eq_nil_iff.1 e.symm
            cases h
            exact absurd rfl (hne _)
          · exact hne
        | cons d s =>
          rw [matchHere]
          · rw [Bool.and_eq_true, beq_iff_eq, ih p (by simp only [List.length_cons] at hp; omega)]
            constructor
            · rintro ⟨rfl, u, t, rfl, h⟩
              exact ⟨c :: u, t, rfl, .char c p u hh h⟩
            · rintro ⟨u, t, e, h⟩
              cases h with
              | char _ _ u' h1 h2 =>
                obtain ⟨rfl, rfl⟩ := List.cons.inj e
                exact ⟨rfl, u', t, rfl, h2⟩
              | none => exact absurd rfl (hne _)
              | more => exact absurd rfl (hne _)
          · exact hne

theorem isMatch_iff {p s : Text} : isMatch p s = true ↔ Matches s p := by
  have key : isMatch p s = true ↔ ∃ a b, s = a ++ b ∧ matchHere p b = true := by
    induction s with
    | nil =>
      rw [isMatch]
      constructor
      · exact fun h => ⟨[], [], rfl, h⟩
      · rintro ⟨a, b, e, h⟩
        obtain ⟨-, rfl⟩ := List.append_eq_nil_iff.1 e.symm
        exact h
    | cons c s ih =>
      rw [isMatch, Bool.or_eq_true, ih]
      constructor
      · rintro (h | ⟨a, b, rfl, h⟩)
        · exact ⟨[], _, rfl, h⟩
        · exact ⟨c :: a, b, rfl, h⟩
      · rintro ⟨a, b, e, h⟩
        cases a with
        | nil => obtain rfl : c :: s = b := e; exact .inl h
        | cons x a => obtain ⟨-, rfl⟩ := List.cons.inj e; exact .inr ⟨a, b, rfl, h⟩
  rw [key]
  constructor
  · rintro ⟨a, b, rfl, h⟩
    obtain ⟨u, t, rfl, hu⟩ := (matchHere_iff _ p (Nat.le_refl _) b).1 h
    exact ⟨u, ⟨a, t, by rw [List.append_assoc]⟩, hu⟩
  · rintro ⟨u, ⟨a, t, rfl⟩, hu⟩
    exact ⟨a, u ++ t, by rw [List.append_assoc], (matchHere_iff _ p (Nat.le_refl _) _).2 ⟨u, t, rfl, hu⟩⟩

private theorem denotes_plain {w : Text} {p u : Text} (hw : '*' ∉ w) (hp : p.head? ≠ some '*') :
    Denotes (w ++ p) u ↔ ∃ v, u = w ++ v ∧ Denotes p v := by
  induction w generalizing u with
  | nil => exact ⟨fun h => ⟨u, rfl, h⟩, fun ⟨v, e, h⟩ => by rw [show u = v from e]; exact h⟩
  | cons c w ih =>
    have hw' : '*' ∉ w := fun h => hw (List.mem_cons_of_mem _ h)
    have hh : (w ++ p).head? ≠ some '*' := by
      cases w with
      | nil => exact hp
      | cons x w => intro e; exact hw' (by rw [show x = '*' from Option.some.inj e]; simp)
    constructor
    · intro h
      rw [List.cons_append] at h
      obtain ⟨q, hq⟩ : ∃ q, q = w ++ p := ⟨_, rfl⟩
      rw [← hq] at h hh
      cases h with
      | char _ _ u' h1 h2 =>
        rw [hq] at h2
        obtain ⟨v, rfl, hv⟩ := (ih hw').1 h2
        exact ⟨v, rfl, hv⟩
      | none => exact absurd rfl hh
      | more => exact absurd rfl hh
    · rintro ⟨v, rfl, hv⟩
      exact .char c _ _ hh ((ih hw').2 ⟨v, rfl, hv⟩)

/-- A text followed by a character with a `*`: just the text, somewhere. -/
theorem matches_star {w : Text} {c : Char} {s : Text} (hw : '*' ∉ w) (hc : c ≠ '*') :
    Matches s (w ++ [c, '*']) ↔ w <:+: s := by
  have hd : ∀ u, Denotes (w ++ [c, '*']) u ↔ ∃ n, u = w ++ List.replicate n c := by
    intro u
    rw [denotes_plain hw (by simpa using hc)]
    constructor
    · rintro ⟨v, rfl, h⟩
      obtain ⟨n, t, rfl, ht⟩ := denotes_star.1 h
      cases ht
      exact ⟨n, by simp⟩
    · rintro ⟨n, rfl⟩
      exact ⟨_, rfl, denotes_star.2 ⟨n, [], by simp, .done⟩⟩
  constructor
  · rintro ⟨u, hu, h⟩
    obtain ⟨n, rfl⟩ := (hd u).1 h
    exact List.IsInfix.trans ⟨[], _, rfl⟩ hu
  · exact fun h => ⟨w, h, (hd w).2 ⟨0, by simp⟩⟩

/-! ### names in a path -/

theorem infix_slash {w a b : Text} (h : '/' ∉ w) : w <:+: a ++ '/' :: b ↔ w <:+: a ∨ w <:+: b := by
  constructor
  · rintro ⟨s, t, e⟩
    rcases List.append_eq_append_iff.1 e with ⟨u, e1, -⟩ | ⟨u, e1, e2⟩
    · exact .inl ⟨s, u, e1.symm⟩
    · cases u with
      | nil => exact .inl ⟨s, [], by simpa using e1⟩
      | cons x u =>
        obtain ⟨rfl, e3⟩ := List.cons.inj e2
        rcases List.append_eq_append_iff.1 e1 with ⟨v, -, e4⟩ | ⟨v, -, e4⟩
        · exact absurd (by rw [e4]; simp) h
        · cases v with
          | nil => exact absurd (by rw [show w = '/' :: u by simpa using e4.symm]; simp) h
          | cons y v =>
            obtain ⟨-, e5⟩ := List.cons.inj e4
            exact .inr ⟨v, t, by rw [e3, e5]; rfl⟩
  · rintro (h | h)
    · exact h.trans ⟨[], _, rfl⟩
    · exact h.trans ⟨a ++ ['/'], [], by simp⟩

/-- A text without slashes is in the name of a place if it is in one of the names on the way. -/
theorem infix_render {w : Text} (h0 : w ≠ []) (h : '/' ∉ w) (l : Loc) : w <:+: render l ↔ ∃ n ∈ l, w <:+: n := by
  have hn : ¬ w <:+: [] := fun e => h0 (List.infix_nil.1 e)
  have key : ∀ l : List Text, w <:+: joinSlash l ↔ ∃ n ∈ l, w <:+: n := by
    intro l
    induction l with
    | nil => rw [joinSlash]; simp [hn]
    | cons a l ih =>
      cases l with
      | nil => rw [joinSlash]; simp
      | cons b l => rw [joinSlash, infix_slash h, ih]; simp
  rw [render, ← List.nil_append ('/' :: joinSlash l), infix_slash h, key]
  simp [hn]

theorem toBeExcluded_iff {s : Text} {es : List Text} : toBeExcluded s es = true ↔ ∃ e ∈ es, Matches s e := by
  induction es with
  | nil => simp [toBeExcluded]
  | cons e es ih =>
    rw [toBeExcluded]
    by_cases h : isMatch e s = true
    · rw [if_pos h]
      exact ⟨fun _ => ⟨e, by simp, isMatch_iff.1 h⟩, fun _ => rfl⟩
    · rw [if_neg h, ih]
      constructor
      · rintro ⟨x, hx, hm⟩; exact ⟨x, List.mem_cons_of_mem _ hx, hm⟩
      · rintro ⟨x, hx, hm⟩
        rcases List.mem_cons.1 hx with rfl | hx
        · exact absurd (isMatch_iff.2 hm) h
        · exact ⟨x, hx, hm⟩

/-- The texts the excludes look for. -/
theorem excluded_iff (l : Loc) : toBeExcluded (render l) excludes = true ↔
    ∃ n ∈ l, t!"buil" <:+: n ∨ t!"blt" <:+: n ∨ t!"camp" <:+: n := by
  rw [toBeExcluded_iff]
  have m1 : Matches (render l) t!"build*" ↔ t!"buil" <:+: render l :=
    matches_star (w := t!"buil") (c := 'd') (by decide) (by decide)
  have m2 : Matches (render l) t!"blt/*" ↔ t!"blt" <:+: render l :=
    matches_star (w := t!"blt") (c := '/') (by decide) (by decide)
  have m3 : Matches (render l) t!"camp/*" ↔ t!"camp" <:+: render l :=
    matches_star (w := t!"camp") (c := '/') (by decide) (by decide)
  rw [infix_render (by decide) (by decide)] at m1 m2 m3
  unfold excludes
  simp only [List.mem_cons, List.not_mem_nil, or_false, exists_eq_or_imp, exists_eq_left, m1, m2, m3]
  constructor
  · rintro (⟨n, hn, h⟩ | ⟨n, hn, h⟩ | ⟨n, hn, h⟩)
    · exact ⟨n, hn, .inl h⟩
    · exact ⟨n, hn, .inr (.inl h)⟩
    · exact ⟨n, hn, .inr (.inr h)⟩
  · rintro ⟨n, hn, h | h | h⟩
    · exact .inl ⟨n, hn, h⟩
    · exact .inr (.inl ⟨n, hn, h⟩)
    · exact .inr (.inr ⟨n, hn, h⟩)

theorem globs_iff {l : Loc} : (sourceEndings.any fun e => globs e l) = true ↔ IsSource l := by
  rw [List.any_eq_true]
  unfold IsSource
  constructor
  · rintro ⟨e, he, h⟩
    unfold globs at h
    split at h
    · next w hw => exact ⟨w, hw, e, he, List.isSuffixOf_iff_suffix.1 h⟩
    · cases h
  · rintro ⟨w, hw, e, he, h⟩
    exact ⟨e, he, by rw [globs, hw]; exact List.isSuffixOf_iff_suffix.2 h⟩

theorem mem_checked {files : List Loc} {source : Loc} {p : Text} : p ∈ checked files source ↔
    ∃ l ∈ files, source <+: l ∧ l ≠ source ∧ IsSource l ∧ p = render l ∧
      ∀ n ∈ l, ¬ t!"buil" <:+: n ∧ ¬ t!"blt" <:+: n ∧ ¬ t!"camp" <:+: n := by
  unfold checked selectedSources
  dsimp only
  rw [List.mem_filter, allSources, List.mem_map]
  constructor
  · rintro ⟨⟨l, hl, rfl⟩, hx⟩
    obtain ⟨hl, hc⟩ := List.mem_filter.1 hl
    rw [Bool.and_eq_true, Bool.and_eq_true] at hc
    have hx := fun h => Bool.eq_false_iff.1 (Bool.not_eq_true' _ |>.mp hx) ((excluded_iff l).2 h)
    refine ⟨l, hl, List.isPrefixOf_iff_prefix.1 hc.1.1, of_decide_eq_true hc.1.2, globs_iff.1 hc.2, rfl, fun n hn => ?_⟩
    exact ⟨fun h => hx ⟨n, hn, .inl h⟩, fun h => hx ⟨n, hn, .inr (.inl h)⟩, fun h => hx ⟨n, hn, .inr (.inr h)⟩⟩
  · rintro ⟨l, hl, h1, h2, h3, rfl, h4⟩
    refine ⟨⟨l, List.mem_filter.2 ⟨hl, ?_⟩, rfl⟩, ?_⟩
    · rw [Bool.and_eq_true, Bool.and_eq_true]
      exact ⟨⟨List.isPrefixOf_iff_prefix.2 h1, decide_eq_true h2⟩, globs_iff.2 h3⟩
    · rw [Bool.not_eq_true', Bool.eq_false_iff, Ne, excluded_iff]
      rintro ⟨n, hn, h | h | h⟩
      · exact (h4 n hn).1 h
      · exact (h4 n hn).2.1 h
      · exact (h4 n hn).2.2 h

end Verif.Lemmas
