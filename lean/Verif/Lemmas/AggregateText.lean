import Mathlib.Data.List.Basic
import Mathlib.Data.List.Forall2
import Verif.Spec.Aggregate
import Verif.Model.Aggregate

/-! # Lines of a header -/

namespace Verif.Lemmas

open Verif.Spec Verif.PyPath Verif.Aggregate

theorem isSpace_iff (c : Char) : isSpace c = true ↔ White c := by
  unfold isSpace White
  simp only [Bool.or_eq_true, Bool.and_eq_true, decide_eq_true_eq, beq_iff_eq, List.mem_cons, List.not_mem_nil,
    or_false]
  omega

theorem afterPrefix_eq_some {p s r : Text} : afterPrefix p s = some r ↔ s = p ++ r := by
  induction p generalizing s with
  | nil => simp [afterPrefix, eq_comm]
  | cons a p ih =>
    cases s with
    | nil => simp [afterPrefix]
    | cons b s =>
      unfold afterPrefix
      split
      · rename_i h; rw [ih, h]; simp
      · rename_i h
        simp only [reduceCtorEq, List.cons_append, List.cons.injEq, false_iff, not_and]
        exact fun e => absurd e.symm h

theorem afterPrefix_eq_none {p s : Text} : afterPrefix p s = none ↔ ¬ p <+: s := by
  constructor
  · rintro h ⟨r, hr⟩
    have := afterPrefix_eq_some.2 hr.symm
    rw [h] at this
    cases this
  · intro h
    cases e : afterPrefix p s with
    | none => rfl
    | some r => exact absurd ⟨r, (afterPrefix_eq_some.1 e).symm⟩ h

theorem of_mem_takeWhile {α : Type} {f : α → Bool} {l : List α} {x : α} (h : x ∈ l.takeWhile f) : f x = true := by
  induction l with
  | nil => simp at h
  | cons a l ih =>
    rw [List.takeWhile_cons] at h
    split at h
    · rename_i ha
      rcases List.mem_cons.1 h with rfl | h
      · exact ha
      · exact ih h
    · simp at h

theorem of_dropWhile_cons {α : Type} {f : α → Bool} {l r : List α} {x : α} (h : l.dropWhile f = x :: r) :
    f x = false := by
  induction l with
  | nil => simp at h
  | cons a l ih =>
    rw [List.dropWhile_cons] at h
    split at h
    · exact ih h
    · rename_i ha
      rw [← (List.cons.inj h).1]; simpa using ha

theorem takeWhile_of_all {α : Type} {f : α → Bool} {a : List α} {b : List α} (h : ∀ x ∈ a, f x = true)
    (hb : ∀ x ∈ b.head?, f x = false) : (a ++ b).takeWhile f = a ∧ (a ++ b).dropWhile f = b := by
  induction a with
  | nil =>
    cases b with
    | nil => simp
    | cons x xs =>
      have := hb x (by simp)
      simp [this]
  | cons x xs ih =>
    have hx := h x (by simp)
    have := ih fun y hy => h y (by simp [hy])
    simp [hx, this.1, this.2]

theorem includeMatch_iff {line name : Text} : includeMatch line = some name ↔ IsInclude line name := by
  constructor
  · intro h
    unfold includeMatch at h
    split at h
    · cases h
    · rename_i r hr
      rw [afterPrefix_eq_some] at hr
      split at h
      · cases h
      · rename_i hs
        split at h
        · rename_i s hq
          split at h
          · cases h
          · rename_i hn
            simp only [Bool.or_eq_true, List.isEmpty_iff, not_or] at hn hs
            have hname : s.takeWhile (fun x => decide (x ≠ '"')) = name := Option.some.inj h
            obtain ⟨y, rest, hy⟩ : ∃ y rest, s.dropWhile (fun x => decide (x ≠ '"')) = y :: rest := by
              cases e : s.dropWhile (fun x => decide (x ≠ '"')) with
              | nil => exact absurd e hn.2
              | cons y rest => exact ⟨y, rest, rfl⟩
            have hyq : y = '"' := by
              have := of_dropWhile_cons hy
              simpa using this
            refine ⟨r.takeWhile isSpace, rest, hs, ?_, by rw [← hname]; exact hn.1, ?_, ?_⟩
            · intro c hc
              exact (isSpace_iff c).1 (of_mem_takeWhile hc)
            · intro hm
              rw [← hname] at hm
              have := of_mem_takeWhile hm
              simp at this
            · rw [hr]
              have e1 : r = r.takeWhile isSpace ++ '"' :: s := by rw [← hq, List.takeWhile_append_dropWhile]
              have e2 : s = name ++ '"' :: rest := by
                conv_lhs => rw [← List.takeWhile_append_dropWhile (p := fun x => decide (x ≠ '"')) (l := s)]
                rw [hname, hy, hyq]
              conv_lhs => rw [e1, e2]
              simp
        · cases h
  · rintro ⟨space, rest, h1, h2, h3, h4, rfl⟩
    unfold includeMatch
    have e : afterPrefix "#include".toList ("#include".toList ++ space ++ '"' :: name ++ '"' :: rest)
        = some (space ++ '"' :: (name ++ '"' :: rest)) := afterPrefix_eq_some.2 (by simp)
    rw [e]
    dsimp only
    have hq : isSpace '"' = false := by decide
    obtain ⟨t1, t2⟩ := takeWhile_of_all (f := isSpace) (a := space) (b := '"' :: (name ++ '"' :: rest))
      (fun x hx => (isSpace_iff x).2 (h2 x hx)) (by simp [hq])
    obtain ⟨t3, t4⟩ := takeWhile_of_all (f := fun x => decide (x ≠ '"')) (a := name) (b := '"' :: rest)
      (fun x hx => by
        simp only [ne_eq, decide_not, Bool.not_eq_eq_eq_not, Bool.not_true, decide_eq_false_iff_not]
        rintro rfl; exact h4 hx) (by simp)
    rw [t1, t2, if_neg (by simpa using h1)]
    show (if (((name ++ '"' :: rest).takeWhile (· ≠ '"')).isEmpty || ((name ++ '"' :: rest).dropWhile (· ≠ '"')).isEmpty)
      = true then none else some ((name ++ '"' :: rest).takeWhile (· ≠ '"'))) = _
    rw [t3, t4, if_neg (by simpa using h3)]

theorem includeMatch_isSome {line : Text} : (includeMatch line).isSome = true ↔ ∃ name, IsInclude line name := by
  rw [Option.isSome_iff_exists]
  exact exists_congr fun _ => includeMatch_iff

theorem afterPrefixIgnoreCase_eq_some {p s r : Text} :
    afterPrefixIgnoreCase p s = some r ↔ ∃ q, q.map Char.toLower = p ∧ s = q ++ r := by
  induction p generalizing s with
  | nil => simp [afterPrefixIgnoreCase, eq_comm]
  | cons a p ih =>
    cases s with
    | nil =>
      simp only [afterPrefixIgnoreCase, reduceCtorEq, false_iff, not_exists, not_and]
      intro q hq e
      have : q = [] := (List.append_eq_nil_iff.1 e.symm).1
      rw [this] at hq; cases hq
    | cons b s =>
      unfold afterPrefixIgnoreCase
      split
      · rename_i h
        rw [ih]
        constructor
        · rintro ⟨q, rfl, rfl⟩
          exact ⟨b :: q, by simp [h], by simp⟩
        · rintro ⟨q, hq, e⟩
          cases q with
          | nil => cases hq
          | cons c q =>
            simp only [List.map_cons, List.cons.injEq, List.cons_append] at hq e
            exact ⟨q, hq.2, e.2⟩
      · rename_i h
        simp only [reduceCtorEq, false_iff, not_exists, not_and]
        intro q hq e
        cases q with
        | nil => cases hq
        | cons c q =>
          simp only [List.map_cons, List.cons.injEq, List.cons_append] at hq e
          exact h (by rw [e.1, hq.1])

theorem pragmaOnceMatch_iff {line : Text} : pragmaOnceMatch line = true ↔ IsPragmaOnce line := by
  constructor
  · intro h
    unfold pragmaOnceMatch at h
    split at h
    · cases h
    · rename_i r hr
      obtain ⟨word, hw, rfl⟩ := afterPrefixIgnoreCase_eq_some.1 hr
      rw [Bool.and_eq_true] at h
      obtain ⟨r', hr'⟩ := Option.isSome_iff_exists.1 h.2
      obtain ⟨once, ho, e⟩ := afterPrefixIgnoreCase_eq_some.1 hr'
      refine ⟨word, r.takeWhile isSpace, once, r', hw, by simpa using h.1, fun c hc =>
        (isSpace_iff c).1 (of_mem_takeWhile hc), ho, ?_⟩
      rw [List.append_assoc, List.append_assoc, ← e, List.takeWhile_append_dropWhile]
  · rintro ⟨word, space, once, rest, h1, h2, h3, h4, rfl⟩
    unfold pragmaOnceMatch
    have e : afterPrefixIgnoreCase "#pragma".toList (word ++ space ++ once ++ rest) = some (space ++ (once ++ rest)) :=
      afterPrefixIgnoreCase_eq_some.2 ⟨word, h1, by simp⟩
    rw [e]
    dsimp only
    obtain ⟨t1, t2⟩ := takeWhile_of_all (f := isSpace) (a := space) (b := once ++ rest)
      (fun x hx => (isSpace_iff x).2 (h3 x hx)) (by
        intro x hx
        cases once with
        | nil => cases h4
        | cons c once =>
          have hc : x = c := by simpa [eq_comm] using hx
          have hl : c.toLower = 'o' := by
            have := congrArg List.head? h4
            simpa using this
          by_contra hs
          have hs' : White x := (isSpace_iff x).1 (by simpa using hs)
          rw [hc] at hs'
          have : c = 'o' ∨ c = 'O' := by
            unfold Char.toLower at hl
            split at hl
            · right
              rename_i hh
              have hv := congrArg Char.toNat hl
              apply Char.toNat_inj.1
              have h1 : c.val.toNat ≥ 65 := hh.1
              have h2 : c.val.toNat ≤ 90 := hh.2
              have h3 : (c.val + ('a'.val - 'A'.val)).toNat = 111 := hv
              rw [UInt32.toNat_add, show ('a'.val - 'A'.val).toNat = 32 by decide] at h3
              show c.val.toNat = 79
              omega
            · exact .inl hl
          rcases this with rfl | rfl <;> · unfold White at hs'; revert hs'; decide)
    rw [t1, t2]
    rw [Bool.and_eq_true]
    exact ⟨by simpa using h2, by
      rw [afterPrefixIgnoreCase_eq_some.2 ⟨once, h4, rfl⟩]; rfl⟩

theorem strip_spec (line : Text) : Stripped line (strip line) := by
  refine ⟨line.takeWhile isSpace, ((line.dropWhile isSpace).reverse.takeWhile isSpace).reverse, ?_, ?_, ?_, ?_⟩
  · unfold strip
    rw [List.append_assoc, ← List.reverse_append, List.takeWhile_append_dropWhile, List.reverse_reverse,
      List.takeWhile_append_dropWhile]
  · intro c hc
    rw [List.mem_append, List.mem_reverse] at hc
    rcases hc with hc | hc <;> exact (isSpace_iff c).1 (of_mem_takeWhile hc)
  · intro c hc hw
    have hne : strip line ≠ [] := by rintro h; rw [h] at hc; simp at hc
    have hpre : strip line <+: line.dropWhile isSpace := by
      unfold strip
      have := List.dropWhile_suffix (l := (line.dropWhile isSpace).reverse) isSpace
      have h2 := List.reverse_prefix.2 this
      simpa using h2
    obtain ⟨t, ht⟩ := hpre
    have hh : (line.dropWhile isSpace).head? = some c := by
      rw [← ht, List.head?_append_of_ne_nil _ hne]; exact hc
    have hne' : line.dropWhile isSpace ≠ [] := by rintro h; rw [h] at hh; simp at hh
    have := List.head_dropWhile_not (p := isSpace) (l := line) hne'
    rw [List.head?_eq_some_head hne'] at hh
    rw [Option.some.inj hh, (isSpace_iff c).2 hw] at this
    simp at this
  · intro c hc hw
    unfold strip at hc
    rw [List.getLast?_reverse] at hc
    have hne' : (line.dropWhile isSpace).reverse.dropWhile isSpace ≠ [] := by rintro h; rw [h] at hc; simp at hc
    have := List.head_dropWhile_not (p := isSpace) (l := (line.dropWhile isSpace).reverse) hne'
    rw [List.head?_eq_some_head hne'] at hc
    have hc' := Option.some.inj hc
    rw [hc', (isSpace_iff c).2 hw] at this
    simp at this

theorem outputLine_commented (line : Text) : Commented line (outputLine line) := by
  unfold outputLine
  by_cases h : ((includeMatch line).isSome || pragmaOnceMatch line) = true
  · rw [if_pos h]
    rw [Bool.or_eq_true, includeMatch_isSome, pragmaOnceMatch_iff] at h
    exact .inl ⟨h, _, strip_spec line, rfl⟩
  · rw [if_neg h]
    rw [Bool.or_eq_true, includeMatch_isSome, pragmaOnceMatch_iff] at h
    exact .inr ⟨h, rfl⟩

theorem commentedText (text : Text) : CommentedText text ((lines text).flatMap outputLine) := by
  refine ⟨(lines text).map outputLine, ?_, by rw [List.flatMap_def]⟩
  rw [List.forall₂_map_right_iff]
  exact List.forall₂_same.2 fun l _ => outputLine_commented l

end Verif.Lemmas
