import Verif.Lemmas.Aggregate

/-! # Lines of an aggregated file, and splitting it -/

namespace Verif.Lemmas

open Verif.Spec Verif.PyPath Verif.Aggregate

/-- One full line. -/
def FullLine (l : Text) : Prop := ∃ b : Text, '\n' ∉ b ∧ l = b ++ ['\n']

theorem lines_append_line {b : Text} (hb : '\n' ∉ b) (rest : Text) :
    lines (b ++ '\n' :: rest) = (b ++ ['\n']) :: lines rest := by
  induction b with
  | nil => simp [lines]
  | cons c b ih =>
    rw [List.mem_cons, not_or] at hb
    rw [List.cons_append, lines, if_neg (fun e => hb.1 e.symm), ih hb.2]
    rfl

theorem lines_flatten {ls : List Text} (h : ∀ l ∈ ls, FullLine l) : lines ls.flatten = ls := by
  induction ls with
  | nil => rfl
  | cons l ls ih =>
    obtain ⟨b, hb, rfl⟩ := h l (by simp)
    rw [List.flatten_cons, List.append_assoc, List.singleton_append, lines_append_line hb,
      ih fun x hx => h x (by simp [hx])]

theorem flatten_lines (text : Text) : (lines text).flatten = text := by
  induction text with
  | nil => rfl
  | cons c cs ih =>
    rw [lines]
    split
    · rename_i h; rw [List.flatten_cons, ih, h]; rfl
    · cases e : lines cs with
      | nil => rw [e] at ih; simp at ih; simp [← ih]
      | cons l ls => rw [e] at ih; simp at ih ⊢; exact ih

theorem fullLine_of_endsLine {text : Text} (h : EndsLine text) : ∀ l ∈ lines text, FullLine l := by
  induction text with
  | nil => simp [lines]
  | cons c cs ih =>
    have hcs : EndsLine cs := by
      rcases h with h | h
      · simp at h
      · cases cs with
        | nil => exact .inl rfl
        | cons d ds => exact .inr (by simpa using h)
    have ih := ih hcs
    rw [lines]
    split
    · intro l hl
      rcases List.mem_cons.1 hl with rfl | hl
      · exact ⟨[], by simp, rfl⟩
      · exact ih l hl
    · rename_i hc
      cases e : lines cs with
      | nil =>
        exfalso
        have h0 : cs = [] := by rw [← flatten_lines cs, e]; rfl
        subst h0
        rcases h with h | h
        · simp at h
        · simp at h; exact hc h
      | cons l ls =>
        rw [e] at ih
        intro x hx
        rcases List.mem_cons.1 hx with rfl | hx
        · obtain ⟨b, hb, rfl⟩ := ih l (by simp)
          exact ⟨c :: b, by rw [List.mem_cons, not_or]; exact ⟨fun e => hc e.symm, hb⟩, rfl⟩
        · exact ih x (by simp [hx])

theorem notMem_strip {line : Text} (h : FullLine line) : '\n' ∉ strip line := by
  obtain ⟨b, hb, rfl⟩ := h
  obtain ⟨x, y, h1, h2, h3, h4⟩ := strip_spec (b ++ ['\n'])
  intro hm
  rcases List.eq_nil_or_concat y with rfl | ⟨y', c, rfl⟩
  · rw [List.append_nil] at h1
    rcases List.eq_nil_or_concat (strip (b ++ ['\n'])) with h0 | ⟨s, c, h0⟩
    · rw [h0] at hm; simp at hm
    · rw [h0, List.concat_eq_append, ← List.append_assoc] at h1
      have hc : c = '\n' := (List.cons.inj (List.append_inj_right' h1 rfl)).1.symm
      have := h4 c (by rw [h0]; simp)
      rw [hc] at this
      exact this (by unfold White; decide)
  · rw [List.concat_eq_append, ← List.append_assoc] at h1
    have := List.append_inj_left' h1 rfl
    exact hb (by rw [this]; simp [hm])

theorem fullLine_outputLine {line : Text} (h : FullLine line) : FullLine (outputLine line) := by
  unfold outputLine
  split
  · refine ⟨"// ".toList ++ strip line, ?_, rfl⟩
    rw [List.mem_append, not_or]
    exact ⟨by decide, notMem_strip h⟩
  · exact h

theorem notMem_render {l : Loc} (h : Proper l) : '\n' ∉ render l := by
  unfold render
  rw [List.mem_cons, not_or]
  refine ⟨by decide, ?_⟩
  induction l with
  | nil => simp [joinSlash]
  | cons w ws ih =>
    have hw := (h w (by simp)).2.2.2.2
    cases ws with
    | nil => exact hw
    | cons v vs =>
      have := ih fun x hx => h x (by simp [hx])
      show '\n' ∉ w ++ '/' :: joinSlash (v :: vs)
      rw [List.mem_append, List.mem_cons]
      rintro (h1 | h1 | h1)
      · exact hw h1
      · revert h1; decide
      · exact this h1

/-- The lines of the part for one header. -/
def partLines (l : Loc) (ys : List Text) : List Text :=
  ['\n'] :: ['\n'] :: ("// ===== Start of ".toList ++ render l ++ " =====\n".toList) :: ys ++
    ["// ===== End of ".toList ++ render l ++ " =====\n".toList]

theorem flatten_partLines (l : Loc) (ys : List Text) : (partLines l ys).flatten = part l ys.flatten := by
  unfold partLines part
  have e : "\n\n// ===== Start of ".toList = '\n' :: '\n' :: "// ===== Start of ".toList := by decide
  rw [e]
  simp

theorem fullLine_partLines {l : Loc} (hl : Proper l) {ys : List Text} (hy : ∀ y ∈ ys, FullLine y) :
    ∀ x ∈ partLines l ys, FullLine x := by
  have e : " =====\n".toList = " =====".toList ++ ['\n'] := by decide
  intro x hx
  unfold partLines at hx
  simp only [List.cons_append, List.mem_cons, List.mem_append, List.not_mem_nil, or_false] at hx
  rcases hx with rfl | rfl | rfl | hx | rfl
  · exact ⟨[], by simp, rfl⟩
  · exact ⟨[], by simp, rfl⟩
  · refine ⟨"// ===== Start of ".toList ++ render l ++ " =====".toList, ?_, by rw [e]; simp only [List.append_assoc]⟩
    rw [List.mem_append, List.mem_append, not_or, not_or]
    exact ⟨⟨by decide, notMem_render hl⟩, by decide⟩
  · exact hy x hx
  · refine ⟨"// ===== End of ".toList ++ render l ++ " =====".toList, ?_, by rw [e]; simp only [List.append_assoc]⟩
    rw [List.mem_append, List.mem_append, not_or, not_or]
    exact ⟨⟨by decide, notMem_render hl⟩, by decide⟩

/-! ## Splitting -/

theorem greedy_mark {p : Text} (hp : p ≠ []) : greedy " =====".toList (p ++ " =====\n".toList) = some p := by
  induction p with
  | nil => exact absurd rfl hp
  | cons c p ih =>
    rw [List.cons_append]
    unfold greedy
    cases p with
    | nil =>
      have e1 : greedy " =====".toList ([] ++ " =====\n".toList) = none := by decide
      have e2 : (afterPrefix " =====".toList ([] ++ " =====\n".toList)).isSome = true := by decide
      rw [e1, if_pos e2]
    | cons d p => rw [ih (by simp)]

theorem startMatch_start {p : Text} (hp : p ≠ []) :
    startMatch ("// ===== Start of ".toList ++ p ++ " =====\n".toList) = some p := by
  unfold startMatch
  rw [List.append_assoc, afterPrefix_eq_some.2 rfl, Option.bind_some, greedy_mark hp]

theorem endMatch_end {p : Text} (hp : p ≠ []) :
    endMatch ("// ===== End of ".toList ++ p ++ " =====\n".toList) = true := by
  unfold endMatch
  rw [List.append_assoc, afterPrefix_eq_some.2 rfl, Option.bind_some, greedy_mark hp]
  rfl

theorem startMatch_of_not {line : Text} (h : ¬ "// ===== Start of ".toList <+: line) : startMatch line = none := by
  unfold startMatch
  rw [afterPrefix_eq_none.2 h]; rfl

theorem endMatch_of_not {line : Text} (h : ¬ "// ===== End of ".toList <+: line) : endMatch line = false := by
  unfold endMatch
  rw [afterPrefix_eq_none.2 h]; rfl

theorem startMatch_end (p : Text) : startMatch ("// ===== End of ".toList ++ p ++ " =====\n".toList) = none := by
  refine startMatch_of_not ?_
  rintro ⟨r, hr⟩
  have e1 : "// ===== Start of ".toList = "// ===== ".toList ++ 'S' :: "tart of ".toList := by decide
  have e2 : "// ===== End of ".toList = "// ===== ".toList ++ 'E' :: "nd of ".toList := by decide
  rw [e1, e2] at hr
  simp only [List.append_assoc, List.append_cancel_left_eq, List.cons_append, List.cons.injEq] at hr
  exact absurd hr.1 (by decide)

theorem read_write (t : Tree) (l : Loc) (x : Text) (k : Loc) :
    (t.write l x).read k = if k = l then some x else t.read k := by
  unfold Tree.write Tree.read
  dsimp only
  rw [List.lookup_cons]
  by_cases h : k = l
  · rw [if_pos h, beq_iff_eq.2 h]
  · rw [if_neg h, beq_eq_false_iff_ne.2 h]
    dsimp only
    induction t.files with
    | nil => rfl
    | cons f fs ih =>
      rw [List.filter_cons]
      split
      · rw [List.lookup_cons, List.lookup_cons, ih]
      · rename_i hf
        have hf' : f.1 = l := by simpa using hf
        rw [ih, List.lookup_cons, beq_eq_false_iff_ne.2 (fun e => h (e.trans hf'))]

theorem write_write (t : Tree) (l : Loc) (x y : Text) : (t.write l x).write l y = t.write l y := by
  unfold Tree.write
  simp

theorem canWrite_write (t : Tree) (l k : Loc) (x : Text) : (t.write l x).canWrite k = t.canWrite k := rfl

/-- Lines that are not marks are appended to the open file. -/
theorem splitLoop_lines {cwd : Loc} {dir : Text} {l : Loc} (rest : List Text) (ys : List Text) :
    ∀ (t : Tree) (x : Text), (∀ y ∈ ys, startMatch y = none ∧ endMatch y = false) →
      splitLoop cwd dir (t.write l x) (some l) (ys ++ rest)
        = splitLoop cwd dir (t.write l (x ++ ys.flatten)) (some l) rest := by
  induction ys with
  | nil => intro t x _; simp
  | cons y ys ih =>
    intro t x h
    obtain ⟨h1, h2⟩ := h y (by simp)
    rw [List.cons_append]
    conv_lhs => unfold splitLoop
    rw [h1]
    dsimp only
    rw [h2]
    simp only [Bool.false_eq_true, if_false]
    rw [read_write, if_pos rfl, write_write, Option.getD_some, ih t _ fun z hz => h z (by simp [hz])]
    simp

theorem startMatch_newline : startMatch ['\n'] = none := by decide

theorem endMatch_newline : endMatch ['\n'] = false := by decide

/-- The part for one header is written to the place it names. -/
theorem splitLoop_part {cwd : Loc} {dir : Text} {l : Loc} (hl : Proper l) {ys : List Text}
    (hy : ∀ y ∈ ys, startMatch y = none ∧ endMatch y = false) {t : Tree} (ht : t.canWrite l = true) (rest : List Text) :
    splitLoop cwd dir t none (partLines l ys ++ rest) = splitLoop cwd dir (t.write l ys.flatten) none rest := by
  have hne : render l ≠ [] := by simp [render]
  have hloc : locate cwd (join dir (render l)) = l := by
    rw [locate_join, locate_render _ hl]
  unfold partLines
  simp only [List.cons_append, List.append_assoc, List.nil_append]
  rw [splitLoop, startMatch_newline, endMatch_newline]
  simp only [Bool.false_eq_true, if_false]
  rw [splitLoop, startMatch_newline, endMatch_newline]
  simp only [Bool.false_eq_true, if_false]
  have e := startMatch_start hne
  rw [List.append_assoc] at e
  rw [splitLoop, e]
  dsimp only
  rw [hloc, if_pos ht, splitLoop_lines _ ys t [] hy, List.nil_append]
  have e1 := startMatch_end (render l)
  have e2 := endMatch_end hne
  rw [List.append_assoc] at e1 e2
  rw [splitLoop, e1]
  dsimp only
  rw [e2, if_pos rfl]

/-- All parts, one after the other. -/
theorem splitLoop_parts {cwd : Loc} {dir : Text} (ps : List (Loc × List Text)) :
    ∀ t : Tree, (∀ p ∈ ps, Proper p.1 ∧ t.canWrite p.1 = true ∧ ∀ y ∈ p.2, startMatch y = none ∧ endMatch y = false) →
      splitLoop cwd dir t none (ps.flatMap fun p => partLines p.1 p.2)
        = some (ps.foldl (fun t p => t.write p.1 p.2.flatten) t) := by
  induction ps with
  | nil => intro t _; rfl
  | cons p ps ih =>
    intro t h
    obtain ⟨h1, h2, h3⟩ := h p (by simp)
    rw [List.flatMap_cons, splitLoop_part h1 h3 h2, List.foldl_cons]
    exact ih _ fun q hq => by
      obtain ⟨a, b, c⟩ := h q (by simp [hq])
      exact ⟨a, by rw [canWrite_write]; exact b, c⟩

theorem read_foldl_write (ps : List (Loc × List Text)) : ∀ t : Tree, (ps.map Prod.fst).Nodup →
    (∀ p ∈ ps, (ps.foldl (fun t p => t.write p.1 p.2.flatten) t).read p.1 = some p.2.flatten) ∧
    ∀ k, k ∉ ps.map Prod.fst → (ps.foldl (fun t p => t.write p.1 p.2.flatten) t).read k = t.read k := by
  induction ps with
  | nil => intro t _; exact ⟨by simp, fun _ _ => rfl⟩
  | cons p ps ih =>
    intro t h
    rw [List.map_cons, List.nodup_cons] at h
    obtain ⟨h1, h2⟩ := ih (t.write p.1 p.2.flatten) h.2
    refine ⟨fun q hq => ?_, fun k hk => ?_⟩
    · rcases List.mem_cons.1 hq with rfl | hq
      · rw [List.foldl_cons, h2 _ h.1, read_write, if_pos rfl]
      · exact h1 q hq
    · rw [List.map_cons, List.mem_cons, not_or] at hk
      rw [List.foldl_cons, h2 k hk.2, read_write, if_neg hk.1]

/-- A treated line is not a mark unless the line was one. -/
theorem outputLine_noMark {line : Text} (h : ¬ "// ===== Start of ".toList <+: line ∧ ¬ "// ===== End of ".toList <+: line)
    : ¬ "// ===== Start of ".toList <+: outputLine line ∧ ¬ "// ===== End of ".toList <+: outputLine line := by
  by_cases hm : ((includeMatch line).isSome || pragmaOnceMatch line) = true
  · have hhead : ∃ r, strip line = '#' :: r := by
      have hl : ∃ r, line = '#' :: r := by
        rw [Bool.or_eq_true, includeMatch_isSome, pragmaOnceMatch_iff] at hm
        rcases hm with ⟨n, sp, rest, -, -, -, -, e⟩ | ⟨word, sp, once, rest, hw, -, -, -, e⟩
        · exact ⟨_, e⟩
        · cases word with
          | nil => cases hw
          | cons c word =>
            refine ⟨word ++ sp ++ once ++ rest, e.trans ?_⟩
            have hc : c.toLower = '#' := by
              have := congrArg List.head? hw
              simpa using this
            have : c = '#' := by
              unfold Char.toLower at hc
              split at hc
              · exfalso
                rename_i hh
                have h1 : c.val.toNat ≥ 65 := hh.1
                have h2 : c.val.toNat ≤ 90 := hh.2
                have h3 : (c.val + ('a'.val - 'A'.val)).toNat = 35 := congrArg Char.toNat hc
                rw [UInt32.toNat_add, show ('a'.val - 'A'.val).toNat = 32 by decide] at h3
                omega
              · exact hc
            rw [this]; rfl
      obtain ⟨r, rfl⟩ := hl
      obtain ⟨a, b, e, h2, h3, h4⟩ := strip_spec ('#' :: r)
      cases a with
      | nil =>
        cases hs : strip ('#' :: r) with
        | nil =>
          rw [hs] at e
          have : White '#' := h2 '#' (by rw [List.nil_append] at e ⊢; rw [List.nil_append] at e; rw [← e]; simp)
          exact absurd this (by unfold White; decide)
        | cons c s =>
          rw [hs] at e
          exact ⟨s, by rw [(List.cons.inj e).1]⟩
      | cons c a =>
        have hc : White c := h2 c (by simp)
        rw [← (List.cons.inj e).1] at hc
        exact absurd hc (by unfold White; decide)
    obtain ⟨r, hr⟩ := hhead
    have e : outputLine line = "// ".toList ++ '#' :: (r ++ ['\n']) := by
      unfold outputLine
      rw [if_pos hm, hr]
      simp
    rw [e]
    refine ⟨?_, ?_⟩
    · rintro ⟨s, hs⟩
      have e1 : "// ===== Start of ".toList = "// ".toList ++ '=' :: "==== Start of ".toList := by decide
      rw [e1] at hs
      simp only [List.append_assoc, List.append_cancel_left_eq, List.cons_append, List.cons.injEq] at hs
      exact absurd hs.1 (by decide)
    · rintro ⟨s, hs⟩
      have e1 : "// ===== End of ".toList = "// ".toList ++ '=' :: "==== End of ".toList := by decide
      rw [e1] at hs
      simp only [List.append_assoc, List.append_cancel_left_eq, List.cons_append, List.cons.injEq] at hs
      exact absurd hs.1 (by decide)
  · have e : outputLine line = line := by
      unfold outputLine
      rw [if_neg hm]
    rw [e]
    exact h

end Verif.Lemmas
