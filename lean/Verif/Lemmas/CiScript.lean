import Verif.Model.CiScript

/-! # Following the script step by step -/

namespace Verif.Lemmas

open Verif.Spec Verif.Ci

/-! ### the arguments -/

theorem infix_sep {w a b : Text} (h : ' ' ∉ w) : w <:+: a ++ ' ' :: b ↔ w <:+: a ∨ w <:+: b := by
  constructor
  · rintro ⟨s, t, e⟩
    rcases List.append_eq_append_iff.1 e with ⟨u, e1, -⟩ | ⟨u, e1, e2⟩
    · exact .inl ⟨s, u, e1.symm⟩
    · cases u with
      | nil => exact .inl ⟨s, [], by simpa using e1⟩
      | cons x u =>
        obtain ⟨rfl, e3⟩ := List.cons.inj e2
        rcases List.append_eq_append_iff.1 e1 with ⟨v, -, e4⟩ | ⟨v, -, e4⟩
        · exact absurd (by rw [e4]; simp) h
        · cases v with
          | nil => exact absurd (by rw [show w = ' ' :: u by simpa using e4.symm]; simp) h
          | cons y v =>
            obtain ⟨-, e5⟩ := List.cons.inj e4
            exact .inr ⟨v, t, by rw [e3, e5]; rfl⟩
  · rintro (⟨s, t, e⟩ | ⟨s, t, e⟩)
    · exact ⟨s, t ++ ' ' :: b, by rw [← e]; simp⟩
    · exact ⟨a ++ ' ' :: s, t, by rw [← e]; simp⟩

theorem mentions_iff {w : Text} (hw : w ≠ []) (h : ' ' ∉ w) (args : List Text) :
    mentions args w = true ↔ ∃ a ∈ args, w <:+: a := by
  rw [mentions, decide_eq_true_iff]
  induction args with
  | nil => simp [allArguments, List.intercalate, hw]
  | cons a l ih =>
    cases l with
    | nil => simp [allArguments, List.intercalate]
    | cons b l =>
      have : allArguments (a :: b :: l) = a ++ ' ' :: allArguments (b :: l) := by
        simp [allArguments, List.intercalate, List.intersperse_cons_cons]
      rw [this, infix_sep h, ih]
      simp

theorem flag_plain : ∀ f ∈ ciFlags, f ≠ [] ∧ ' ' ∉ f := by decide +kernel

theorem mentions_flag {args : List Text} (hp : Plain args) {f : Text} (hf : f ∈ ciFlags) :
    mentions args f = true ↔ f ∈ args := by
  rw [mentions_iff (flag_plain f hf).1 (flag_plain f hf).2]
  constructor
  · rintro ⟨a, ha, hi⟩
    rw [← hp a ha f hf hi]
    exact ha
  · exact fun h => ⟨f, h, List.infix_refl f⟩

/-! ### commands -/

variable {status : List Command → Command → Nat}

/-- All commands but copying the report were successful. -/
def AllGood (status : List Command → Command → Nat) (trace : List Command) : Prop :=
  ∀ before c after, trace = before ++ c :: after → c ≠ .copyReport → status before c = 0

theorem AllGood.snoc {trace : List Command} {c : Command} (h : AllGood status trace)
    (hc : c = .copyReport ∨ status trace c = 0) : AllGood status (trace ++ [c]) := by
  intro before c' after e hne
  rcases List.append_eq_append_iff.1 e with ⟨u, e1, e2⟩ | ⟨u, e1, e2⟩
  · cases u with
    | nil =>
      obtain ⟨rfl, -⟩ := List.cons.inj e2
      rw [List.append_nil] at e1
      rw [e1]
      exact hc.resolve_left hne
    | cons x u =>
      have := congrArg List.length e2
      simp at this
  · cases u with
    | nil =>
      obtain ⟨rfl, -⟩ := List.cons.inj e2
      rw [List.append_nil] at e1
      rw [← e1]
      exact hc.resolve_left hne
    | cons x u =>
      obtain ⟨rfl, -⟩ := List.cons.inj e2
      exact h before _ u e1 hne

/-- How a part of the script may end: with 0 and all commands successful, or with the status of the last
command, all before it being successful. -/
def Fine (status : List Command → Command → Nat) (r : List Command × Nat) : Prop :=
  (r.2 = 0 ∧ AllGood status r.1) ∨
  (r.2 ≠ 0 ∧ ∃ before c, r.1 = before ++ [c] ∧ c ≠ .copyReport ∧ status before c = r.2 ∧ AllGood status before)

theorem fine_orDie {c : Command} {rest : List Command → List Command × Nat} {before : List Command}
    (hc : c ≠ .copyReport) (h : AllGood status before)
    (hr : AllGood status (before ++ [c]) → Fine status (rest (before ++ [c]))) :
    Fine status (orDie status c rest before) := by
  unfold orDie
  split
  · next hs => exact .inr ⟨hs, before, c, rfl, hc, rfl, h⟩
  · next hs => exact hr (h.snoc (.inr (Decidable.not_not.1 hs)))

theorem fine_done {before : List Command} (h : AllGood status before) : Fine status (before, 0) := .inl ⟨rfl, h⟩

theorem fine_build (args : List Text) {before : List Command} (h : AllGood status before) :
    Fine status (buildStep status args before) := by
  unfold buildStep
  split
  · refine fine_orDie (by simp) h fun h => ?_
    split
    · exact fine_done h
    · exact fine_orDie (by simp) h fine_done
  · exact fine_done h

theorem fine_coverage (args : List Text) {before : List Command} (h : AllGood status before) :
    Fine status (coverageStep status args before) := by
  unfold coverageStep
  split
  · exact fine_orDie (by simp) h fun h => fine_orDie (by simp) h fun h => fine_build args (h.snoc (.inl rfl))
  · exact fine_build args h

theorem fine_check (args : List Text) {before : List Command} (h : AllGood status before) :
    Fine status (checkStep status args before) := by
  unfold checkStep
  split
  · exact fine_orDie (by simp) h fine_done
  · split
    · exact fine_orDie (by simp) h fine_done
    · split
      · exact fine_orDie (by simp) h fine_done
      · exact fine_coverage args h

theorem fine_run (args : List Text) (host bt : Text) :
    Fine status (run status host bt args) ∨
      (status [] .enterSource = 0 ∧ (host = [] ∨ bt = []) ∧ run status host bt args = ([.enterSource], 1)) := by
  have h0 : AllGood status [] := by
    intro before c after e
    cases before <;> cases e
  by_cases hs : status [] .enterSource = 0
  · by_cases hh : host = []
    · exact .inr ⟨hs, .inl hh, by simp [run, orDie, hs, hh]⟩
    · by_cases hb : bt = []
      · exact .inr ⟨hs, .inr hb, by simp [run, orDie, hs, hb]⟩
      · left
        unfold run
        refine fine_orDie (by simp) h0 fun h => ?_
        rw [if_neg hh, if_neg hb]
        exact fine_orDie (by simp) h fun h => fine_orDie (by simp) h fun h => fine_check args h
  · left
    unfold run
    refine fine_orDie (by simp) h0 fun h => ?_
    exact absurd (h [] _ [] rfl (by simp)) hs

/-! ### a successful run -/

theorem orDie_zero {c : Command} {rest : List Command → List Command × Nat} {before trace : List Command}
    (h : orDie status c rest before = (trace, 0)) :
    status before c = 0 ∧ rest (before ++ [c]) = (trace, 0) := by
  unfold orDie at h
  split at h
  · next hs => exact absurd (congrArg Prod.snd h) hs
  · next hs => exact ⟨Decidable.not_not.1 hs, h⟩

theorem build_zero {args : List Text} {before trace : List Command}
    (h : buildStep status args before = (trace, 0)) :
    before <+: trace ∧ (mentions args t!"--build-exe" = true → Succeeded status trace .make) ∧
    (mentions args t!"--build-exe" = true → mentions args t!"--disable-unit-tests" = false →
      Succeeded status trace (.ctestExcept checkNames)) := by
  unfold buildStep at h
  split at h
  · obtain ⟨h1, h2⟩ := orDie_zero h
    split at h2
    · next hd =>
      obtain ⟨rfl, -⟩ := Prod.mk.inj h2
      exact ⟨⟨_, rfl⟩, fun _ => ⟨before, [], rfl, h1⟩, fun _ e => by rw [hd] at e; cases e⟩
    · obtain ⟨h3, h4⟩ := orDie_zero h2
      obtain ⟨rfl, -⟩ := Prod.mk.inj h4
      exact ⟨⟨[.make, .ctestExcept checkNames], by simp [checkNames]⟩, fun _ => ⟨before, [.ctestExcept checkNames], by simp [checkNames], h1⟩,
        fun _ _ => ⟨before ++ [.make], [], by simp [checkNames], h3⟩⟩
  · next hb =>
    obtain ⟨rfl, -⟩ := Prod.mk.inj h
    exact ⟨List.prefix_refl _, fun e => absurd e hb, fun e => absurd e hb⟩

theorem succeeded_of_prefix {a trace : List Command} {c : Command} (h : Succeeded status a c) (hp : a <+: trace) :
    Succeeded status trace c := by
  obtain ⟨b, t, rfl, hs⟩ := h
  obtain ⟨u, rfl⟩ := hp
  exact ⟨b, t ++ u, by simp, hs⟩

theorem coverage_zero {args : List Text} {before trace : List Command}
    (h : coverageStep status args before = (trace, 0)) :
    before <+: trace ∧
    (mentions args t!"--code-coverage" = true → Succeeded status trace .make ∧
      Succeeded status trace .makeCoverage ∧ .copyReport ∈ trace) ∧
    (mentions args t!"--build-exe" = true → Succeeded status trace .make) ∧
    (mentions args t!"--build-exe" = true → mentions args t!"--disable-unit-tests" = false →
      Succeeded status trace (.ctestExcept checkNames)) := by
  unfold coverageStep at h
  split at h
  · obtain ⟨h1, h2⟩ := orDie_zero h
    obtain ⟨h3, h4⟩ := orDie_zero h2
    obtain ⟨⟨u, rfl⟩, h6, h7⟩ := build_zero h4
    exact ⟨⟨[.make, .makeCoverage, .copyReport] ++ u, by simp⟩, fun _ => ⟨⟨before, [.makeCoverage, .copyReport] ++ u, by simp, h1⟩,
      ⟨before ++ [.make], [.copyReport] ++ u, by simp, h3⟩, by simp⟩, h6, h7⟩
  · next hc =>
    obtain ⟨h5, h6, h7⟩ := build_zero h
    exact ⟨h5, fun e => absurd e hc, h6, h7⟩

theorem check_zero {args : List Text} {before trace : List Command}
    (h : checkStep status args before = (trace, 0)) :
    (mentions args t!"--test-code-style" = true → Succeeded status trace (.ctestOnly [t!"testUncrustifyCheck"])) ∧
    (mentions args t!"--test-code-style" = false →
      (mentions args t!"--test-doxygen" = true → Succeeded status trace (.ctestOnly [t!"testDoxygenCheck"])) ∧
      (mentions args t!"--test-doxygen" = false →
        (mentions args t!"--code-checks" = true →
          Succeeded status trace (.ctestOnly [t!"testCppCheck", t!"testClangTidy"])) ∧
        (mentions args t!"--code-checks" = false → coverageStep status args before = (trace, 0)))) := by
  unfold checkStep at h
  cases h1 : mentions args t!"--test-code-style"
  · simp only [h1, Bool.false_eq_true, if_false] at h
    refine ⟨fun e => (by cases e), fun _ => ?_⟩
    cases h2 : mentions args t!"--test-doxygen"
    · simp only [h2, Bool.false_eq_true, if_false] at h
      refine ⟨fun e => (by cases e), fun _ => ?_⟩
      cases h3 : mentions args t!"--code-checks"
      · simp only [h3, Bool.false_eq_true, if_false] at h
        exact ⟨fun e => (by cases e), fun _ => h⟩
      · simp only [h3, if_true] at h
        obtain ⟨h4, h5⟩ := orDie_zero h
        obtain ⟨rfl, -⟩ := Prod.mk.inj h5
        exact ⟨fun _ => ⟨before, [], rfl, h4⟩, fun e => (by cases e)⟩
    · simp only [h2, if_true] at h
      obtain ⟨h4, h5⟩ := orDie_zero h
      obtain ⟨rfl, -⟩ := Prod.mk.inj h5
      exact ⟨fun _ => ⟨before, [], rfl, h4⟩, fun e => (by cases e)⟩
  · simp only [h1, if_true] at h
    obtain ⟨h4, h5⟩ := orDie_zero h
    obtain ⟨rfl, -⟩ := Prod.mk.inj h5
    exact ⟨fun _ => ⟨before, [], rfl, h4⟩, fun e => (by cases e)⟩

theorem run_zero {args : List Text} {host bt : Text} {trace : List Command}
    (h : run status host bt args = (trace, 0)) :
    host ≠ [] ∧ bt ≠ [] ∧ status [] .enterSource = 0 ∧
    status [.enterSource] (.configure (mentions args t!"--code-coverage")) = 0 ∧
    status [.enterSource, .configure (mentions args t!"--code-coverage")] .enterBuild = 0 ∧
    checkStep status args [.enterSource, .configure (mentions args t!"--code-coverage"), .enterBuild]
      = (trace, 0) := by
  unfold run at h
  obtain ⟨h1, h2⟩ := orDie_zero h
  split at h2
  · cases h2
  · next hh =>
    split at h2
    · cases h2
    · next hb =>
      obtain ⟨h3, h4⟩ := orDie_zero h2
      obtain ⟨h5, h6⟩ := orDie_zero h4
      exact ⟨hh, hb, h1, h3, h5, h6⟩

theorem prefix_check {args : List Text} {before trace : List Command}
    (h : checkStep status args before = (trace, 0)) : before <+: trace := by
  unfold checkStep at h
  split at h
  · obtain ⟨-, h2⟩ := orDie_zero h
    exact ⟨_, (Prod.mk.inj h2).1⟩
  · split at h
    · obtain ⟨-, h2⟩ := orDie_zero h
      exact ⟨_, (Prod.mk.inj h2).1⟩
    · split at h
      · obtain ⟨-, h2⟩ := orDie_zero h
        exact ⟨_, (Prod.mk.inj h2).1⟩
      · exact (coverage_zero h).1

end Verif.Lemmas
