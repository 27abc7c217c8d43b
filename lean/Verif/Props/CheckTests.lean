import Verif.Model.CheckTests
import Mathlib.Tactic.ByContra

/-!
# C123: the test of a code checker fails exactly if the checker reports something
-/

namespace Verif.Props

open Verif.Spec Verif.CheckTests

/-- What holds after any steps: `making` until `make` has ended, and only then anything else. -/
private theorem unwritten_nil {c : Checker} {left : Option Text} {s : State} (h : Run c (start c left) s) :
    s.shell = .making ∨ s.unwritten = [] := by
  induction h with
  | refl => exact .inl rfl
  | step h h1 ih =>
    cases h1 <;> simp_all

/-- **C123, the checker cannot be run.** If `make` fails, the test fails with its status, in every schedule and whatever
an earlier run has left. -/
theorem C123_make (c : Checker) (left : Option Text) (s : State) (status : Nat) (hc : c.status ≠ 0)
    (h : Run c (start c left) s) (hs : s.shell = .ended status) : status = c.status := by
  have inv : s.shell = .making ∨ s.shell = .ended c.status := by
    clear hs
    induction h with
    | refl => exact .inl rfl
    | step h h1 ih =>
        cases h1 <;> simp_all [Ci.countedStatus]
  rcases inv with h1 | h1
  · rw [hs] at h1; cases h1
  · rw [hs] at h1; cases h1; rfl

/-- In a directory without a file from an earlier run all that is read is the beginning of the reports. -/
private theorem reads_reports {c : Checker} {s : State} (h : Run c (start c none) s) :
    (s.opened = false → s.file = none) ∧ c.reports = (s.file.getD []) ++ s.pipe ++ s.unwritten ∧
    (∀ seen, s.shell = .reading seen → ∃ f, s.file = some f ∧ seen <+: f) ∧
    (∀ status, s.shell = .ended status → c.status = 0 → ∃ seen, seen <+: c.reports ∧ status = lineCount seen % 256) := by
  induction h with
  | refl =>
    exact ⟨fun _ => rfl, rfl, fun _ h => (by cases h), fun _ h => (by cases h)⟩
  | step h h1 ih =>
    obtain ⟨h2, h3, h4, h5⟩ := ih
    cases h1 with
    | report now later pipe opened file =>
      exact ⟨h2, by simpa using h3, fun _ h => (by cases h), fun _ h => (by cases h)⟩
    | teeOpen shell unwritten pipe file =>
      obtain rfl : file = none := h2 rfl
      refine ⟨fun h => (by cases h), by simpa using h3, fun seen h => ?_, h5⟩
      obtain ⟨f, hf, -⟩ := h4 seen h
      cases hf
    | teeCopy shell unwritten now later file =>
      refine ⟨fun h => (by cases h), by simpa using h3, fun seen h => ?_, h5⟩
      obtain ⟨f, hf, hp⟩ := h4 seen h
      cases hf
      exact ⟨_, rfl, hp.trans (List.prefix_append _ _)⟩
    | makeEnds pipe opened file =>
      refine ⟨h2, h3, fun seen h => ?_, fun status h hc => ?_⟩
      · dsimp only at h
        split at h <;> cases h
      · dsimp only at h
        rw [if_pos hc] at h
        cases h
    | noFile unwritten pipe opened =>
      refine ⟨h2, h3, fun seen h => (by cases h), fun status h hc => ⟨[], List.nil_prefix, ?_⟩⟩
      cases h
      simp [Ci.countedStatus, hc, lineCount]
    | catOpen unwritten pipe file opened =>
      refine ⟨h2, h3, fun seen h => ?_, fun status h => (by cases h)⟩
      cases h
      exact ⟨_, rfl, List.nil_prefix⟩
    | catRead seen now later unwritten pipe file opened hd =>
      refine ⟨h2, h3, fun seen' h => ?_, fun status h => (by cases h)⟩
      cases h
      obtain ⟨f, hf, hp⟩ := h4 seen rfl
      cases hf
      refine ⟨_, rfl, ⟨later, ?_⟩⟩
      obtain ⟨r, rfl⟩ := hp
      rw [List.drop_left] at hd
      rw [hd, List.append_assoc]
    | catEnd seen unwritten pipe file opened hl =>
      refine ⟨h2, h3, fun seen h => (by cases h), fun status h hc => ⟨seen, ?_, ?_⟩⟩
      · obtain ⟨f, hf, hp⟩ := h4 seen rfl
        cases hf
        rw [h3]
        simp only [Option.getD_some, List.append_assoc]
        exact hp.trans (List.prefix_append _ _)
      · cases h
        simp [Ci.countedStatus, hc]

/-- **C123, no false alarms.** In a directory without a file from an earlier run, in every schedule: if the test fails
although `make` did not, the checker has reported something.  In particular a content checker passes. -/
theorem C123_no_false_alarm (c : Checker) (s : State) (status : Nat) (hc : c.status = 0)
    (h : Run c (start c none) s) (hs : s.shell = .ended status) (h0 : status ≠ 0) :
    '\n' ∈ c.reports ∧ ¬ c.Content := by
  obtain ⟨seen, hp, hl⟩ := (reads_reports h).2.2.2 status hs hc
  have h1 : '\n' ∈ seen := by
    by_contra hn
    rw [lineCount, List.count_eq_zero.2 hn] at hl
    exact h0 hl
  have h2 := hp.subset h1
  exact ⟨h2, fun hn => by rw [hn.2] at h2; cases h2⟩

/-- When `tee` is ready before `cat` starts, the whole of the reports is read. -/
private theorem reads_all {c : Checker} {s t : State} (hc : c.status = 0) (hs : s.shell = .counting)
    (hp : s.pipe = []) (ho : s.opened = true) (hf : s.file = some c.reports)
    (h : Run c s t) :
    t.opened = true ∧ t.pipe = [] ∧ t.file = some c.reports ∧ t.shell ≠ .making ∧
    (∀ seen, t.shell = .reading seen → seen <+: c.reports) ∧
    (∀ status, t.shell = .ended status → status = lineCount c.reports % 256) := by
  induction h with
  | refl =>
    refine ⟨ho, hp, hf, ?_, ?_, ?_⟩ <;> rw [hs] <;> intros <;> simp_all
  | step h h1 ih =>
    obtain ⟨h2, h3, h4, h5, h6, h7⟩ := ih
    cases h1 with
    | report => exact absurd rfl h5
    | teeOpen => cases h2
    | teeCopy shell unwritten now later file =>
      obtain ⟨rfl, rfl⟩ := List.append_eq_nil_iff.1 h3
      exact ⟨rfl, rfl, by simpa using h4, h5, h6, h7⟩
    | makeEnds => exact absurd rfl h5
    | noFile => cases h4
    | catOpen =>
      exact ⟨h2, h3, h4, fun h => (by cases h), fun _ h => (by cases h; exact List.nil_prefix), fun _ h => (by cases h)⟩
    | catRead seen now later unwritten pipe file opened hd =>
      refine ⟨h2, h3, h4, fun h => (by cases h), fun _ h => ?_, fun _ h => (by cases h)⟩
      cases h
      have hs' := h6 seen rfl
      cases h4
      obtain ⟨r, hr⟩ := hs'
      rw [← hr, List.drop_left] at hd
      exact ⟨later, by rw [← hr, hd, List.append_assoc]⟩
    | catEnd seen unwritten pipe file opened hl =>
      refine ⟨h2, h3, h4, fun h => (by cases h), fun _ h => (by cases h), fun _ h => ?_⟩
      cases h
      have hs' := h6 seen rfl
      cases h4
      rw [hs'.eq_of_length_le hl]
      simp [Ci.countedStatus, hc]

/-- **C123, partial.** If `tee` has copied everything when the shell goes on after `make`, and the reports are fewer than
256 complete lines: the test passes exactly if the checker is content, whatever an earlier run has left.  Missing: other schedules
and other reports; see the theorems named `C123_violated`. -/
theorem C123_partial (c : Checker) (left : Option Text) (s t : State) (status : Nat) (hf : c.FewLines)
    (h : Run c (start c left) s) (hs : s.shell = .counting) (hp : s.pipe = []) (ho : s.opened = true)
    (h1 : Run c s t) (ht : t.shell = .ended status) : status = 0 ↔ c.Content := by
  -- the shell only goes on if `make` was successful, and then all reports are in the file
  have inv : (s.shell ≠ .making → s.shell = .counting → c.status = 0) ∧
      (s.opened = true → ∃ f, s.file = some f ∧ c.reports = f ++ s.pipe ++ s.unwritten) ∧
      (s.opened = false → c.reports = s.pipe ++ s.unwritten) := by
    clear hs hp ho h1
    induction h with
    | refl =>
      exact ⟨fun h => absurd rfl h, fun h => (by cases h), fun _ => rfl⟩
    | step h h1 ih =>
      obtain ⟨h2, h3, h4⟩ := ih
      cases h1 with
      | report now later pipe opened file =>
        refine ⟨fun h => absurd rfl h, fun h => ?_, fun h => ?_⟩
        · obtain ⟨f, hf, e⟩ := h3 h
          exact ⟨f, hf, by simpa using e⟩
        · simpa using h4 h
      | teeOpen shell unwritten pipe file =>
        exact ⟨h2, fun _ => ⟨[], rfl, by simpa using h4 rfl⟩, fun h => (by cases h)⟩
      | teeCopy shell unwritten now later file =>
        refine ⟨h2, fun h => ?_, fun h => (by cases h)⟩
        obtain ⟨f, hf, e⟩ := h3 h
        cases hf
        exact ⟨_, rfl, by simpa using e⟩
      | makeEnds pipe opened file =>
        refine ⟨fun _ h => ?_, h3, h4⟩
        by_contra hn
        dsimp only at h
        rw [if_neg hn] at h
        cases h
      | noFile => exact ⟨fun _ h => (by cases h), h3, h4⟩
      | catOpen => exact ⟨fun _ h => (by cases h), h3, h4⟩
      | catRead => exact ⟨fun _ h => (by cases h), h3, h4⟩
      | catEnd => exact ⟨fun _ h => (by cases h), h3, h4⟩
  have hc := inv.1 (by rw [hs]; intro h; cases h) hs
  have hw : s.unwritten = [] := by
    rcases unwritten_nil h with h | h
    · rw [hs] at h; cases h
    · exact h
  obtain ⟨f, hfile, e⟩ := inv.2.1 ho
  rw [hp, hw, List.append_nil, List.append_nil] at e
  have hst := (reads_all hc hs hp ho (by rw [hfile, e]) h1).2.2.2.2.2 status ht
  rw [lineCount, Nat.mod_eq_of_lt hf.2] at hst
  constructor
  · intro h0
    refine ⟨hc, ?_⟩
    rcases hf.1 with h | h
    · exact h
    · have h2 : '\n' ∈ c.reports := List.mem_of_getLast? h
      have := List.count_pos_iff.2 h2
      omega
  · intro h0
    rw [hst, h0.2]
    rfl

/-- **C123 is violated by the schedule.** Whatever the checker reports: if `make` did not fail and there is no file from an
earlier run, the processes can be scheduled so that the test passes, because the lines are counted before `tee` has opened the file. -/
theorem C123_violated_schedule (c : Checker) (hc : c.status = 0) :
    ∃ s, Run c (start c none) s ∧ s.shell = .ended 0 := by
  refine ⟨⟨.ended 0, [], c.reports, false, none⟩, ?_, rfl⟩
  have e1 := Step.report (c := c) c.reports [] [] false none
  have e2 := Step.makeEnds (c := c) c.reports false none
  have e3 := Step.noFile (c := c) [] c.reports false
  rw [List.append_nil] at e1
  rw [if_pos hc] at e2
  have e4 : Ci.countedStatus (c.status, 0) = 0 := by rw [hc]; rfl
  rw [e4] at e3
  exact ((Run.refl _ |>.step e1).step e2).step e3

/-- **C123 is violated by what an earlier run has left.** The checker is content, and the test fails in a directory where it
has failed before, because the lines are counted before `tee` has made the file empty. -/
theorem C123_violated_left : ∃ (c : Checker) (left : Text) (s : State), c.Content ∧
    Run c (start c (some left)) s ∧ s.shell = .ended 1 := by
  refine ⟨⟨0, []⟩, t!"warning\n", ⟨.ended 1, [], [], false, some t!"warning\n"⟩, ⟨rfl, rfl⟩, ?_, rfl⟩
  have e1 := Step.makeEnds (c := ⟨0, []⟩) [] false (some t!"warning\n")
  have e2 := Step.catOpen (c := ⟨0, []⟩) [] [] t!"warning\n" false
  have e3 := Step.catRead (c := ⟨0, []⟩) [] t!"warning\n" [] [] [] t!"warning\n" false rfl
  have e4 := Step.catEnd (c := ⟨0, []⟩) t!"warning\n" [] [] t!"warning\n" false (by decide)
  exact (((Run.refl _ |>.step e1).step e2).step e3).step e4

/-- **C123 is violated by a report without the end of a line.** It is not counted: without a file from an earlier run the
test passes in every schedule. -/
theorem C123_violated_unfinished (c : Checker) (hc : c.status = 0) (hn : '\n' ∉ c.reports) (s : State) (status : Nat)
    (h : Run c (start c none) s) (hs : s.shell = .ended status) : status = 0 := by
  by_contra h0
  exact hn (C123_no_false_alarm c s status hc h hs h0).1

/-- **C123 is violated by 256 lines.** Even if `tee` is ready in time, the test passes whenever the number of lines is a multiple
of 256. -/
theorem C123_violated_count : ∃ (c : Checker) (s t : State), ¬ c.Content ∧ Run c (start c none) s ∧
    s.shell = .counting ∧ s.pipe = [] ∧ s.opened = true ∧ Run c s t ∧ t.shell = .ended 0 := by
  obtain ⟨r, hr⟩ : ∃ r, r = List.replicate 256 '\n' := ⟨_, rfl⟩
  have hl : lineCount r = 256 := by rw [hr, lineCount, List.count_replicate_self]
  refine ⟨⟨0, r⟩, ⟨.counting, [], [], true, some r⟩, ⟨.ended 0, [], [], true, some r⟩, ?_, ?_, rfl, rfl, rfl, ?_, rfl⟩
  · intro h
    have h2 : r = [] := h.2
    rw [h2] at hl
    cases hl
  · have e1 := Step.report (c := ⟨0, r⟩) r [] [] false none
    have e2 := Step.teeOpen (c := ⟨0, r⟩) .making [] r none
    have e3 := Step.teeCopy (c := ⟨0, r⟩) .making [] r [] []
    have e4 := Step.makeEnds (c := ⟨0, r⟩) [] true (some r)
    rw [List.append_nil] at e1 e3
    exact (((Run.refl _ |>.step e1).step e2).step e3).step e4
  · have e1 := Step.catOpen (c := ⟨0, r⟩) [] [] r true
    have e2 := Step.catRead (c := ⟨0, r⟩) [] r [] [] [] r true (by simp)
    have e3 := Step.catEnd (c := ⟨0, r⟩) r [] [] r true (Nat.le_refl _)
    rw [hl, show Ci.countedStatus ((⟨0, r⟩ : Checker).status, 256) = 0 by
      show Ci.countedStatus (0, 256) = 0; decide] at e3
    exact ((Run.refl _ |>.step e1).step e2).step e3

/-- Non-vacuity of `C123_partial`: one line is reported, `tee` is ready in time, and the test fails with status 1. -/
example : ∃ (s t : State), Run ⟨0, t!"warning\n"⟩ (start ⟨0, t!"warning\n"⟩ none) s ∧ s.shell = .counting ∧ s.pipe = [] ∧
    s.opened = true ∧ Run ⟨0, t!"warning\n"⟩ s t ∧ t.shell = .ended 1 ∧ Checker.FewLines ⟨0, t!"warning\n"⟩ := by
  refine ⟨⟨.counting, [], [], true, some t!"warning\n"⟩, ⟨.ended 1, [], [], true, some t!"warning\n"⟩, ?_, rfl, rfl, rfl, ?_,
    rfl, by unfold Checker.FewLines; decide⟩
  · exact (((Run.refl _ |>.step (.report t!"warning\n" [] [] false none)).step
      (.teeOpen .making [] t!"warning\n" none)).step (.teeCopy .making [] t!"warning\n" [] [])).step
      (Step.makeEnds [] true (some t!"warning\n"))
  · exact ((Run.refl _ |>.step (.catOpen [] [] t!"warning\n" true)).step
      (.catRead [] t!"warning\n" [] [] [] t!"warning\n" true rfl)).step
      (Step.catEnd t!"warning\n" [] [] t!"warning\n" true (by decide))

/-- Non-vacuity of `C123_make`: the checker could not be run, and the shell has ended. -/
example : ∃ s, Run ⟨2, []⟩ (start ⟨2, []⟩ none) s ∧ s.shell = .ended 2 :=
  ⟨⟨.ended 2, [], [], false, none⟩, (Run.refl _).step (Step.makeEnds (c := ⟨2, []⟩) [] false none), rfl⟩

end Verif.Props
