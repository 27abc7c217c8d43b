import Verif.Lemmas.CiScript

/-! # Property C115: the CI run fails if a check fails -/

namespace Verif.Props

open Verif.Spec Verif.Lemmas Verif.Ci

/-- **C115, the exit status.** Whatever the commands return, and whatever the arguments are: the run ends with
0 and all commands it has run were successful, except perhaps copying the coverage report; or it ends with
the status of the last command run, all before it (except perhaps copying) being successful, so that nothing is run after
a failure; or it ends with 1 before anything is configured because one of the two environment variables is
not set. -/
theorem C115_status (status : List Command → Command → Nat) (host bt : Text) (args : List Text) :
    (∃ trace, run status host bt args = (trace, 0) ∧ host ≠ [] ∧ bt ≠ [] ∧
      ∀ before c after, trace = before ++ c :: after → c ≠ .copyReport → status before c = 0) ∨
    (∃ before c, run status host bt args = (before ++ [c], status before c) ∧ status before c ≠ 0 ∧
      c ≠ .copyReport ∧ ∀ b c' a, before = b ++ c' :: a → c' ≠ .copyReport → status b c' = 0) ∨
    ((host = [] ∨ bt = []) ∧ run status host bt args = ([.enterSource], 1)) := by
  rcases fine_run (status := status) args host bt with (⟨h1, h2⟩ | ⟨h1, b, c, h2, h3, h4, h5⟩) | ⟨-, h1, h2⟩
  · rcases h : run status host bt args with ⟨trace, code⟩
    rw [h] at h1 h2
    dsimp only at h1 h2
    subst h1
    obtain ⟨g1, g2, -⟩ := run_zero h
    exact .inl ⟨trace, rfl, g1, g2, h2⟩
  · refine .inr (.inl ⟨b, c, Prod.ext h2 h4.symm, ?_, h3, h5⟩)
    rw [h4]; exact h1
  · exact .inr (.inr ⟨h1, h2⟩)

/-- **C115, partial.** If only one kind of job is asked for, and no argument has a known one in it without
being it: when the run ends with 0, the build was configured, and every command of every task asked for was
run and successful.  Missing: copying the coverage report need not have been successful; see
`C115_violated_copy`, and `C115_violated_combined` for several kinds of jobs. -/
theorem C115_partial (status : List Command → Command → Nat) (host bt : Text) (args : List Text)
    (hp : Plain args) (ho : OneJob args) (trace : List Command) (h : run status host bt args = (trace, 0)) :
    Succeeded status trace .enterSource ∧ (∃ cov, Succeeded status trace (.configure cov) ∧
      (cov = true ↔ Task.coverage.Asked args)) ∧ Succeeded status trace .enterBuild ∧
    ∀ task : Task, task.Asked args → ∀ c ∈ task.commands,
      Succeeded status trace c ∨ (c = .copyReport ∧ c ∈ trace) := by
  obtain ⟨-, -, h1, h2, h3, h4⟩ := run_zero h
  obtain ⟨o1, o2, o3⟩ := ho
  have m1 := mentions_flag hp (f := t!"--test-code-style") (by decide)
  have m2 := mentions_flag hp (f := t!"--test-doxygen") (by decide)
  have m3 := mentions_flag hp (f := t!"--code-checks") (by decide)
  have m4 := mentions_flag hp (f := t!"--code-coverage") (by decide)
  have m5 := mentions_flag hp (f := t!"--build-exe") (by decide)
  have m6 := mentions_flag hp (f := t!"--disable-unit-tests") (by decide)
  have hpre := prefix_check h4
  refine ⟨succeeded_of_prefix ⟨[], _, rfl, h1⟩ hpre, ⟨_, succeeded_of_prefix ⟨[.enterSource], _, rfl, h2⟩ hpre, m4⟩,
    succeeded_of_prefix ⟨[.enterSource, _], [], rfl, h3⟩ hpre, ?_⟩
  obtain ⟨k1, k2⟩ := check_zero h4
  intro task ht c hc
  cases task
  · obtain rfl := List.mem_singleton.1 hc
    exact .inl (k1 (m1.2 ht))
  · obtain rfl := List.mem_singleton.1 hc
    have n1 : mentions args t!"--test-code-style" = false := by
      rw [Bool.eq_false_iff, Ne, m1]
      exact fun e => o1 e _ ht (by decide)
    exact .inl ((k2 n1).1 (m2.2 ht))
  · obtain rfl := List.mem_singleton.1 hc
    have n1 : mentions args t!"--test-code-style" = false := by
      rw [Bool.eq_false_iff, Ne, m1]
      exact fun e => o1 e _ ht (by decide)
    have n2 : mentions args t!"--test-doxygen" = false := by
      rw [Bool.eq_false_iff, Ne, m2]
      exact fun e => o2 e _ ht (by decide)
    exact .inl (((k2 n1).2 n2).1 (m3.2 ht))
  · have n1 : mentions args t!"--test-code-style" = false := by
      rw [Bool.eq_false_iff, Ne, m1]
      exact fun e => o1 e _ ht (by decide)
    have n2 : mentions args t!"--test-doxygen" = false := by
      rw [Bool.eq_false_iff, Ne, m2]
      exact fun e => o2 e _ ht (by decide)
    have n3 : mentions args t!"--code-checks" = false := by
      rw [Bool.eq_false_iff, Ne, m3]
      exact fun e => o3 e _ ht (by decide)
    obtain ⟨-, l1, -⟩ := coverage_zero (((k2 n1).2 n2).2 n3)
    obtain ⟨l2, l3, l4⟩ := l1 (m4.2 ht)
    simp only [Task.commands, List.mem_cons, List.not_mem_nil, or_false] at hc
    rcases hc with rfl | rfl | rfl
    · exact .inl l2
    · exact .inl l3
    · exact .inr ⟨rfl, l4⟩
  · obtain rfl := List.mem_singleton.1 hc
    have n1 : mentions args t!"--test-code-style" = false := by
      rw [Bool.eq_false_iff, Ne, m1]
      exact fun e => o1 e _ ht (by decide)
    have n2 : mentions args t!"--test-doxygen" = false := by
      rw [Bool.eq_false_iff, Ne, m2]
      exact fun e => o2 e _ ht (by decide)
    have n3 : mentions args t!"--code-checks" = false := by
      rw [Bool.eq_false_iff, Ne, m3]
      exact fun e => o3 e _ ht (by decide)
    obtain ⟨-, -, l1, -⟩ := coverage_zero (((k2 n1).2 n2).2 n3)
    exact .inl (l1 (m5.2 ht))
  · obtain rfl := List.mem_singleton.1 hc
    obtain ⟨ht, hd⟩ := ht
    have n1 : mentions args t!"--test-code-style" = false := by
      rw [Bool.eq_false_iff, Ne, m1]
      exact fun e => o1 e _ ht (by decide)
    have n2 : mentions args t!"--test-doxygen" = false := by
      rw [Bool.eq_false_iff, Ne, m2]
      exact fun e => o2 e _ ht (by decide)
    have n3 : mentions args t!"--code-checks" = false := by
      rw [Bool.eq_false_iff, Ne, m3]
      exact fun e => o3 e _ ht (by decide)
    obtain ⟨-, -, -, l1⟩ := coverage_zero (((k2 n1).2 n2).2 n3)
    exact .inl (l1 (m5.2 ht) (by rw [Bool.eq_false_iff, Ne, m6]; exact hd))

/-- Non-vacuity of C115_partial: the arguments of the coverage job, all commands being successful. -/
example : Plain [t!"--build-exe", t!"--code-coverage"] ∧ OneJob [t!"--build-exe", t!"--code-coverage"] ∧
    Task.unitTests.Asked [t!"--build-exe", t!"--code-coverage"] ∧
    ∃ trace, run (fun _ _ => 0) t!"environment.cmake" t!"Debug" [t!"--build-exe", t!"--code-coverage"] = (trace, 0) := by
  refine ⟨by unfold Plain; decide +kernel, by unfold OneJob; decide +kernel, ⟨by decide, by decide⟩,
    [.enterSource, .configure true, .enterBuild, .make, .makeCoverage, .copyReport, .make, .ctestExcept checkNames],
    by decide +kernel⟩

/-- **C115 is violated for several kinds of jobs.** Asked for the style check and the build, the script does
not build: with a `make` that always fails it ends with 0. -/
theorem C115_violated_combined :
    ∃ (status : List Command → Command → Nat) (args : List Text) (trace : List Command),
      Task.build.Asked args ∧ Plain args ∧ (∀ before, status before .make = 2) ∧
      run status t!"environment.cmake" t!"Debug" args = (trace, 0) ∧ .make ∉ trace :=
  ⟨fun _ c => if c = .make then 2 else 0, [t!"--test-code-style", t!"--build-exe"],
    [.enterSource, .configure false, .enterBuild, .ctestOnly [t!"testUncrustifyCheck"]],
    by unfold Task.Asked; decide,
    by unfold Plain; decide +kernel, fun _ => rfl, by decide +kernel, by decide⟩

/-- **C115 is violated by copying the report.** The coverage report could not be copied, so that there is
nothing to upload, and the script ends with 0. -/
theorem C115_violated_copy :
    ∃ (status : List Command → Command → Nat) (args : List Text) (trace : List Command),
      Task.coverage.Asked args ∧ Plain args ∧ OneJob args ∧ (∀ before, status before .copyReport = 1) ∧
      run status t!"environment.cmake" t!"Debug" args = (trace, 0) ∧ .copyReport ∈ trace :=
  ⟨fun _ c => if c = .copyReport then 1 else 0, [t!"--code-coverage"],
    [.enterSource, .configure true, .enterBuild, .make, .makeCoverage, .copyReport],
    by unfold Task.Asked; decide,
    by unfold Plain; decide +kernel, by unfold OneJob; decide +kernel, fun _ => rfl, by decide +kernel, by decide⟩

/-! ### on a machine -/

private theorem job {m : Machine} {host bt : Text} (hh : host ≠ []) (hb : bt ≠ []) (args : List Text) :
    (run (machineStatus m) host bt args).2 = 0 ↔
      m.ending ≠ .raised ∧ (checkStep (machineStatus m) args
        [.enterSource, .configure (mentions args t!"--code-coverage"), .enterBuild]).2 = 0 := by
  have e : ConfigBuild.exitStatus m.cmake m.ending = 0 ↔ m.ending ≠ .raised := by
    cases m.ending <;> simp [ConfigBuild.exitStatus]
  rw [← e]
  simp only [run, orDie, machineStatus, List.nil_append, ne_eq, not_true_eq_false, if_false, hh, hb]
  by_cases h : ConfigBuild.exitStatus m.cmake m.ending = 0 <;> simp [h]

/-- **C115, the build jobs.** On a machine where CMake, the compiler and the tests turn out in any way, the
run with `--build-exe` ends with 0 exactly if `config-build.py` did not fail, CMake succeeded, everything was built, and
every registered test passes that is not one of the checks. -/
theorem C115_build (m : Machine) (host bt : Text) (hh : host ≠ []) (hb : bt ≠ []) :
    (run (machineStatus m) host bt [t!"--build-exe"]).2 = 0 ↔
      m.ending ≠ .raised ∧ m.cmake = 0 ∧ m.build = 0 ∧
      ∀ test ∈ registered m, (∀ x ∈ checkNames, ¬ x <:+: test.1) → test.2 = true := by
  rw [job hh hb]
  have e1 : mentions [t!"--build-exe"] t!"--test-code-style" = false := by decide +kernel
  have e2 : mentions [t!"--build-exe"] t!"--test-doxygen" = false := by decide +kernel
  have e3 : mentions [t!"--build-exe"] t!"--code-checks" = false := by decide +kernel
  have e4 : mentions [t!"--build-exe"] t!"--code-coverage" = false := by decide +kernel
  have e5 : mentions [t!"--build-exe"] t!"--build-exe" = true := by decide +kernel
  have e6 : mentions [t!"--build-exe"] t!"--disable-unit-tests" = false := by decide +kernel
  refine and_congr_right fun _ => ?_
  simp only [checkStep, coverageStep, buildStep, orDie, e1, e2, e3, e4, e5, e6, if_true, if_false,
    Bool.false_eq_true, machineStatus]
  by_cases hc : m.cmake = 0
  · by_cases hbd : m.build = 0
    · simp only [hc, hbd, ne_eq, not_true_eq_false, if_false, true_and]
      have key : ((registered m).all fun t => selected
          [t!"testUncrustifyCheck", t!"testDoxygenCheck", t!"testCppCheck", t!"testClangTidy"] t.1 || t.2) = true ↔
          ∀ test ∈ registered m, (∀ x ∈ checkNames, ¬ x <:+: test.1) → test.2 = true := by
        rw [List.all_eq_true]
        refine forall_congr' fun test => forall_congr' fun _ => ?_
        rw [Bool.or_eq_true]
        constructor
        · rintro (h | h) hn
          · obtain ⟨x, hx, h⟩ := List.any_eq_true.1 h
            exact absurd (of_decide_eq_true h) (hn x hx)
          · exact h
        · intro h
          by_cases hs : selected [t!"testUncrustifyCheck", t!"testDoxygenCheck", t!"testCppCheck", t!"testClangTidy"]
              test.1 = true
          · exact .inl hs
          · refine .inr (h fun x hx hi => hs ?_)
            exact List.any_eq_true.2 ⟨x, hx, decide_eq_true hi⟩
      rw [← key]
      split <;> simp_all
    · simp [hc, hbd]
  · simp [hc]

/-- So with BLT and unit tests enabled all fifteen unit tests pass if the run ends with 0. -/
theorem C115_unit_tests (m : Machine) (host bt : Text) (hh : host ≠ []) (hb : bt ≠ []) (hm : m.blt = true)
    (hu : m.unitTests = true) (h : (run (machineStatus m) host bt [t!"--build-exe"]).2 = 0) :
    ∀ n ∈ unitTestNames, m.passes n = true := by
  obtain ⟨-, h1, -, h2⟩ := (C115_build m host bt hh hb).1 h
  intro n hn
  refine h2 (n, m.passes n) ?_ ?_
  · rw [registered, if_pos ⟨h1, hm⟩, if_pos hu]
    simp only [List.mem_append, List.mem_map]
    exact .inl (.inl (.inr ⟨n, hn, rfl⟩))
  · have : ∀ n ∈ unitTestNames, ∀ x ∈ checkNames, ¬ x <:+: n := by decide +kernel
    exact this n hn

private theorem only {m : Machine} {texts : List Text} {before : List Command} :
    machineStatus m before (.ctestOnly texts) = 0 ↔
      ∀ test ∈ registered m, (∃ x ∈ texts, x <:+: test.1) → test.2 = true := by
  simp only [machineStatus]
  have key : ((registered m).all fun t => !selected texts t.1 || t.2) = true ↔
      ∀ test ∈ registered m, (∃ x ∈ texts, x <:+: test.1) → test.2 = true := by
    rw [List.all_eq_true]
    refine forall_congr' fun test => forall_congr' fun _ => ?_
    rw [Bool.or_eq_true, Bool.not_eq_true']
    constructor
    · rintro (h | h) ⟨x, hx, hi⟩
      · exact absurd (List.any_eq_true.2 ⟨x, hx, decide_eq_true hi⟩) (by rw [show texts.any _ = false from h]; simp)
      · exact h
    · intro h
      cases hs : selected texts test.1
      · exact .inl rfl
      · obtain ⟨x, hx, hi⟩ := List.any_eq_true.1 hs
        exact .inr (h ⟨x, hx, of_decide_eq_true hi⟩)
  rw [← key]
  split <;> simp_all

private theorem names {m : Machine} {test : Text × Bool} (h : test ∈ registered m) :
    m.cmake = 0 ∧ m.blt = true ∧ (test.1 ∈ m.bltTests ∨ test.1 ∈ unitTestNames ∨
      (m.cppcheck = true ∧ test = (t!"testCppCheck", decide (countedStatus m.cppcheckRun = 0))) ∨
      (m.clangTidy = true ∧ test = (t!"testClangTidy", decide (countedStatus m.tidyRun = 0)))) := by
  unfold registered at h
  split at h
  · next hm =>
    refine ⟨hm.1, hm.2, ?_⟩
    simp only [List.mem_append, List.mem_map] at h
    rcases h with ((⟨n, hn, rfl⟩ | h) | h) | h
    · exact .inl hn
    · split at h
      · obtain ⟨n, hn, rfl⟩ := List.mem_map.1 h
        exact .inr (.inl hn)
      · cases h
    · split at h
      · next hc => exact .inr (.inr (.inl ⟨hc, List.mem_singleton.1 h⟩))
      · cases h
    · split at h
      · next hc => exact .inr (.inr (.inr ⟨hc, List.mem_singleton.1 h⟩))
      · cases h
  · cases h

/-- **C115, the code checks.** The run with `--code-checks` ends with 0 exactly if `config-build.py` did not fail and, when
CMake succeeded with BLT, each of the two tools that was found could be run and left a number of lines that is a
multiple of 256. -/
theorem C115_code_checks (m : Machine) (host bt : Text) (hh : host ≠ []) (hb : bt ≠ [])
    (hn : ∀ n ∈ m.bltTests, ∀ x ∈ checkNames, ¬ x <:+: n) :
    (run (machineStatus m) host bt [t!"--code-checks"]).2 = 0 ↔
      m.ending ≠ .raised ∧ (m.cmake = 0 → m.blt = true →
        (m.cppcheck = true → m.cppcheckRun.1 = 0 ∧ 256 ∣ m.cppcheckRun.2) ∧
        (m.clangTidy = true → m.tidyRun.1 = 0 ∧ 256 ∣ m.tidyRun.2)) := by
  rw [job hh hb]
  have e1 : mentions [t!"--code-checks"] t!"--test-code-style" = false := by decide +kernel
  have e2 : mentions [t!"--code-checks"] t!"--test-doxygen" = false := by decide +kernel
  have e3 : mentions [t!"--code-checks"] t!"--code-checks" = true := by decide +kernel
  have hcount : ∀ r : Nat × Nat, countedStatus r = 0 ↔ r.1 = 0 ∧ 256 ∣ r.2 := by
    intro r
    unfold countedStatus
    rw [Nat.dvd_iff_mod_eq_zero]
    by_cases h : r.1 = 0 <;> simp [h]
  refine and_congr_right fun _ => ?_
  simp only [checkStep, orDie, e1, e2, e3, if_true, if_false, Bool.false_eq_true]
  have hz : ∀ (s : Nat) (a b : List Command), ((if s ≠ 0 then (a, s) else (b, 0)) : List Command × Nat).2 = 0 ↔ s = 0 := by
    intro s a b
    by_cases h : s = 0 <;> simp [h]
  rw [hz, only]
  have hu : ∀ n ∈ unitTestNames, ∀ x ∈ checkNames, ¬ x <:+: n := by decide +kernel
  constructor
  · intro h hc hm
    constructor
    · intro hf
      refine (hcount _).1 (of_decide_eq_true (h (t!"testCppCheck", decide (countedStatus m.cppcheckRun = 0)) ?_
        ⟨t!"testCppCheck", by simp, List.infix_refl _⟩))
      rw [registered, if_pos ⟨hc, hm⟩, if_pos hf]
      simp
    · intro hf
      refine (hcount _).1 (of_decide_eq_true (h (t!"testClangTidy", decide (countedStatus m.tidyRun = 0)) ?_
        ⟨t!"testClangTidy", by simp, List.infix_refl _⟩))
      rw [registered, if_pos ⟨hc, hm⟩, if_pos hf]
      simp
  · rintro h test ht ⟨x, hx, hi⟩
    have hx' : x ∈ checkNames := by
      simp only [List.mem_cons, List.not_mem_nil, or_false] at hx
      rcases hx with rfl | rfl <;> simp [checkNames]
    obtain ⟨h1, h2, h3 | h3 | ⟨h3, rfl⟩ | ⟨h3, rfl⟩⟩ := names ht
    · exact absurd hi (hn _ h3 x hx')
    · exact absurd hi (hu _ h3 x hx')
    · exact decide_eq_true ((hcount _).2 ((h h1 h2).1 h3))
    · exact decide_eq_true ((hcount _).2 ((h h1 h2).2 h3))

/-- **C115 is violated by findings that are counted.** With 256 lines of findings of cppcheck the run ends with 0. -/
theorem C115_violated_count : ∃ m : Machine, m.cmake = 0 ∧ m.blt = true ∧ m.cppcheck = true ∧
    m.cppcheckRun = (0, 256) ∧ (run (machineStatus m) t!"environment.cmake" t!"Debug" [t!"--code-checks"]).2 = 0 := by
  refine ⟨⟨true, true, true, false, [], .finished [], 0, 0, 0, 0, fun _ => true, (0, 256), (0, 0)⟩,
    rfl, rfl, rfl, rfl, ?_⟩
  rw [C115_code_checks _ _ _ (by simp) (by simp) (by simp)]
  simp

/-- **C115 is violated when CMake fails.** `config-build.py` does not hand on the status of CMake, and without tests
`ctest` is content: whenever CMake fails, the run of the code checks ends with 0. -/
theorem C115_violated_configure (m : Machine) (command : Text) (hm : m.ending = .finished command)
    (hc : m.cmake ≠ 0) (host bt : Text) (hh : host ≠ []) (hb : bt ≠ []) :
    (run (machineStatus m) host bt [t!"--code-checks"]).2 = 0 ∧ registered m = [] := by
  have hr : registered m = [] := by rw [registered, if_neg fun h => hc h.1]
  refine ⟨?_, hr⟩
  rw [job hh hb]
  refine ⟨by rw [hm]; simp, ?_⟩
  have e1 : mentions [t!"--code-checks"] t!"--test-code-style" = false := by decide +kernel
  have e2 : mentions [t!"--code-checks"] t!"--test-doxygen" = false := by decide +kernel
  have e3 : mentions [t!"--code-checks"] t!"--code-checks" = true := by decide +kernel
  simp [checkStep, orDie, e1, e2, e3, machineStatus, hr]

/-- **C115 is violated by the style and documentation checks.** There are no such tests: on every machine, whatever the
sources look like, the runs with `--test-code-style` and `--test-doxygen` end with 0 if `config-build.py` does not fail. -/
theorem C115_violated_no_test (m : Machine) (hm : m.ending ≠ .raised)
    (hn : ∀ n ∈ m.bltTests, ∀ x ∈ checkNames, ¬ x <:+: n) (host bt : Text) (hh : host ≠ []) (hb : bt ≠ []) :
    (∀ test ∈ registered m, ¬ t!"testUncrustifyCheck" <:+: test.1 ∧ ¬ t!"testDoxygenCheck" <:+: test.1) ∧
    (run (machineStatus m) host bt [t!"--test-code-style"]).2 = 0 ∧
    (run (machineStatus m) host bt [t!"--test-doxygen"]).2 = 0 := by
  have hu : ∀ n ∈ unitTestNames, ∀ x ∈ checkNames, ¬ x <:+: n := by decide +kernel
  have hno : ∀ test ∈ registered m, ¬ t!"testUncrustifyCheck" <:+: test.1 ∧ ¬ t!"testDoxygenCheck" <:+: test.1 := by
    intro test ht
    obtain ⟨-, -, h | h | ⟨-, rfl⟩ | ⟨-, rfl⟩⟩ := names ht
    · exact ⟨hn _ h _ (by simp [checkNames]), hn _ h _ (by simp [checkNames])⟩
    · exact ⟨hu _ h _ (by simp [checkNames]), hu _ h _ (by simp [checkNames])⟩
    · dsimp only; exact ⟨by decide +kernel, by decide +kernel⟩
    · dsimp only; exact ⟨by decide +kernel, by decide +kernel⟩
  have e1 : mentions [t!"--test-code-style"] t!"--test-code-style" = true := by decide +kernel
  have e2 : mentions [t!"--test-doxygen"] t!"--test-code-style" = false := by decide +kernel
  have e3 : mentions [t!"--test-doxygen"] t!"--test-doxygen" = true := by decide +kernel
  have z1 : ∀ before, machineStatus m before (.ctestOnly [t!"testUncrustifyCheck"]) = 0 := fun before => by
    rw [only]
    rintro test ht ⟨x, hx, hi⟩
    obtain rfl := List.mem_singleton.1 hx
    exact absurd hi (hno test ht).1
  have z2 : ∀ before, machineStatus m before (.ctestOnly [t!"testDoxygenCheck"]) = 0 := fun before => by
    rw [only]
    rintro test ht ⟨x, hx, hi⟩
    obtain rfl := List.mem_singleton.1 hx
    exact absurd hi (hno test ht).2
  refine ⟨hno, (job hh hb _).2 ⟨hm, ?_⟩, (job hh hb _).2 ⟨hm, ?_⟩⟩
  · simp [checkStep, orDie, e1, z1]
  · simp [checkStep, orDie, e2, e3, z2]

/-- Non-vacuity of the theorems on machines: everything works, and BLT has a test of its own. -/
example : ∃ m : Machine, m.ending ≠ .raised ∧ m.cmake = 0 ∧ m.blt = true ∧ m.unitTests = true ∧ m.cppcheck = true ∧
    (∀ n ∈ m.bltTests, ∀ x ∈ checkNames, ¬ x <:+: n) ∧ (registered m).length = 17 ∧
    (run (machineStatus m) t!"environment.cmake" t!"Debug" [t!"--build-exe"]).2 = 0 :=
  ⟨⟨true, true, true, false, [t!"blt_gtest_smoke"], .finished [], 0, 0, 0, 0, fun _ => true, (0, 0), (0, 0)⟩,
    by decide, rfl, rfl, rfl, rfl, by decide +kernel, rfl, by decide +kernel⟩

/-- And one where CMake fails. -/
example : ∃ (m : Machine) (command : Text), m.ending = .finished command ∧ m.cmake ≠ 0 :=
  ⟨⟨true, true, true, false, [], .finished t!"cmake", 1, 0, 0, 0, fun _ => true, (0, 0), (0, 0)⟩, t!"cmake", rfl, by decide⟩

end Verif.Props
