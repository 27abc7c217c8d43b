import Verif.Lemmas.Workflow
import Verif.Props.CiScript

/-!
# Properties C118 and C119: the workflow, and the settings in the container
-/

namespace Verif.Props

open Verif.Spec Verif.Lemmas Verif.Ci

/-! ### the settings -/

/-- **C119, what holds.** With values that are one word each, the container gets the image, the arguments, the host-config,
the compilers (also as `CC` and `CXX`), the CUDA settings and the build type that the environment of the script has.  It
gets `NPROC` if that is in the environment; if it is there but empty, the number of processors.  What is missing: if `NPROC`
is not in the environment, the container does not get the number of processors either. -/
theorem C119_partial (env : Environment) (processors : Text) (h : PlainSettings env) :
    ∃ inv, invocation env processors = some inv ∧ inv.image = env.get t!"DOCKER_REPOSITORY" ∧
      inv.command = t!"/tmp/Shiva/scripts/ci_build_and_test_in_container.sh" :: wordsOf (env.get t!"BUILD_AND_TEST_ARGS") ∧
      inv.environment.get t!"HOST_CONFIG" = env.get t!"HOST_CONFIG" ∧
      inv.environment.get t!"CMAKE_C_COMPILER" = env.get t!"CMAKE_C_COMPILER" ∧
      inv.environment.get t!"CC" = env.get t!"CMAKE_C_COMPILER" ∧
      inv.environment.get t!"CMAKE_CXX_COMPILER" = env.get t!"CMAKE_CXX_COMPILER" ∧
      inv.environment.get t!"CXX" = env.get t!"CMAKE_CXX_COMPILER" ∧
      inv.environment.get t!"ENABLE_CUDA" = env.get t!"ENABLE_CUDA" ∧
      inv.environment.get t!"CMAKE_CUDA_ARCHITECTURES" = env.get t!"CMAKE_CUDA_ARCHITECTURES" ∧
      inv.environment.get t!"CMAKE_BUILD_TYPE" = env.get t!"CMAKE_BUILD_TYPE" ∧
      inv.environment.lookup t!"NPROC"
        = if env.lookup t!"NPROC" = some [] then some processors else env.lookup t!"NPROC" := by
  refine ⟨_, invocation_eq env processors h, rfl, rfl, ?_⟩
  have hb : env.get t!"CMAKE_BUILD_TYPE" = (env.lookup t!"CMAKE_BUILD_TYPE").getD [] := rfl
  rw [hb]
  generalize (if env.lookup t!"NPROC" = some [] then some processors else env.lookup t!"NPROC") = n
  cases n <;> cases env.lookup t!"CMAKE_BUILD_TYPE" <;> exact ⟨rfl, rfl, rfl, rfl, rfl, rfl, rfl, rfl, rfl⟩

/-- **C119, the number of jobs.** If `NPROC` is in the environment, `make` in the container runs that many jobs at once, and
as many as there are processors if `NPROC` is empty. -/
theorem C119_jobs (env : Environment) (processors value : Text) (h : PlainSettings env)
    (hn : env.lookup t!"NPROC" = some value) (hv : value.all Char.isDigit = true) (hp : processors ≠ [])
    (hd : processors.all Char.isDigit = true) :
    ∃ inv, invocation env processors = some inv ∧
      jobLimit (makeArguments inv) = some (if value = [] then processors else value) := by
  obtain ⟨inv, h1, -, -, -, -, -, -, -, -, -, -, h2⟩ := C119_partial env processors h
  refine ⟨inv, h1, ?_⟩
  obtain ⟨m, hm⟩ : ∃ m, m = if value = [] then processors else value := ⟨_, rfl⟩
  have hm0 : m ≠ [] := by
    by_cases h0 : value = []
    · rw [hm, if_pos h0]; exact hp
    · rw [hm, if_neg h0]; exact h0
  have hmd : m.all Char.isDigit = true := by
    by_cases h0 : value = []
    · rw [hm, if_pos h0]; exact hd
    · rw [hm, if_neg h0]; exact hv
  have hg : inv.environment.get t!"NPROC" = m := by
    rw [Environment.get, h2, hn, hm]
    by_cases h0 : value = []
    · simp [h0]
    · simp [h0]
  have hb : NoBlanks m := fun c hc => by
    have hdig := List.all_eq_true.1 hmd c hc
    unfold isBlank
    have h1 : c ≠ ' ' := by rintro rfl; exact absurd hdig (by decide)
    have h2 : c ≠ '\t' := by rintro rfl; exact absurd hdig (by decide)
    have h3 : c ≠ '\n' := by rintro rfl; exact absurd hdig (by decide)
    simp [h1, h2, h3]
  rw [makeArguments, hg, expand_words, wordsOf_noBlanks hb hm0, ← hm]
  simp [jobLimit, hm0, hmd]

/-- **C119 fails if `NPROC` is not in the environment**, as in the job for the coverage: the script asks for the number of
processors, but the container does not get it, and `make` runs any number of jobs at once. -/
theorem C119_violated (env : Environment) (processors : Text) (h : PlainSettings env) (hn : env.lookup t!"NPROC" = none) :
    (prepare env processors).get t!"NPROC" = processors ∧
    ∃ inv, invocation env processors = some inv ∧ makeArguments inv = [t!"-j", t!"VERBOSE=1"] ∧
      jobLimit (makeArguments inv) = none := by
  obtain ⟨inv, h1, -, -, -, -, -, -, -, -, -, -, h2⟩ := C119_partial env processors h
  have hg : inv.environment.get t!"NPROC" = [] := by rw [Environment.get, h2, hn]; rfl
  have hm : makeArguments inv = [t!"-j", t!"VERBOSE=1"] := by rw [makeArguments, hg]; rfl
  refine ⟨?_, inv, h1, hm, by rw [hm]; decide⟩
  unfold prepare
  dsimp only
  rw [if_pos, get_assign_same]
  rw [get_assign_ne _ _ (by decide), get_assign_ne _ _ (by decide)]
  simp [Shell.get, Environment.get, hn]

/-! ### the workflow -/

private theorem steps_success {r : WorkflowRun} {j : JobName} {l : List Nat} :
    stepsResult r j l = .success ↔ r.cancelled j = false ∧ ∀ n ∈ l, n = 0 := by
  unfold stepsResult
  cases r.cancelled j with
  | true => simp
  | false =>
    by_cases h : (l.all (· = 0)) = true
    · simp only [Bool.false_eq_true, if_false, h, if_true, true_and, true_iff]
      simpa using h
    · simp only [Bool.false_eq_true, if_false, h, true_and, reduceCtorEq, false_iff]
      simpa using h

private theorem after_success {r : WorkflowRun} {j : JobName} {l : List Nat} :
    afterTag r j l = .success ↔ tagHashResult r = .success ∧ r.cancelled j = false ∧ ∀ n ∈ l, n = 0 := by
  unfold afterTag
  by_cases h : tagHashResult r = .success
  · rw [if_pos h, steps_success]; simp [h]
  · rw [if_neg h]; simp [h]

private theorem builds_success {r : WorkflowRun} :
    linuxBuildsResult r = .success ↔ ∀ e ∈ matrix, buildResult r e = .success := by
  unfold linuxBuildsResult
  by_cases h : (matrix.all fun e => decide (buildResult r e = .success)) = true
  · rw [if_pos h]
    simpa using h
  · rw [if_neg h]
    refine ⟨fun hh => ?_, fun hh => absurd (by simpa using hh) h⟩
    split at hh <;> try cases hh
    split at hh <;> cases hh

/-- **C118, what holds.** The job `check_that_all_jobs_succeeded` succeeds exactly if it is not cancelled and all builds of the
matrix, the documentation check and the code checks succeeded.  What is missing: the coverage job. -/
theorem C118_partial (r : WorkflowRun) : verdict r = .success ↔ r.cancelled .verdict = false ∧
    (∀ e ∈ matrix, buildResult r e = .success) ∧ doxygenResult r = .success ∧ codeChecksResult r = .success := by
  unfold verdict
  rw [steps_success]
  refine and_congr_right fun _ => ?_
  rw [← builds_success]
  by_cases h : linuxBuildsResult r = .success ∧ doxygenResult r = .success ∧ codeChecksResult r = .success
  · rw [returnVal, if_pos h, if_pos (by decide), if_neg (by decide)]
    simp [h]
  · rw [returnVal, if_neg h, if_neg (by decide), if_pos (by decide)]
    simp [h]

/-- The runner's own environment sets none of the variables of the script, and the directory of the sources and the tag of
the images are one word each. -/
def UsualRunner (r : WorkflowRun) : Prop :=
  NoBlanks (r.base.get t!"GITHUB_WORKSPACE") ∧ NoBlanks r.hash ∧ r.base.lookup t!"DOCKER_RUN_ARGS" = none ∧
    r.base.lookup t!"ENABLE_CUDA" = none ∧ r.base.lookup t!"CMAKE_CUDA_ARCHITECTURES" = none

private theorem status_zero {site : Site} {env : Environment} (h : PlainSettings env) :
    scriptStatus site env = 0 ↔ ∃ inv, invocation env site.processors = some inv ∧ site.docker inv = 0 ∧
      (run (machineStatus (site.machine inv)) (env.get t!"HOST_CONFIG") (env.get t!"CMAKE_BUILD_TYPE")
        (wordsOf (env.get t!"BUILD_AND_TEST_ARGS"))).2 = 0 := by
  obtain ⟨inv, h1, -, h2, h3, -, -, -, -, -, -, h4, -⟩ := C119_partial env site.processors h
  have hs : scriptStatus site env = if site.docker inv ≠ 0 then site.docker inv else
      (run (machineStatus (site.machine inv)) (env.get t!"HOST_CONFIG") (env.get t!"CMAKE_BUILD_TYPE")
        (wordsOf (env.get t!"BUILD_AND_TEST_ARGS"))).2 := by
    rw [scriptStatus, h1]
    dsimp only
    rw [h3, h4, h2]
    simp
  rw [hs]
  constructor
  · intro hz
    by_cases hd : site.docker inv ≠ 0
    · rw [if_pos hd] at hz; exact absurd hz hd
    · rw [if_neg hd] at hz; exact ⟨inv, h1, Decidable.not_not.1 hd, hz⟩
  · rintro ⟨inv', h1', hd, hz⟩
    obtain rfl : inv = inv' := Option.some.inj (h1.symm.trans h1')
    rw [if_neg (by simpa using hd), hz]

private theorem noBlanks_append {a b : Text} (ha : NoBlanks a) (hb : NoBlanks b) : NoBlanks (a ++ b) := fun c hc =>
  (List.mem_append.1 hc).elim (ha c) (hb c)

theorem entries_plain : ∀ e ∈ matrix, (∀ c ∈ e.repository ++ t!"-", isBlank c = false) ∧
    (∀ c ∈ e.cxx, isBlank c = false) ∧ (∀ c ∈ e.cc, isBlank c = false) ∧ (∀ c ∈ e.cuda, isBlank c = false) ∧
    (∀ c ∈ e.architectures, isBlank c = false) ∧ e.repository.head? = some 'g' ∧ e.buildType ≠ [] ∧
    (wordsOf e.runArgs = [] ∨
      wordsOf e.runArgs = [t!"--cpus=1", t!"--memory=64g", t!"--runtime=nvidia", t!"--gpus", t!"all"]) := by
  decide +kernel

theorem build_plain (r : WorkflowRun) (hu : UsualRunner r) (e : Entry) (he : e ∈ matrix) :
    PlainSettings (buildEnvironment r.hash e ++ r.base) := by
  obtain ⟨u1, u2, -, -, -⟩ := hu
  obtain ⟨e1, e2, e3, e4, e5, e6, -, e7⟩ := entries_plain e he
  have hhead : (e.repository ++ t!"-" ++ r.hash).head? = some 'g' := by
    rw [List.append_assoc, List.head?_append, e6]; rfl
  refine ⟨u1, ?_, e3, e2, e4, e5, noBlanks_append e1 u2, ?_, ?_, ?_⟩
  · show NoBlanks t!"hostconfigs/environment.cmake"
    unfold NoBlanks; decide
  · show e.repository ++ t!"-" ++ r.hash ≠ []
    intro h0; rw [h0] at hhead; cases hhead
  · show (e.repository ++ t!"-" ++ r.hash).head? ≠ some '-'
    rw [hhead]; decide
  · show DockerOptions (wordsOf e.runArgs)
    rcases e7 with h | h <;> rw [h]
    · exact .none
    · exact .flag _ _ (by decide) (by decide) (by decide) (.flag _ _ (by decide) (by decide) (by decide)
        (.flag _ _ (by decide) (by decide) (by decide) (.gpus _ _ .none)))

private theorem check_plain (r : WorkflowRun) (hu : UsualRunner r) (cxx cc bt args : Text) (h1 : NoBlanks cxx)
    (h2 : NoBlanks cc) : PlainSettings (checkEnvironment r.hash cxx cc bt args ++ r.base) := by
  obtain ⟨u1, u2, u3, u4, u5⟩ := hu
  have g : ∀ n, r.base.lookup n = none → (∀ p ∈ checkEnvironment r.hash cxx cc bt args, n ≠ p.1) →
      (checkEnvironment r.hash cxx cc bt args ++ r.base).get n = [] := fun n hn hne => by
    rw [Environment.get, lookup_append, hn, List.lookup_eq_none_iff.2 fun p hp => by simpa using hne p hp]
    rfl
  have g1 := g t!"DOCKER_RUN_ARGS" u3 (by simp [checkEnvironment])
  have g2 := g t!"ENABLE_CUDA" u4 (by simp [checkEnvironment])
  have g3 := g t!"CMAKE_CUDA_ARCHITECTURES" u5 (by simp [checkEnvironment])
  refine ⟨u1, ?_, h2, h1, ?_, ?_, ?_, ?_, ?_, ?_⟩
  · show NoBlanks t!"hostconfigs/environment.cmake"
    unfold NoBlanks; decide
  · rw [g2]; intro c hc; cases hc
  · rw [g3]; intro c hc; cases hc
  · exact noBlanks_append (a := t!"geosx/ubuntu:22.04-") (by unfold NoBlanks; decide) u2
  · show t!"geosx/ubuntu:22.04-" ++ r.hash ≠ []
    simp
  · show (t!"geosx/ubuntu:22.04-" ++ r.hash).head? ≠ some '-'
    simp
  · rw [g1]; exact .none

/-- **C118, from end to end: the builds.** If the verdict is good, then for each of the fourteen entries of the matrix the
container was started from the image of the entry with its compilers and its build type, CMake and the build succeeded
in it, and every registered test passed that is not one of the checks. -/
theorem C118_builds (r : WorkflowRun) (hu : UsualRunner r) (h : verdict r = .success) (e : Entry) (he : e ∈ matrix) :
    ∃ inv, r.site.docker inv = 0 ∧ inv.image = e.repository ++ t!"-" ++ r.hash ∧
      inv.environment.get t!"CXX" = e.cxx ∧ inv.environment.get t!"CC" = e.cc ∧
      inv.environment.get t!"CMAKE_BUILD_TYPE" = e.buildType ∧ inv.environment.get t!"ENABLE_CUDA" = e.cuda ∧
      inv.environment.get t!"CMAKE_CUDA_ARCHITECTURES" = e.architectures ∧
      inv.environment.get t!"HOST_CONFIG" = t!"hostconfigs/environment.cmake" ∧
      (r.site.machine inv).ending ≠ .raised ∧ (r.site.machine inv).cmake = 0 ∧ (r.site.machine inv).build = 0 ∧
      ∀ test ∈ registered (r.site.machine inv), (∀ x ∈ checkNames, ¬ x <:+: test.1) → test.2 = true := by
  have hp := build_plain r hu e he
  obtain ⟨-, -, hz⟩ := after_success.1 (((C118_partial r).1 h).2.1 e he)
  have hz := hz (scriptStatus r.site (buildEnvironment r.hash e ++ r.base)) (by simp)
  obtain ⟨inv, h1, h2, h3⟩ := (status_zero hp).1 hz
  obtain ⟨inv', h1', k1, -, k3, -, k5, -, k7, k8, k9, k10, -⟩ := C119_partial _ r.site.processors hp
  obtain rfl : inv = inv' := Option.some.inj (h1.symm.trans h1')
  have hargs : wordsOf ((buildEnvironment r.hash e ++ r.base).get t!"BUILD_AND_TEST_ARGS") = [t!"--build-exe"] := by
    show wordsOf t!" --build-exe" = _
    decide
  rw [hargs] at h3
  refine ⟨inv, h2, k1, k7, k5, k10, k8, k9, k3, ?_⟩
  exact (C115_build (r.site.machine inv) _ _ (show t!"hostconfigs/environment.cmake" ≠ [] by decide)
    (entries_plain e he).2.2.2.2.2.2.1).1 h3

/-- So, with BLT and unit tests enabled, as in `hostconfigs/environment.cmake`, a good verdict says that all fifteen unit tests
pass with every entry of the matrix. -/
theorem C118_unit_tests (r : WorkflowRun) (hu : UsualRunner r) (h : verdict r = .success)
    (hm : ∀ inv, inv.environment.get t!"HOST_CONFIG" = t!"hostconfigs/environment.cmake" →
      (r.site.machine inv).blt = true ∧ (r.site.machine inv).unitTests = true) (e : Entry) (he : e ∈ matrix) :
    ∃ inv, inv.image = e.repository ++ t!"-" ++ r.hash ∧ inv.environment.get t!"CMAKE_BUILD_TYPE" = e.buildType ∧
      ∀ n ∈ unitTestNames, (r.site.machine inv).passes n = true := by
  obtain ⟨inv, -, k1, -, -, k2, -, -, k3, h1, h2, h3, h4⟩ := C118_builds r hu h e he
  exact ⟨inv, k1, k2, C115_unit_tests _ t!"x" t!"x" (by decide) (by decide) (hm inv k3).1 (hm inv k3).2
    ((C115_build _ t!"x" t!"x" (by decide) (by decide)).2 ⟨h1, h2, h3, h4⟩)⟩

/-- **C118, from end to end: the code checks.** If the verdict is good, the container for the code checks was started, and when
CMake succeeded in it with BLT, each of the two tools that was found could be run and left a number of lines that is
a multiple of 256. -/
theorem C118_code_checks (r : WorkflowRun) (hu : UsualRunner r) (h : verdict r = .success)
    (hn : ∀ inv, ∀ n ∈ (r.site.machine inv).bltTests, ∀ x ∈ checkNames, ¬ x <:+: n) :
    ∃ inv, r.site.docker inv = 0 ∧ inv.image = t!"geosx/ubuntu:22.04-" ++ r.hash ∧
      (r.site.machine inv).ending ≠ .raised ∧ ((r.site.machine inv).cmake = 0 → (r.site.machine inv).blt = true →
        ((r.site.machine inv).cppcheck = true → (r.site.machine inv).cppcheckRun.1 = 0 ∧
          256 ∣ (r.site.machine inv).cppcheckRun.2) ∧
        ((r.site.machine inv).clangTidy = true → (r.site.machine inv).tidyRun.1 = 0 ∧
          256 ∣ (r.site.machine inv).tidyRun.2)) := by
  have hp : PlainSettings (codeChecksEnvironment r.hash ++ r.base) :=
    check_plain r hu _ _ _ _ (by unfold NoBlanks; decide) (by unfold NoBlanks; decide)
  obtain ⟨-, -, hz⟩ := after_success.1 ((C118_partial r).1 h).2.2.2
  have hz := hz (scriptStatus r.site (codeChecksEnvironment r.hash ++ r.base)) (by simp)
  obtain ⟨inv, h1, h2, h3⟩ := (status_zero hp).1 hz
  obtain ⟨inv', h1', k1, -⟩ := C119_partial _ r.site.processors hp
  obtain rfl : inv = inv' := Option.some.inj (h1.symm.trans h1')
  have hargs : wordsOf ((codeChecksEnvironment r.hash ++ r.base).get t!"BUILD_AND_TEST_ARGS") = [t!"--code-checks"] := by
    show wordsOf t!"--code-checks" = _
    decide
  rw [hargs] at h3
  refine ⟨inv, h2, k1, ?_⟩
  exact (C115_code_checks (r.site.machine inv) _ _ (show t!"hostconfigs/environment.cmake" ≠ [] by decide)
    (show t!"Release" ≠ [] by decide) (hn inv)).1 h3

/-- **C118, the configurations.** There are fourteen different builds: on both systems with both compilers in both build types without CUDA,
on Ubuntu so with CUDA too, and on RHEL with CUDA and both compilers in the release only. -/
theorem C118_configurations : matrix.length = 14 ∧ matrix.Nodup ∧
    (∀ bt ∈ [t!"Debug", t!"Release"],
      (∀ cxx ∈ [t!"clang++", t!"/opt/rh/gcc-toolset-13/root/bin/g++"],
        ∃ e ∈ matrix, e.repository = t!"geosx/ubi:8.10" ∧ e.cxx = cxx ∧ e.buildType = bt ∧ e.cuda = []) ∧
      ∀ cxx ∈ [t!"/usr/bin/clang++", t!"/usr/bin/g++"],
        (∃ e ∈ matrix, e.repository = t!"geosx/ubuntu:22.04" ∧ e.cxx = cxx ∧ e.buildType = bt ∧ e.cuda = []) ∧
        ∃ e ∈ matrix, e.repository = t!"geosx/ubuntu:22.04-cuda11.8" ∧ e.cxx = cxx ∧ e.buildType = bt ∧ e.cuda = t!"ON") ∧
    ∀ cxx ∈ [t!"clang++", t!"/opt/rh/gcc-toolset-13/root/bin/g++"],
      ∃ e ∈ matrix, e.repository = t!"geosx/ubi:8.10-cuda12.8" ∧ e.cxx = cxx ∧ e.buildType = t!"Release" ∧ e.cuda = t!"ON" := by
  decide +kernel

/-- **C119, the number of jobs in the workflow.** The builds with CUDA run one job at a time, the others as many as the runner has
processors. -/
theorem C119_matrix (r : WorkflowRun) (hu : UsualRunner r) (hp : r.site.processors ≠ [])
    (hd : r.site.processors.all Char.isDigit = true) (e : Entry) (he : e ∈ matrix) :
    ∃ inv, invocation (buildEnvironment r.hash e ++ r.base) r.site.processors = some inv ∧
      jobLimit (makeArguments inv) = some (if e.cuda = t!"ON" then t!"1" else r.site.processors) := by
  have hall : ∀ e ∈ matrix, e.nproc.all Char.isDigit = true ∧
      ((e.cuda = t!"ON" ∧ e.nproc = t!"1") ∨ (e.cuda ≠ t!"ON" ∧ e.nproc = [])) := by decide +kernel
  obtain ⟨h1, h2⟩ := hall e he
  obtain ⟨inv, hi, hj⟩ := C119_jobs _ r.site.processors e.nproc (build_plain r hu e he) rfl h1 hp hd
  refine ⟨inv, hi, hj.trans ?_⟩
  rcases h2 with ⟨a, b⟩ | ⟨a, b⟩
  · rw [if_pos a, b, if_neg (by decide)]
  · rw [if_neg a, b, if_pos rfl]

/-- **C118, from end to end: the coverage.** If the coverage job succeeded, the container was started with gcc in the build type Debug,
everything was built there with coverage, the report was made, all registered tests passed that are not one of the checks, and the upload
succeeded. -/
theorem C118_coverage (r : WorkflowRun) (hu : UsualRunner r) (h : coverageResult r = .success) :
    ∃ inv, r.site.docker inv = 0 ∧ inv.image = t!"geosx/ubuntu:22.04-" ++ r.hash ∧
      inv.environment.get t!"CXX" = t!"/usr/bin/g++" ∧ inv.environment.get t!"CMAKE_BUILD_TYPE" = t!"Debug" ∧
      t!"--code-coverage" ∈ inv.command ∧ (r.site.machine inv).cmake = 0 ∧ (r.site.machine inv).build = 0 ∧
      (r.site.machine inv).coverage = 0 ∧
      (∀ test ∈ registered (r.site.machine inv), (∀ x ∈ checkNames, ¬ x <:+: test.1) → test.2 = true) ∧ r.upload = 0 := by
  have hp : PlainSettings (coverageEnvironment r.hash ++ r.base) :=
    check_plain r hu _ _ _ _ (by unfold NoBlanks; decide) (by unfold NoBlanks; decide)
  obtain ⟨-, -, hz⟩ := after_success.1 h
  have hup := hz r.upload (by simp)
  have hz := hz (scriptStatus r.site (coverageEnvironment r.hash ++ r.base)) (by simp)
  obtain ⟨inv, h1, h2, h3⟩ := (status_zero hp).1 hz
  obtain ⟨inv', h1', k1, k2, -, -, -, -, k7, -, -, k10, -⟩ := C119_partial _ r.site.processors hp
  obtain rfl : inv = inv' := Option.some.inj (h1.symm.trans h1')
  have hargs : wordsOf ((coverageEnvironment r.hash ++ r.base).get t!"BUILD_AND_TEST_ARGS") = [t!"--build-exe", t!"--code-coverage"] := by
    show wordsOf t!"--build-exe --code-coverage" = _
    decide
  rw [hargs] at h3 k2
  rcases hr : run (machineStatus (r.site.machine inv)) ((coverageEnvironment r.hash ++ r.base).get t!"HOST_CONFIG")
    ((coverageEnvironment r.hash ++ r.base).get t!"CMAKE_BUILD_TYPE") [t!"--build-exe", t!"--code-coverage"] with ⟨trace, code⟩
  rw [hr] at h3
  dsimp only at h3
  subst h3
  obtain ⟨-, -, -, htask⟩ := C115_partial _ _ _ _ (by unfold Plain; decide +kernel) (by unfold OneJob; decide +kernel) trace hr
  have hmake : (r.site.machine inv).cmake = 0 ∧ (r.site.machine inv).build = 0 := by
    rcases htask .build (by unfold Task.Asked; decide) .make (by decide) with ⟨_, _, -, hs⟩ | ⟨hs, -⟩
    · have hs : (if (r.site.machine inv).cmake ≠ 0 then 2 else (r.site.machine inv).build) = 0 := hs
      by_cases hc : (r.site.machine inv).cmake = 0
      · rw [if_neg (by simpa using hc)] at hs; exact ⟨hc, hs⟩
      · rw [if_pos hc] at hs; cases hs
    · cases hs
  refine ⟨inv, h2, k1, k7, k10, by rw [k2]; simp, hmake.1, hmake.2, ?_, ?_, hup⟩
  · rcases htask .coverage (by unfold Task.Asked; decide) .makeCoverage (by decide) with ⟨_, _, -, hs⟩ | ⟨hs, -⟩
    · have hs : (if (r.site.machine inv).cmake ≠ 0 then 2 else (r.site.machine inv).coverage) = 0 := hs
      rw [if_neg (by simpa using hmake.1)] at hs; exact hs
    · cases hs
  · rcases htask .unitTests (by unfold Task.Asked; decide) (.ctestExcept checkNames) (by decide) with ⟨_, _, -, hs⟩ | ⟨hs, -⟩
    · have hs : (if ((registered (r.site.machine inv)).all fun t => selected checkNames t.1 || t.2) = true then 0 else 8) = 0 := hs
      by_cases ha : ((registered (r.site.machine inv)).all fun t => selected checkNames t.1 || t.2) = true
      · intro test ht hx
        have := List.all_eq_true.1 ha test ht
        rw [Bool.or_eq_true] at this
        refine this.resolve_left fun hsel => ?_
        obtain ⟨x, hm, hi⟩ : ∃ x ∈ checkNames, x <:+: test.1 := by simpa [selected] using hsel
        exact hx x hm hi
      · rw [if_neg ha] at hs; cases hs
    · cases hs

/-- A machine on which all is well but for the coverage. -/
private def goodMachine : Machine :=
  { blt := true, unitTests := true, cppcheck := true, clangTidy := true, bltTests := [], ending := .finished [],
    cmake := 0, build := 0, coverage := 2, copy := 0, passes := fun _ => true, cppcheckRun := (0, 0), tidyRun := (0, 0) }

private def sampleRun : WorkflowRun :=
  { base := [(t!"GITHUB_WORKSPACE", t!"/home/runner/work/Shiva/Shiva")],
    site := ⟨t!"4", fun _ => 0, fun _ => goodMachine⟩, checkout := fun _ => 0,
    hash := t!"310f70ba6065b94858af2cafeba828ea76c02a1d", upload := 0, cancelled := fun _ => false }

/-- **C118 fails for the coverage.** The coverage job fails, and the verdict is that all jobs succeeded. -/
theorem C118_violated : ∃ r : WorkflowRun, UsualRunner r ∧ coverageResult r = .failure ∧ verdict r = .success :=
  ⟨sampleRun, by unfold UsualRunner NoBlanks; decide +kernel, by decide +kernel, by decide +kernel⟩

/-- Non-vacuity of C118 and C119: a run with a good verdict; the settings of an entry with CUDA, and those of the
coverage job, which has no `NPROC`. -/
example : verdict sampleRun = .success ∧ UsualRunner sampleRun ∧ matrix.length = 14 ∧
    coverageResult { sampleRun with site := ⟨t!"4", fun _ => 0, fun _ => { goodMachine with coverage := 0 }⟩ } = .success ∧
    PlainSettings (buildEnvironment sampleRun.hash matrix[8] ++ sampleRun.base) ∧
    (buildEnvironment sampleRun.hash matrix[8] ++ sampleRun.base).lookup t!"NPROC" = some t!"1" ∧
    (buildEnvironment sampleRun.hash matrix[0] ++ sampleRun.base).lookup t!"NPROC" = some [] ∧
    PlainSettings (coverageEnvironment sampleRun.hash ++ sampleRun.base) ∧
    (coverageEnvironment sampleRun.hash ++ sampleRun.base).lookup t!"NPROC" = none := by
  have hu : UsualRunner sampleRun := by unfold UsualRunner NoBlanks; decide +kernel
  exact ⟨by decide +kernel, hu, by decide +kernel, by decide +kernel, build_plain _ hu _ (by decide +kernel), by decide +kernel, by decide +kernel,
    check_plain _ hu _ _ _ _ (by unfold NoBlanks; decide) (by unfold NoBlanks; decide), by decide +kernel⟩

end Verif.Props
