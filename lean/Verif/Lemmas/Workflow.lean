import Verif.Model.Workflow

/-! # How `docker run` is called -/

namespace Verif.Lemmas

open Verif.Spec Verif.Ci

/-! ### words -/

theorem splitFields_noBlanks {v : Text} (h : NoBlanks v) (cur : Option Text) :
    splitFields v cur = ([], if v = [] then cur else some (cur.getD [] ++ v)) := by
  induction v generalizing cur with
  | nil => simp [splitFields]
  | cons c cs ih =>
    have hc : isBlank c = false := h c (by simp)
    have hcs : NoBlanks cs := fun x hx => h x (by simp [hx])
    rw [splitFields, hc]
    simp only [Bool.false_eq_true, if_false]
    rw [ih hcs]
    cases cs <;> simp

theorem splitFields_words (v : Text) (cur : Option Text) (hcur : ∀ w ∈ cur, w ≠ []) :
    (splitFields v cur).1 ++ (splitFields v cur).2.toList
      = ((v.splitOnP isBlank).modifyHead (cur.getD [] ++ ·)).filter (· ≠ []) := by
  induction v generalizing cur with
  | nil =>
    cases cur with
    | none => simp [splitFields, List.splitOnP_nil]
    | some w => simp [splitFields, List.splitOnP_nil, hcur w rfl]
  | cons c cs ih =>
    rw [splitFields, List.splitOnP_cons_eq_if_modifyHead]
    cases hc : isBlank c with
    | true =>
      simp only [if_true]
      rw [List.append_assoc, ih none (by simp)]
      have hid : List.modifyHead (fun x : Text => [] ++ x) (List.splitOnP isBlank cs) = List.splitOnP isBlank cs := by
        cases List.splitOnP isBlank cs <;> simp
      cases cur with
      | none => simp [show List.modifyHead (fun x : Text => x) (List.splitOnP isBlank cs) = _ from hid]
      | some w => simp [hcur w rfl, show List.modifyHead (fun x : Text => x) (List.splitOnP isBlank cs) = _ from hid]
    | false =>
      simp only [Bool.false_eq_true, if_false]
      rw [ih _ (by simp)]
      congr 1
      cases h : List.splitOnP isBlank cs with
      | nil => exact absurd h (List.splitOnP_ne_nil _ _)
      | cons w ws => simp

theorem expand_words (v : Text) : expandWord [.var v] none = wordsOf v := by
  have := splitFields_words v none (by simp)
  simp only [expandWord, wordsOf]
  rw [this]
  congr 1
  cases h : List.splitOnP isBlank v <;> simp

theorem expand_lit (t : Text) : expandWord [.lit t] none = [t] := by simp [expandWord]

theorem expand_setting (t v : Text) (h : NoBlanks v) : expandWord [.lit t, .var v] none = [t ++ v] := by
  simp only [expandWord, splitFields_noBlanks h]
  by_cases hv : v = [] <;> simp [hv]

theorem wordsOf_noBlanks {v : Text} (h : NoBlanks v) (hv : v ≠ []) : wordsOf v = [v] := by
  rw [← expand_words]
  simp [expandWord, splitFields_noBlanks h, hv]

/-! ### variables -/

theorem lookup_append (a b : Environment) (n : Text) : (a ++ b).lookup n = (a.lookup n).or (b.lookup n) := by
  induction a with
  | nil => simp
  | cons x a ih =>
    obtain ⟨m, v⟩ := x
    by_cases h : n = m
    · subst h; simp
    · have : (n == m) = false := beq_false_of_ne h
      simp [List.lookup_cons, this, ih]

theorem get_assign_same (s : Shell) (n v : Text) : (s.assign n v).get n = v := by
  unfold Shell.assign Shell.get Environment.get
  split
  · rw [lookup_append]; simp
  · rename_i h
    rw [lookup_append]
    have : s.exported.lookup n = none := Option.not_isSome_iff_eq_none.1 h
    simp [this]

theorem get_assign_ne (s : Shell) {n m : Text} (v : Text) (h : m ≠ n) : (s.assign n v).get m = s.get m := by
  have hb : (m == n) = false := beq_false_of_ne h
  unfold Shell.assign Shell.get Environment.get
  split <;> simp [lookup_append, List.lookup_cons, hb]

theorem exported_assign_ne (s : Shell) {n m : Text} (v : Text) (h : m ≠ n) :
    (s.assign n v).exported.lookup m = s.exported.lookup m := by
  have hb : (m == n) = false := beq_false_of_ne h
  unfold Shell.assign
  split <;> simp [List.lookup_cons, hb]

theorem exported_assign_same (s : Shell) (n v : Text) :
    (s.assign n v).exported.lookup n = (s.exported.lookup n).map fun _ => v := by
  unfold Shell.assign
  split
  · rename_i h
    obtain ⟨x, hx⟩ := Option.isSome_iff_exists.1 h
    simp [hx]
  · rename_i h
    have : s.exported.lookup n = none := Option.not_isSome_iff_eq_none.1 h
    simp [this]

theorem prepare_get (env : Environment) (processors : Text) :
    (prepare env processors).get t!"BUILD_DIR" = env.get t!"GITHUB_WORKSPACE" ∧
    (prepare env processors).get t!"BUILD_DIR_MOUNT_POINT" = t!"/tmp/Shiva" ∧
    (∀ n, n ≠ t!"BUILD_DIR" → n ≠ t!"BUILD_DIR_MOUNT_POINT" → n ≠ t!"NPROC" →
      (prepare env processors).get n = env.get n ∧ (prepare env processors).exported.lookup n = env.lookup n) ∧
    (prepare env processors).exported.lookup t!"NPROC"
      = if env.lookup t!"NPROC" = some [] then some processors else env.lookup t!"NPROC" := by
  obtain ⟨s, hs⟩ : ∃ s : Shell, s = (((⟨env, []⟩ : Shell).assign t!"BUILD_DIR"
    ((⟨env, []⟩ : Shell).get t!"GITHUB_WORKSPACE")).assign t!"BUILD_DIR_MOUNT_POINT" t!"/tmp/Shiva") := ⟨_, rfl⟩
  have hp : prepare env processors = if s.get t!"NPROC" = [] then s.assign t!"NPROC" processors else s := by
    rw [hs]; rfl
  have h0 : ∀ n, (⟨env, []⟩ : Shell).get n = env.get n := fun n => by simp [Shell.get]
  have e1 : s.get t!"BUILD_DIR" = env.get t!"GITHUB_WORKSPACE" := by
    rw [hs, get_assign_ne _ _ (by decide), get_assign_same, h0]
  have e2 : s.get t!"BUILD_DIR_MOUNT_POINT" = t!"/tmp/Shiva" := by rw [hs, get_assign_same]
  have e3 : ∀ n, n ≠ t!"BUILD_DIR" → n ≠ t!"BUILD_DIR_MOUNT_POINT" →
      s.get n = env.get n ∧ s.exported.lookup n = env.lookup n := fun n h1 h2 => by
    rw [hs, get_assign_ne _ _ h2, get_assign_ne _ _ h1, h0, exported_assign_ne _ _ h2, exported_assign_ne _ _ h1]
    exact ⟨rfl, rfl⟩
  obtain ⟨e4, e5⟩ := e3 t!"NPROC" (by decide) (by decide)
  rw [hp]
  by_cases hn : s.get t!"NPROC" = []
  · rw [if_pos hn]
    refine ⟨(get_assign_ne _ _ (by decide)).trans e1, (get_assign_ne _ _ (by decide)).trans e2, fun n h1 h2 h3 => ?_, ?_⟩
    · rw [get_assign_ne _ _ h3, exported_assign_ne _ _ h3]
      exact e3 n h1 h2
    · rw [exported_assign_same, e5]
      rw [e4, Environment.get] at hn
      cases h : env.lookup t!"NPROC" with
      | none => simp
      | some v =>
        rw [h] at hn
        have hv : v = [] := hn
        simp [hv]
  · rw [if_neg hn]
    refine ⟨e1, e2, fun n h1 h2 _ => e3 n h1 h2, ?_⟩
    rw [e5, if_neg]
    intro h
    rw [e4, Environment.get, h] at hn
    exact hn rfl

/-! ### `docker run` -/

theorem read_option (w : Text) (rest : List Text) (hr : rest ≠ []) (h1 : w.head? = some '-') (h2 : w ≠ t!"-e")
    (h3 : w ≠ t!"--gpus") : readArguments (w :: rest) = readArguments rest := by
  cases rest with
  | nil => exact absurd rfl hr
  | cons v rest => rw [readArguments, if_neg h2, if_neg h3, if_pos h1]

theorem read_options {opts : List Text} (h : DockerOptions opts) (rest : List Text) (hr : rest ≠ []) :
    readArguments (opts ++ rest) = readArguments rest := by
  induction h with
  | none => rfl
  | flag w ws h1 h2 h3 _ ih =>
    rw [List.cons_append, read_option w _ (by simp [hr]) h1 h2 h3, ih]
  | gpus v ws _ ih =>
    rw [List.cons_append, List.cons_append, readArguments, if_neg (by decide), if_pos rfl, ih]

theorem read_setting (v : Text) (rest : List Text) :
    readArguments (t!"-e" :: v :: rest) = (readArguments rest).map fun r => (v :: r.1, r.2) := by
  rw [readArguments, if_pos rfl]

theorem read_image (w v : Text) (rest : List Text) (h : w.head? ≠ some '-') :
    readArguments (w :: v :: rest) = some ([], w, v :: rest) := by
  rw [readArguments, if_neg, if_neg, if_neg h]
  · rintro rfl; exact h (by decide)
  · rintro rfl; exact h (by decide)

theorem setting_value (env : Environment) (n v : Text) (hn : '=' ∉ n) : setting env (n ++ '=' :: v) = some (n, v) := by
  have hall : ∀ c ∈ n, (decide (c ≠ '=')) = true := fun c hc => by
    rw [decide_eq_true_iff]; rintro rfl; exact hn hc
  unfold setting
  rw [if_pos (by simp), List.takeWhile_append_of_pos hall, List.dropWhile_append_of_pos hall]
  simp

theorem setting_name (env : Environment) (n : Text) (hn : '=' ∉ n) : setting env n = (env.lookup n).map fun v => (n, v) := by
  rw [setting, if_neg hn]

/-- The call of `docker run`. -/
theorem invocation_eq (env : Environment) (processors : Text) (h : PlainSettings env) :
    invocation env processors = some
      { image := env.get t!"DOCKER_REPOSITORY"
        environment :=
          (((if env.lookup t!"NPROC" = some [] then some processors else env.lookup t!"NPROC").map
            fun v => (t!"NPROC", v)).toList) ++
          ((env.lookup t!"CMAKE_BUILD_TYPE").map fun v => (t!"CMAKE_BUILD_TYPE", v)).toList ++
          [(t!"CMAKE_CUDA_ARCHITECTURES", env.get t!"CMAKE_CUDA_ARCHITECTURES"),
           (t!"ENABLE_CUDA", env.get t!"ENABLE_CUDA"), (t!"CXX", env.get t!"CMAKE_CXX_COMPILER"),
           (t!"CC", env.get t!"CMAKE_C_COMPILER"), (t!"CMAKE_CXX_COMPILER", env.get t!"CMAKE_CXX_COMPILER"),
           (t!"CMAKE_C_COMPILER", env.get t!"CMAKE_C_COMPILER"), (t!"HOST_CONFIG", env.get t!"HOST_CONFIG")]
        command := t!"/tmp/Shiva/scripts/ci_build_and_test_in_container.sh" ::
          wordsOf (env.get t!"BUILD_AND_TEST_ARGS") } := by
  obtain ⟨hw, h1, h2, h3, h4, h5, h6, h7, h8, ho⟩ := h
  obtain ⟨g1, g2, g3, g4⟩ := prepare_get env processors
  unfold invocation
  obtain ⟨s, hs⟩ : ∃ s, s = prepare env processors := ⟨_, rfl⟩
  rw [← hs] at g1 g2 g3 g4 ⊢
  have gv : ∀ n, n ≠ t!"BUILD_DIR" → n ≠ t!"BUILD_DIR_MOUNT_POINT" → n ≠ t!"NPROC" → s.get n = env.get n :=
    fun n a b c => (g3 n a b c).1
  have hvol : expandWord [.lit t!"--volume=", .var (env.get t!"GITHUB_WORKSPACE"), .lit t!":", .var t!"/tmp/Shiva"] none
      = [t!"--volume=" ++ env.get t!"GITHUB_WORKSPACE" ++ t!":/tmp/Shiva"] := by
    have hm : NoBlanks t!"/tmp/Shiva" := by unfold NoBlanks; decide
    simp only [expandWord, splitFields_noBlanks hw, splitFields_noBlanks hm]
    by_cases hv : env.get t!"GITHUB_WORKSPACE" = [] <;> simp [hv]
  have hscript : expandWord [.var t!"/tmp/Shiva", .lit t!"/scripts/ci_build_and_test_in_container.sh"] none
      = [t!"/tmp/Shiva/scripts/ci_build_and_test_in_container.sh"] := by decide
  have hargs : readArguments (dockerArguments s) = some
      ([t!"HOST_CONFIG=" ++ env.get t!"HOST_CONFIG", t!"CMAKE_C_COMPILER=" ++ env.get t!"CMAKE_C_COMPILER",
        t!"CMAKE_CXX_COMPILER=" ++ env.get t!"CMAKE_CXX_COMPILER", t!"CC=" ++ env.get t!"CMAKE_C_COMPILER",
        t!"CXX=" ++ env.get t!"CMAKE_CXX_COMPILER", t!"ENABLE_CUDA=" ++ env.get t!"ENABLE_CUDA",
        t!"CMAKE_CUDA_ARCHITECTURES=" ++ env.get t!"CMAKE_CUDA_ARCHITECTURES", t!"CMAKE_BUILD_TYPE", t!"NPROC"],
       env.get t!"DOCKER_REPOSITORY", t!"/tmp/Shiva/scripts/ci_build_and_test_in_container.sh" ::
         wordsOf (env.get t!"BUILD_AND_TEST_ARGS")) := by
    unfold dockerArguments
    rw [g1, g2, gv t!"DOCKER_RUN_ARGS" (by decide) (by decide) (by decide),
      gv t!"HOST_CONFIG" (by decide) (by decide) (by decide), gv t!"CMAKE_C_COMPILER" (by decide) (by decide) (by decide),
      gv t!"CMAKE_CXX_COMPILER" (by decide) (by decide) (by decide), gv t!"ENABLE_CUDA" (by decide) (by decide) (by decide),
      gv t!"CMAKE_CUDA_ARCHITECTURES" (by decide) (by decide) (by decide),
      gv t!"DOCKER_REPOSITORY" (by decide) (by decide) (by decide),
      gv t!"BUILD_AND_TEST_ARGS" (by decide) (by decide) (by decide), hvol, hscript, expand_lit, expand_lit,
      expand_words, expand_words, expand_words, wordsOf_noBlanks h6 h7, expand_setting _ _ h1, expand_setting _ _ h2,
      expand_setting _ _ h3, expand_setting _ _ h2, expand_setting _ _ h3, expand_setting _ _ h4, expand_setting _ _ h5]
    simp only [List.append_assoc, List.cons_append, List.nil_append]
    rw [read_option _ _ (by simp) (by rfl) (by decide) (by decide),
      read_option _ _ (by simp) (by rfl) (by simp) (by simp),
      read_option _ _ (by simp) (by rfl) (by decide) (by decide), read_options ho _ (by simp)]
    simp only [read_setting]
    rw [read_image _ _ _ h8]
    rfl
  dsimp only
  rw [hargs]
  simp only [Option.map_some, Option.some.injEq, Invocation.mk.injEq, true_and, and_true]
  have hb := (g3 t!"CMAKE_BUILD_TYPE" (by decide) (by decide) (by decide)).2
  simp only [List.reverse_cons, List.reverse_nil, List.nil_append, List.cons_append, List.filterMap_cons, List.filterMap_nil]
  rw [setting_name _ t!"NPROC" (by decide), setting_name _ t!"CMAKE_BUILD_TYPE" (by decide), g4, hb]
  have e1 := fun v => setting_value s.exported t!"HOST_CONFIG" v (by decide)
  have e2 := fun v => setting_value s.exported t!"CMAKE_C_COMPILER" v (by decide)
  have e3 := fun v => setting_value s.exported t!"CMAKE_CXX_COMPILER" v (by decide)
  have e4 := fun v => setting_value s.exported t!"CC" v (by decide)
  have e5 := fun v => setting_value s.exported t!"CXX" v (by decide)
  have e6 := fun v => setting_value s.exported t!"ENABLE_CUDA" v (by decide)
  have e7 := fun v => setting_value s.exported t!"CMAKE_CUDA_ARCHITECTURES" v (by decide)
  simp only [List.cons_append, List.nil_append] at e1 e2 e3 e4 e5 e6 e7
  simp only [e1, e2, e3, e4, e5, e6, e7]
  cases (if env.lookup t!"NPROC" = some [] then some processors else env.lookup t!"NPROC") <;>
    cases env.lookup t!"CMAKE_BUILD_TYPE" <;> rfl

end Verif.Lemmas
