import Verif.Lemmas.ConfigBuild

/-!
# C110, C111: configuring a build
-/

namespace Verif.Props

open Verif.Spec Verif.Lemmas Verif.ConfigBuild

/-! ### C110 -/

/-- **C110, what holds: the effect.**  However the script ends, whatever is not in the build directory or the
installation directory is as it was.  If it ends without an exception, both directories exist, the installation
directory is empty, and the build directory holds nothing but the command, in the file `cmake_cmd`.  (If the two
directories are the same, it holds the command.) -/
theorem C110_effect_partial (t : Tree) (cwd : Loc) (script : Text) (r : BuildRequest) (hc : Proper cwd)
    (hs : ¬ t!"//" <+: r.hostconfig) :
    (∀ l, ¬ r.buildPlace cwd <+: l → ¬ r.installPlace cwd <+: l →
      (run t cwd script r).1.read l = t.read l ∧ (l ∈ t.dirs → l ∈ (run t cwd script r).1.dirs)) ∧
    (∀ command, (run t cwd script r).2 = .finished command → t.Closed →
      (∀ l, (run t cwd script r).1.read l = if l = r.buildPlace cwd ++ [t!"cmake_cmd"] then some command
        else if r.buildPlace cwd <+: l ∨ r.installPlace cwd <+: l then none else t.read l) ∧
      r.buildPlace cwd ∈ (run t cwd script r).1.dirs ∧ r.installPlace cwd ∈ (run t cwd script r).1.dirs) := by
  rw [run_eq hc hs, runInstall_eq hc hs]
  unfold writeCommand
  have b1 := remake_outside t (r.buildPlace cwd)
  have b2 := remake_outside (remake t (r.buildPlace cwd)).1 (r.installPlace cwd)
  refine ⟨fun l h1 h2 => ?_, fun command hf ht => ?_⟩
  · split
    · split
      · split
        · exact ⟨b1.1 l h1, fun hl => b1.2 l hl h1⟩
        · split
          · split
            · exact ⟨(b2.1 l h2).trans (b1.1 l h1), fun hl => b2.2 l (b1.2 l hl h1) h2⟩
            · split
              · refine ⟨?_, fun hl => b2.2 l (b1.2 l hl h1) h2⟩
                dsimp only
                rw [read_write, if_neg]
                · exact (b2.1 l h2).trans (b1.1 l h1)
                · rintro rfl; exact h1 (List.prefix_append _ _)
              · exact ⟨(b2.1 l h2).trans (b1.1 l h1), fun hl => b2.2 l (b1.2 l hl h1) h2⟩
          · exact ⟨(b2.1 l h2).trans (b1.1 l h1), fun hl => b2.2 l (b1.2 l hl h1) h2⟩
      · exact ⟨b1.1 l h1, fun hl => b1.2 l hl h1⟩
    · exact ⟨rfl, id⟩
  · split at hf
    · rename_i c1
      split at hf
      · rename_i c2
        split at hf
        · cases hf
        · rename_i c3
          split at hf
          · rename_i c4
            split at hf
            · cases hf
            · rename_i c5
              split at hf
              · rename_i c6
                rw [if_pos c1, if_pos c2, if_neg c3, if_pos c4, if_neg c5, if_pos c6]
                have ht2 := closed_remake ht c2 (remake_clear ht c2)
                have d1 := remake_inside ht c2
                have d2 := remake_inside ht2 c4
                injection hf with hf
                have hB : r.buildPlace cwd ∈ (remake (remake t (r.buildPlace cwd)).1 (r.installPlace cwd)).1.dirs := by
                  have := c6
                  unfold Tree.canWrite at this
                  simp only [Bool.and_eq_true, List.dropLast_concat] at this
                  simpa using this.1.2
                refine ⟨fun l => ?_, hB, (d2.2 _).2 (.inl List.prefix_rfl)⟩
                dsimp only
                rw [read_write, hf]
                split
                · rfl
                · rw [d2.1, d1.1]
                  by_cases p1 : r.installPlace cwd <+: l
                  · rw [if_pos p1, if_pos (.inr p1)]
                  · by_cases p2 : r.buildPlace cwd <+: l
                    · rw [if_neg p1, if_pos p2, if_pos (.inl p2)]
                    · rw [if_neg p1, if_neg p2, if_neg (by simp [p1, p2])]
              · cases hf
          · cases hf
      · cases hf
    · cases hf

/-- **C110, what holds: when the script ends without an exception.**  It does if the host configuration is a file,
no file is in the way of the two directories, neither is the root, the build directory does not contain the current
directory unless the installation directory is given by an absolute name, and the installation directory is neither above
the build directory nor at or below the place of the file `cmake_cmd`. -/
theorem C110_finishes_partial (t : Tree) (cwd : Loc) (script : Text) (r : BuildRequest) (hc : Proper cwd)
    (hs : ¬ t!"//" <+: r.hostconfig) (ht : t.Closed) (hh : (t.read (r.hostPlace cwd)).isSome)
    (hbf : ∀ l, l <+: r.buildPlace cwd → t.read l = none) (hif : ∀ l, l <+: r.installPlace cwd → t.read l = none)
    (hb0 : r.buildPlace cwd ≠ []) (hi0 : r.installPlace cwd ≠ [])
    (hcwd : ¬ r.buildPlace cwd <+: cwd ∨ isAbs r.installpath = true)
    (hn : r.installPlace cwd <+: r.buildPlace cwd → r.installPlace cwd = r.buildPlace cwd)
    (hm : ¬ r.buildPlace cwd ++ [t!"cmake_cmd"] <+: r.installPlace cwd) :
    ∃ command, (run t cwd script r).2 = .finished command := by
  rw [run_eq hc hs, if_pos ((isThere_iff _ _).2 (.inl hh))]
  have c2 := remake_ok (t := t) hb0 hbf
  have d1 := remake_inside ht c2
  have c4 := remake_ok (t := (remake t (r.buildPlace cwd)).1) hi0 fun l hl => by
    rw [d1.1]; split
    · rfl
    · exact hif l hl
  have d2 := remake_inside (closed_remake ht c2 hbf) c4
  rw [if_pos c2, runInstall_eq hc hs, if_neg, if_pos c4]
  · unfold writeCommand
    have hhd : r.hostPlace cwd ∉ t.dirs := by
      obtain ⟨x, hx⟩ := Option.isSome_iff_exists.1 hh
      exact (ht.1 _ (mem_of_read hx)).1
    rw [if_neg, if_pos]
    · exact ⟨_, rfl⟩
    · unfold Tree.canWrite
      simp only [Bool.and_eq_true, List.dropLast_concat, Bool.not_eq_true', List.contains_eq_mem, decide_eq_true_eq,
        decide_eq_false_iff_not]
      refine ⟨⟨by simp, (d2.2 _).2 ?_⟩, fun hd => ?_⟩
      · by_cases e : r.installPlace cwd <+: r.buildPlace cwd
        · exact .inl (by rw [hn e])
        · exact .inr ⟨(d1.2 _).2 (.inl List.prefix_rfl), e⟩
      · rcases (d2.2 _).1 hd with hd | ⟨hd, -⟩
        · exact hm hd
        · rcases (d1.2 _).1 hd with hd | ⟨-, hd⟩
          · have := hd.length_le
            rw [List.length_append, List.length_singleton] at this
            omega
          · exact hd (List.prefix_append _ _)
    · simp only [List.contains_eq_mem, decide_eq_true_eq]
      intro hd
      rcases (d2.2 _).1 hd with hd | ⟨hd, -⟩
      · rw [hif _ hd] at hh; cases hh
      · rcases (d1.2 _).1 hd with hd | ⟨hd, -⟩
        · rw [hbf _ hd] at hh; cases hh
        · exact hhd hd
  · rcases hcwd with h | h
    · simp [← List.isPrefixOf_iff_prefix] at h ⊢
      simp [h]
    · unfold pathArgument
      rw [if_pos (isAbs_ne_nil h), h]
      simp

/-- **C110, what holds: nothing the user has is lost** if it is neither in the build directory nor in the installation
directory; with the paths not given, only `build-…` and `install-…` in the current directory are touched. -/
theorem C110_kept_partial (t : Tree) (cwd : Loc) (script : Text) (r : BuildRequest) (hc : Proper cwd)
    (hs : ¬ t!"//" <+: r.hostconfig) (hb : r.buildpath = []) (hi : r.installpath = []) {l : Loc} {x : Text}
    (hl : t.read l = some x) (h1 : ¬ cwd ++ [r.defaultName cwd t!"build"] <+: l)
    (h2 : ¬ cwd ++ [r.defaultName cwd t!"install"] <+: l) : (run t cwd script r).1.read l = some x := by
  have e1 : r.buildPlace cwd = cwd ++ [r.defaultName cwd t!"build"] := by rw [BuildRequest.buildPlace, if_pos hb]
  have e2 : r.installPlace cwd = cwd ++ [r.defaultName cwd t!"install"] := by rw [BuildRequest.installPlace, if_pos hi]
  rw [((C110_effect_partial t cwd script r hc hs).1 l (by rw [e1]; exact h1) (by rw [e2]; exact h2)).1, hl]

/-- The sources of Shiva, in part, with a build directory from an earlier run. -/
def shivaTree : Tree where
  files := [([t!"shiva", t!"CMakeLists.txt"], t!"project()"), ([t!"shiva", t!"hostconfigs", t!"a.cmake"], t!"set()"),
    ([t!"shiva", t!"scripts", t!"config-build.py"], t!"import"),
    ([t!"shiva", t!"build-a-debug", t!"old.o"], t!"o")]
  dirs := [[], [t!"shiva"], [t!"shiva", t!"hostconfigs"], [t!"shiva", t!"scripts"], [t!"shiva", t!"build-a-debug"]]

/-- `scripts/config-build.py -hc hostconfigs/a.cmake`. -/
def plainRequest : BuildRequest := ⟨[], [], .debug, false, false, false, t!"hostconfigs/a.cmake", false, false, []⟩

theorem closed_of {t : Tree} (h1 : ∀ f ∈ t.files, f.1 ∉ t.dirs ∧ ∀ l ∈ f.1.inits, l ≠ f.1 → l ∈ t.dirs)
    (h2 : ∀ d ∈ t.dirs, ∀ l ∈ d.inits, l ∈ t.dirs) : t.Closed :=
  ⟨fun f hf => ⟨(h1 f hf).1, fun l hl => (h1 f hf).2 l ((List.mem_inits l f.1).2 hl)⟩,
    fun d hd l hl => h2 d hd l ((List.mem_inits l d).2 hl)⟩

theorem shivaTree_closed : shivaTree.Closed := closed_of (by decide +kernel) (by decide +kernel)

theorem proper_shiva : Proper [t!"shiva"] := by
  intro w hw
  rw [List.mem_singleton.1 hw]
  unfold ProperName
  decide

/-- With the sources in `/shiva`, the script called in that directory without paths meets the hypotheses: it ends well,
deletes the old build directory, and keeps the sources. -/
example : ∃ command, (run shivaTree [t!"shiva"] t!"scripts/config-build.py" plainRequest).2 = .finished command ∧
    (run shivaTree [t!"shiva"] t!"scripts/config-build.py" plainRequest).1.read [t!"shiva", t!"CMakeLists.txt"]
      = some t!"project()" ∧
    (run shivaTree [t!"shiva"] t!"scripts/config-build.py" plainRequest).1.read [t!"shiva", t!"build-a-debug", t!"old.o"]
      = none := by
  have e1 : plainRequest.buildPlace [t!"shiva"] = [t!"shiva", t!"build-a-debug"] := by decide
  have e2 : plainRequest.installPlace [t!"shiva"] = [t!"shiva", t!"install-a-debug"] := by decide
  have hs : ¬ t!"//" <+: plainRequest.hostconfig := by decide
  obtain ⟨command, h⟩ := C110_finishes_partial shivaTree [t!"shiva"] t!"scripts/config-build.py" plainRequest proper_shiva
    hs shivaTree_closed (by decide)
    (by rw [e1]; intro l hl; revert l; simp only [← List.mem_inits]; decide)
    (by rw [e2]; intro l hl; revert l; simp only [← List.mem_inits]; decide)
    (by rw [e1]; decide) (by rw [e2]; decide) (.inl (by rw [e1]; decide)) (by rw [e1, e2]; decide)
    (by rw [e1, e2]; decide)
  refine ⟨command, h, C110_kept_partial shivaTree _ _ plainRequest proper_shiva hs rfl rfl (by decide) (by decide)
    (by decide), ?_⟩
  rw [((C110_effect_partial shivaTree _ _ plainRequest proper_shiva hs).2 command h shivaTree_closed).1, e1, e2,
    if_neg (by decide), if_pos (by decide)]

/-- **C110 is violated: sources.**  `-bp .` in the directory of the sources deletes them, and the script then ends with an
exception. -/
theorem C110_violated : ∃ (t : Tree) (cwd : Loc) (script : Text) (r : BuildRequest) (source : Loc),
    t.Closed ∧ Proper cwd ∧ (t.read (r.hostPlace cwd)).isSome ∧ (t.read source).isSome ∧
    (run t cwd script r).1.read source = none ∧ (run t cwd script r).1.read (r.hostPlace cwd) = none ∧
    (run t cwd script r).2 = .raised :=
  ⟨shivaTree, [t!"shiva"], t!"scripts/config-build.py", { plainRequest with buildpath := t!"." },
    [t!"shiva", t!"CMakeLists.txt"], shivaTree_closed, proper_shiva, by decide +kernel, by decide +kernel,
    by decide +kernel, by decide +kernel, by decide +kernel⟩

/-- **C110 is violated: host configuration.**  One that is kept in the build directory is deleted, and CMake is still run
with it. -/
theorem C110_violated_hostconfig : ∃ (t : Tree) (cwd : Loc) (script : Text) (r : BuildRequest) (command : Text),
    t.Closed ∧ Proper cwd ∧ (t.read (r.hostPlace cwd)).isSome ∧ (run t cwd script r).2 = .finished command ∧
    (run t cwd script r).1.read (r.hostPlace cwd) = none ∧ t!"cmake -C " ++ render (r.hostPlace cwd) <+: command :=
  ⟨shivaTree, [t!"shiva"], t!"scripts/config-build.py", { plainRequest with buildpath := t!"hostconfigs" },
    t!"cmake -C /shiva/hostconfigs/a.cmake -DCMAKE_BUILD_TYPE=Debug -DCMAKE_INSTALL_PREFIX=/shiva/install-a-debug /shiva/scripts/.. ",
    shivaTree_closed, proper_shiva, by decide +kernel, by decide +kernel, by decide +kernel, by decide +kernel⟩

/-- A tree with other software in `/usr/local`. -/
def localTree : Tree := ⟨([t!"usr", t!"local", t!"lib.so"], t!"x") :: shivaTree.files,
  [t!"usr", t!"local"] :: [t!"usr"] :: shivaTree.dirs⟩

/-- **C110 is violated: other software.**  `-ip /usr/local` deletes what is installed there. -/
theorem C110_violated_install : ∃ (t : Tree) (cwd : Loc) (script : Text) (r : BuildRequest) (other : Loc),
    t.Closed ∧ Proper cwd ∧ r.installpath = t!"/usr/local" ∧ (t.read other).isSome ∧
    (∃ command, (run t cwd script r).2 = .finished command) ∧ (run t cwd script r).1.read other = none :=
  ⟨localTree, [t!"shiva"], t!"scripts/config-build.py", { plainRequest with installpath := t!"/usr/local" },
    [t!"usr", t!"local", t!"lib.so"], closed_of (by decide +kernel) (by decide +kernel), proper_shiva, rfl,
    by decide +kernel, ⟨_, rfl⟩, by decide +kernel⟩

/-! ### C111 -/

/-- The command handed to the shell, as a text. -/
theorem finished_command {t : Tree} {cwd : Loc} {script : Text} {r : BuildRequest} {command : Text} (hc : Proper cwd)
    (hh : ¬ t!"//" <+: r.hostconfig) (hi : ¬ t!"//" <+: r.installpath) (hs : ¬ t!"//" <+: script)
    (hp : Proper (locate cwd script)) (hrun : (run t cwd script r).2 = .finished command) :
    command = commandLine r (render (r.hostPlace cwd)) (render (r.installPlace cwd))
      (render (locate cwd script).dropLast) := by
  have h1 : command = commandOf cwd script r := by
    rw [run_eq hc hh, runInstall_eq hc hh] at hrun
    unfold writeCommand at hrun
    split at hrun
    · split at hrun
      · split at hrun
        · cases hrun
        · split at hrun
          · split at hrun
            · cases hrun
            · split at hrun
              · injection hrun with h; exact h.symm
              · cases hrun
          · cases hrun
      · cases hrun
    · cases hrun
  have h2 : Single (pathArgument r.installpath t!"install" (platformInfo (PyPath.abspath (render cwd) r.hostconfig))
      r.buildtype.small) := by
    unfold pathArgument
    split
    · exact hi
    · rw [single_iff]; intro q hq; injection hq with h; revert h; decide
  rw [h1, commandOf, abspath_eq hc h2, abspath_eq hc hs, locate_install hc hh, abspath_eq hc hh, dirname_render' hp]
  rfl

/-- **C111, what holds: arguments of plain characters and spaces.**  CMake gets the arguments asked for, except that each
unknown argument is cut at its spaces. -/
theorem C111_split_partial (t : Tree) (cwd : Loc) (script : Text) (r : BuildRequest) (command : Text) (hc : Proper cwd)
    (hh : ¬ t!"//" <+: r.hostconfig) (hi : ¬ t!"//" <+: r.installpath) (hs : ¬ t!"//" <+: script)
    (hp : Proper (locate cwd script)) (hrun : (run t cwd script r).2 = .finished command)
    (h1 : ∀ c ∈ render (r.hostPlace cwd), shellPlain c) (h2 : ∀ c ∈ render (r.installPlace cwd), shellPlain c)
    (h3 : ∀ c ∈ render (locate cwd script).dropLast, shellPlain c)
    (h4 : ∀ a ∈ r.others, ∀ c ∈ a, shellPlain c ∨ c = ' ') :
    shellWords command = some ({ r with others := r.others.flatMap spaceWords }.words cwd (locate cwd script)) := by
  rw [finished_command hc hh hi hs hp hrun]
  exact shellWords_commandLine h1 h2 h3 h4

/-- **C111, what holds.**  If the names of the host configuration, of the installation directory and of the directory of
the script are made of letters, digits and `-_@%+=:,./`, and so are the unknown arguments, none of them empty, then CMake
gets the arguments asked for. -/
theorem C111_command_partial (t : Tree) (cwd : Loc) (script : Text) (r : BuildRequest) (command : Text) (hc : Proper cwd)
    (hh : ¬ t!"//" <+: r.hostconfig) (hi : ¬ t!"//" <+: r.installpath) (hs : ¬ t!"//" <+: script)
    (hp : Proper (locate cwd script)) (hrun : (run t cwd script r).2 = .finished command)
    (h1 : ∀ c ∈ render (r.hostPlace cwd), shellPlain c) (h2 : ∀ c ∈ render (r.installPlace cwd), shellPlain c)
    (h3 : ∀ c ∈ render (locate cwd script).dropLast, shellPlain c)
    (h4 : ∀ a ∈ r.others, a ≠ [] ∧ ∀ c ∈ a, shellPlain c) :
    shellWords command = some (r.words cwd (locate cwd script)) := by
  rw [C111_split_partial t cwd script r command hc hh hi hs hp hrun h1 h2 h3 fun a ha c hca => .inl ((h4 a ha).2 c hca)]
  have e : r.others.flatMap spaceWords = r.others := by
    have : ∀ l : List Text, (∀ a ∈ l, a ≠ [] ∧ ∀ c ∈ a, shellPlain c) → l.flatMap spaceWords = l := by
      intro l hl
      induction l with
      | nil => rfl
      | cons a l ih =>
        rw [List.flatMap_cons, ih fun b hb => hl b (by simp [hb]), spaceWords_plain (hl a (by simp)).2 (hl a (by simp)).1]
        rfl
    exact this _ h4
  rw [e]

/-- The text written to `cmake_cmd` is the command handed to the shell, so that running the file again configures the
same build. -/
theorem C111_cmake_cmd (t : Tree) (cwd : Loc) (script : Text) (r : BuildRequest) (command : Text) (hc : Proper cwd)
    (hh : ¬ t!"//" <+: r.hostconfig) (ht : t.Closed) (hrun : (run t cwd script r).2 = .finished command) :
    (run t cwd script r).1.read (r.buildPlace cwd ++ [t!"cmake_cmd"]) = some command := by
  rw [((C110_effect_partial t cwd script r hc hh).2 command hrun ht).1, if_pos rfl]

/-- `-bt Release -e -n -DSHIVA_ENABLE_CUDA=ON`. -/
def fullRequest : BuildRequest :=
  ⟨t!"/tmp/b", t!"/tmp/i", .release, true, false, true, t!"hostconfigs/a.cmake", true, false, [t!"-DSHIVA_ENABLE_CUDA=ON"]⟩

/-- The hypotheses are met, and these are the words. -/
example : ∃ command, (run shivaTree [t!"shiva"] t!"scripts/config-build.py" fullRequest).2 = .finished command ∧
    shellWords command = some [t!"cmake", t!"-C", t!"/shiva/hostconfigs/a.cmake", t!"-DCMAKE_BUILD_TYPE=Release",
      t!"-DCMAKE_INSTALL_PREFIX=/tmp/i", t!"-DCMAKE_EXPORT_COMPILE_COMMANDS=on", t!"-G",
      t!"Eclipse CDT4 - Unix Makefiles", t!"-GNinja", t!"-DSHIVA_ENABLE_CUDA=ON", t!"/shiva/scripts/.."] := by
  obtain ⟨command, h⟩ : ∃ command, (run shivaTree [t!"shiva"] t!"scripts/config-build.py" fullRequest).2
      = .finished command := ⟨_, rfl⟩
  refine ⟨command, h, (C111_command_partial shivaTree [t!"shiva"] t!"scripts/config-build.py" fullRequest command
    proper_shiva (by decide) (by decide) (by decide) ?_ h (by decide +kernel) (by decide +kernel) (by decide +kernel)
    (by decide +kernel)).trans (by decide +kernel)⟩
  unfold Proper ProperName
  decide +kernel

/-- **C111 is violated: an argument with a space.**  `"-DCMAKE_CXX_FLAGS=-O2 -g"` reaches CMake as two arguments. -/
theorem C111_violated : ∃ (t : Tree) (cwd : Loc) (script : Text) (r : BuildRequest) (command : Text),
    t.Closed ∧ Proper cwd ∧ r.others = [t!"-DCMAKE_CXX_FLAGS=-O2 -g"] ∧ (run t cwd script r).2 = .finished command ∧
    ∃ ws, shellWords command = some ws ∧ t!"-DCMAKE_CXX_FLAGS=-O2 -g" ∉ ws ∧ t!"-g" ∈ ws :=
  ⟨shivaTree, [t!"shiva"], t!"scripts/config-build.py", { plainRequest with others := [t!"-DCMAKE_CXX_FLAGS=-O2 -g"] },
    _, shivaTree_closed, proper_shiva, rfl, rfl, [t!"cmake", t!"-C", t!"/shiva/hostconfigs/a.cmake",
      t!"-DCMAKE_BUILD_TYPE=Debug", t!"-DCMAKE_INSTALL_PREFIX=/shiva/install-a-debug", t!"-DCMAKE_CXX_FLAGS=-O2", t!"-g",
      t!"/shiva/scripts/.."], by decide +kernel, by decide +kernel, by decide +kernel⟩

/-- The same sources in the directory `/my shiva`. -/
def spaceTree : Tree where
  files := [([t!"my shiva", t!"hostconfigs", t!"a.cmake"], t!"set()"),
    ([t!"my shiva", t!"scripts", t!"config-build.py"], t!"import")]
  dirs := [[], [t!"my shiva"], [t!"my shiva", t!"hostconfigs"], [t!"my shiva", t!"scripts"]]

/-- **C111 is violated: a directory with a space.**  CMake is given a host configuration that does not exist. -/
theorem C111_violated_directory : ∃ (t : Tree) (cwd : Loc) (script : Text) (r : BuildRequest) (command : Text),
    t.Closed ∧ Proper cwd ∧ (t.read (r.hostPlace cwd)).isSome ∧ (run t cwd script r).2 = .finished command ∧
    ∃ ws, shellWords command = some (t!"cmake" :: t!"-C" :: t!"/my" :: ws) ∧ t.isThere [t!"my"] = false :=
  ⟨spaceTree, [t!"my shiva"], t!"scripts/config-build.py", plainRequest, _, closed_of (by decide +kernel) (by decide +kernel),
    by unfold Proper ProperName; decide +kernel, by decide +kernel, rfl, [t!"shiva/hostconfigs/a.cmake",
      t!"-DCMAKE_BUILD_TYPE=Debug", t!"-DCMAKE_INSTALL_PREFIX=/my", t!"shiva/install-a-debug", t!"/my",
      t!"shiva/scripts/.."], by decide +kernel, by decide +kernel⟩

/-- Sources whose host configuration names a CMake. -/
def namedTree : Tree where
  files := [([t!"s", t!"a.cmake"], t!"# cmake executable path: /opt/cmake\nset()\n"), ([t!"s", t!"c.py"], t!"import")]
  dirs := [[], [t!"s"]]

/-- **C111 is violated: which CMake.**  The script extracts the CMake named in the host configuration, and then runs the
`cmake` found by the shell. -/
theorem C111_violated_cmake : ∃ (t : Tree) (cwd : Loc) (script : Text) (r : BuildRequest) (command : Text),
    t.Closed ∧ Proper cwd ∧ t!"# cmake executable path: /opt/cmake\n" <+: (t.read (r.hostPlace cwd)).getD [] ∧
    (run t cwd script r).2 = .finished command ∧ (shellWords command).map List.head? = some (some t!"cmake") :=
  ⟨namedTree, [t!"s"], t!"c.py", { plainRequest with hostconfig := t!"a.cmake" }, _,
    closed_of (by decide +kernel) (by decide +kernel), by unfold Proper ProperName; decide +kernel, by decide +kernel, rfl,
    by decide +kernel⟩

/-- **C111 is violated: the status.**  Whatever status CMake ends with, the script ends with success. -/
theorem C111_violated_status : ∃ (t : Tree) (cwd : Loc) (script : Text) (r : BuildRequest),
    t.Closed ∧ Proper cwd ∧ ∀ cmakeStatus, exitStatus cmakeStatus (run t cwd script r).2 = 0 :=
  ⟨shivaTree, [t!"shiva"], t!"scripts/config-build.py", plainRequest, shivaTree_closed, proper_shiva, fun _ => rfl⟩

end Verif.Props
