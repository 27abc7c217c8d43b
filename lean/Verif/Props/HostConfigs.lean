import Verif.Lemmas.HostConfigs
import Verif.Props.CMakeConfig
import Verif.Props.Workflow

/-!
# C122: what a host configuration sets reaches the build
-/

namespace Verif.Props

open Verif.Spec Verif.Lemmas Verif.HostConfig Verif.CMakeConfig

/-- **C122, what holds.**  For each of the nine host configurations, in every environment: for every variable CMake gets what the
host configuration says last about it.  What is missing: `ENABLE_FIND_MPI` of `LLNL/tioga-cce-15.cmake`. -/
theorem C122_partial (env : Environment) (file : Text) (script : List HostCommand) (h : (file, script) ∈ hostConfigs) (n : Text)
    (hn : file = t!"LLNL/tioga-cce-15.cmake" → n ≠ t!"ENABLE_FIND_MPI") :
    (cacheAfter env script []).lookup n = lastSaid (told env script []) n := by
  have key : ∀ c ∈ hostConfigs, ∀ x ∈ settingsAll c.2,
      (c.1 = t!"LLNL/tioga-cce-15.cmake" → x.1 ≠ t!"ENABLE_FIND_MPI") → forcedAfter x.1 false (settingsAll c.2) = true := by
    decide +kernel
  refine last_counts env script n ?_
  by_cases hx : ∃ x ∈ settingsAll script, x.1 = n
  · obtain ⟨x, hx, rfl⟩ := hx
    exact key _ h x hx hn
  · exact forcedAfter_other (fun x hx' e => hx ⟨x, hx', e⟩) _

/-- **C122 is violated on Tioga.**  The host configuration says last that MPI is not to be looked for, since that fails there; CMake
gets that it is. -/
theorem C122_violated (env : Environment) : (t!"LLNL/tioga-cce-15.cmake", tioga) ∈ hostConfigs ∧
    lastSaid (told env tioga []) t!"ENABLE_FIND_MPI" = some t!"FALSE" ∧
    (cacheAfter env tioga []).lookup t!"ENABLE_FIND_MPI" = some t!"ON" := by
  refine ⟨by simp [hostConfigs], ?_, ?_⟩
  · rw [told_fixed env tioga (by decide +kernel)]; decide +kernel
  · rw [cacheAfter_fixed env tioga (by decide +kernel)]; decide +kernel

/-- **C122, the command line wins.**  With the command of `config-build.py` CMake gets for every variable what the user's arguments
say last about it; if they say nothing, the build type and the directory asked for; otherwise what it has after
the host configuration. -/
theorem C122_command_line (scripts : Text → Option (List HostCommand)) (env : Environment) (r : BuildRequest) (cwd script : Loc)
    (host : List HostCommand) (hs : scripts (render (r.hostPlace cwd)) = some host)
    (ho : ∀ a ∈ r.others, a ≠ t!"-C" ∧ a ≠ t!"-G") :
    ∃ cache, cacheOfArguments scripts env (r.words cwd script).tail [] = some cache ∧
      ∀ n, cache.lookup n = (lastSaid (r.others.filterMap definition) n).or (
        (([(t!"CMAKE_BUILD_TYPE", r.buildtype.name), (t!"CMAKE_INSTALL_PREFIX", render (r.installPlace cwd))] ++
          if r.exportcompilercommands then [(t!"CMAKE_EXPORT_COMPILE_COMMANDS", t!"on")] else []).lookup n).or
        ((cacheAfter env host []).lookup n)) := by
  have d1 : definition (t!"-DCMAKE_BUILD_TYPE=" ++ r.buildtype.name) = some (t!"CMAKE_BUILD_TYPE", r.buildtype.name) :=
    definition_of (name := t!"CMAKE_BUILD_TYPE") (by decide) (by decide)
  have d2 : definition (t!"-DCMAKE_INSTALL_PREFIX=" ++ render (r.installPlace cwd))
      = some (t!"CMAKE_INSTALL_PREFIX", render (r.installPlace cwd)) := 
    definition_of (name := t!"CMAKE_INSTALL_PREFIX") (by decide) (by decide)
  have d3 : definition t!"-DCMAKE_EXPORT_COMPILE_COMMANDS=on" = some (t!"CMAKE_EXPORT_COMPILE_COMMANDS", t!"on") :=
    definition_of (name := t!"CMAKE_EXPORT_COMPILE_COMMANDS") (by decide) (by decide)
  have d4 : definition t!"-GNinja" = none := by decide
  have d5 : definition t!"--graphviz=dependency.dot" = none := by decide
  have d6 : definition (render script.dropLast ++ t!"/..") = none := by
    unfold definition
    rw [if_neg]
    rintro ⟨⟨t, ht⟩, -⟩
    exact absurd (List.cons.inj ht).1 (by decide)
  have rest : ∀ cache, cacheOfArguments scripts env (r.others ++ [render script.dropLast ++ t!"/.."]) cache
      = some ((r.others.filterMap definition).reverse ++ cache) := by
    intro cache
    rw [arguments_plain]
    · rw [List.filterMap_append, List.filterMap_cons, d6]; simp
    · intro a ha
      rcases List.mem_append.1 ha with ha | ha
      · exact ho a ha
      · obtain rfl := List.mem_singleton.1 ha
        exact ⟨fun e => absurd (List.cons.inj e).1 (by decide), fun e => absurd (List.cons.inj e).1 (by decide)⟩
  refine ⟨(r.others.filterMap definition).reverse ++
    (((if r.exportcompilercommands then [(t!"CMAKE_EXPORT_COMPILE_COMMANDS", t!"on")] else []) ++
      [(t!"CMAKE_INSTALL_PREFIX", render (r.installPlace cwd)), (t!"CMAKE_BUILD_TYPE", r.buildtype.name)]) ++
        cacheAfter env host []), ?_, fun n => ?_⟩
  · have e : (r.words cwd script).tail = t!"-C" :: render (r.hostPlace cwd) ::
        (t!"-DCMAKE_BUILD_TYPE=" ++ r.buildtype.name) :: (t!"-DCMAKE_INSTALL_PREFIX=" ++ render (r.installPlace cwd)) ::
        ((if r.exportcompilercommands then [t!"-DCMAKE_EXPORT_COMPILE_COMMANDS=on"] else []) ++
        ((if r.eclipse then [t!"-G", t!"Eclipse CDT4 - Unix Makefiles"] else []) ++
        ((if r.xcode then [t!"-G", t!"Xcode"] else []) ++ ((if r.ninja then [t!"-GNinja"] else []) ++
        ((if r.graphviz then [t!"--graphviz=dependency.dot"] else []) ++
        (r.others ++ [render script.dropLast ++ t!"/.."])))))) := by
      unfold BuildRequest.words
      simp only [List.append_assoc, List.cons_append, List.nil_append, List.tail_cons]
    rw [e, cacheOfArguments, if_pos rfl, hs]
    dsimp only
    have n1 : ∀ w : Text, t!"-D" ++ w ≠ t!"-C" ∧ t!"-D" ++ w ≠ t!"-G" := fun w =>
      ⟨fun e => absurd (List.cons.inj (List.cons.inj e).2).1 (by decide),
        fun e => absurd (List.cons.inj (List.cons.inj e).2).1 (by decide)⟩
    rw [arguments_cons _ _ (t!"-DCMAKE_BUILD_TYPE=" ++ r.buildtype.name) _ _ (n1 _).1 (n1 _).2, d1,
      arguments_cons _ _ (t!"-DCMAKE_INSTALL_PREFIX=" ++ render (r.installPlace cwd)) _ _ (n1 _).1 (n1 _).2, d2]
    have s3 : ∀ l cache, cacheOfArguments scripts env
        ((if r.exportcompilercommands then [t!"-DCMAKE_EXPORT_COMPILE_COMMANDS=on"] else []) ++ l) cache =
        cacheOfArguments scripts env l
          ((if r.exportcompilercommands then [(t!"CMAKE_EXPORT_COMPILE_COMMANDS", t!"on")] else []) ++ cache) := by
      intro l cache
      cases r.exportcompilercommands with
      | false => rfl
      | true =>
        rw [if_pos rfl, if_pos rfl, List.cons_append, List.nil_append, arguments_cons _ _ _ _ _ (by decide) (by decide), d3]
        rfl
    have s4 : ∀ l cache, cacheOfArguments scripts env
        ((if r.eclipse then [t!"-G", t!"Eclipse CDT4 - Unix Makefiles"] else []) ++ l) cache =
        cacheOfArguments scripts env l cache := by
      intro l cache
      cases r.eclipse with
      | false => rfl
      | true => exact arguments_generator _ _ _ _ _
    have s5 : ∀ l cache, cacheOfArguments scripts env ((if r.xcode then [t!"-G", t!"Xcode"] else []) ++ l) cache =
        cacheOfArguments scripts env l cache := by
      intro l cache
      cases r.xcode with
      | false => rfl
      | true => exact arguments_generator _ _ _ _ _
    have s6 : ∀ l cache, cacheOfArguments scripts env ((if r.ninja then [t!"-GNinja"] else []) ++ l) cache =
        cacheOfArguments scripts env l cache := by
      intro l cache
      cases r.ninja with
      | false => rfl
      | true => rw [if_pos rfl, List.cons_append, List.nil_append, arguments_cons _ _ _ _ _ (by decide) (by decide), d4]; rfl
    have s7 : ∀ l cache, cacheOfArguments scripts env ((if r.graphviz then [t!"--graphviz=dependency.dot"] else []) ++ l) cache =
        cacheOfArguments scripts env l cache := by
      intro l cache
      cases r.graphviz with
      | false => rfl
      | true => rw [if_pos rfl, List.cons_append, List.nil_append, arguments_cons _ _ _ _ _ (by decide) (by decide), d5]; rfl
    rw [s3, s4, s5, s6, s7, rest, List.append_assoc]
    rfl
  · rw [lookup_append, lookup_append]
    congr 2
    cases r.exportcompilercommands with
    | false =>
      simp only [Bool.false_eq_true, if_false, List.nil_append, List.append_nil]
      by_cases h1 : n = t!"CMAKE_BUILD_TYPE"
      · subst h1; rfl
      · have h1 : (n == t!"CMAKE_BUILD_TYPE") = false := beq_false_of_ne h1
        simp only [List.lookup_cons, h1]
    | true =>
      simp only [if_true, List.cons_append, List.nil_append]
      by_cases h1 : n = t!"CMAKE_BUILD_TYPE"
      · subst h1; rfl
      by_cases h2 : n = t!"CMAKE_INSTALL_PREFIX"
      · subst h2; rfl
      have h1 : (n == t!"CMAKE_BUILD_TYPE") = false := beq_false_of_ne h1
      have h2 : (n == t!"CMAKE_INSTALL_PREFIX") = false := beq_false_of_ne h2
      simp only [List.lookup_cons, h1, h2]

/-! ### what is compiled -/

private theorem header_of {env : Environment} {cache : List (Text × Text)}
    (hl : ∀ n, n ∉ [t!"ENABLE_COVERAGE", t!"CMAKE_BUILD_TYPE", t!"CMAKE_INSTALL_PREFIX"] →
      cache.lookup n = (cacheAfter env environment []).lookup n) :
    ∃ header, configure (ownProject cache) = .done header false ∧ boundsCheck (macrosOf header) = true ∧
      enableDevice (macrosOf header) = !cmakeOff (env.get t!"ENABLE_CUDA") ∧
      tupleLibrary (macrosOf header) = (if cmakeOff (env.get t!"ENABLE_CUDA") then .std else .cuda) ∧
      (ownProject cache).on t!"SHIVA_ENABLE_BLT" = true ∧ (ownProject cache).on t!"SHIVA_ENABLE_UNIT_TESTS" = true := by
  obtain ⟨-, -, h3, h4, h5, h6, h7, -⟩ := environment_lookup env
  have val : ∀ n, (ownProject cache).value n = cache.lookup n := fun n => rfl
  have on_some : ∀ n x, cache.lookup n = some x → (ownProject cache).on n = !cmakeOff x := fun n x h => by
    rw [CMakeSettings.on, val, h]
  have on_none : ∀ n, cache.lookup n = none → (ownProject cache).on n = false := fun n h => by
    rw [CMakeSettings.on, val, h]
  have c : (ownProject cache).cuda = !cmakeOff (env.get t!"ENABLE_CUDA") := by
    rw [CMakeSettings.cuda, on_none t!"SHIVA_ENABLE_CUDA" ((hl _ (by decide)).trans (h7 _ (by simp))),
      on_some _ _ ((hl _ (by decide)).trans h3), Bool.false_or]
  have hip : (ownProject cache).hip = false := by
    rw [CMakeSettings.hip, on_none t!"SHIVA_ENABLE_HIP" ((hl _ (by decide)).trans (h7 _ (by simp))),
      on_none t!"ENABLE_HIP" ((hl _ (by decide)).trans (h7 _ (by simp)))]
    rfl
  have camp := on_none t!"SHIVA_ENABLE_CAMP" ((hl _ (by decide)).trans (h7 _ (by simp)))
  have b := on_some _ _ ((hl t!"SHIVA_ENABLE_BLT" (by decide)).trans h4)
  have u := on_some _ _ ((hl t!"SHIVA_ENABLE_UNIT_TESTS" (by decide)).trans h5)
  have i := on_some _ _ ((hl t!"SHIVA_ENABLE_BOUNDS_CHECK" (by decide)).trans h6)
  have nf : configure (ownProject cache) ≠ .fatal := by
    rw [Ne, C112_fatal]
    rintro (⟨-, h⟩ | ⟨-, h⟩ | ⟨-, h⟩)
    · rw [hip] at h; cases h
    · rw [val, hl _ (by decide), h7 _ (by simp)] at h; cases h
    · exact absurd rfl h
  cases hc : configure (ownProject cache) with
  | fatal => exact absurd hc nf
  | done header links =>
    obtain ⟨-, -, -, k, -⟩ := done_of hc
    obtain ⟨e1, e2, -, e3⟩ := C112_effect _ _ _ hc
    rw [camp, Bool.and_false] at k
    refine ⟨header, by rw [k], e1.trans (i.trans (by decide)), ?_, ?_, b.trans (by decide), u.trans (by decide)⟩
    · rw [e2, c, hip, Bool.or_false]
    · rw [e3, camp, c]
      cases cmakeOff (env.get t!"ENABLE_CUDA") <;> simp

/-- **C122, `environment.cmake`.**  In every environment: the compilers are those of `CC` and `CXX`; configuring succeeds (with the
submodule of BLT); the unit tests are built, with indices checked; device code is compiled exactly if `ENABLE_CUDA` is
on, and then for the architectures of the environment, with `CXX` for the host. -/
theorem C122_environment (env : Environment) :
    (cacheAfter env environment []).lookup t!"CMAKE_C_COMPILER" = some (env.get t!"CC") ∧
    (cacheAfter env environment []).lookup t!"CMAKE_CXX_COMPILER" = some (env.get t!"CXX") ∧
    (cmakeOff (env.get t!"ENABLE_CUDA") = false →
      (cacheAfter env environment []).lookup t!"CMAKE_CUDA_ARCHITECTURES" = some (env.get t!"CMAKE_CUDA_ARCHITECTURES") ∧
      (cacheAfter env environment []).lookup t!"CMAKE_CUDA_HOST_COMPILER" = some (env.get t!"CXX") ∧
      (cacheAfter env environment []).lookup t!"CMAKE_CUDA_COMPILER" = some (
        (if cmakeOff (env.get t!"CUDA_TOOLKIT_ROOT_DIR") then t!"/usr/local/cuda" else env.get t!"CUDA_TOOLKIT_ROOT_DIR") ++
          t!"/bin/nvcc")) ∧
    ∃ header, configure (ownProject (cacheAfter env environment [])) = .done header false ∧
      boundsCheck (macrosOf header) = true ∧ enableDevice (macrosOf header) = !cmakeOff (env.get t!"ENABLE_CUDA") ∧
      (ownProject (cacheAfter env environment [])).on t!"SHIVA_ENABLE_BLT" = true ∧
      (ownProject (cacheAfter env environment [])).on t!"SHIVA_ENABLE_UNIT_TESTS" = true := by
  obtain ⟨h1, h2, -, -, -, -, -, h3⟩ := environment_lookup env
  obtain ⟨header, g1, g2, g3, -, g4, g5⟩ := header_of (env := env) (cache := cacheAfter env environment []) fun _ _ => rfl
  exact ⟨h1, h2, h3, header, g1, g2, g3, g4, g5⟩

/-- **C122, the other host configurations.**  In every environment configuring succeeds with each of them, and compiles
for CUDA on Lassen and Maple, for HIP on Tioga, and for no device elsewhere; indices are checked, and unit tests are built, with
those for macOS only. -/
theorem C122_others (env : Environment) : ∀ c ∈ hostConfigs, c.1 ≠ t!"environment.cmake" →
    ∃ header, configure (ownProject (cacheAfter env c.2 [])) = .done header false ∧
      ((macrosOf header t!"SHIVA_ENABLE_CUDA" = true ↔ t!"LLNL/lassen" <+: c.1 ∨ t!"TTE/maple" <+: c.1) ∧
      (macrosOf header t!"SHIVA_ENABLE_HIP" = true ↔ t!"LLNL/tioga" <+: c.1)) ∧
      (boundsCheck (macrosOf header) = true ↔ t!"apple" <+: c.1) ∧
      ((ownProject (cacheAfter env c.2 [])).on t!"SHIVA_ENABLE_UNIT_TESTS" = true ↔ t!"apple" <+: c.1) := by
  have key : ∀ c ∈ hostConfigs, c.1 ≠ t!"environment.cmake" → fixedAll c.2 = true ∧
      (ownProject (cacheAfter [] c.2 [])).cuda = decide (t!"LLNL/lassen" <+: c.1 ∨ t!"TTE/maple" <+: c.1) ∧
      (ownProject (cacheAfter [] c.2 [])).hip = decide (t!"LLNL/tioga" <+: c.1) ∧
      ¬ ((ownProject (cacheAfter [] c.2 [])).cuda = true ∧ (ownProject (cacheAfter [] c.2 [])).hip = true) ∧
      (ownProject (cacheAfter [] c.2 [])).value t!"CMAKE_CUDA_COMPILER_VERSION" = none ∧
      (ownProject (cacheAfter [] c.2 [])).on t!"SHIVA_ENABLE_CAMP" = false ∧
      (ownProject (cacheAfter [] c.2 [])).on t!"SHIVA_ENABLE_BOUNDS_CHECK" = decide (t!"apple" <+: c.1) ∧
      (ownProject (cacheAfter [] c.2 [])).on t!"SHIVA_ENABLE_UNIT_TESTS" = decide (t!"apple" <+: c.1) := by
    decide +kernel
  intro c hc hn
  obtain ⟨k0, k1, k2, k3, k4, k5, k6, k7⟩ := key c hc hn
  rw [cacheAfter_fixed env c.2 k0]
  generalize cacheAfter [] c.2 [] = cache at *
  have nf : configure (ownProject cache) ≠ .fatal := by
    rw [Ne, C112_fatal]
    rintro (h | ⟨-, h⟩ | ⟨-, h⟩)
    · exact k3 h
    · rw [k4] at h; cases h
    · exact absurd rfl h
  cases hd : configure (ownProject cache) with
  | fatal => exact absurd hd nf
  | done header links =>
    obtain ⟨-, -, -, k, -⟩ := done_of hd
    obtain ⟨m1, m2, -, -, -⟩ := C112_macros _ _ _ hd
    obtain ⟨e1, -⟩ := C112_effect _ _ _ hd
    rw [k5, Bool.and_false] at k
    refine ⟨header, by rw [k], ⟨?_, ?_⟩, ?_, ?_⟩
    · rw [macrosOf, m1, k1]
      by_cases h : t!"LLNL/lassen" <+: c.1 ∨ t!"TTE/maple" <+: c.1 <;> simp [h]
    · rw [macrosOf, m2, k2]
      by_cases h : t!"LLNL/tioga" <+: c.1 <;> simp [h]
    · rw [e1, k6]; exact decide_eq_true_iff
    · rw [k7]; exact decide_eq_true_iff

/-! ### in the CI -/

/-- The cache in a container. -/
private theorem container_cache (env : Environment) (bt : BuildType) :
    ∃ cache, cacheOfArguments (scriptAt [t!"tmp", t!"Shiva"]) env
        ((containerRequest t!"hostconfigs/environment.cmake" bt false).words [t!"tmp", t!"Shiva"]
          [t!"tmp", t!"Shiva", t!"scripts", t!"config-build.py"]).tail [] = some cache ∧
      cache.lookup t!"CMAKE_BUILD_TYPE" = some bt.name ∧
      ∀ n, n ∉ [t!"ENABLE_COVERAGE", t!"CMAKE_BUILD_TYPE", t!"CMAKE_INSTALL_PREFIX"] →
        cache.lookup n = (cacheAfter env environment []).lookup n := by
  obtain ⟨cache, c1, c2⟩ := C122_command_line (scriptAt [t!"tmp", t!"Shiva"]) env
    (containerRequest t!"hostconfigs/environment.cmake" bt false) [t!"tmp", t!"Shiva"]
    [t!"tmp", t!"Shiva", t!"scripts", t!"config-build.py"] environment (by rfl) (by
      intro a ha
      obtain rfl := List.mem_singleton.1 ha
      exact ⟨by decide, by decide⟩)
  have c3 : ∀ n, n ∉ [t!"ENABLE_COVERAGE", t!"CMAKE_BUILD_TYPE", t!"CMAKE_INSTALL_PREFIX"] →
      cache.lookup n = (cacheAfter env environment []).lookup n := by
    intro n hn
    simp only [List.mem_cons, List.not_mem_nil, or_false, not_or] at hn
    obtain ⟨n1, n2, n3⟩ := hn
    have n1 : (n == t!"ENABLE_COVERAGE") = false := beq_false_of_ne n1
    have n2 : (n == t!"CMAKE_BUILD_TYPE") = false := beq_false_of_ne n2
    have n3 : (n == t!"CMAKE_INSTALL_PREFIX") = false := beq_false_of_ne n3
    have d : (containerRequest t!"hostconfigs/environment.cmake" bt false).others.filterMap definition
        = [(t!"ENABLE_COVERAGE", t!"OFF")] := by
      show [t!"-DENABLE_COVERAGE:BOOL=OFF"].filterMap definition = _
      decide
    rw [c2, d]
    simp only [lastSaid, List.reverse_cons, List.reverse_nil, List.nil_append, List.lookup_cons, n1, n2, n3, List.lookup_nil,
      containerRequest, Bool.false_eq_true, if_false, List.append_nil, Option.none_or]
  have c4 : cache.lookup t!"CMAKE_BUILD_TYPE" = some bt.name := by
    rw [c2]
    rfl
  exact ⟨cache, c1, c4, c3⟩

/-- **C122, the CI.**  In each of the fourteen builds of the workflow, CMake gets the compilers and the build type of the entry;
the unit tests are built, with indices checked; device code is compiled exactly for the entries with CUDA, for the architecture
of the entry and with its compiler for the host. -/
theorem C122_ci (r : Ci.WorkflowRun) (hu : UsualRunner r) (e : Ci.Entry) (he : e ∈ Ci.matrix) (bt : BuildType)
    (hb : bt.name = e.buildType) (inv : Ci.Invocation)
    (hi : Ci.invocation (Ci.buildEnvironment r.hash e ++ r.base) r.site.processors = some inv) :
    ∃ cache header, cacheOfArguments (scriptAt [t!"tmp", t!"Shiva"]) inv.environment
        ((containerRequest (inv.environment.get t!"HOST_CONFIG") bt false).words [t!"tmp", t!"Shiva"]
          [t!"tmp", t!"Shiva", t!"scripts", t!"config-build.py"]).tail [] = some cache ∧
      cache.lookup t!"CMAKE_C_COMPILER" = some e.cc ∧ cache.lookup t!"CMAKE_CXX_COMPILER" = some e.cxx ∧
      cache.lookup t!"CMAKE_BUILD_TYPE" = some e.buildType ∧
      configure (ownProject cache) = .done header false ∧ boundsCheck (macrosOf header) = true ∧
      (enableDevice (macrosOf header) = true ↔ e.cuda = t!"ON") ∧
      (e.cuda = t!"ON" → cache.lookup t!"CMAKE_CUDA_ARCHITECTURES" = some e.architectures ∧
        cache.lookup t!"CMAKE_CUDA_HOST_COMPILER" = some e.cxx) ∧
      (ownProject cache).on t!"SHIVA_ENABLE_BLT" = true ∧ (ownProject cache).on t!"SHIVA_ENABLE_UNIT_TESTS" = true := by
  obtain ⟨inv', h1, -, -, k3, -, k5, -, k7, k8, k9, -, -⟩ := C119_partial _ r.site.processors (build_plain r hu e he)
  obtain rfl : inv = inv' := Option.some.inj (hi.symm.trans h1)
  have k3 : inv.environment.get t!"HOST_CONFIG" = t!"hostconfigs/environment.cmake" := k3
  have k5 : inv.environment.get t!"CC" = e.cc := k5
  have k7 : inv.environment.get t!"CXX" = e.cxx := k7
  have k8 : inv.environment.get t!"ENABLE_CUDA" = e.cuda := k8
  have k9 : inv.environment.get t!"CMAKE_CUDA_ARCHITECTURES" = e.architectures := k9
  have hon : ∀ e ∈ Ci.matrix, cmakeOff e.cuda = decide (e.cuda ≠ t!"ON") := by decide +kernel
  rw [k3]
  obtain ⟨cache, c1, c4, c3⟩ := container_cache inv.environment bt
  obtain ⟨header, g1, g2, g3, -, g4, g5⟩ := header_of c3
  obtain ⟨l1, l2, -, -, -, -, -, l3⟩ := environment_lookup inv.environment
  refine ⟨cache, header, c1, ?_, ?_, by rw [c4, hb], g1, g2, ?_, fun hc => ?_, g4, g5⟩
  · rw [c3 _ (by decide), l1, k5]
  · rw [c3 _ (by decide), l2, k7]
  · rw [g3, k8, hon e he]; simp
  · obtain ⟨m1, m2, -⟩ := l3 (by rw [k8, hon e he]; simp [hc])
    rw [c3 _ (by decide), c3 _ (by decide), m1, m2, k9, k7]
    exact ⟨rfl, rfl⟩

/-- So a good verdict says that all fifteen unit tests pass with every entry of the matrix, if CMake in the container goes by
its arguments: the two fields of the machine are what CMake gets. -/
theorem C122_unit_tests (r : Ci.WorkflowRun) (hu : UsualRunner r) (h : Ci.verdict r = .success)
    (hm : ∀ (inv : Ci.Invocation) (bt : BuildType) (cache : List (Text × Text)),
      cacheOfArguments (scriptAt [t!"tmp", t!"Shiva"]) inv.environment
        ((containerRequest (inv.environment.get t!"HOST_CONFIG") bt false).words [t!"tmp", t!"Shiva"]
          [t!"tmp", t!"Shiva", t!"scripts", t!"config-build.py"]).tail [] = some cache →
      (r.site.machine inv).blt = (ownProject cache).on t!"SHIVA_ENABLE_BLT" ∧
      (r.site.machine inv).unitTests = (ownProject cache).on t!"SHIVA_ENABLE_UNIT_TESTS") (e : Ci.Entry) (he : e ∈ Ci.matrix) :
    ∃ inv, inv.image = e.repository ++ t!"-" ++ r.hash ∧ inv.environment.get t!"CMAKE_BUILD_TYPE" = e.buildType ∧
      ∀ n ∈ Ci.unitTestNames, (r.site.machine inv).passes n = true := by
  refine C118_unit_tests r hu h (fun inv hi => ?_) e he
  obtain ⟨cache, c1, -, c3⟩ := container_cache inv.environment .debug
  obtain ⟨header, -, -, -, -, g4, g5⟩ := header_of c3
  rw [← hi] at c1
  rw [(hm inv .debug cache c1).1, (hm inv .debug cache c1).2]
  exact ⟨g4, g5⟩

/-- Non-vacuity of C122: the names in the cache with `environment.cmake` and CUDA; a user who switches the checks off. -/
example : (cacheAfter [(t!"CXX", t!"g++"), (t!"ENABLE_CUDA", t!"ON")] environment []).lookup t!"CMAKE_CUDA_COMPILER"
      = some t!"/usr/local/cuda/bin/nvcc" ∧
    lastSaid (told [(t!"CXX", t!"g++"), (t!"ENABLE_CUDA", t!"ON")] environment []) t!"CUDA_TOOLKIT_ROOT_DIR"
      = some t!"/usr/local/cuda" ∧
    ((cacheOfArguments (scriptAt [t!"tmp", t!"Shiva"]) []
      ({ containerRequest t!"hostconfigs/environment.cmake" .debug false with
          others := [t!"-DSHIVA_ENABLE_BOUNDS_CHECK=OFF"] }.words
        [t!"tmp", t!"Shiva"] [t!"tmp", t!"Shiva", t!"scripts", t!"config-build.py"]).tail []).getD []).lookup
      t!"SHIVA_ENABLE_BOUNDS_CHECK" = some t!"OFF" ∧
    (∀ e ∈ Ci.matrix, ∃ bt ∈ [BuildType.debug, BuildType.release], bt.name = e.buildType) ∧
    (∃ e ∈ Ci.matrix, e.cuda = t!"ON") ∧ ∃ e ∈ Ci.matrix, e.cuda = [] := by
  decide +kernel

end Verif.Props
