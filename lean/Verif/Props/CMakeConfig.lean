import Verif.Lemmas.CMakeConfig

/-!
# C112: the options of the build reach the headers
-/

namespace Verif.Props

open Verif.Spec Verif.Lemmas Verif.CMakeConfig

/-- A configuration that is done comes from the two steps of the model. -/
theorem done_of {s : CMakeSettings} {header : List Text} {links : Bool} (h : configure s = .done header links) :
    ∃ v, versions (afterOptions s) = some v ∧ header = template.map (configureLine v) ∧
      links = (s.on t!"SHIVA_ENABLE_BLT" && s.on t!"SHIVA_ENABLE_CAMP") ∧ (s.cuda && s.hip) = false := by
  unfold configure at h
  dsimp only at h
  have hc : (afterOptions s).holds t!"SHIVA_ENABLE_CUDA" = s.cuda := by
    rw [holds_afterOptions]; exact Bool.or_comm _ _
  have hh : (afterOptions s).holds t!"SHIVA_ENABLE_HIP" = s.hip := by
    rw [holds_afterOptions]
    show ((true && s.on t!"ENABLE_HIP") || (false && _) || _) = _
    rw [Bool.true_and, Bool.false_and, Bool.or_false]; exact Bool.or_comm _ _
  rw [hc, hh] at h
  split at h
  · cases h
  rename_i h0
  split at h
  · cases h
  rename_i v hv
  have on_eq : ∀ m, m ∉ [t!"SHIVA_VERSION_MAJOR", t!"SHIVA_VERSION_MINOR", t!"SHIVA_VERSION_PATCHLEVEL",
      t!"SHIVA_CUDA_MAJOR", t!"SHIVA_CUDA_MINOR"] → m ≠ t!"SHIVA_ENABLE_HIP" → m ≠ t!"SHIVA_ENABLE_CUDA" →
      v.holds m = s.on m := by
    intro m h1 h2 h3
    rw [holds_versions hv m h1, holds_afterOptions]
    simp [h2, h3]
  refine ⟨v, hv, ?_⟩
  unfold blt at h
  rw [on_eq t!"SHIVA_ENABLE_BLT" (by decide) (by decide) (by decide),
    on_eq t!"SHIVA_ENABLE_CAMP" (by decide) (by decide) (by decide)] at h
  have h0 : (s.cuda && s.hip) = false := by simpa using h0
  split at h
  · rename_i hb
    split at h
    · split at h
      · injection h with e1 e2; exact ⟨e1.symm, by rw [← e2, hb, Bool.true_and], h0⟩
      · cases h
    · split at h
      · injection h with e1 e2; exact ⟨e1.symm, by rw [← e2, hb, Bool.true_and], h0⟩
      · cases h
  · rename_i hb
    injection h with e1 e2
    exact ⟨e1.symm, by rw [← e2, Bool.eq_false_iff.2 hb, Bool.false_and], h0⟩

/-- **C112: the macros.**  Whatever the user and a parent project set: in a configuration that succeeds, the generated
header defines the macro of each option exactly if the option is on (for CUDA and HIP, also if the general option of the
project is on), and the version of Shiva. -/
theorem C112_macros (s : CMakeSettings) (header : List Text) (links : Bool) (h : configure s = .done header links) :
    macroOf header t!"SHIVA_ENABLE_CUDA" = (if s.cuda then some [] else none) ∧
    macroOf header t!"SHIVA_ENABLE_HIP" = (if s.hip then some [] else none) ∧
    macroOf header t!"SHIVA_ENABLE_CAMP" = (if s.on t!"SHIVA_ENABLE_CAMP" then some [] else none) ∧
    macroOf header t!"SHIVA_ENABLE_BOUNDS_CHECK" = (if s.on t!"SHIVA_ENABLE_BOUNDS_CHECK" then some [] else none) ∧
    macroOf header t!"SHIVA_VERSION_MAJOR" = some t!"0" ∧ macroOf header t!"SHIVA_VERSION_MINOR" = some t!"1" ∧
    macroOf header t!"SHIVA_VERSION_PATCHLEVEL" = some t!"0" := by
  obtain ⟨v, hv, rfl, -, -⟩ := done_of h
  obtain ⟨p1, p2, p3⟩ := project_versions hv
  have flag : ∀ m, m ∉ [t!"SHIVA_VERSION_MAJOR", t!"SHIVA_VERSION_MINOR", t!"SHIVA_VERSION_PATCHLEVEL",
      t!"SHIVA_CUDA_MAJOR", t!"SHIVA_CUDA_MINOR"] → v.holds m = _ := fun m hm =>
    (holds_versions hv m hm).trans (holds_afterOptions s m)
  refine ⟨?_, ?_, ?_, ?_, ?_, ?_, ?_⟩ <;> rw [macroOf_template]
  · show (if v.holds t!"SHIVA_ENABLE_CUDA" then some [] else none) = _
    rw [flag _ (by decide)]
    show (if ((false && s.on t!"ENABLE_HIP") || (true && s.on t!"ENABLE_CUDA") || s.on t!"SHIVA_ENABLE_CUDA") = true then _ else _) = _
    rw [Bool.false_and, Bool.false_or, Bool.true_and, Bool.or_comm]; rfl
  · show (if v.holds t!"SHIVA_ENABLE_HIP" then some [] else none) = _
    rw [flag _ (by decide)]
    show (if ((true && s.on t!"ENABLE_HIP") || (false && s.on t!"ENABLE_CUDA") || s.on t!"SHIVA_ENABLE_HIP") = true then _ else _) = _
    rw [Bool.false_and, Bool.or_false, Bool.true_and, Bool.or_comm]; rfl
  · show (if v.holds t!"SHIVA_ENABLE_CAMP" then some [] else none) = _
    rw [flag _ (by decide)]; rfl
  · show (if v.holds t!"SHIVA_ENABLE_BOUNDS_CHECK" then some [] else none) = _
    rw [flag _ (by decide)]; rfl
  · show some (((v.find t!"SHIVA_VERSION_MAJOR").getD []).dropWhile (· = ' ')) = _
    rw [p1]; rfl
  · show some (((v.find t!"SHIVA_VERSION_MINOR").getD []).dropWhile (· = ' ')) = _
    rw [p2]; rfl
  · show some (((v.find t!"SHIVA_VERSION_PATCHLEVEL").getD []).dropWhile (· = ' ')) = _
    rw [p3]; rfl

/-- What the headers make of the configured header: `m` says which macros it defines. -/
def macrosOf (header : List Text) : Macros := fun m => (macroOf header m).isSome

/-- **C112: what is compiled.**  Indices are checked exactly if the user asked for it; device code is compiled exactly if
CUDA or HIP was asked for, and then only one of them; the tuples are camp's if camp was asked for, else CUDA's with CUDA,
else the standard library's. -/
theorem C112_effect (s : CMakeSettings) (header : List Text) (links : Bool) (h : configure s = .done header links) :
    boundsCheck (macrosOf header) = s.on t!"SHIVA_ENABLE_BOUNDS_CHECK" ∧
    enableDevice (macrosOf header) = (s.cuda || s.hip) ∧ ¬ (s.cuda ∧ s.hip) ∧
    tupleLibrary (macrosOf header) = if s.on t!"SHIVA_ENABLE_CAMP" then .camp else if s.cuda then .cuda else .std := by
  obtain ⟨h1, h2, h3, h4, -⟩ := C112_macros s header links h
  obtain ⟨-, -, -, -, h0⟩ := done_of h
  have key : ∀ (b : Bool), (if b then some ([] : Text) else none).isSome = b := by intro b; cases b <;> rfl
  unfold boundsCheck enableDevice tupleLibrary macrosOf
  rw [h1, h2, h3, h4]
  simp only [key]
  simpa using h0

/-- **C112: when configuring fails.**  Exactly if CUDA and HIP are both asked for, or with CUDA the version of the CUDA
compiler is set to nothing, or BLT is asked for and is not there. -/
theorem C112_fatal (s : CMakeSettings) : configure s = .fatal ↔ (s.cuda ∧ s.hip) ∨
    (s.cuda ∧ s.value t!"CMAKE_CUDA_COMPILER_VERSION" = some []) ∨
    (s.on t!"SHIVA_ENABLE_BLT" ∧ if s.topLevel then ¬ s.bltThere else ¬ s.on t!"BLT_LOADED") := by
  have hc : (afterOptions s).holds t!"SHIVA_ENABLE_CUDA" = s.cuda := by
    rw [holds_afterOptions]; exact Bool.or_comm _ _
  have hh : (afterOptions s).holds t!"SHIVA_ENABLE_HIP" = s.hip := by
    rw [holds_afterOptions]
    show ((true && s.on t!"ENABLE_HIP") || (false && _) || _) = _
    rw [Bool.true_and, Bool.false_and, Bool.or_false]; exact Bool.or_comm _ _
  have hv := versions_eq (afterOptions s) _ _ hc (find_afterOptions s _ (by decide))
  unfold configure
  dsimp only
  rw [hc, hh]
  by_cases h0 : (s.cuda && s.hip) = true
  · rw [if_pos h0]
    simp only [true_iff]
    exact .inl (by simpa using h0)
  rw [if_neg h0]
  cases hw : versions (afterOptions s) with
  | none =>
    have := hv.1.1 hw
    simp only [true_iff]
    exact .inr (.inl this)
  | some v =>
    have h1 : ¬ (s.cuda = true ∧ s.value t!"CMAKE_CUDA_COMPILER_VERSION" = some []) := by
      rw [← hv.1, hw]; simp
    have h0' : ¬ (s.cuda = true ∧ s.hip = true) := by simpa using h0
    have on_eq : ∀ m, m ∉ [t!"SHIVA_VERSION_MAJOR", t!"SHIVA_VERSION_MINOR", t!"SHIVA_VERSION_PATCHLEVEL",
        t!"SHIVA_CUDA_MAJOR", t!"SHIVA_CUDA_MINOR"] → m ≠ t!"SHIVA_ENABLE_HIP" → m ≠ t!"SHIVA_ENABLE_CUDA" →
        v.holds m = s.on m := by
      intro m h1 h2 h3
      rw [holds_versions hw m h1, holds_afterOptions]
      simp [h2, h3]
    dsimp only
    unfold blt
    rw [on_eq t!"SHIVA_ENABLE_BLT" (by decide) (by decide) (by decide),
      on_eq t!"BLT_LOADED" (by decide) (by decide) (by decide)]
    simp only [h1, h0', false_or]
    cases s.on t!"SHIVA_ENABLE_BLT" <;> cases s.topLevel <;> cases s.bltThere <;> cases s.on t!"BLT_LOADED" <;> simp

/-- **C112, what holds: the version of CUDA.**  If CUDA is asked for and CMake already knows the version of its compiler,
as in a project that has enabled the language CUDA, the header has its first two numbers; without CUDA it has zeros. -/
theorem C112_version_partial (s : CMakeSettings) (header : List Text) (links : Bool) (h : configure s = .done header links) :
    (s.cuda = false → macroOf header t!"SHIVA_CUDA_MAJOR" = some t!"0" ∧ macroOf header t!"SHIVA_CUDA_MINOR" = some t!"0") ∧
    ∀ major rest, (∀ w ∈ major :: rest, Digits w) → s.cuda = true →
      s.value t!"CMAKE_CUDA_COMPILER_VERSION" = some (joinDots (major :: rest)) →
      macroOf header t!"SHIVA_CUDA_MAJOR" = some major ∧
      macroOf header t!"SHIVA_CUDA_MINOR" = some (rest.headD t!"0") := by
  obtain ⟨v, hv, rfl, -, -⟩ := done_of h
  have hc : (afterOptions s).holds t!"SHIVA_ENABLE_CUDA" = s.cuda := by
    rw [holds_afterOptions]; exact Bool.or_comm _ _
  obtain ⟨h1, h2⟩ := (versions_eq (afterOptions s) _ _ hc (find_afterOptions s _ (by decide))).2 v hv
  have e1 : macroOf (template.map (configureLine v)) t!"SHIVA_CUDA_MAJOR"
      = some (((v.find t!"SHIVA_CUDA_MAJOR").getD []).dropWhile (· = ' ')) := by rw [macroOf_template]; rfl
  have e2 : macroOf (template.map (configureLine v)) t!"SHIVA_CUDA_MINOR"
      = some (((v.find t!"SHIVA_CUDA_MINOR").getD []).dropWhile (· = ' ')) := by rw [macroOf_template]; rfl
  rw [e1, e2, h1, h2]
  refine ⟨fun hn => ?_, fun major rest hd hy hs => ?_⟩
  · rw [hn]; exact ⟨rfl, rfl⟩
  · rw [hy, hs, if_pos rfl, Option.map_some, dotParts_joinDots (by simp) hd, Option.getD_some, Option.getD_some]
    refine ⟨congrArg some (dropSpaces_digits (hd major (by simp))), ?_⟩
    cases rest with
    | nil => rfl
    | cons a l => exact congrArg some (dropSpaces_digits (hd a (by simp)))

/-- **C112, what holds: camp.**  If camp is asked for together with BLT, the library with the included header is linked; camp
is never linked otherwise. -/
theorem C112_camp_partial (s : CMakeSettings) (header : List Text) (links : Bool) (h : configure s = .done header links)
    (hb : s.on t!"SHIVA_ENABLE_CAMP" = true → s.on t!"SHIVA_ENABLE_BLT" = true) :
    links = true ↔ tupleLibrary (macrosOf header) = .camp := by
  obtain ⟨-, -, -, h4⟩ := C112_effect s header links h
  obtain ⟨-, -, -, hl, -⟩ := done_of h
  rw [h4, hl]
  cases hc : s.on t!"SHIVA_ENABLE_CAMP" with
  | true => rw [hb hc]; simp
  | false => cases s.cuda <;> simp

/-- Settings given by `-D`. -/
def userSettings (cache : List (Text × Text)) (topLevel : Bool) : CMakeSettings where
  normal := fun _ => none
  cache := fun n => cache.lookup n
  topLevel := topLevel
  bltThere := true
  cudaCompiler := t!"12.4.131"

/-- A project with CUDA 12.4 that includes Shiva and wants its indices checked: the hypotheses are met. -/
def cudaProject : CMakeSettings where
  normal := fun n => [(t!"ENABLE_CUDA", t!"TRUE"), (t!"CMAKE_CUDA_COMPILER_VERSION", t!"12.4.131")].lookup n
  cache := fun n => [(t!"SHIVA_ENABLE_BOUNDS_CHECK", t!"on"), (t!"SHIVA_ENABLE_HIP", t!"No")].lookup n
  topLevel := false
  bltThere := true
  cudaCompiler := t!"12.4.131"

example : ∃ header, configure cudaProject = .done header false ∧ macroOf header t!"SHIVA_ENABLE_CUDA" = some [] ∧
    macroOf header t!"SHIVA_ENABLE_HIP" = none ∧ macroOf header t!"SHIVA_ENABLE_BOUNDS_CHECK" = some [] ∧
    macroOf header t!"SHIVA_CUDA_MAJOR" = some t!"12" ∧ macroOf header t!"SHIVA_CUDA_MINOR" = some t!"4" ∧
    tupleLibrary (macrosOf header) = .cuda := by
  obtain ⟨header, h⟩ : ∃ header, configure cudaProject = .done header false := ⟨_, rfl⟩
  obtain ⟨h1, h2, -, h3, -⟩ := C112_macros _ _ _ h
  obtain ⟨h4, h5⟩ := (C112_version_partial _ _ _ h).2 t!"12" [t!"4", t!"131"] (by unfold Digits; decide) (by decide) (by decide)
  refine ⟨header, h, h1.trans (by decide), h2.trans (by decide), h3.trans (by decide), h4, h5, ?_⟩
  rw [(C112_effect _ _ _ h).2.2.2]
  decide

example : configure (userSettings [(t!"SHIVA_ENABLE_CUDA", t!"1"), (t!"ENABLE_HIP", t!"yes")] true) = .fatal :=
  (C112_fatal _).2 (.inl (by decide))

/-- **C112 is violated: camp.**  With camp and without BLT the headers include camp's, and it is not linked. -/
theorem C112_violated : ∃ (s : CMakeSettings) (header : List Text),
    s.on t!"SHIVA_ENABLE_CAMP" = true ∧ configure s = .done header false ∧ tupleLibrary (macrosOf header) = .camp :=
  ⟨userSettings [(t!"SHIVA_ENABLE_CAMP", t!"ON")] true, _, by decide, rfl, by decide +kernel⟩

/-- **C112 is violated: the version of CUDA.**  Where Shiva is not part of another project, CMake does not know the CUDA
compiler when it writes the header, so that the header says CUDA 0 whatever the compiler is. -/
theorem C112_violated_version (s : CMakeSettings) (header : List Text) (links : Bool) (h : configure s = .done header links)
    (hn : s.value t!"CMAKE_CUDA_COMPILER_VERSION" = none) : macroOf header t!"SHIVA_CUDA_MAJOR" = some t!"0" := by
  obtain ⟨v, hv, rfl, -, -⟩ := done_of h
  have hc : (afterOptions s).holds t!"SHIVA_ENABLE_CUDA" = s.cuda := by
    rw [holds_afterOptions]; exact Bool.or_comm _ _
  obtain ⟨h1, -⟩ := (versions_eq (afterOptions s) _ _ hc ((find_afterOptions s _ (by decide)).trans hn)).2 v hv
  have e1 : macroOf (template.map (configureLine v)) t!"SHIVA_CUDA_MAJOR"
      = some (((v.find t!"SHIVA_CUDA_MAJOR").getD []).dropWhile (· = ' ')) := by rw [macroOf_template]; rfl
  rw [e1, h1]
  cases s.cuda <;> rfl

example : ∃ header, configure (userSettings [(t!"SHIVA_ENABLE_CUDA", t!"ON"), (t!"SHIVA_ENABLE_BLT", t!"ON"),
      (t!"SHIVA_ENABLE_UNIT_TESTS", t!"ON")] true) = .done header false ∧
    (userSettings [] true).cudaCompiler = t!"12.4.131" ∧ macroOf header t!"SHIVA_CUDA_MAJOR" = some t!"0" := by
  obtain ⟨header, h⟩ : ∃ header, configure (userSettings [(t!"SHIVA_ENABLE_CUDA", t!"ON"), (t!"SHIVA_ENABLE_BLT", t!"ON"),
      (t!"SHIVA_ENABLE_UNIT_TESTS", t!"ON")] true) = .done header false := ⟨_, rfl⟩
  exact ⟨header, h, rfl, C112_violated_version _ header false h (by decide)⟩

end Verif.Props
