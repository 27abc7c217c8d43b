import Verif.Lemmas.CodeChecks
import Verif.Lemmas.PyPath

/-!
# C121: the code checks look at all sources of the project
-/

namespace Verif.Props

open Verif.Spec Verif.Lemmas Verif.CodeChecks

/-- A name with none of the three texts in it that the excludes look for. -/
def Harmless (n : Text) : Prop := ¬ t!"buil" <:+: n ∧ ¬ t!"blt" <:+: n ∧ ¬ t!"camp" <:+: n

/-- **C121, which files are checked.**  Whatever files there are and wherever the project is: a file is checked exactly if
it is below the source directory, is named like a source or header, and no directory on its way from the root of the file
system, and not the file itself, has `buil`, `blt` or `camp` in its name. -/
theorem C121_exact (files : List Loc) (source way : Loc) (hw : way ≠ []) (hr : ∀ l ∈ files, Proper l)
    (hp : Proper (source ++ way)) : render (source ++ way) ∈ checked files source ↔
      source ++ way ∈ files ∧ IsSource way ∧ ∀ n ∈ source ++ way, Harmless n := by
  have hi : IsSource (source ++ way) ↔ IsSource way := by
    unfold IsSource
    rw [List.getLast?_append_of_ne_nil _ hw]
  rw [mem_checked]
  constructor
  · rintro ⟨l, hl, -, -, h3, e, h4⟩
    obtain rfl : source ++ way = l := by
      have := congrArg (locate []) e
      rwa [locate_render _ hp, locate_render _ (hr l hl)] at this
    exact ⟨hl, hi.1 h3, h4⟩
  · rintro ⟨h1, h2, h3⟩
    exact ⟨_, h1, List.prefix_append _ _, by simpa using hw, hi.2 h2, rfl, h3⟩

/-- **C121, what holds.**  The code checks look at no file of a build directory, of BLT or of camp.  If no directory from the
root to the source directory has `buil`, `blt` or `camp` in its name, they look at every source and header whose way from there
has none of these texts in its names either. -/
theorem C121_partial (files : List Loc) (source way : Loc) (hw : way ≠ []) (hr : ∀ l ∈ files, Proper l)
    (hp : Proper (source ++ way)) :
    (render (source ++ way) ∈ checked files source → IsSource way ∧ ¬ Foreign way) ∧
    ((∀ n ∈ source, Harmless n) → source ++ way ∈ files → IsSource way → (∀ n ∈ way, Harmless n) →
      render (source ++ way) ∈ checked files source) := by
  have key := C121_exact files source way hw hr hp
  refine ⟨fun h => ?_, fun h1 h2 h3 h4 => key.2 ⟨h2, h3, fun n hn => (List.mem_append.1 hn).elim (h1 n) (h4 n)⟩⟩
  obtain ⟨-, h2, h3⟩ := key.1 h
  refine ⟨h2, ?_⟩
  rintro ⟨w, hw, hf⟩
  obtain ⟨g1, g2, g3⟩ := h3 w (List.mem_append.2 (.inr hw))
  rcases hf with ⟨t, rfl⟩ | rfl | rfl
  · exact g1 ⟨[], 'd' :: t, rfl⟩
  · exact g2 (List.infix_refl _)
  · exact g3 (List.infix_refl _)

/-- So all 44 sources of the repository are checked in such a directory, as in `/tmp/Shiva`, where the CI runs. -/
theorem C121_repository (files : List Loc) (source : Loc) (hs : ∀ n ∈ source, Harmless n)
    (hf : ∀ way ∈ repositorySources, source ++ way ∈ files) :
    ∀ way ∈ repositorySources, render (source ++ way) ∈ checked files source := by
  have h : ∀ way ∈ repositorySources, way ≠ [] ∧ (sourceEndings.any fun e => globs e way) = true ∧
      ∀ n ∈ way, ¬ t!"buil" <:+: n ∧ ¬ t!"blt" <:+: n ∧ ¬ t!"camp" <:+: n := by decide +kernel
  intro way hw
  obtain ⟨h1, h2, h3⟩ := h way hw
  obtain ⟨w, g1, g2⟩ := globs_iff.1 h2
  refine mem_checked.2 ⟨_, hf way hw, List.prefix_append _ _, by simpa using h1, ⟨w, ?_, g2⟩, rfl, fun n hn =>
    (List.mem_append.1 hn).elim (hs n) (h3 n)⟩
  rw [List.getLast?_append, g1]; rfl

/-- **C121 fails below some directories.**  If a directory from the root to the source directory has `buil`, `blt` or
`camp` in its name, the code checks look at no file at all. -/
theorem C121_nothing (files : List Loc) (source : Loc) (n : Text) (hn : n ∈ source) (h : ¬ Harmless n) :
    checked files source = [] := by
  rw [List.eq_nil_iff_forall_not_mem]
  intro p hp
  obtain ⟨l, -, h1, -, -, -, h2⟩ := mem_checked.1 hp
  exact h (h2 n (h1.subset hn))

/-- **C121 is violated** for the user `campbell`, and in the directory for local builds: none of the 44 sources is looked
at. -/
theorem C121_violated : ∃ source₁ source₂ : Loc, render source₁ = t!"/home/campbell/Shiva" ∧
    render source₂ = t!"/home/me/builds/Shiva" ∧ ∀ source ∈ [source₁, source₂],
      checked (repositorySources.map (source ++ ·)) source = [] ∧
      ∀ way ∈ repositorySources, IsSource way ∧ ¬ Foreign way := by
  have hs : ∀ way ∈ repositorySources, IsSource way ∧ ¬ Foreign way := by
    have h : ∀ way ∈ repositorySources, (sourceEndings.any fun e => globs e way) = true ∧
      ∀ n ∈ way, ¬ (t!"build" <+: n ∨ n = t!"blt" ∨ n = t!"camp") := by decide +kernel
    exact fun way hw => ⟨globs_iff.1 (h way hw).1, fun ⟨n, hn, hf⟩ => (h way hw).2 n hn hf⟩
  refine ⟨[t!"home", t!"campbell", t!"Shiva"], [t!"home", t!"me", t!"builds", t!"Shiva"], by decide, by decide, ?_⟩
  intro source hm
  refine ⟨?_, hs⟩
  simp only [List.mem_cons, List.not_mem_nil, or_false] at hm
  rcases hm with rfl | rfl
  · exact C121_nothing _ _ t!"campbell" (by decide) (by unfold Harmless; decide)
  · exact C121_nothing _ _ t!"builds" (by decide) (by unfold Harmless; decide)

/-- Non-vacuity of C121: the directory of the CI, with the sources, a build in it, and BLT. -/
example : (∀ n ∈ [t!"tmp", t!"Shiva"], Harmless n) ∧ repositorySources.length = 44 ∧
    render [t!"tmp", t!"Shiva", t!"include", t!"shiva", t!"Shiva.hpp"] ∈
      checked (repositorySources.map ([t!"tmp", t!"Shiva"] ++ ·)) [t!"tmp", t!"Shiva"] ∧
    checked [[t!"tmp", t!"Shiva", t!"build-environment-debug", t!"include", t!"shiva", t!"ShivaConfig.hpp"],
      [t!"tmp", t!"Shiva", t!"cmake", t!"blt", t!"a.cpp"], [t!"tmp", t!"Shiva", t!"README.md"],
      [t!"tmp", t!"Shiva", t!"tests", t!"x.cpp"]] [t!"tmp", t!"Shiva"] = [t!"/tmp/Shiva/tests/x.cpp"] := by
  have hh : ∀ n ∈ [t!"tmp", t!"Shiva"], Harmless n := by unfold Harmless; decide
  refine ⟨hh, by decide, C121_repository _ [t!"tmp", t!"Shiva"] hh (fun way hw => List.mem_map.2 ⟨way, hw, rfl⟩)
    [t!"include", t!"shiva", t!"Shiva.hpp"] (by decide), by decide +kernel⟩

end Verif.Props
