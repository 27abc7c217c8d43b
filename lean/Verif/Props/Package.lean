import Verif.Model.Package
import Verif.Lemmas.Headers

/-!
# C127: the installed package
-/

namespace Verif.Props

open Verif.Spec Verif.Package Verif.Lemmas

private theorem up_append (n : Nat) : ∀ (b a : List Text), b.length = n → up n (a ++ b) = a := by
  induction n with
  | zero =>
    intro b a h
    rw [List.eq_nil_of_length_eq_zero h, List.append_nil]
    rfl
  | succ n ih =>
    intro b a h
    have hb : b ≠ [] := by
      rintro rfl
      cases h
    rw [up, List.dropLast_append_of_ne_nil hb]
    exact ih _ a (by rw [List.length_dropLast, h]; rfl)

private theorem prefix_found (i : Installation) (root : List Text) : i.prefixFrom (i.packageDir root) = root := by
  unfold Installation.prefixFrom Installation.packageDir
  rw [List.append_assoc]
  exact up_append _ _ _ (by rw [List.length_append]; rfl)

private theorem sources_nodup (o : Headers.Options) : ((Headers.generatedFiles ++ Headers.sourceFiles o).map (·.1)).Nodup := by
  have e : (Headers.generatedFiles ++ Headers.sourceFiles o).map (·.1) =
      (Headers.generatedFiles ++ Headers.sourceFiles ⟨false, false, false, false⟩).map (·.1) := rfl
  rw [e]
  decide +kernel

private theorem tree_at (i : Installation) (root : List Text) {h : Loc × Header}
    (hm : h ∈ Headers.generatedFiles ++ Headers.sourceFiles i.options) :
    i.tree root (i.includeDir.at root ++ h.1) = some h.2 := by
  unfold Installation.tree
  rw [if_pos (List.prefix_append _ _), List.drop_left]
  exact lookup_of_nodup (sources_nodup i.options) hm

/-- **C127, the version.** Without an error on account of the targets, the package is accepted exactly by those who ask for no version,
or for one with the same first number that is not later than 0.1.0, and whose pointers have the size they had when it was installed. -/
theorem C127_version (i : Installation) (c : Consumer) : i.accepts c = true ↔
    (∀ v, c.asks = some v → v.headD 0 = 0 ∧ versionLess [0, 1, 0] v = false) ∧ i.pointerSize = c.pointerSize := by
  unfold Installation.accepts
  rw [Bool.and_eq_true, beq_iff_eq]
  refine and_congr ?_ Iff.rfl
  cases c.asks with
  | none => exact ⟨fun _ v h => (by cases h), fun _ => rfl⟩
  | some v =>
    dsimp only
    rw [Bool.and_eq_true, Bool.not_eq_true', beq_iff_eq]
    exact ⟨fun h w hw => (by cases hw; exact ⟨h.2, h.1⟩), fun h => ⟨(h v rfl).2, (h v rfl).1⟩⟩

/-- **C127, without camp.** Wherever the installation is, also after it has been moved: who accepts its version and has no target of that name gets
the target `Shiva::Shiva`, which asks for C++17 and searches one directory, in which all headers are, the generated one included; all other
targets stay as they were.  If the directory for headers is relative to the prefix, `Shiva_INCLUDE_DIRS` is the same directory. -/
theorem C127_partial (i : Installation) (root : List Text) (c : Consumer) (hacc : i.accepts c = true) (hcamp : i.camp = false)
    (hnew : c.targets.lookup t!"Shiva::Shiva" = none) :
    i.generates = true ∧ ∃ targets vars dir, i.findPackage root c = .found targets vars ∧
      link targets t!"Shiva::Shiva" = .target ⟨[dir], 17, []⟩ ∧
      (∀ n, n ≠ t!"Shiva::Shiva" → link targets n = link c.targets n) ∧
      (∀ h ∈ Headers.generatedFiles ++ Headers.sourceFiles i.options, i.tree root (dir ++ h.1) = some h.2) ∧
      ((∃ parts, i.includeDir = .relative parts) → vars = dir) := by
  refine ⟨by unfold Installation.generates; rw [hcamp]; rfl,
    (t!"Shiva::Shiva", ⟨[i.includeDir.at root], 17, []⟩) :: c.targets, below root i.includeDir, i.includeDir.at root, ?_, ?_, ?_, fun h hm => tree_at i root hm, ?_⟩
  · unfold Installation.findPackage
    rw [if_pos hacc]
    dsimp only
    unfold Installation.targetsFile
    dsimp only
    rw [hnew, hcamp, prefix_found]
    rfl
  · rfl
  · intro n hn
    have : (n == t!"Shiva::Shiva") = false := beq_false_of_ne hn
    unfold link
    rw [List.lookup_cons, this]
  · rintro ⟨parts, hp⟩
    rw [hp]
    rfl

/-- **C127 is violated by the names.** No name can be used both for the targets of `add_subdirectory` and for those of `find_package`: what
is a target with one is not with the other. -/
theorem C127_violated_name (i : Installation) (root source binary : List Text) (camp : Bool) (c : Consumer)
    (hnone : ∀ n ∈ [t!"Shiva", t!"Shiva::shiva", t!"Shiva::Shiva"], c.targets.lookup n = none)
    (targets : List (Text × Target)) (vars : List Text) (hf : i.findPackage root c = .found targets vars) (n : Text) (t : Target)
    (h : link (subdirectory source binary camp) n = .target t) : ∀ t', link targets n ≠ .target t' := by
  have hn : n = t!"Shiva" ∨ n = t!"Shiva::shiva" := by
    refine Decidable.byContradiction fun hne => ?_
    have h1 : (n == t!"Shiva") = false := beq_false_of_ne fun e => hne (.inl e)
    have h2 : (n == t!"Shiva::shiva") = false := beq_false_of_ne fun e => hne (.inr e)
    unfold link subdirectory at h
    dsimp only at h
    rw [List.lookup_cons, h1, List.lookup_cons, h2] at h
    dsimp only [List.lookup] at h
    split at h <;> cases h
  have hl : targets.lookup n = none := by
    have hc : c.targets.lookup n = none := hnone n (by rcases hn with rfl | rfl <;> simp)
    have hne : (n == t!"Shiva::Shiva") = false := by rcases hn with rfl | rfl <;> rfl
    unfold Installation.findPackage at hf
    by_cases ha : i.accepts c = true
    · rw [if_pos ha] at hf
      dsimp only at hf
      unfold Installation.targetsFile at hf
      dsimp only at hf
      rw [hnone t!"Shiva::Shiva" (by simp)] at hf
      by_cases hall : ((if i.camp then [t!"camp"] else []).all fun n => (c.targets.lookup n).isSome) = true
      · rw [if_neg (by simp), if_pos hall] at hf
        cases hf
        rw [List.lookup_cons, hne]
        exact hc
      · rw [if_neg (by simp), if_neg hall] at hf
        cases hf
    · rw [if_neg ha] at hf
      cases hf
  intro t' h'
  unfold link at h'
  rw [hl] at h'
  dsimp only at h'
  split at h' <;> cases h'

/-- **C127 is violated with camp.** If camp is linked, either nothing can be installed, or the package is an error for everyone who does not have camp
already: it does not look for it. -/
theorem C127_violated_camp (i : Installation) (hcamp : i.camp = true) : i.generates = i.campExported ∧
    ∀ (root : List Text) (c : Consumer), c.targets.lookup t!"Shiva::Shiva" = none → c.targets.lookup t!"camp" = none →
      i.findPackage root c = .error := by
  refine ⟨by unfold Installation.generates; rw [hcamp]; rfl, fun root c h1 h2 => ?_⟩
  unfold Installation.findPackage
  split
  · dsimp only
    unfold Installation.targetsFile
    dsimp only
    rw [h1, hcamp, if_neg (by simp), if_neg (by simp [h2])]
  · rfl

private def here : Installation := ⟨.relative [t!"include"], [t!"lib64"], 8, ⟨false, false, false, true⟩, false, false⟩

private def consumer : Consumer := ⟨[], some [0, 1], 8⟩

/-- **C127 is violated with an absolute directory for headers.** `Shiva_INCLUDE_DIRS` is then a directory without headers. -/
theorem C127_violated_directory : ∃ (i : Installation) (root : List Text) (c : Consumer) (targets : List (Text × Target))
    (vars : List Text), i.camp = false ∧ i.findPackage root c = .found targets vars ∧
      i.tree root (vars ++ [t!"shiva", t!"common", t!"CArray.hpp"]) = none ∧
      (∃ t, link targets t!"Shiva::Shiva" = .target t ∧ ∃ d ∈ t.includes, (i.tree root (d ++ [t!"shiva", t!"common", t!"CArray.hpp"])).isSome) :=
  ⟨{ here with includeDir := .absolute [t!"usr", t!"include"] }, [t!"usr"], consumer, _, _, rfl, rfl, by decide +kernel,
    _, rfl, _, List.mem_cons_self, by decide +kernel⟩

/-- A project that asks for version 0.1 finds Shiva below /opt/shiva. -/
example : here.accepts consumer = true ∧ ∃ targets vars, here.findPackage [t!"opt", t!"shiva"] consumer = .found targets vars ∧
    link targets t!"Shiva::Shiva" = .target ⟨[[t!"opt", t!"shiva", t!"include"]], 17, []⟩ ∧
    link targets t!"Shiva::shiva" = .error ∧ here.accepts { consumer with asks := some [0, 2] } = false ∧
    (∃ t, link (subdirectory [t!"src"] [t!"build"] false) t!"Shiva::shiva" = .target t) :=
  ⟨by decide, _, _, rfl, rfl, by decide +kernel, by decide, _, rfl⟩

end Verif.Props
