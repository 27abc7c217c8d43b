import Verif.Lemmas.AggregateRun

/-!
# The header aggregator

`scripts/aggregateOrSplit.py` joins headers into one file, and splits such a file again.
-/

namespace Verif.Props

open Verif.Spec Verif.Aggregate Verif.Lemmas

/-- The script, run where the includes are searched. -/
abbrev aggregateIn (s : Search) (depth n : Nat) (headers : List Text) (output : Text) : Run Tree :=
  aggregateHeaders ⟨s.tree, s.cwd, s.includePaths⟩ depth n headers output

private theorem run_ok {s : Search} {headers : List Text} {output : Text} {depth : Nat}
    (ho : (s.emptied (locate s.cwd output)).Ordinary headers) (hc : (s.emptied (locate s.cwd output)).Complete headers)
    (hac : ∀ l, (s.emptied (locate s.cwd output)).Needed headers l → ¬ (s.emptied (locate s.cwd output)).InCycle l)
    (hno : ¬ (s.emptied (locate s.cwd output)).Needed headers (locate s.cwd output))
    (hw : s.tree.canWrite (locate s.cwd output) = true) (hd : s.tree.files.length + 1 < depth) :
    ∃ order : List Loc, order.Nodup ∧ (∀ l, l ∈ order ↔ (s.emptied (locate s.cwd output)).Needed headers l) ∧
      order.Pairwise (fun a b => ¬ (s.emptied (locate s.cwd output)).Includes a b) ∧
      (∀ l ∈ order, Proper l ∧ ∃ x, s.tree.read l = some x) ∧
      ∀ n, s.tree.files.length < n → aggregateIn s depth n headers output = .ok (s.tree.write (locate s.cwd output)
        (order.flatMap fun l => part l ((lines ((s.tree.read l).getD [])).flatMap outputLine))) := by
  obtain ⟨w, hwd⟩ : ∃ w : World, w = World.opened ⟨s.tree, s.cwd, s.includePaths⟩ output := ⟨_, rfl⟩
  have hsearch : searchOf w = s.emptied (locate s.cwd output) := by rw [hwd]; rfl
  have htree : w.tree = s.tree.write (locate s.cwd output) [] := by rw [hwd]; rfl
  have hreg : Regular w headers := ⟨by rw [hsearch]; exact ho, by rw [hsearch]; exact hc⟩
  have hlen : w.tree.files.length ≤ s.tree.files.length + 1 := by rw [htree]; exact length_write_le _ _ _
  obtain ⟨order, h1, h2, h3, h4⟩ := hreg.finishes (by omega : w.tree.files.length < depth) (by rw [hsearch]; exact hac)
  have hread : ∀ l ∈ order, w.tree.read l = s.tree.read l := by
    intro l hl
    rw [htree, read_write, if_neg]
    rintro rfl
    exact hno (by rw [← hsearch]; exact (h2 _).1 hl)
  rw [hsearch] at h2 h3
  refine ⟨order, h1, h2, h3, fun l hl => ⟨?_, ?_⟩, fun n hn => ?_⟩
  · exact hreg.proper (by rw [hsearch]; exact (h2 l).1 hl)
  · rw [← hread l hl]
    exact Option.isSome_iff_exists.1 (hreg.complete l (by rw [hsearch]; exact (h2 l).1 hl)).1
  · show (if s.tree.canWrite (locate s.cwd output) = true then _ else _) = _
    rw [if_pos hw, ← hwd, h4 n (by omega)]
    dsimp only
    rw [List.flatMap_congr (g := fun l => part l ((lines ((s.tree.read l).getD [])).flatMap outputLine))
      (fun l hl => by rw [hread l hl])]

private theorem forall₂_map {α β : Type} {R : α → β → Prop} {f : α → β} {l : List α} (h : ∀ a ∈ l, R a (f a)) :
    List.Forall₂ R l (l.map f) := by
  rw [List.forall₂_map_right_iff]
  exact List.forall₂_same.2 h

/-- **C105.** If the needed headers exist, have ordinary names and do not include themselves, directly or indirectly, the
aggregated file consists of one part for each needed header, with its text as it stands there, and the part of a
header comes after those of all headers it includes. -/
theorem C105_order (s : Search) (headers : List Text) (output : Text) (depth : Nat)
    (ho : (s.emptied (locate s.cwd output)).Ordinary headers) (hc : (s.emptied (locate s.cwd output)).Complete headers)
    (hac : ∀ l, (s.emptied (locate s.cwd output)).Needed headers l → ¬ (s.emptied (locate s.cwd output)).InCycle l)
    (hno : ¬ (s.emptied (locate s.cwd output)).Needed headers (locate s.cwd output))
    (hw : s.tree.canWrite (locate s.cwd output) = true) (hd : s.tree.files.length + 1 < depth) :
    ∃ (order : List Loc) (ys : List Text), order.Nodup ∧
      (∀ l, l ∈ order ↔ (s.emptied (locate s.cwd output)).Needed headers l) ∧
      order.Pairwise (fun a b => ¬ (s.emptied (locate s.cwd output)).Includes a b) ∧
      List.Forall₂ (fun l y => ∃ text, s.tree.read l = some text ∧ CommentedText text y) order ys ∧
      ∀ n, s.tree.files.length < n → aggregateIn s depth n headers output
        = .ok (s.tree.write (locate s.cwd output) (List.zipWith part order ys).flatten) := by
  obtain ⟨order, h1, h2, h3, h4, h5⟩ := run_ok ho hc hac hno hw hd
  refine ⟨order, order.map fun l => (lines ((s.tree.read l).getD [])).flatMap outputLine, h1, h2, h3, ?_, fun n hn => ?_⟩
  · refine forall₂_map fun l hl => ?_
    obtain ⟨x, hx⟩ := (h4 l hl).2
    exact ⟨x, hx, by rw [hx]; exact commentedText x⟩
  · rw [h5 n hn, List.flatMap_def, List.zipWith_map_right, List.zipWith_self]

/-- Some headers of this repository with the include directives they have: `(name, includes)`. -/
private def shivaHeaders : List (Text × List Text) :=
  [(t!"/s/include/shiva/geometry/mapping/LinearTransform.hpp", [t!"shiva/common/MathUtilities.hpp",
      t!"shiva/common/ShivaMacros.hpp", t!"shiva/common/types.hpp", t!"shiva/common/IndexTypes.hpp",
      t!"shiva/common/NestedSequenceUtilities.hpp", t!"shiva/common/CArray.hpp"]),
   (t!"/s/include/shiva/functions/bases/BasisProduct.hpp", [t!"shiva/common/NestedSequenceUtilities.hpp",
      t!"shiva/common/MultiIndex.hpp", t!"shiva/common/CArray.hpp"]),
   (t!"/s/include/shiva/functions/quadrature/Quadrature.hpp", [t!"../spacing/Spacing.hpp"]),
   (t!"/s/include/shiva/functions/spacing/Spacing.hpp", [t!"shiva/common/ShivaMacros.hpp"]),
   (t!"/s/include/shiva/common/CArray.hpp", [t!"shiva/common/ShivaMacros.hpp", t!"CArrayHelper.hpp"]),
   (t!"/s/include/shiva/common/CArrayHelper.hpp", [t!"shiva/common/ShivaErrorHandling.hpp", t!"shiva/common/types.hpp"]),
   (t!"/s/include/shiva/common/ShivaErrorHandling.hpp", [t!"ShivaMacros.hpp"]),
   (t!"/s/include/shiva/common/IndexTypes.hpp", [t!"LinearIndex.hpp", t!"MultiIndex.hpp"]),
   (t!"/s/include/shiva/common/LinearIndex.hpp", []),
   (t!"/s/include/shiva/common/MultiIndex.hpp", [t!"shiva/common/ShivaMacros.hpp", t!"SequenceUtilities.hpp"]),
   (t!"/s/include/shiva/common/NestedSequenceUtilities.hpp", [t!"shiva/common/ShivaMacros.hpp",
      t!"SequenceUtilities.hpp"]),
   (t!"/s/include/shiva/common/SequenceUtilities.hpp", [t!"shiva/common/ShivaMacros.hpp"]),
   (t!"/s/include/shiva/common/MathUtilities.hpp", [t!"shiva/common/ShivaMacros.hpp"]),
   (t!"/s/include/shiva/common/types.hpp", [t!"shiva/common/ShivaMacros.hpp"]),
   (t!"/s/include/shiva/common/ShivaMacros.hpp", [t!"shiva/ShivaConfig.hpp"]),
   (t!"/b/include/shiva/ShivaConfig.hpp", [])]

private def headerText (name : Text) (includes : List Text) : Text :=
  t!"#pragma once\n" ++ includes.flatMap (fun i => t!"#include \"" ++ i ++ t!"\"\n") ++ t!"\nnamespace shiva { /* " ++
    name ++ t!" */ }\n"

private def shivaSearch : Search :=
  { tree :=
      { files := shivaHeaders.map fun h => (locate [] h.1, headerText h.1 h.2)
        dirs := [t!"/", t!"/s", t!"/b", t!"/s/include", t!"/b/include", t!"/s/include/shiva", t!"/b/include/shiva",
          t!"/s/include/shiva/common", t!"/s/include/shiva/geometry", t!"/s/include/shiva/geometry/mapping",
          t!"/s/include/shiva/functions", t!"/s/include/shiva/functions/bases", t!"/s/include/shiva/functions/quadrature",
          t!"/s/include/shiva/functions/spacing"].map fun d => locate [] d }
    cwd := locate [] t!"/s"
    includePaths := [t!"include", t!"/b/include"] }

private def shivaArgs : List Text :=
  [t!"include/shiva/geometry/mapping/LinearTransform.hpp", t!"./include/shiva/functions/bases/../quadrature/Quadrature.hpp",
    t!"/s/include/shiva/functions/bases/BasisProduct.hpp"]

private theorem shiva_sound : sound (shivaSearch.emptied (locate shivaSearch.cwd t!"all.hpp")) shivaArgs = true := by
  decide +kernel

private theorem shiva_unneeded : unneeded (shivaSearch.emptied (locate shivaSearch.cwd t!"all.hpp")) shivaArgs
    (locate shivaSearch.cwd t!"all.hpp") = true := by
  decide +kernel

/-- The preconditions hold for headers of this repository, with relative and absolute names, two include paths, and
includes relative to the including header. -/
example : ∃ (order : List Loc) (ys : List Text), order.Nodup ∧
    (∀ l, l ∈ order ↔ (shivaSearch.emptied (locate shivaSearch.cwd t!"all.hpp")).Needed shivaArgs l) ∧
    order.Pairwise (fun a b => ¬ (shivaSearch.emptied (locate shivaSearch.cwd t!"all.hpp")).Includes a b) ∧
    List.Forall₂ (fun l y => ∃ text, shivaSearch.tree.read l = some text ∧ CommentedText text y) order ys ∧
    ∀ n, shivaSearch.tree.files.length < n → aggregateIn shivaSearch 1000 n shivaArgs t!"all.hpp"
      = .ok (shivaSearch.tree.write (locate shivaSearch.cwd t!"all.hpp") (List.zipWith part order ys).flatten) :=
  C105_order shivaSearch shivaArgs t!"all.hpp" 1000 (of_sound shiva_sound).1 (of_sound shiva_sound).2.1
    (fun l _ => (of_sound shiva_sound).2.2 l) (of_unneeded shiva_unneeded) (by decide +kernel) (by decide +kernel)

/-- **C106, what holds.** With the same preconditions, but with or without cycles: the script runs for ever exactly if a
needed header includes itself, directly or indirectly; otherwise it finishes, and its loop has at most one round for
each file and one more. -/
theorem C106_partial (s : Search) (headers : List Text) (output : Text) (depth : Nat)
    (ho : (s.emptied (locate s.cwd output)).Ordinary headers) (hc : (s.emptied (locate s.cwd output)).Complete headers)
    (hno : ¬ (s.emptied (locate s.cwd output)).Needed headers (locate s.cwd output))
    (hw : s.tree.canWrite (locate s.cwd output) = true) (hd : s.tree.files.length + 1 < depth) :
    ((∀ n, aggregateIn s depth n headers output = .running) ↔
      ∃ l, (s.emptied (locate s.cwd output)).Needed headers l ∧ (s.emptied (locate s.cwd output)).InCycle l) ∧
    ((¬ ∃ l, (s.emptied (locate s.cwd output)).Needed headers l ∧ (s.emptied (locate s.cwd output)).InCycle l) →
      ∃ t, ∀ n, s.tree.files.length < n → aggregateIn s depth n headers output = .ok t) := by
  have hfin : (¬ ∃ l, (s.emptied (locate s.cwd output)).Needed headers l ∧
      (s.emptied (locate s.cwd output)).InCycle l) →
      ∃ t, ∀ n, s.tree.files.length < n → aggregateIn s depth n headers output = .ok t := by
    intro h
    obtain ⟨order, -, -, -, -, h5⟩ := run_ok ho hc (fun l hl hcy => h ⟨l, hl, hcy⟩) hno hw hd
    exact ⟨_, h5⟩
  refine ⟨⟨fun h => ?_, ?_⟩, hfin⟩
  · by_contra hn
    obtain ⟨t, ht⟩ := hfin hn
    have := (ht (s.tree.files.length + 1) (by omega)).symm.trans (h _)
    exact absurd this (by simp)
  · rintro ⟨l, hl, hcy⟩ n
    obtain ⟨w, hwd⟩ : ∃ w : World, w = World.opened ⟨s.tree, s.cwd, s.includePaths⟩ output := ⟨_, rfl⟩
    have hsearch : searchOf w = s.emptied (locate s.cwd output) := by rw [hwd]; rfl
    have htree : w.tree = s.tree.write (locate s.cwd output) [] := by rw [hwd]; rfl
    have hreg : Regular w headers := ⟨by rw [hsearch]; exact ho, by rw [hsearch]; exact hc⟩
    have hlen : w.tree.files.length ≤ s.tree.files.length + 1 := by rw [htree]; exact length_write_le _ _ _
    show (if s.tree.canWrite (locate s.cwd output) = true then _ else _) = _
    rw [if_pos hw, ← hwd, hreg.runs (by omega) (l := l) (by rw [hsearch]; exact hl) (by rw [hsearch]; exact hcy)]

/-- A tree of files given by name and text; all directories above them exist. -/
private def small (files : List (Text × Text)) : Search :=
  { tree := { files := files.map fun f => (locate [] f.1, f.2)
              dirs := [locate [] t!"/t!", locate [] t!"/p"] }
    cwd := locate [] t!"/p"
    includePaths := [] }

private def twoHeaders : Search :=
  small [(t!"/p/a.hpp", t!"#pragma once\n#include \"b.hpp\"\n"), (t!"/p/b.hpp", t!"#pragma once\n#include \"a.hpp\"\n")]

private theorem twoHeaders_found :
    found (twoHeaders.emptied (locate twoHeaders.cwd t!"all.hpp")) [t!"a.hpp"] = true := by
  decide +kernel

private theorem includes_of {s : Search} {a b : Loc} {n x : Text} (hx : s.tree.read a = some x)
    (hn : n ∈ (lines x).filterMap includeMatch) (hc : n ≠ Search.configName)
    (hb : (s.candidates a n).find? s.tree.isThere = some b) : s.Includes a b :=
  ⟨n, names_iff.2 ⟨x, hx, hn⟩, hc, hb⟩

/-- **C106 fails.** Two headers that include each other, which compilers accept, as both have `#pragma once`: the script
never finishes. -/
theorem C106_violated :
    ∃ (s : Search) (headers : List Text) (output : Text), (s.emptied (locate s.cwd output)).Ordinary headers ∧
      (s.emptied (locate s.cwd output)).Complete headers ∧ s.tree.canWrite (locate s.cwd output) = true ∧
      ∀ n, aggregateIn s 1000 n headers output = .running := by
  refine ⟨twoHeaders, [t!"a.hpp"], t!"all.hpp", (of_found twoHeaders_found).1, (of_found twoHeaders_found).2,
    by decide +kernel, ?_⟩
  refine ((C106_partial twoHeaders [t!"a.hpp"] t!"all.hpp" 1000 (of_found twoHeaders_found).1
    (of_found twoHeaders_found).2 (of_unneeded (by decide +kernel)) (by decide +kernel) (by decide +kernel)).1).2
    ⟨locate [] t!"/p/a.hpp", ⟨t!"a.hpp", by simp, ?_⟩, ?_⟩
  · rw [show locate (twoHeaders.emptied (locate twoHeaders.cwd t!"all.hpp")).cwd t!"a.hpp"
      = locate [] t!"/p/a.hpp" by decide +kernel]
  · refine .tail (.single (includes_of (b := locate [] t!"/p/b.hpp") (n := t!"b.hpp")
      (x := t!"#pragma once\n#include \"b.hpp\"\n") (by decide +kernel) (by decide +kernel) (by decide +kernel)
      (by decide +kernel))) (includes_of (n := t!"a.hpp")
      (x := t!"#pragma once\n#include \"a.hpp\"\n") (by decide +kernel) (by decide +kernel) (by decide +kernel)
      (by decide +kernel))

/-- A case without cycles. -/
example : ∃ t, ∀ n, shivaSearch.tree.files.length < n →
    aggregateIn shivaSearch 1000 n shivaArgs t!"all.hpp" = .ok t :=
  (C106_partial shivaSearch shivaArgs t!"all.hpp" 1000 (of_sound shiva_sound).1 (of_sound shiva_sound).2.1
    (of_unneeded shiva_unneeded) (by decide +kernel) (by decide +kernel)).2
    fun ⟨l, _, h⟩ => (of_sound shiva_sound).2.2 l h

private theorem infix_flatMap {α β : Type} {f : α → List β} {l : List α} {a : α} (h : a ∈ l) : f a <:+: l.flatMap f := by
  obtain ⟨x, y, rfl⟩ := List.append_of_mem h
  exact ⟨x.flatMap f, y.flatMap f, by simp⟩

private theorem not_include_of_head {c : Char} {r name : Text} (h : c ≠ '#') : ¬ IsInclude (c :: r) name := by
  rintro ⟨sp, rest, -, -, -, -, e⟩
  exact h (List.cons.inj e).1

private theorem not_include_outputLine (line name : Text) : ¬ IsInclude (outputLine line) name := by
  unfold outputLine
  split
  · exact not_include_of_head (c := '/') (by decide)
  · rename_i h
    intro hi
    refine h ?_
    rw [Bool.or_eq_true]
    exact .inl (includeMatch_isSome.2 ⟨name, hi⟩)

private theorem parts_lines {order : List Loc} {f : Loc → Text} (hp : ∀ l ∈ order, Proper l)
    (hf : ∀ l ∈ order, EndsLine (f l)) :
    lines (order.flatMap fun l => part l ((lines (f l)).flatMap outputLine))
      = order.flatMap fun l => partLines l ((lines (f l)).map outputLine) := by
  have e : (order.flatMap fun l => part l ((lines (f l)).flatMap outputLine))
      = (order.flatMap fun l => partLines l ((lines (f l)).map outputLine)).flatten := by
    rw [List.flatMap_def, List.flatMap_def]
    induction order with
    | nil => rfl
    | cons l ls ih =>
      rw [List.map_cons, List.flatten_cons, ih (fun k hk => hp k (by simp [hk])) (fun k hk => hf k (by simp [hk])),
        List.map_cons, List.flatten_cons, List.flatten_append, flatten_partLines, List.flatMap_def]
  rw [e]
  refine lines_flatten fun x hx => ?_
  obtain ⟨l, hl, hx⟩ := List.mem_flatMap.1 hx
  refine fullLine_partLines (hp l hl) (fun y hy => ?_) x hx
  obtain ⟨z, hz, rfl⟩ := List.mem_map.1 hy
  exact fullLine_outputLine (fullLine_of_endsLine (hf l hl) z hz)

/-- **C107, what holds.** With the preconditions of C105, and if the last line of each needed header ends in a line feed:
the aggregated file has the lines of every needed header, together and in their order, each kept but for the quoted
includes and `#pragma once`, which become comments; and it has no quoted include.  What is missing: the configuration
header is not among the needed headers, although it is included, and an include that cannot be resolved is no error. -/
theorem C107_partial (s : Search) (headers : List Text) (output : Text) (depth : Nat)
    (ho : (s.emptied (locate s.cwd output)).Ordinary headers) (hc : (s.emptied (locate s.cwd output)).Complete headers)
    (hac : ∀ l, (s.emptied (locate s.cwd output)).Needed headers l → ¬ (s.emptied (locate s.cwd output)).InCycle l)
    (hno : ¬ (s.emptied (locate s.cwd output)).Needed headers (locate s.cwd output))
    (hw : s.tree.canWrite (locate s.cwd output) = true) (hd : s.tree.files.length + 1 < depth)
    (hend : ∀ l text, (s.emptied (locate s.cwd output)).Needed headers l → s.tree.read l = some text → EndsLine text) :
    ∃ x, (∀ n, s.tree.files.length < n →
        aggregateIn s depth n headers output = .ok (s.tree.write (locate s.cwd output) x)) ∧
      (∀ l text, (s.emptied (locate s.cwd output)).Needed headers l → s.tree.read l = some text →
        ∃ ys, List.Forall₂ Commented (lines text) ys ∧ ys <:+: lines x) ∧
      ∀ line ∈ lines x, ∀ name, ¬ IsInclude line name := by
  obtain ⟨order, -, h2, -, h4, h5⟩ := run_ok ho hc hac hno hw hd
  have hl : lines (order.flatMap fun l => part l ((lines ((s.tree.read l).getD [])).flatMap outputLine)) = _ :=
    parts_lines (fun l hl => (h4 l hl).1) fun l hl => by
      obtain ⟨x, hx⟩ := (h4 l hl).2
      rw [hx]
      exact hend l x ((h2 l).1 hl) hx
  refine ⟨_, h5, fun l text hn hr => ?_, ?_⟩
  · refine ⟨(lines text).map outputLine, forall₂_map fun a _ => outputLine_commented a, ?_⟩
    rw [hl]
    have := infix_flatMap (f := fun l => partLines l ((lines ((s.tree.read l).getD [])).map outputLine)) ((h2 l).2 hn)
    refine List.IsInfix.trans ?_ this
    rw [hr, Option.getD_some]
    unfold partLines
    exact ⟨['\n'] :: ['\n'] :: ("// ===== Start of ".toList ++ render l ++ " =====\n".toList) :: [],
      ["// ===== End of ".toList ++ render l ++ " =====\n".toList], by simp⟩
  · rw [hl]
    intro line hline name
    obtain ⟨l, -, hm⟩ := List.mem_flatMap.1 hline
    unfold partLines at hm
    simp only [List.cons_append, List.mem_cons, List.mem_append, List.mem_map, List.not_mem_nil, or_false] at hm
    rcases hm with rfl | rfl | rfl | ⟨z, -, rfl⟩ | rfl
    · exact not_include_of_head (by decide)
    · exact not_include_of_head (by decide)
    · exact not_include_of_head (c := '/') (by decide)
    · exact not_include_outputLine _ _
    · exact not_include_of_head (c := '/') (by decide)

private theorem endsLine_of_files {t : Tree} (h : (t.files.all fun f => f.2.getLast? == some '\n') = true) {l : Loc}
    {x : Text} (hx : t.read l = some x) : EndsLine x := by
  have := List.all_eq_true.1 h _ (mem_of_read hx)
  exact .inr (by simpa using this)

/-- The preconditions hold for headers of this repository. -/
example : ∃ x, (∀ n, shivaSearch.tree.files.length < n → aggregateIn shivaSearch 1000 n shivaArgs t!"all.hpp"
      = .ok (shivaSearch.tree.write (locate shivaSearch.cwd t!"all.hpp") x)) ∧
    (∀ l text, (shivaSearch.emptied (locate shivaSearch.cwd t!"all.hpp")).Needed shivaArgs l →
      shivaSearch.tree.read l = some text → ∃ ys, List.Forall₂ Commented (lines text) ys ∧ ys <:+: lines x) ∧
    ∀ line ∈ lines x, ∀ name, ¬ IsInclude line name :=
  C107_partial shivaSearch shivaArgs t!"all.hpp" 1000 (of_sound shiva_sound).1 (of_sound shiva_sound).2.1
    (fun l _ => (of_sound shiva_sound).2.2 l) (of_unneeded shiva_unneeded) (by decide +kernel) (by decide +kernel)
    fun _ _ _ hx => endsLine_of_files (by decide +kernel) hx

private theorem headerLoop_nil (w : World) (n : Nat) (included : List Text) :
    headerLoop w n [] included = .ok included := by
  cases n <;> simp [headerLoop]

private theorem run_single {s : Search} {headers : List Text} {output k x : Text} {depth : Nat}
    (hw : s.tree.canWrite (locate s.cwd output) = true)
    (hg : createGraphs (World.opened ⟨s.tree, s.cwd, s.includePaths⟩ output) depth [] headers = some [(k, [])])
    (hk : (World.opened ⟨s.tree, s.cwd, s.includePaths⟩ output).abs k = k)
    (hp : processHeaders (World.opened ⟨s.tree, s.cwd, s.includePaths⟩ output) [] [k] = some x) (n : Nat) (hn : 0 < n) :
    aggregateIn s depth n headers output = .ok (s.tree.write (locate s.cwd output) x) := by
  obtain ⟨m, rfl⟩ : ∃ m, n = m + 1 := ⟨n - 1, by omega⟩
  unfold aggregateIn aggregateHeaders
  rw [if_pos hw]
  unfold aggregateText
  rw [hg]
  dsimp only
  rw [headerLoop, if_neg (by simp)]
  have e1 : (readyKeys [(k, [])]).foldl removeKey [(k, [])] = [] := by simp [readyKeys, removeKey]
  have e2 : (readyKeys [(k, [])]).foldl (appendUnique (World.opened ⟨s.tree, s.cwd, s.includePaths⟩ output)) [] = [k] := by
    simp [readyKeys, appendUnique, hk]
  rw [e1, e2, headerLoop_nil]
  dsimp only
  rw [hp]

private theorem no_include {x : Text} (h : ((lines x).all fun l => (includeMatch l).isNone) = true) :
    ∀ line ∈ lines x, ∀ name, ¬ IsInclude line name := by
  intro line hl name hi
  have := List.all_eq_true.1 h line hl
  rw [includeMatch_iff.2 hi] at this
  cases this

private def withConfig : Search :=
  small [(t!"/p/a.hpp", t!"#include \"ShivaConfig.hpp\"\nint f();\n"),
    (t!"/p/ShivaConfig.hpp", t!"#define SHIVA_USE_CUDA\n")]

private def withConfigText : Text :=
  t!"\n\n// ===== Start of /p/a.hpp =====\n// #include \"ShivaConfig.hpp\"\nint f();\n// ===== End of /p/a.hpp =====\n"

/-- **C107 fails for the configuration header.** It is included, and it exists, but the aggregated file has the include as
a comment only, and not the text. -/
theorem C107_violated_config :
    ∃ (s : Search) (a b : Loc) (headers : List Text) (output name : Text) (t : Tree) (x : Text),
      s.Needed headers a ∧ s.Names a name ∧ s.Resolves a name b ∧
      s.tree.read b = some t!"#define SHIVA_USE_CUDA\n" ∧
      (∀ n, 0 < n → aggregateIn s 1000 n headers output = .ok t) ∧ t.read (locate s.cwd output) = some x ∧
      t!"#define SHIVA_USE_CUDA\n" ∉ lines x ∧ ∀ line ∈ lines x, ∀ m, ¬ IsInclude line m := by
  refine ⟨withConfig, locate [] t!"/p/a.hpp", locate [] t!"/p/ShivaConfig.hpp", [t!"a.hpp"], t!"all.hpp",
    t!"ShivaConfig.hpp", withConfig.tree.write (locate withConfig.cwd t!"all.hpp") withConfigText, withConfigText,
    ⟨t!"a.hpp", by simp, ?_⟩, ?_, ?_, by decide +kernel, ?_, ?_, ?_, ?_⟩
  · rw [show locate withConfig.cwd t!"a.hpp" = locate [] t!"/p/a.hpp" by decide +kernel]
  · exact names_iff.2 ⟨t!"#include \"ShivaConfig.hpp\"\nint f();\n", by decide +kernel, by decide +kernel⟩
  · show _ = _
    decide +kernel
  · exact run_single (k := t!"/p/a.hpp") (by decide +kernel) (by decide +kernel) (by decide +kernel)
      (by decide +kernel)
  · rw [read_write, if_pos rfl]
  · decide +kernel
  · exact no_include (by decide +kernel)

private def withGap : Search :=
  small [(t!"/p/a.hpp", t!"#include \"gone.hpp\"\n#include \"b.hpp\"\nint f();\n"), (t!"/p/b.hpp", t!"int g();\n")]

private def withGapText : Text :=
  t!"\n\n// ===== Start of /p/a.hpp =====\n// #include \"gone.hpp\"\n// #include \"b.hpp\"\nint f();\n" ++
    t!"// ===== End of /p/a.hpp =====\n"

/-- **C107 fails after an include that cannot be resolved.** A header includes one that does not exist, as `Shiva.hpp`
does, and then one that exists.  The script finishes, and the aggregated file has neither the text of the latter nor
the includes. -/
theorem C107_violated_unresolved :
    ∃ (s : Search) (a b : Loc) (headers : List Text) (output name : Text) (t : Tree) (x : Text),
      s.Needed headers a ∧ s.Names a name ∧ name ≠ Search.configName ∧ s.Resolves a name b ∧
      s.tree.read b = some t!"int g();\n" ∧
      (∀ n, 0 < n → aggregateIn s 1000 n headers output = .ok t) ∧ t.read (locate s.cwd output) = some x ∧
      t!"int g();\n" ∉ lines x ∧ ∀ line ∈ lines x, ∀ m, ¬ IsInclude line m := by
  refine ⟨withGap, locate [] t!"/p/a.hpp", locate [] t!"/p/b.hpp", [t!"a.hpp"], t!"all.hpp",
    t!"b.hpp", withGap.tree.write (locate withGap.cwd t!"all.hpp") withGapText, withGapText,
    ⟨t!"a.hpp", by simp, ?_⟩, ?_, by decide +kernel, ?_, by decide +kernel, ?_, ?_, ?_, ?_⟩
  · rw [show locate withGap.cwd t!"a.hpp" = locate [] t!"/p/a.hpp" by decide +kernel]
  · exact names_iff.2 ⟨t!"#include \"gone.hpp\"\n#include \"b.hpp\"\nint f();\n", by decide +kernel,
      by decide +kernel⟩
  · show _ = _
    decide +kernel
  · exact run_single (k := t!"/p/a.hpp") (by decide +kernel) (by decide +kernel) (by decide +kernel)
      (by decide +kernel)
  · rw [read_write, if_pos rfl]
  · decide +kernel
  · exact no_include (by decide +kernel)

private theorem makedirs_ok {t : Tree} {l : Loc} (h : ∀ d, d <+: l → t.read d = none) :
    makedirs t l = some { t with dirs := upTo l ++ t.dirs } := by
  unfold makedirs
  rw [if_neg]
  intro h'
  obtain ⟨d, hd, hr⟩ := List.any_eq_true.1 h'
  obtain ⟨k, -, rfl⟩ := List.mem_map.1 hd
  rw [h _ (List.take_prefix k l)] at hr
  cases hr

/-- **C108, what holds.** A file made of parts, each with a text of full lines and without marks, is split into these
texts, each of which goes to the place from which the header was taken; no other file changes.  What is missing: the
output directory, which is created, is not used, and the texts are those with the includes turned into comments.
The precondition that the aggregated file is not itself one of the places is not used in the proof; it is there because
the script reads the file while it writes the others, and the model reads it first. -/
theorem C108_partial (t : Tree) (cwd : Loc) (aggregated outputDir : Text) (ps : List (Loc × Text))
    (hp : ∀ p ∈ ps, Proper p.1 ∧ t.canWrite p.1 = true ∧ ¬ p.1 <+: locate cwd outputDir ∧ EndsLine p.2 ∧ NoMarks p.2)
    (hn : (ps.map Prod.fst).Nodup) (_hself : locate cwd aggregated ∉ ps.map Prod.fst)
    (hdir : ∀ d, d <+: locate cwd outputDir → t.read d = none)
    (hagg : t.read (locate cwd aggregated) = some (ps.flatMap fun p => part p.1 p.2)) :
    ∃ t', splitAggregatedFile t cwd aggregated outputDir = some t' ∧ (∀ p ∈ ps, t'.read p.1 = some p.2) ∧
      ∀ l, l ∉ ps.map Prod.fst → t'.read l = t.read l := by
  obtain ⟨qs, hqs⟩ : ∃ qs : List (Loc × List Text), qs = ps.map fun p => (p.1, lines p.2) := ⟨_, rfl⟩
  have hfst : qs.map Prod.fst = ps.map Prod.fst := by rw [hqs, List.map_map]; rfl
  have hlines : lines (ps.flatMap fun p => part p.1 p.2) = qs.flatMap fun q => partLines q.1 q.2 := by
    have e : (ps.flatMap fun p => part p.1 p.2) = (qs.flatMap fun q => partLines q.1 q.2).flatten := by
      rw [hqs, List.flatMap_map]
      clear hqs hfst hagg hn hp _hself
      induction ps with
      | nil => rfl
      | cons p ps ih =>
        rw [List.flatMap_cons, ih, List.flatMap_cons, List.flatten_append, flatten_partLines, flatten_lines]
    rw [e]
    refine lines_flatten fun x hx => ?_
    obtain ⟨q, hq, hx⟩ := List.mem_flatMap.1 hx
    rw [hqs] at hq
    obtain ⟨p, hpm, rfl⟩ := List.mem_map.1 hq
    obtain ⟨h1, -, -, h4, -⟩ := hp p hpm
    exact fullLine_partLines h1 (fullLine_of_endsLine h4) x hx
  obtain ⟨t1, ht1⟩ : ∃ t1 : Tree, t1 = { t with dirs := upTo (locate cwd outputDir) ++ t.dirs } := ⟨_, rfl⟩
  have hread : ∀ l, t1.read l = t.read l := fun l => by rw [ht1]; rfl
  have hcan : ∀ p ∈ ps, t1.canWrite p.1 = true := by
    intro p hpm
    obtain ⟨-, h2, h3, -⟩ := hp p hpm
    unfold Tree.canWrite at h2 ⊢
    rw [ht1]
    simp only [Bool.and_eq_true, decide_eq_true_iff, Bool.not_eq_true', List.contains_iff_mem, List.mem_append,
      ← Bool.not_eq_true] at h2 ⊢
    refine ⟨⟨h2.1.1, .inr h2.1.2⟩, ?_⟩
    rintro (h | h)
    · obtain ⟨k, -, hk⟩ := List.mem_map.1 h
      exact h3 (hk ▸ List.take_prefix k _)
    · exact h2.2 h
  have hloop := splitLoop_parts (cwd := cwd) (dir := outputDir) qs t1 (by
    intro q hq
    rw [hqs] at hq
    obtain ⟨p, hpm, rfl⟩ := List.mem_map.1 hq
    obtain ⟨h1, -, -, -, h5⟩ := hp p hpm
    exact ⟨h1, hcan p hpm, fun y hy => ⟨startMatch_of_not (h5 y hy).1, endMatch_of_not (h5 y hy).2⟩⟩)
  obtain ⟨r1, r2⟩ := read_foldl_write qs t1 (by rw [hfst]; exact hn)
  refine ⟨qs.foldl (fun t p => t.write p.1 p.2.flatten) t1, ?_, fun p hpm => ?_, fun l hl => ?_⟩
  · unfold splitAggregatedFile
    rw [makedirs_ok hdir, ← ht1]
    dsimp only
    rw [hread, hagg]
    dsimp only
    rw [hlines, hloop]
  · have := r1 (p.1, lines p.2) (by rw [hqs]; exact List.mem_map.2 ⟨p, hpm, rfl⟩)
    rwa [flatten_lines] at this
  · rw [r2 l (by rw [hfst]; exact hl), hread]

private def oneHeader : Search := small [(t!"/p/a.hpp", t!"#pragma once\nint f();\n")]

private def oneHeaderText : Text :=
  t!"\n\n// ===== Start of /p/a.hpp =====\n// #pragma once\nint f();\n// ===== End of /p/a.hpp =====\n"

/-- The preconditions hold for an aggregated file. -/
example : ∃ t', splitAggregatedFile (oneHeader.tree.write (locate [] t!"/p/all.hpp") oneHeaderText)
    (locate [] t!"/p") t!"all.hpp" t!"out" = some t' ∧
    t'.read (locate [] t!"/p/a.hpp") = some t!"// #pragma once\nint f();\n" := by
  obtain ⟨t', h1, h2, -⟩ := C108_partial (oneHeader.tree.write (locate [] t!"/p/all.hpp") oneHeaderText)
    (locate [] t!"/p") t!"all.hpp" t!"out"
    [(locate [] t!"/p/a.hpp", t!"// #pragma once\nint f();\n")]
    (by
      intro p hp
      rw [List.mem_singleton.1 hp]
      exact ⟨by decide +kernel, by decide +kernel, by decide +kernel, .inr (by decide +kernel), by
        unfold NoMarks; decide +kernel⟩)
    (by simp) (by decide +kernel)
    (by
      intro d hd
      have h : ∀ d ∈ (locate (locate [] t!"/p") t!"out").inits,
          (oneHeader.tree.write (locate [] t!"/p/all.hpp") oneHeaderText).read d = none := by decide +kernel
      exact h d ((List.mem_inits _ _).2 hd))
    (by decide +kernel)
  exact ⟨t', h1, h2 _ (List.mem_singleton.2 rfl)⟩

/-- **C108 fails.** A header is aggregated, and the result split into the directory `out`.  Nothing is in that directory,
and the header itself has lost its `#pragma once`. -/
theorem C108_violated :
    ∃ (s : Search) (header output outputDir : Text) (t1 t2 : Tree),
      s.tree.read (locate s.cwd header) = some t!"#pragma once\nint f();\n" ∧
      (∀ n, 0 < n → aggregateIn s 1000 n [header] output = .ok t1) ∧
      splitAggregatedFile t1 s.cwd output outputDir = some t2 ∧
      (∀ l, locate s.cwd outputDir <+: l → t2.read l = none) ∧
      t2.read (locate s.cwd header) = some t!"// #pragma once\nint f();\n" := by
  have hs : (splitAggregatedFile (oneHeader.tree.write (locate oneHeader.cwd t!"all.hpp") oneHeaderText)
      oneHeader.cwd t!"all.hpp" t!"out").map Tree.files =
      some [(locate [] t!"/p/a.hpp", t!"// #pragma once\nint f();\n"),
        (locate [] t!"/p/all.hpp", oneHeaderText)] := by decide +kernel
  obtain ⟨t2, h2, hf⟩ := Option.map_eq_some_iff.1 hs
  refine ⟨oneHeader, t!"a.hpp", t!"all.hpp", t!"out", _, t2, by decide +kernel,
    run_single (k := t!"/p/a.hpp") (x := oneHeaderText) (by decide +kernel) (by decide +kernel) (by decide +kernel)
      (by decide +kernel), h2, fun l hl => ?_, ?_⟩
  · by_contra hne
    obtain ⟨x, hx⟩ := Option.ne_none_iff_exists'.1 hne
    have hm := mem_of_read hx
    rw [hf] at hm
    have hm' : l = locate [] t!"/p/a.hpp" ∨ l = locate [] t!"/p/all.hpp" := by
      rcases List.mem_cons.1 hm with e | hm
      · exact .inl (Prod.mk.inj e).1
      · exact .inr (Prod.mk.inj (List.mem_singleton.1 hm)).1
    rcases hm' with rfl | rfl
    · exact absurd hl (by decide +kernel)
    · exact absurd hl (by decide +kernel)
  · unfold Tree.read
    rw [hf]
    decide +kernel

/-- **C108, in general.** To aggregate headers and to split the result, into whatever directory, overwrites every needed
header with its text in which the includes and `#pragma once` are comments, and no other file but the aggregated one
changes. -/
theorem C108_overwrites (s : Search) (headers : List Text) (output outputDir : Text) (depth n : Nat)
    (ho : (s.emptied (locate s.cwd output)).Ordinary headers) (hc : (s.emptied (locate s.cwd output)).Complete headers)
    (hac : ∀ l, (s.emptied (locate s.cwd output)).Needed headers l → ¬ (s.emptied (locate s.cwd output)).InCycle l)
    (hno : ¬ (s.emptied (locate s.cwd output)).Needed headers (locate s.cwd output))
    (hw : s.tree.canWrite (locate s.cwd output) = true) (hd : s.tree.files.length + 1 < depth)
    (hn : s.tree.files.length < n)
    (hend : ∀ l text, (s.emptied (locate s.cwd output)).Needed headers l → s.tree.read l = some text →
      EndsLine text ∧ NoMarks text ∧ s.tree.canWrite l = true)
    (hdir : ∀ d, d <+: locate s.cwd outputDir → s.tree.read d = none ∧ d ≠ locate s.cwd output) :
    ∃ t1 t2, aggregateIn s depth n headers output = .ok t1 ∧
      splitAggregatedFile t1 s.cwd output outputDir = some t2 ∧
      (∀ l text, (s.emptied (locate s.cwd output)).Needed headers l → s.tree.read l = some text →
        ∃ y, CommentedText text y ∧ t2.read l = some y) ∧
      ∀ l, ¬ (s.emptied (locate s.cwd output)).Needed headers l → l ≠ locate s.cwd output → t2.read l = s.tree.read l := by
  obtain ⟨order, h1, h2, h3, h4, h5⟩ := run_ok ho hc hac hno hw hd
  obtain ⟨f, hf⟩ : ∃ f : Loc → Text, f = fun l => (lines ((s.tree.read l).getD [])).flatMap outputLine := ⟨_, rfl⟩
  obtain ⟨t1, ht1⟩ : ∃ t1, t1 = s.tree.write (locate s.cwd output) (order.flatMap fun l => part l (f l)) := ⟨_, rfl⟩
  have hfull : ∀ l ∈ order, ∀ x, s.tree.read l = some x → ∀ z ∈ (lines x).map outputLine, FullLine z := by
    intro l hl x hx z hz
    obtain ⟨y, hy, rfl⟩ := List.mem_map.1 hz
    exact fullLine_outputLine (fullLine_of_endsLine (hend l x ((h2 l).1 hl) hx).1 y hy)
  obtain ⟨t2, h6, h7, h8⟩ := C108_partial t1 s.cwd output outputDir (order.map fun l => (l, f l)) (by
    intro p hp
    obtain ⟨l, hl, rfl⟩ := List.mem_map.1 hp
    obtain ⟨x, hx⟩ := (h4 l hl).2
    obtain ⟨e1, e2, e3⟩ := hend l x ((h2 l).1 hl) hx
    have ef : f l = ((lines x).map outputLine).flatten := by rw [hf]; dsimp only; rw [hx, List.flatMap_def]; rfl
    refine ⟨(h4 l hl).1, by rw [ht1, canWrite_write]; exact e3, fun hpre => ?_, ?_, ?_⟩
    · rw [(hdir l hpre).1] at hx; cases hx
    · show EndsLine (f l)
      rw [ef]
      rcases List.eq_nil_or_concat ((lines x).map outputLine) with e | ⟨ys, y, e⟩
      · rw [e]; exact .inl rfl
      · obtain ⟨b, -, rfl⟩ := hfull l hl x hx y (by rw [e]; simp)
        rw [e]
        exact .inr (by simp)
    · show NoMarks (f l)
      intro z hz
      rw [ef, lines_flatten (hfull l hl x hx)] at hz
      obtain ⟨y, hy, rfl⟩ := List.mem_map.1 hz
      exact outputLine_noMark (e2 y hy))
    (by rw [List.map_map]; simpa [Function.comp_def] using h1)
    (by
      rw [List.map_map]
      simp only [Function.comp_def, List.map_id']
      rw [h2]
      exact hno)
    (fun d hpre => by rw [ht1, read_write, if_neg (hdir d hpre).2]; exact (hdir d hpre).1)
    (by rw [ht1, read_write, if_pos rfl, List.flatMap_map])
  have hmap : (order.map fun l => (l, f l)).map Prod.fst = order := by rw [List.map_map]; simp [Function.comp_def]
  refine ⟨t1, t2, by rw [h5 n hn, ht1, hf], h6, fun l text hl hx => ⟨f l, ?_, ?_⟩, fun l hl hne => ?_⟩
  · rw [hf]; dsimp only; rw [hx]; exact commentedText text
  · exact h7 (l, f l) (List.mem_map.2 ⟨l, (h2 l).2 hl, rfl⟩)
  · rw [h8 l (by rw [hmap, h2]; exact hl), ht1, read_write, if_neg hne]

/-- The preconditions hold for headers of this repository. -/
example : ∃ t1 t2, aggregateIn shivaSearch 1000 1000 shivaArgs t!"all.hpp" = .ok t1 ∧
    splitAggregatedFile t1 shivaSearch.cwd t!"all.hpp" t!"out" = some t2 ∧
    (∀ l text, (shivaSearch.emptied (locate shivaSearch.cwd t!"all.hpp")).Needed shivaArgs l →
      shivaSearch.tree.read l = some text → ∃ y, CommentedText text y ∧ t2.read l = some y) ∧
    ∀ l, ¬ (shivaSearch.emptied (locate shivaSearch.cwd t!"all.hpp")).Needed shivaArgs l →
      l ≠ locate shivaSearch.cwd t!"all.hpp" → t2.read l = shivaSearch.tree.read l := by
  refine C108_overwrites shivaSearch shivaArgs t!"all.hpp" t!"out" 1000 1000 (of_sound shiva_sound).1
    (of_sound shiva_sound).2.1 (fun l _ => (of_sound shiva_sound).2.2 l) (of_unneeded shiva_unneeded) (by decide +kernel)
    (by decide +kernel) (by decide +kernel) (fun l x _ hx => ?_) (fun d hd => ?_)
  · have h : (shivaSearch.tree.files.all fun f => shivaSearch.tree.canWrite f.1 && (lines f.2).all fun y =>
        !("// ===== Start of ".toList.isPrefixOf y) && !("// ===== End of ".toList.isPrefixOf y)) = true := by
      decide +kernel
    have h := List.all_eq_true.1 h _ (mem_of_read hx)
    rw [Bool.and_eq_true, List.all_eq_true] at h
    refine ⟨endsLine_of_files (by decide +kernel) hx, fun y hy => ?_, h.1⟩
    have := h.2 y hy
    rw [Bool.and_eq_true, Bool.not_eq_true', Bool.not_eq_true', ← Bool.not_eq_true, ← Bool.not_eq_true,
      List.isPrefixOf_iff_prefix, List.isPrefixOf_iff_prefix] at this
    exact this
  · have : ∀ d ∈ (locate shivaSearch.cwd t!"out").inits,
        shivaSearch.tree.read d = none ∧ d ≠ locate shivaSearch.cwd t!"all.hpp" := by decide +kernel
    exact this d ((List.mem_inits _ _).2 hd)

end Verif.Props
