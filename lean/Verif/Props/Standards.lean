import Verif.Lemmas.Standards

/-!
# C126: later language standards
-/

namespace Verif.Props

open Verif.Spec Verif.Headers Verif.Standards Verif.Lemmas Verif.Sequence

variable {R : Type}

/-- The headers that lead to BasisProduct.hpp. -/
private def affected : List Loc :=
  [[t!"shiva", t!"functions", t!"bases", t!"BasisProduct.hpp"],
   [t!"shiva", t!"discretizations", t!"finiteElementMethod", t!"parentElements", t!"ParentElement.hpp"],
   [t!"shiva", t!"geometry", t!"shapes", t!"InterpolatedShape.hpp"]]

/-- **C126, functions.** With every standard the values of Lagrange functions and the gradients of their products are those of C++17;
and before C++20 so are the gradients of Lagrange functions and the values of their products. -/
theorem C126_partial (cpp : Nat) (A : Arith R) :
    (∀ S n bf coord, lagrangeValue cpp A S n bf coord = LagrangeBasis.value A S n bf coord) ∧
    (∀ bases idx coord, productGradient cpp A bases idx coord = BasisProduct.gradient A bases idx coord) ∧
    (cpp < 202002 →
      (∀ S n bf coord, lagrangeGradient cpp A S n bf coord = LagrangeBasis.gradient A S n bf coord) ∧
      ∀ bases idx coord, productValue cpp A bases idx coord = BasisProduct.value A bases idx coord) := by
  refine ⟨fun S n bf coord => ?_, fun bases idx coord => ?_, fun hc => ⟨fun S n bf coord => ?_, fun bases idx coord => ?_⟩⟩
  · unfold lagrangeValue LagrangeBasis.value
    rw [← bind_assoc, pack_eq]
  · unfold productGradient BasisProduct.gradient
    refine congrArg (_ >>= ·) (funext fun _ => congrArg (_ >>= ·) (funext fun _ => ?_))
    rw [← bind_assoc, pack_eq, makeIntegerSequence_natCast]
    simp only [Res.ok_bind]
    congr 2
    funext a
    unfold productComponent
    rw [execute_leading (makeIntegerSequence_natCast _)]
    simp only [Res.ok_bind, constants_ic, expandOver_eq]
  · unfold lagrangeGradient LagrangeBasis.gradient
    rw [← bind_assoc, pack_eq]
    cases h : makeIntegerSequence n with
    | ok is =>
      simp only [Res.ok_bind]
      rw [if_neg (by omega)]
      refine congrArg (_ >>= ·) (funext fun values => ?_)
      congr 2
      funext a
      unfold term17 LagrangeBasis.gradientTerm
      rw [execute_leading h]
      simp only [Res.ok_bind, constants_ic]
      rfl
    | _ => rfl
  · unfold productValue BasisProduct.value
    refine congrArg (_ >>= ·) (funext fun _ => ?_)
    rw [← bind_assoc, pack_eq, makeIntegerSequence_natCast]
    simp only [Res.ok_bind]
    rw [if_neg (show ¬ 202002 ≤ cpp by omega), expandOver_eq]
    rfl

/-- **C126 is violated: gradients of Lagrange functions.** From C++20 on no call of `gradient` compiles, for any order, points and
type: it calls a template with three arguments that has two parameters. -/
theorem C126_violated_gradient (cpp : Nat) (hc : 202002 ≤ cpp) (A : Arith R) (S : Spacing R) (n bf : Int) (coord r : R) :
    lagrangeGradient cpp A S n bf coord ≠ .ok r := by
  intro h
  unfold lagrangeGradient at h
  rw [← bind_assoc, pack_eq] at h
  obtain ⟨is, h1, h2⟩ := Res.bind_eq_ok.1 h
  rw [if_pos hc] at h2
  have bad : ∀ a x, term20 A S n bf coord a ≠ .ok x := by
    intro a x ha
    unfold term20 at ha
    rw [execute_factor h1] at ha
    have fv : ∀ b x, factorValue A S bf a b (fun b => callValueProductFactor A [bf, b, a] (.inr coord)) ≠ .ok x := by
      intro b x hb
      unfold factorValue at hb
      obtain ⟨g, -, hb⟩ := Res.bind_eq_ok.1 hb
      obtain ⟨p, hp, -⟩ := Res.bind_eq_ok.1 hb
      rcases b with _ | ⟨b, _ | ⟨b', bs⟩⟩ <;> cases hp
    by_cases e : is = []
    · rw [if_pos e] at ha
      exact fv _ _ ha
    · rw [if_neg e] at ha
      exact fv _ _ ha
  rcases is with _ | ⟨a, _ | ⟨a', as⟩⟩
  · cases h2
  · exact bad a r h2
  · obtain ⟨x, hx, -⟩ := Res.bind_eq_ok.1 h2
    exact bad a x hx

/-- **C126 is violated: values of products.** -/
theorem C126_violated_value (cpp : Nat) (hc : 202002 ≤ cpp) (A : Arith R) (bases : List (Basis R)) (idx : List Int)
    (coord : List R) (r : R) : productValue cpp A bases idx coord ≠ .ok r := by
  intro h
  unfold productValue at h
  obtain ⟨_, _, h⟩ := Res.bind_eq_ok.1 h
  obtain ⟨_, _, h⟩ := Res.bind_eq_ok.1 h
  obtain ⟨_, _, h⟩ := Res.bind_eq_ok.1 h
  rw [if_pos hc] at h
  cases h

/-- With C++17 both compile. -/
example : lagrangeGradient 201703 ratArith (equalSpacing ratArith 3) 3 1 (1 / 2) = .ok (-1) ∧
    productValue 201703 ratArith [⟨2, fun i x => .ok (i + x), fun _ _ => .ok 1⟩] [1] [1 / 2] = .ok (3 / 2) := by
  constructor <;> decide +kernel

private theorem mem_of_lookup {β : Type} {k : Loc} {v : β} : ∀ {l : List (Loc × β)}, l.lookup k = some v → (k, v) ∈ l
  | [], h => by cases h
  | (m, b) :: l, h => by
    by_cases e : m = k
    · subst e
      rw [List.lookup_cons_self] at h
      cases h
      exact List.mem_cons_self
    · have : (k == m) = false := beq_false_of_ne (Ne.symm e)
      rw [List.lookup_cons, this] at h
      exact List.mem_cons_of_mem _ (mem_of_lookup h)

private def quotedIn (items : List HeaderItem) : List Text := items.flatMap fun
  | .quoted n => [n]
  | _ => []

/-- No header but the three includes one of the three; nothing declares `BASIS_TYPE`. -/
private def closedCheck (fs : HeaderFiles) (root : Nat) (l : List (Loc × Header)) : Bool :=
  l.all fun x => decide (t!"BASIS_TYPE" ∉ declaredBy x.2.items) &&
    (decide (x.1 ∈ affected) || (quotedIn x.2.items).all fun n => (fs.find (root, x.1) n).all fun q => decide (q.2 ∉ affected))

private theorem buildTree_closed (o : Options) : closedCheck (buildTree o) 0 (sourceFiles o) = true := by
  rcases o with ⟨_ | _, _ | _, _ | _, _ | _⟩ <;> decide +kernel

private theorem buildTree_generated (o : Options) : closedCheck (buildTree o) 1 generatedFiles = true := rfl

private theorem installed_closed (o : Options) : closedCheck (installed o) 0 (generatedFiles ++ sourceFiles o) = true := by
  rcases o with ⟨_ | _, _ | _, _ | _, _ | _⟩ <;> decide +kernel

private theorem closed_facts {fs : HeaderFiles} {root : Nat} {l : List (Loc × Header)} (h : closedCheck fs root l = true)
    {k : Loc} {x : Header} (hl : l.lookup k = some x) : t!"BASIS_TYPE" ∉ declaredBy x.items ∧
    (k ∉ affected → ∀ n, HeaderItem.quoted n ∈ x.items → ∀ q, fs.find (root, k) n = some q → q.2 ∉ affected) := by
  have hx := List.all_eq_true.1 h _ (mem_of_lookup hl)
  rw [Bool.and_eq_true, decide_eq_true_iff, Bool.or_eq_true, decide_eq_true_iff] at hx
  refine ⟨hx.1, fun hk n hn q hq => ?_⟩
  have h1 := List.all_eq_true.1 (hx.2.resolve_left hk) n (List.mem_flatMap.2 ⟨_, hn, List.mem_cons_self⟩)
  rw [hq] at h1
  exact of_decide_eq_true h1

private theorem tree_facts {o : Options} {fs : HeaderFiles} (hfs : fs = buildTree o ∨ fs = installed o) {p : Place} {x : Header}
    (hf : fs.file p = some x) : t!"BASIS_TYPE" ∉ declaredBy x.items ∧
    (p.2 ∉ affected → ∀ n, HeaderItem.quoted n ∈ x.items → ∀ q, fs.find p n = some q → q.2 ∉ affected) := by
  obtain ⟨r, k⟩ := p
  rcases hfs with rfl | rfl
  · by_cases h0 : r = 0
    · subst h0
      exact closed_facts (buildTree_closed o) hf
    · by_cases h1 : r = 1
      · subst h1
        exact closed_facts (buildTree_generated o) hf
      · have : (buildTree o).file (r, k) = none := (if_neg h0).trans (if_neg h1)
        rw [this] at hf
        cases hf
  · by_cases h0 : r = 0
    · subst h0
      exact closed_facts (installed_closed o) hf
    · have : (installed o).file (r, k) = none := if_neg h0
      rw [this] at hf
      cases hf

private theorem withStandard_there (cpp : Nat) (fs : HeaderFiles) (p : Place) :
    ((withStandard cpp fs).file p).isSome = (fs.file p).isSome := by
  show (if _ then _ else _ : Option Header).isSome = _
  split
  · exact Option.isSome_map
  · rfl

private theorem basisProduct_affected : [t!"shiva", t!"functions", t!"bases", t!"BasisProduct.hpp"] ∈ affected :=
  List.mem_cons_self

/-- **C126, headers.** With every standard, a source file that includes none of BasisProduct.hpp, ParentElement.hpp and
InterpolatedShape.hpp is translated as with C++17; with a standard before C++20 every source file is. -/
theorem C126_headers_partial (cpp : Nat) (o : Options) (fs : HeaderFiles) (hfs : fs = buildTree o ∨ fs = installed o)
    (lib : Text → List Text) (given names : List Text)
    (hn : cpp < 202002 ∨ ∀ n ∈ names, locate [] n ∉
      [[t!"shiva", t!"functions", t!"bases", t!"BasisProduct.hpp"],
       [t!"shiva", t!"discretizations", t!"finiteElementMethod", t!"parentElements", t!"ParentElement.hpp"],
       [t!"shiva", t!"geometry", t!"shapes", t!"InterpolatedShape.hpp"]]) :
    (withStandard cpp fs).translate lib given names = fs.translate lib given names := by
  rcases hn with hc | hn
  · have : withStandard cpp fs = fs := by
      have e : (withStandard cpp fs).file = fs.file := funext fun p => if_neg fun h => by omega
      cases fs
      exact congrArg (fun f => HeaderFiles.mk f _) e
    rw [this]
  · have hS : SameOn (withStandard cpp fs) fs fun p => p.2 ∉ affected :=
      ⟨rfl, withStandard_there cpp fs, fun p hp => if_neg (by
        intro h
        exact hp (h.2 ▸ basisProduct_affected)),
        fun p x hp hf => (tree_facts hfs hf).2 hp⟩
    refine hS.translate lib given names fun n hm q hq => ?_
    have := List.mem_of_find?_eq_some hq
    obtain ⟨r, -, rfl⟩ := List.mem_map.1 this
    exact hn n hm

/-- **C126 is violated by three headers.** From C++20 on no source file that includes BasisProduct.hpp, ParentElement.hpp or
InterpolatedShape.hpp compiles, whatever else it includes, whatever the options and the libraries. -/
theorem C126_violated_headers (cpp : Nat) (hc : 202002 ≤ cpp) (o : Options) (fs : HeaderFiles)
    (hfs : fs = buildTree o ∨ fs = installed o) (lib : Text → List Text) (given names : List Text) (n : Text) (hn : n ∈ names)
    (hl : locate [] n ∈
      [[t!"shiva", t!"functions", t!"bases", t!"BasisProduct.hpp"],
       [t!"shiva", t!"discretizations", t!"finiteElementMethod", t!"parentElements", t!"ParentElement.hpp"],
       [t!"shiva", t!"geometry", t!"shapes", t!"InterpolatedShape.hpp"]]) (t : Seen) :
    (withStandard cpp fs).translate lib given names ≠ .ok t := by
  have hu : Unknown (withStandard cpp fs) t!"BASIS_TYPE" := by
    intro p x hx ns hns hm
    have hd : t!"BASIS_TYPE" ∈ declaredBy x.items := List.mem_flatMap.2 ⟨_, hns, hm⟩
    have hx : (if _ then _ else _ : Option Header) = some x := hx
    split at hx
    · obtain ⟨y, -, rfl⟩ := Option.map_eq_some_iff.1 hx
      revert hd
      decide +kernel
    · exact (tree_facts hfs hx).1 hd
  have hout : ∀ k x, k = locate [] n → fs.file (0, k) = some x → (withStandard cpp fs).findOutside n = some (0, k) := by
    intro k x hk hx
    have hs : (withStandard cpp fs).search = 0 :: fs.search.tail := by
      rcases hfs with rfl | rfl <;> rfl
    unfold HeaderFiles.findOutside
    rw [hs, List.map_cons, List.find?_cons, withStandard_there, ← hk, hx]
    rfl
  have hb : (withStandard cpp fs).file (0, [t!"shiva", t!"functions", t!"bases", t!"BasisProduct.hpp"]) = some basisProduct20 := by
    refine (if_pos ⟨hc, rfl⟩).trans ?_
    rcases hfs with rfl | rfl <;> rfl
  have hi : basisProduct20.items =
      [.quoted t!"shiva/common/NestedSequenceUtilities.hpp", .quoted t!"shiva/common/MultiIndex.hpp",
       .quoted t!"shiva/common/CArray.hpp",
       .uses [Headers.stat, t!"CArrayNd", t!"MultiIndexRangeI", t!"SequenceAlias", t!"forNestedSequence", t!"executeSequence"]] ++
      .uses [t!"BASIS_TYPE"] ::
      [.usesLibrary [t!"std::forward", t!"std::integer_sequence", t!"std::integral_constant"], .declares [t!"BasisProduct"]] := rfl
  have fresh0 : ∀ bad, Fresh t!"BASIS_TYPE" bad ⟨[], [], given⟩ := fun bad => ⟨by simp, fun _ _ => by simp⟩
  have includer : ∀ (k : Loc) (g : Header) (pre post : List HeaderItem), k = locate [] n →
      k ≠ [t!"shiva", t!"functions", t!"bases", t!"BasisProduct.hpp"] → fs.file (0, k) = some g →
      g.items = pre ++ .quoted t!"shiva/functions/bases/BasisProduct.hpp" :: post →
      fs.find (0, k) t!"shiva/functions/bases/BasisProduct.hpp" =
        some (0, [t!"shiva", t!"functions", t!"bases", t!"BasisProduct.hpp"]) →
      (withStandard cpp fs).translate lib given names ≠ .ok t := by
    intro k g pre post hk hne hf hi' hfind
    have hfile : (withStandard cpp fs).file (0, k) = some g := (if_neg fun h => hne h.2).trans hf
    have hfind' : (withStandard cpp fs).find (0, k) t!"shiva/functions/bases/BasisProduct.hpp" =
        some (0, [t!"shiva", t!"functions", t!"bases", t!"BasisProduct.hpp"]) := by
      rw [← hfind]
      unfold HeaderFiles.find
      rw [funext (withStandard_there cpp fs)]
      rfl
    have hne' : ((0 : Nat), k) ≠ (0, [t!"shiva", t!"functions", t!"bases", t!"BasisProduct.hpp"]) :=
      fun h => hne (Prod.ext_iff.1 h).2
    exact translate_fails (P := Fresh t!"BASIS_TYPE" [(0, [t!"shiva", t!"functions", t!"bases", t!"BasisProduct.hpp"]), (0, k)])
      (c := (0, k)) (fun _ _ h => h) (enter_fresh_includer hu lib hb hi hfile hne' hi' hfind' 200)
      (fun s u hs => includer_fails hu lib hb hi hfile hne' hi' hfind'
        ⟨hs.1, fun q hq => hs.2 q (by rw [List.mem_singleton.1 hq]; exact List.mem_cons_self)⟩
        (hs.2 _ (List.mem_cons_of_mem _ List.mem_cons_self)))
      given names (fresh0 _) hn (hout k g hk hf) t
  rcases List.mem_cons.1 hl with h | hl
  · refine translate_fails (P := Fresh t!"BASIS_TYPE" [(0, [t!"shiva", t!"functions", t!"bases", t!"BasisProduct.hpp"])])
      (fun _ _ h => h) (enter_fresh hu lib hb hi 200) (fun s u hs => user_fails hu lib hb hi hs) given names (fresh0 _) hn
      (hout _ Headers.basisProduct h.symm ?_) t
    rcases hfs with rfl | rfl <;> rfl
  rcases List.mem_cons.1 hl with h | hl
  · refine includer _ parentElement
      [.quoted t!"shiva/common/NestedSequenceUtilities.hpp", .quoted t!"shiva/common/ShivaMacros.hpp",
       .quoted t!"shiva/common/types.hpp"] _ h.symm (by decide +kernel) ?_ rfl ?_
    · rcases hfs with rfl | rfl <;> rfl
    · rcases hfs with rfl | rfl <;> rfl
  · refine includer _ interpolatedShape
      [.quoted t!"shiva/common/SequenceUtilities.hpp", .quoted t!"shiva/common/ShivaMacros.hpp",
       .quoted t!"shiva/common/types.hpp"] _ (List.mem_singleton.1 hl).symm (by decide +kernel) ?_ rfl ?_
    · rcases hfs with rfl | rfl <;> rfl
    · rcases hfs with rfl | rfl <;> rfl

/-- LinearTransform.hpp compiles with C++20, ParentElement.hpp does not although it does with C++17. -/
example :
    (∃ t, (withStandard 202002 (buildTree ⟨false, false, false, false⟩)).translate usual []
      [t!"shiva/geometry/mapping/LinearTransform.hpp"] = .ok t) ∧
    (∃ t, (withStandard 201703 (buildTree ⟨false, false, false, false⟩)).translate usual []
      [t!"shiva/discretizations/finiteElementMethod/parentElements/ParentElement.hpp"] = .ok t) ∧
    ∀ t, (withStandard 202002 (buildTree ⟨false, false, false, false⟩)).translate usual []
      [t!"shiva/discretizations/finiteElementMethod/parentElements/ParentElement.hpp"] ≠ .ok t :=
  ⟨⟨_, rfl⟩, ⟨_, rfl⟩, C126_violated_headers 202002 (Nat.le_refl _) _ _ (.inl rfl) usual [] _ _ List.mem_cons_self
    (List.mem_cons_of_mem _ List.mem_cons_self)⟩

end Verif.Props
