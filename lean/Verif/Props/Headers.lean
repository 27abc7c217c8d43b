import Verif.Lemmas.Headers

/-!
# C124: the headers can be included on their own and in any order
-/

namespace Verif.Props

open Verif.Spec Verif.Headers Verif.Lemmas

private def macroNames : List Text :=
  [t!"SHIVA_CONFIG", t!"SHIVA_HOST", t!"SHIVA_DEVICE", t!"SHIVA_HOST_DEVICE", t!"SHIVA_FORCE_INLINE", t!"SHIVA_GLOBAL", conx, stat,
    t!"SHIVA_UNUSED_VAR", t!"SHIVA_IS_CONST_EVAL", t!"SHIVA_ASSERT_MSG"]

private def typeNames : List Text := [t!"tuple", t!"make_tuple", t!"int_sequence", t!"make_int_sequence"] ++ macroNames

private def arrayNames : List Text :=
  [t!"CArray", t!"Scalar", t!"CArrayNd", t!"ScalarView", t!"CArrayViewNd", t!"CArrayHelper", t!"shivaAssertionFailed"] ++ typeNames

private def sequenceNames : List Text := [t!"SequenceAlias", t!"IntPackPeeler", t!"executeSequence", t!"forSequence"]

private def multiNames : List Text := [t!"MultiIndex", t!"MultiIndexRange", t!"MultiIndexRangeI"] ++ sequenceNames

private def utilities : List Text := promised t!"utility" ++ typeTraits

/-- Which names of the project and of libraries are declared, once a file has been included: enough for those who include it. -/
private def table (hip : Bool) : List (Loc × List Text × List Text) :=
  [([t!"shiva", t!"ShivaConfig.hpp"], [t!"SHIVA_CONFIG"], []),
   ([t!"shiva", t!"common", t!"ShivaMacros.hpp"], macroNames,
     [t!"fprintf", t!"vfprintf", t!"printf", t!"va_list", t!"std::abort", t!"intmax_t"] ++ if hip then [t!"hipMalloc"] else []),
   ([t!"shiva", t!"common", t!"ShivaErrorHandling.hpp"], t!"shivaAssertionFailed" :: macroNames, []),
   ([t!"shiva", t!"common", t!"types.hpp"], typeNames, []),
   ([t!"shiva", t!"common", t!"CArrayHelper.hpp"], [t!"CArrayHelper", t!"shivaAssertionFailed"] ++ typeNames, []),
   ([t!"shiva", t!"common", t!"CArray.hpp"], arrayNames, []),
   ([t!"shiva", t!"common", t!"LinearIndex.hpp"], [t!"LinearIndex"], []),
   ([t!"shiva", t!"common", t!"SequenceUtilities.hpp"], sequenceNames ++ macroNames, utilities),
   ([t!"shiva", t!"common", t!"MultiIndex.hpp"], multiNames ++ macroNames, []),
   ([t!"shiva", t!"common", t!"IndexTypes.hpp"], [t!"linearIndex", t!"forRange"], utilities),
   ([t!"shiva", t!"common", t!"MathUtilities.hpp"], [t!"mathUtilities"], []),
   ([t!"shiva", t!"common", t!"NestedSequenceUtilities.hpp"], t!"forNestedSequence" :: sequenceNames, utilities),
   ([t!"shiva", t!"common", t!"pmpl.hpp"], [t!"genericKernelWrapper", t!"check", t!"deallocateData"], []),
   ([t!"shiva", t!"functions", t!"spacing", t!"Spacing.hpp"],
     [stat, t!"EqualSpacing", t!"GaussLegendreSpacing", t!"GaussLobattoSpacing"], []),
   ([t!"shiva", t!"functions", t!"quadrature", t!"Quadrature.hpp"], [t!"QuadratureGaussLegendre", t!"QuadratureGaussLobatto"], []),
   ([t!"shiva", t!"functions", t!"bases", t!"LagrangeBasis.hpp"], [t!"LagrangeBasis"], []),
   ([t!"shiva", t!"functions", t!"bases", t!"BasisProduct.hpp"], [t!"BasisProduct", t!"CArrayNd"], []),
   ([t!"shiva", t!"discretizations", t!"finiteElementMethod", t!"parentElements", t!"ParentElement.hpp"], [t!"ParentElement"], []),
   ([t!"shiva", t!"geometry", t!"shapes", t!"InterpolatedShape.hpp"], [t!"InterpolatedShape"], []),
   ([t!"shiva", t!"geometry", t!"shapes", t!"NCube.hpp"], [t!"NCube", t!"Square", t!"Cube"], []),
   ([t!"shiva", t!"geometry", t!"shapes", t!"NSimplex.hpp"], [t!"NSimplex", t!"Triangle", t!"Tetrahedron"], []),
   ([t!"shiva", t!"geometry", t!"mapping", t!"LinearTransform.hpp"], [stat, t!"make_tuple", t!"LinearTransform"], []),
   ([t!"shiva", t!"geometry", t!"mapping", t!"Scaling.hpp"], [t!"Scaling"], []),
   ([t!"shiva", t!"geometry", t!"mapping", t!"UniformScaling.hpp"], [t!"UniformScaling"], []),
   ([t!"shiva", t!"geometry", t!"mapping", t!"JacobianTransforms.hpp"], [t!"jacobian( cell )", t!"inverseJacobian( cell )"], [])]

private def cn (hip : Bool) (p : Place) : List Text := (((table hip).lookup p.2).map (·.1)).getD []

private def cl (hip : Bool) (p : Place) : List Text := (((table hip).lookup p.2).map (·.2)).getD []

private def defaults : Options := ⟨false, false, false, false⟩

private def pmplPlace : Loc := [t!"shiva", t!"common", t!"pmpl.hpp"]

/-- The files in an order in which no file includes a later one. -/
private def order (configRoot : Nat) : List Place :=
  (configRoot, [t!"shiva", t!"ShivaConfig.hpp"]) :: (headers defaults).map fun h => (0, h.1)

private def rankIn (configRoot : Nat) (p : Place) : Nat := (order configRoot).idxOf p

/-- The places of the files that compile. -/
private def placesOf (configRoot : Nat) (hipOnly : Bool) : List Place :=
  if hipOnly then (order configRoot).filter fun p => p.2 ≠ pmplPlace else order configRoot

private def givenTo (cuda : Bool) : List Text := if cuda then usual t!"cuda_runtime.h" else []

private def fileCheck (find : Place → Text → Option Place) (root : Nat) (cuda hip : Bool) (p : Place) (h : Header) : Bool :=
  (h.once || decide (declaredBy h.items = [])) &&
  sufficientItems (find p) usual (placesOf root (hip && !cuda)) (rankIn root) (cn hip) (cl hip) p [] (givenTo cuda) h.items &&
  (declaredBy h.items).all fun n => decide (n ∈ cn hip p)

private theorem sourceFiles_declared (o : Options) : (sourceFiles o).map (fun x => (x.1, declaredBy x.2.items)) =
    (sourceFiles defaults).map fun x => (x.1, declaredBy x.2.items) := by
  rcases o with ⟨_ | _, _ | _, _ | _, _ | _⟩ <;> rfl

private theorem keys_nodup (o : Options) : ((generatedFiles ++ sourceFiles o).map (·.1)).Nodup := by
  have e : (generatedFiles ++ sourceFiles o).map (·.1) = (generatedFiles ++ sourceFiles defaults).map (·.1) := rfl
  rw [e]
  decide +kernel

private theorem source_isSome (o : Options) (k : Loc) :
    ((sourceFiles o).lookup k).map (fun h => declaredBy h.items) =
      ((sourceFiles defaults).lookup k).map (fun h => declaredBy h.items) := by
  rw [← lookup_map_value (fun h : Header => declaredBy h.items), ← lookup_map_value (fun h : Header => declaredBy h.items),
    sourceFiles_declared]

/-- The options do not change which files there are, nor which names they declare. -/
private theorem buildTree_file (o : Options) (p : Place) : ((buildTree o).file p).map (fun h => declaredBy h.items) =
    ((buildTree defaults).file p).map (fun h => declaredBy h.items) := by
  show (if p.1 = 0 then _ else _ : Option Header).map _ = (if p.1 = 0 then _ else _ : Option Header).map _
  split
  · exact source_isSome o p.2
  · rfl

private theorem installed_file (o : Options) (p : Place) : ((installed o).file p).map (fun h => declaredBy h.items) =
    ((installed defaults).file p).map (fun h => declaredBy h.items) := by
  show (if p.1 = 0 then _ else _ : Option Header).map _ = (if p.1 = 0 then _ else _ : Option Header).map _
  split
  · rw [← lookup_map_value (fun h : Header => declaredBy h.items), ← lookup_map_value (fun h : Header => declaredBy h.items),
      List.map_append, List.map_append, sourceFiles_declared]
  · rfl

private theorem find_eq {fs gs : HeaderFiles} (hs : fs.search = gs.search)
    (h : ∀ p, (fs.file p).map (fun h => declaredBy h.items) = (gs.file p).map (fun h => declaredBy h.items)) :
    fs.find = gs.find := by
  funext p n
  have e : (fun q => (fs.file q).isSome) = fun q => (gs.file q).isSome := by
    funext q
    rw [← Option.isSome_map (f := fun h : Header => declaredBy h.items), h q, Option.isSome_map]
  unfold HeaderFiles.find
  rw [e, hs]

private theorem ownNames_eq {fs gs : HeaderFiles}
    (h : ∀ p, (fs.file p).map (fun h => declaredBy h.items) = (gs.file p).map (fun h => declaredBy h.items)) :
    ownNames fs = ownNames gs := by
  funext p
  have e : ∀ fs : HeaderFiles, ownNames fs p = ((fs.file p).map (fun h => declaredBy h.items)).getD [] := by
    intro fs
    unfold ownNames
    cases fs.file p <;> rfl
  rw [e, e, h]

/-- Checks every file, once for every combination of the remaining options that matters for it. -/
local macro "check_files" : tactic => `(tactic| (
  unfold headers
  simp only [List.forall_mem_cons]
  refine ⟨?_, ?_, ?_, ?_, ?_, ?_, ?_, ?_, ?_, ?_, ?_, ?_, ?_, ?_, ?_, ?_, ?_, ?_, ?_, ?_, ?_, ?_, ?_, ?_, fun _ h => (by cases h)⟩
  all_goals first
    | decide +kernel
    | (rename_i camp b; cases camp <;> cases b <;> decide +kernel)))

private theorem buildTree_check_false_false (camp b : Bool) : ∀ h ∈ headers ⟨false, false, camp, b⟩,
    fileCheck (buildTree defaults).find 1 false false (0, h.1) h.2 = true := by
  check_files

private theorem buildTree_check_false_true (camp b : Bool) : ∀ h ∈ headers ⟨false, true, camp, b⟩, h.1 ≠ pmplPlace → 
    fileCheck (buildTree defaults).find 1 false true (0, h.1) h.2 = true := by
  check_files

private theorem buildTree_check_true_false (camp b : Bool) : ∀ h ∈ headers ⟨true, false, camp, b⟩,
    fileCheck (buildTree defaults).find 1 true false (0, h.1) h.2 = true := by
  check_files

private theorem buildTree_check_true_true (camp b : Bool) : ∀ h ∈ headers ⟨true, true, camp, b⟩,
    fileCheck (buildTree defaults).find 1 true true (0, h.1) h.2 = true := by
  check_files

private theorem installed_check_false_false (camp b : Bool) : ∀ h ∈ headers ⟨false, false, camp, b⟩,
    fileCheck (installed defaults).find 0 false false (0, h.1) h.2 = true := by
  check_files

private theorem installed_check_false_true (camp b : Bool) : ∀ h ∈ headers ⟨false, true, camp, b⟩, h.1 ≠ pmplPlace → 
    fileCheck (installed defaults).find 0 false true (0, h.1) h.2 = true := by
  check_files

private theorem installed_check_true_false (camp b : Bool) : ∀ h ∈ headers ⟨true, false, camp, b⟩,
    fileCheck (installed defaults).find 0 true false (0, h.1) h.2 = true := by
  check_files

private theorem installed_check_true_true (camp b : Bool) : ∀ h ∈ headers ⟨true, true, camp, b⟩,
    fileCheck (installed defaults).find 0 true true (0, h.1) h.2 = true := by
  check_files

/-- All files but pmpl.hpp, with HIP alone, are sufficient, with any options. -/
private theorem sufficient_of (fs gs : HeaderFiles) (root : Nat) (o : Options) (hs : fs.search = gs.search)
    (hf : ∀ p, (fs.file p).map (fun h => declaredBy h.items) = (gs.file p).map (fun h => declaredBy h.items))
    (hn : ((order root).flatMap (ownNames gs)).Nodup)
    (hc : fs.file (root, [t!"shiva", t!"ShivaConfig.hpp"]) = some config)
    (hcc : fileCheck gs.find root o.cuda o.hip (root, [t!"shiva", t!"ShivaConfig.hpp"]) config = true)
    (hh : ∀ h ∈ headers o, fs.file (0, h.1) = some h.2)
    (hck : ∀ h ∈ headers o, ((o.hip && !o.cuda) = true → h.1 ≠ pmplPlace) →
      fileCheck gs.find root o.cuda o.hip (0, h.1) h.2 = true) :
    Sufficient fs usual (givenTo o.cuda) (placesOf root (o.hip && !o.cuda)) (rankIn root) (cn o.hip) (cl o.hip) := by
  have key : ∀ p h, fileCheck gs.find root o.cuda o.hip p h = true → (h.once = true ∨ declaredBy h.items = []) ∧
      sufficientItems (fs.find p) usual (placesOf root (o.hip && !o.cuda)) (rankIn root) (cn o.hip) (cl o.hip) p []
        (givenTo o.cuda) h.items = true ∧ declaredBy h.items ⊆ cn o.hip p := by
    intro p h hk
    unfold fileCheck at hk
    rw [Bool.and_eq_true, Bool.and_eq_true, Bool.or_eq_true, decide_eq_true_iff, List.all_eq_true] at hk
    rw [find_eq hs hf]
    exact ⟨hk.1.1, hk.1.2, fun n hn => of_decide_eq_true (hk.2 n hn)⟩
  have sub : ∀ p ∈ placesOf root (o.hip && !o.cuda), p ∈ order root ∧ ((o.hip && !o.cuda) = true → p.2 ≠ pmplPlace) := by
    intro p hp
    unfold placesOf at hp
    cases hb : o.hip && !o.cuda
    · rw [hb] at hp
      exact ⟨hp, fun h => (by cases h)⟩
    · rw [hb] at hp
      rw [if_pos rfl, List.mem_filter, decide_eq_true_iff] at hp
      exact ⟨hp.1, fun _ => hp.2⟩
  refine ⟨fun p hp => ?_, ?_, ?_⟩
  · obtain ⟨hp, hne⟩ := sub p hp
    rcases List.mem_cons.1 hp with rfl | hp
    · exact ⟨config, hc, key _ _ hcc⟩
    · have e : (headers defaults).map (fun h => ((0 : Nat), h.1)) = (headers o).map fun h => (0, h.1) := rfl
      rw [e] at hp
      obtain ⟨h, hm, rfl⟩ := List.mem_map.1 hp
      exact ⟨h.2, hh h hm, key _ _ (hck h hm hne)⟩
  · rw [ownNames_eq hf]
    exact fun p hp q hq => apart_of_nodup hn p (sub p hp).1 q (sub q hq).1
  · rw [ownNames_eq hf]
    exact fun p hp => nodup_of_flatMap hn p (sub p hp).1

private theorem lookup_header {o : Options} {h : Loc × Header} (hm : h ∈ headers o) :
    (generatedFiles ++ sourceFiles o).lookup h.1 = some h.2 :=
  lookup_of_nodup (keys_nodup o) (List.mem_append_right _ (List.mem_append_left _ hm))

private theorem lookup_source {o : Options} {h : Loc × Header} (hm : h ∈ headers o) : (sourceFiles o).lookup h.1 = some h.2 :=
  lookup_of_nodup (by
    have := keys_nodup o
    rw [List.map_append, List.nodup_append] at this
    exact this.2.1) (List.mem_append_left _ hm)

private theorem config_check (cuda hip : Bool) :
    fileCheck (buildTree defaults).find 1 cuda hip (1, [t!"shiva", t!"ShivaConfig.hpp"]) config = true ∧
    fileCheck (installed defaults).find 0 cuda hip (0, [t!"shiva", t!"ShivaConfig.hpp"]) config = true := by
  cases cuda <;> cases hip <;> decide +kernel

private theorem buildTree_sufficient (o : Options) :
    Sufficient (buildTree o) usual (givenTo o.cuda) (placesOf 1 (o.hip && !o.cuda)) (rankIn 1) (cn o.hip) (cl o.hip) := by
  refine sufficient_of (buildTree o) (buildTree defaults) 1 o rfl (buildTree_file o) (by decide +kernel) rfl
    (config_check o.cuda o.hip).1 (fun h hm => lookup_source hm) ?_
  rcases o with ⟨_ | _, _ | _, camp, b⟩
  · exact fun h hm _ => buildTree_check_false_false camp b h hm
  · exact fun h hm hne => buildTree_check_false_true camp b h hm (hne rfl)
  · exact fun h hm _ => buildTree_check_true_false camp b h hm
  · exact fun h hm _ => buildTree_check_true_true camp b h hm

private theorem installed_sufficient (o : Options) :
    Sufficient (installed o) usual (givenTo o.cuda) (placesOf 0 (o.hip && !o.cuda)) (rankIn 0) (cn o.hip) (cl o.hip) := by
  refine sufficient_of (installed o) (installed defaults) 0 o rfl (installed_file o) (by decide +kernel) rfl
    (config_check o.cuda o.hip).2 (fun h hm => lookup_header hm) ?_
  rcases o with ⟨_ | _, _ | _, camp, b⟩
  · exact fun h hm _ => installed_check_false_false camp b h hm
  · exact fun h hm hne => installed_check_false_true camp b h hm (hne rfl)
  · exact fun h hm _ => installed_check_true_false camp b h hm
  · exact fun h hm _ => installed_check_true_true camp b h hm

/-- **C124, the headers but for Shiva.hpp.** With any options, from the build tree and from an installation: a source file that
includes any of the headers, in any order and any number of times, compiles as far as names are concerned, and has all names of
the headers it includes.  It needs standard libraries that declare what those in use do, and with HIP alone pmpl.hpp must not be
among the headers. -/
theorem C124_partial (o : Options) (fs : HeaderFiles) (hfs : fs = buildTree o ∨ fs = installed o) (lib : Text → List Text)
    (hlib : ∀ n, usual n ⊆ lib n) (given : List Text) (hg : o.cuda = true → usual t!"cuda_runtime.h" ⊆ given)
    (names : List Text) (hn : ∀ n ∈ names, ∃ h ∈ headers o, locate [] n = h.1)
    (hip : o.hip = true → o.cuda = false → ∀ n ∈ names, locate [] n ≠ [t!"shiva", t!"common", t!"pmpl.hpp"]) :
    ∃ t, fs.translate lib given names = .ok t ∧
      ∀ n ∈ names, ∀ h ∈ headers o, locate [] n = h.1 → ∀ ns, HeaderItem.declares ns ∈ h.2.items → ns ⊆ t.names := by
  have hg' : givenTo o.cuda ⊆ given := by
    unfold givenTo
    cases h : o.cuda
    · exact List.nil_subset _
    · exact hg h
  have main : ∀ root, Sufficient fs usual (givenTo o.cuda) (placesOf root (o.hip && !o.cuda)) (rankIn root) (cn o.hip) (cl o.hip) →
      (∀ p ∈ order root, rankIn root p < 200) → (∀ h ∈ headers o, fs.file (0, h.1) = some h.2) →
      fs.search.head? = some 0 → ∃ t, fs.translate lib given names = .ok t ∧
        ∀ n ∈ names, ∀ h ∈ headers o, locate [] n = h.1 → ∀ ns, HeaderItem.declares ns ∈ h.2.items → ns ⊆ t.names := by
    intro root hS hr hh h0
    have hfind : ∀ n, ∀ h ∈ headers o, locate [] n = h.1 → fs.findOutside n = some (0, h.1) := by
      intro n h hm e
      unfold HeaderFiles.findOutside
      cases hsr : fs.search with
      | nil => rw [hsr] at h0; cases h0
      | cons r rest =>
        rw [hsr] at h0
        cases h0
        rw [List.map_cons, List.find?_cons, e, hh h hm]
        rfl
    have hD : ∀ n ∈ names, ∀ h ∈ headers o, locate [] n = h.1 → (0, h.1) ∈ placesOf root (o.hip && !o.cuda) := by
      intro n hn' h hm e
      have ho : ((0 : Nat), h.1) ∈ order root := List.mem_cons_of_mem _
        (show (0, h.1) ∈ (headers o).map fun h => ((0 : Nat), h.1) from List.mem_map.2 ⟨h, hm, rfl⟩)
      unfold placesOf
      cases hb : o.hip && !o.cuda
      · exact ho
      · rw [if_pos rfl, List.mem_filter, decide_eq_true_iff]
        rw [Bool.and_eq_true, Bool.not_eq_true'] at hb
        exact ⟨ho, e ▸ hip hb.1 hb.2 n hn'⟩
    have sub : ∀ p ∈ placesOf root (o.hip && !o.cuda), p ∈ order root := by
      intro p hp
      unfold placesOf at hp
      cases hb : o.hip && !o.cuda
      · rw [hb] at hp
        exact hp
      · rw [hb, if_pos rfl] at hp
        exact (List.mem_filter.1 hp).1
    obtain ⟨t, ht, -, -, hc⟩ := translate_ok hS hlib hg' (fun p hp => hr p (sub p hp)) names fun n hn' => by
      obtain ⟨h, hm, e⟩ := hn n hn'
      exact ⟨_, hD n hn' h hm e, hfind n h hm e⟩
    refine ⟨t, ht, fun n hn' h hm e ns hns m hmn => ?_⟩
    obtain ⟨h', hh', -, -, hsub⟩ := hS.files _ (hD n hn' h hm e)
    rw [hh h hm] at hh'
    cases hh'
    exact (hc n hn' _ (hfind n h hm e)).1 (hsub (List.mem_flatMap.2 ⟨_, hns, hmn⟩))
  rcases hfs with rfl | rfl
  · exact main 1 (buildTree_sufficient o) (by decide +kernel) (fun h hm => lookup_source hm) rfl
  · exact main 0 (installed_sufficient o) (by decide +kernel) (fun h hm => lookup_header hm) rfl

/-- **C124 is violated by Shiva.hpp.** No source file that includes it compiles, whatever is included before and after, whatever the
options and the libraries: it includes a file that does not exist. -/
theorem C124_violated_umbrella (o : Options) (fs : HeaderFiles) (hfs : fs = buildTree o ∨ fs = installed o)
    (lib : Text → List Text) (given before after : List Text) (t : Seen) :
    fs.translate lib given (before ++ t!"shiva/Shiva.hpp" :: after) ≠ .ok t := by
  intro h
  unfold HeaderFiles.translate at h
  rw [List.map_append] at h
  obtain ⟨s, -, h⟩ := readItems_append _ _ _ _ _ _ _ h
  have h1 : fs.findOutside t!"shiva/Shiva.hpp" = some (0, [t!"shiva", t!"Shiva.hpp"]) := by
    rcases hfs with rfl | rfl <;> rfl
  have h2 : fs.file (0, [t!"shiva", t!"Shiva.hpp"]) = some shiva := by
    rcases hfs with rfl | rfl <;> rfl
  have h3 : fs.find (0, [t!"shiva", t!"Shiva.hpp"]) t!"geometry/Cube.hpp" = none := by
    rcases hfs with rfl | rfl <;> rfl
  rw [List.map_cons, readItems, h1] at h
  dsimp only at h
  rw [HeaderFiles.enter, h2] at h
  dsimp only at h
  rw [if_neg (fun h => by cases h.1), shiva, readItems, h3] at h
  cases h

/-- namespaceDocumentation.hpp, which is there for the documentation only, cannot be included either. -/
theorem C124_documentation (o : Options) (fs : HeaderFiles) (hfs : fs = buildTree o ∨ fs = installed o)
    (lib : Text → List Text) (given before after : List Text) (t : Seen) :
    fs.translate lib given (before ++ t!"shiva/namespaceDocumentation.hpp" :: after) ≠ .ok t := by
  intro h
  unfold HeaderFiles.translate at h
  rw [List.map_append] at h
  obtain ⟨s, -, h⟩ := readItems_append _ _ _ _ _ _ _ h
  have h1 : fs.findOutside t!"shiva/namespaceDocumentation.hpp" = some (0, [t!"shiva", t!"namespaceDocumentation.hpp"]) := by
    rcases hfs with rfl | rfl <;> rfl
  have h2 : fs.file (0, [t!"shiva", t!"namespaceDocumentation.hpp"]) = some namespaceDocumentation := by
    rcases hfs with rfl | rfl <;> rfl
  rw [List.map_cons, readItems, h1] at h
  dsimp only at h
  rw [HeaderFiles.enter, h2] at h
  dsimp only at h
  rw [if_neg (fun h => by cases h.1), namespaceDocumentation, readItems] at h
  cases h

/-- **C124 is violated with HIP.** The header pmpl.hpp names `cudaMemcpyHostToDevice`, which HIP does not declare. -/
theorem C124_violated_hip (camp boundsCheck : Bool) :
    (buildTree ⟨false, true, camp, boundsCheck⟩).translate usual [] [t!"shiva/common/pmpl.hpp"] =
      .error (.undeclared t!"cudaMemcpyHostToDevice") := rfl

/-- **C124 is violated by what the standard promises.** With libraries that declare exactly what the C++17 standard promises,
ShivaErrorHandling.hpp does not compile: it calls `fprintf` without `std::`; nor does CArray.hpp. -/
theorem C124_violated_standard :
    (buildTree ⟨false, false, false, false⟩).translate promised [] [t!"shiva/common/ShivaErrorHandling.hpp"] =
      .error (.undeclared t!"fprintf") ∧
    (buildTree ⟨false, false, false, false⟩).translate promised [] [t!"shiva/common/CArray.hpp"] =
      .error (.undeclared t!"fprintf") := ⟨rfl, rfl⟩

/-- Nor does types.hpp, with libraries that declare what those in use do but for `<tuple>`, which declares what is promised for it: it
uses `std::forward` without `<utility>`. -/
theorem C124_violated_forward :
    (buildTree ⟨false, false, false, false⟩).translate (fun n => if n = t!"tuple" then promised n else usual n) []
      [t!"shiva/common/types.hpp"] = .error (.undeclared t!"std::forward") := rfl

/-- Including two headers, one of them twice. -/
example : ∃ t, (installed ⟨false, false, false, true⟩).translate usual []
      [t!"shiva/geometry/mapping/Scaling.hpp", t!"shiva/common/pmpl.hpp", t!"shiva/geometry/mapping/Scaling.hpp"] = .ok t ∧
    t!"Scaling" ∈ t.names ∧ t!"deallocateData" ∈ t.names := by
  have m1 : (([t!"shiva", t!"geometry", t!"mapping", t!"Scaling.hpp"], scaling) : Loc × Header) ∈
      headers ⟨false, false, false, true⟩ := by
    unfold headers; simp only [List.mem_cons, true_or, or_true]
  have m2 : (([t!"shiva", t!"common", t!"pmpl.hpp"], pmpl ⟨false, false, false, true⟩) : Loc × Header) ∈
      headers ⟨false, false, false, true⟩ := by
    unfold headers; simp only [List.mem_cons, true_or, or_true]
  obtain ⟨t, ht, hd⟩ := C124_partial ⟨false, false, false, true⟩ (installed ⟨false, false, false, true⟩) (.inr rfl) usual
    (fun _ _ h => h) [] (fun h => (by cases h))
    [t!"shiva/geometry/mapping/Scaling.hpp", t!"shiva/common/pmpl.hpp", t!"shiva/geometry/mapping/Scaling.hpp"]
    (by
      intro n hn
      simp only [List.mem_cons, List.not_mem_nil, or_false] at hn
      rcases hn with rfl | rfl | rfl
      · exact ⟨_, m1, rfl⟩
      · exact ⟨_, m2, rfl⟩
      · exact ⟨_, m1, rfl⟩) (fun h => (by cases h))
  refine ⟨t, ht, ?_, ?_⟩
  · exact hd _ List.mem_cons_self _ m1 rfl [t!"Scaling"] (by simp [scaling]) (by simp)
  · exact hd _ (List.mem_cons_of_mem _ List.mem_cons_self) _ m2 rfl
      [t!"genericKernelWrapper", t!"check", t!"deallocateData"] (by simp [pmpl]) (by simp)

end Verif.Props
