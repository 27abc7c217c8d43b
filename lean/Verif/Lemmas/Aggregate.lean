import Mathlib.Data.Finset.Dedup
import Mathlib.Data.Finset.Filter
import Verif.Lemmas.PyPath
import Verif.Lemmas.AggregateText
import Verif.Lemmas.AggregateGraph

/-! # Aggregating headers: from the script to the include relation -/

namespace Verif.Lemmas

open Verif.Spec Verif.PyPath Verif.Aggregate

/-- The same data, for the specification. -/
def searchOf (w : World) : Search := ⟨w.tree, w.cwd, w.includePaths⟩

theorem abs_eq {w : World} (hc : Proper w.cwd) {p : Text} (hs : Single p) : w.abs p = render (locate w.cwd p) :=
  abspath_eq hc hs

theorem abs_render {w : World} (hc : Proper w.cwd) {l : Loc} (hl : Proper l) : w.abs (render l) = render l := by
  rw [abs_eq hc (single_render hl), locate_render _ hl]

theorem dirname_render' {l : Loc} (h : Proper l) : dirname (render l) = render l.dropLast := by
  by_cases hl : l = []
  · subst hl; rfl
  · exact dirname_render h hl

theorem Proper.dropLast {l : Loc} (h : Proper l) : Proper l.dropLast := fun w hw => h w (List.dropLast_subset _ hw)

theorem abs_candidate {w : World} (hc : Proper w.cwd) {p name : Text} (hp : Single p) (hn : Single name) :
    w.abs (normpath (join p name)) = render (locate (locate w.cwd p) name) := by
  rw [abs_eq hc (single_normpath (single_join hp hn)), locate_normpath, locate_join]

theorem pathExists_candidate (w : World) (p name : Text) :
    w.pathExists (normpath (join p name)) = w.tree.isThere (locate (locate w.cwd p) name) := by
  unfold World.pathExists
  rw [locate_normpath, locate_join]

/-- `resolve_path` finds the first candidate. -/
theorem resolvePath_eq {w : World} (hc : Proper w.cwd) (hp : ∀ p ∈ w.includePaths, Single p) {a : Loc} (ha : Proper a)
    {name : Text} (hn : Single name) :
    (resolvePath w name (dirname (render a))).map w.abs
      = (((searchOf w).candidates a name).find? w.tree.isThere).map render := by
  have hd := Proper.dropLast ha
  have e1 : w.pathExists (join (dirname (render a)) name) = w.tree.isThere (locate a.dropLast name) := by
    unfold World.pathExists
    rw [locate_join, dirname_render' ha, locate_render _ hd]
  have e2 : w.pathExists (normpath (join (dirname (render a)) name)) = w.tree.isThere (locate a.dropLast name) := by
    rw [pathExists_candidate, dirname_render' ha, locate_render _ hd]
  have e3 : w.abs (normpath (join (dirname (render a)) name)) = render (locate a.dropLast name) := by
    rw [dirname_render' ha, abs_candidate hc (single_render hd) hn, locate_render _ hd]
  unfold resolvePath Search.candidates
  rw [e1, e2, List.find?_cons]
  cases h : w.tree.isThere (locate a.dropLast name) with
  | true => simp [e3]
  | false =>
    simp only [Bool.false_eq_true, if_false]
    show ((w.includePaths.map fun p => normpath (join p name)).find? w.pathExists).map w.abs =
      ((w.includePaths.map fun p => locate (locate w.cwd p) name).find? w.tree.isThere).map render
    have : ∀ ps : List Text, (∀ p ∈ ps, Single p) →
        ((ps.map fun p => normpath (join p name)).find? w.pathExists).map w.abs =
          ((ps.map fun p => locate (locate w.cwd p) name).find? w.tree.isThere).map render := by
      intro ps
      induction ps with
      | nil => intro _; rfl
      | cons p ps ih =>
        intro hps
        rw [List.map_cons, List.map_cons, List.find?_cons, List.find?_cons, pathExists_candidate]
        cases w.tree.isThere (locate (locate w.cwd p) name) with
        | true => exact congrArg some (abs_candidate hc (hps p (by simp)) hn)
        | false => exact ih fun q hq => hps q (by simp [hq])
    exact this _ hp

/-- The targets of one line. -/
def lineTarget (w : World) (basePath line : Text) : Option Text :=
  (includeMatch line).bind fun n => if n = configFile then none else (resolvePath w n basePath).map w.abs

/-- The targets of a header. -/
def targetsAt (w : World) (k : Text) : List Text :=
  (((w.openRead k).map lines).getD []).filterMap (lineTarget w (dirname k))

theorem scan_eq {w : World} {call : Graph → Text → Option Graph} {header basePath : Text} {ls : List Text}
    (h : ∀ line ∈ ls, ∀ n, includeMatch line = some n → n ≠ configFile →
      ∃ p, resolvePath w n basePath = some p ∧ w.pathExists (w.abs p) = true) :
    ∀ g, scan w call header basePath g ls = scanTargets call header g (ls.filterMap (lineTarget w basePath)) := by
  induction ls with
  | nil => intro g; rfl
  | cons line ls ih =>
    intro g
    have ih := ih fun l hl => h l (by simp [hl])
    rw [List.filterMap_cons]
    unfold scan lineTarget
    cases hm : includeMatch line with
    | none => exact ih g
    | some n =>
      dsimp only [Option.bind_some]
      by_cases hn : n = configFile
      · rw [if_pos hn, if_pos hn]
        exact ih g
      · rw [if_neg hn, if_neg hn]
        obtain ⟨p, hp, hex⟩ := h line (by simp) n hm hn
        rw [hp]
        dsimp only [Option.map_some]
        rw [if_pos hex]
        unfold scanTargets
        cases call (Graph.addDep g header (w.abs p)) (w.abs p) with
        | none => rfl
        | some g' => exact ih g'

theorem scanTargets_congr {call call' : Graph → Text → Option Graph} {header : Text} {ts : List Text}
    (h : ∀ g, ∀ t ∈ ts, call g t = call' g t) : ∀ g, scanTargets call header g ts = scanTargets call' header g ts := by
  induction ts with
  | nil => intro g; rfl
  | cons t ts ih =>
    intro g
    unfold scanTargets
    rw [h _ t (by simp)]
    cases call' (Graph.addDep g header t) t with
    | none => rfl
    | some g' => exact ih (fun g u hu => h g u (by simp [hu])) g'

/-- The conditions under which the script does what it should. -/
structure Regular (w : World) (headers : List Text) : Prop where
  ordinary : (searchOf w).Ordinary headers
  complete : (searchOf w).Complete headers

namespace Regular

variable {w : World} {headers : List Text}

theorem cwd (h : Regular w headers) : Proper w.cwd := h.ordinary.1

theorem paths (h : Regular w headers) : ∀ p ∈ w.includePaths, Single p := h.ordinary.2.2.2.2.1

theorem single (h : Regular w headers) {p : Text} (hp : p ∈ headers) : Single p := h.ordinary.2.2.2.1 p hp

theorem proper_of_read (h : Regular w headers) {l : Loc} {x : Text} (hr : w.tree.read l = some x) : Proper l := by
  unfold Tree.read at hr
  have : ∃ f ∈ w.tree.files, f.1 = l := by
    obtain ⟨a, b, h1, -⟩ := List.lookup_eq_some_iff.1 hr
    exact ⟨(l, x), by rw [h1]; simp, rfl⟩
  obtain ⟨f, hf, rfl⟩ := this
  exact h.ordinary.2.1 f hf

theorem proper_of_isThere (h : Regular w headers) {l : Loc} (hr : w.tree.isThere l = true) : Proper l := by
  unfold Tree.isThere at hr
  rw [Bool.or_eq_true] at hr
  rcases hr with hr | hr
  · obtain ⟨x, hx⟩ := Option.isSome_iff_exists.1 hr
    exact h.proper_of_read hx
  · exact h.ordinary.2.2.1 l (List.contains_iff_mem.1 hr)

theorem proper (h : Regular w headers) {l : Loc} (hl : (searchOf w).Needed headers l) : Proper l := by
  obtain ⟨x, hx⟩ := Option.isSome_iff_exists.1 (h.complete l hl).1
  exact h.proper_of_read hx

theorem header (h : Regular w headers) {p : Text} (hp : p ∈ headers) :
    (searchOf w).Needed headers (locate w.cwd p) ∧ w.abs p = render (locate w.cwd p) :=
  ⟨⟨p, hp, .refl⟩, abs_eq h.cwd (h.single hp)⟩

/-- Every include of a needed header is resolved by the script, as specified. -/
theorem resolved (h : Regular w headers) {l : Loc} (hl : (searchOf w).Needed headers l) {name : Text}
    (hn : (searchOf w).Names l name) (hc : name ≠ configFile) :
    ∃ b p, (searchOf w).Resolves l name b ∧ resolvePath w name (dirname (render l)) = some p ∧ w.abs p = render b ∧
      w.pathExists (w.abs p) = true := by
  obtain ⟨b, hb⟩ := (h.complete l hl).2 name hn hc
  have e := resolvePath_eq h.cwd h.paths (h.proper hl) (h.ordinary.2.2.2.2.2 l name hn)
  have hb' : ((searchOf w).candidates l name).find? w.tree.isThere = some b := hb
  rw [hb', Option.map_some, Option.map_eq_some_iff] at e
  obtain ⟨p, hp, hp'⟩ := e
  refine ⟨b, p, hb, hp, hp', ?_⟩
  have ht := List.find?_some hb'
  rw [hp']
  unfold World.pathExists
  rw [locate_render _ (h.proper_of_isThere ht)]
  exact ht

theorem openRead (h : Regular w headers) {l : Loc} (hl : (searchOf w).Needed headers l) :
    ∃ x, w.tree.read l = some x ∧ w.openRead (render l) = some x := by
  obtain ⟨x, hx⟩ := Option.isSome_iff_exists.1 (h.complete l hl).1
  refine ⟨x, hx, ?_⟩
  unfold World.openRead
  rw [locate_render _ (h.proper hl)]
  exact hx

/-- The targets of a needed header are the headers it includes. -/
theorem mem_targetsAt (h : Regular w headers) {l : Loc} (hl : (searchOf w).Needed headers l) (t : Text) :
    t ∈ targetsAt w (render l) ↔ ∃ b, (searchOf w).Includes l b ∧ t = render b := by
  obtain ⟨x, hx, hx'⟩ := h.openRead hl
  unfold targetsAt
  rw [hx']
  simp only [Option.map_some, Option.getD_some, List.mem_filterMap]
  constructor
  · rintro ⟨line, hline, ht⟩
    unfold lineTarget at ht
    rw [Option.bind_eq_some_iff] at ht
    obtain ⟨n, hn, ht⟩ := ht
    split at ht
    · cases ht
    · rename_i hc
      have hname : (searchOf w).Names l n := ⟨x, hx, line, hline, includeMatch_iff.1 hn⟩
      obtain ⟨b, p, hb, hp, hp', -⟩ := h.resolved hl hname hc
      rw [hp, Option.map_some] at ht
      exact ⟨b, ⟨n, hname, hc, hb⟩, by rw [← Option.some.inj ht, hp']⟩
  · rintro ⟨b, ⟨n, hname, hc, hb⟩, rfl⟩
    obtain ⟨x', hx2, line, hline, hi⟩ := hname
    have : x' = x := Option.some.inj (hx2.symm.trans hx)
    subst this
    refine ⟨line, hline, ?_⟩
    unfold lineTarget
    rw [includeMatch_iff.2 hi, Option.bind_some, if_neg (show ¬ n = configFile from hc)]
    obtain ⟨b', p, hb', hp, hp', -⟩ := h.resolved hl ⟨x', hx, line, hline, hi⟩ hc
    have : b' = b := Option.some.inj (hb'.symm.trans hb)
    rw [hp, Option.map_some, hp', this]

theorem needed_includes {l b : Loc} (hl : (searchOf w).Needed headers l) (hb : (searchOf w).Includes l b) :
    (searchOf w).Needed headers b := by
  obtain ⟨p, hp, hr⟩ := hl
  exact ⟨p, hp, hr.tail hb⟩

open Classical in
/-- The names of the needed headers. -/
noncomputable def allNames (w : World) (headers : List Text) : Finset Text :=
  (w.tree.files.map fun f => render f.1).toFinset.filter fun t => ∃ l, (searchOf w).Needed headers l ∧ t = render l

theorem mem_allNames (h : Regular w headers) (t : Text) :
    t ∈ allNames w headers ↔ ∃ l, (searchOf w).Needed headers l ∧ t = render l := by
  classical
  unfold allNames
  rw [Finset.mem_filter, List.mem_toFinset]
  refine ⟨fun h => h.2, fun h' => ⟨?_, h'⟩⟩
  obtain ⟨l, hl, rfl⟩ := h'
  obtain ⟨x, hx⟩ := Option.isSome_iff_exists.1 (h.complete l hl).1
  obtain ⟨a, b, h1, -⟩ := List.lookup_eq_some_iff.1 hx
  refine List.mem_map.2 ⟨(l, x), ?_, rfl⟩
  have h1' : w.tree.files = a ++ (l, x) :: b := h1
  rw [h1']; simp

theorem card_allNames (w : World) (headers : List Text) : (allNames w headers).card ≤ w.tree.files.length := by
  classical
  unfold allNames
  refine (Finset.card_filter_le _ _).trans ((List.toFinset_card_le _).trans ?_)
  rw [List.length_map]

theorem closed (h : Regular w headers) : ∀ k ∈ allNames w headers, ∀ t ∈ targetsAt w k, t ∈ allNames w headers := by
  intro k hk t ht
  obtain ⟨l, hl, rfl⟩ := (h.mem_allNames k).1 hk
  obtain ⟨b, hb, rfl⟩ := (h.mem_targetsAt hl t).1 ht
  exact (h.mem_allNames _).2 ⟨b, needed_includes hl hb, rfl⟩

theorem abs_id (h : Regular w headers) : ∀ k ∈ allNames w headers, w.abs k = k := by
  intro k hk
  obtain ⟨l, hl, rfl⟩ := (h.mem_allNames k).1 hk
  exact abs_render h.cwd (h.proper hl)

/-- The script's search is a search along the targets. -/
theorem createGraph_eq (h : Regular w headers) (depth : Nat) :
    ∀ (g : Graph) (k : Text), k ∈ allNames w headers → createGraph w depth g k = dfs (targetsAt w) depth g k := by
  induction depth with
  | zero => intro g k _; rfl
  | succ depth ih =>
    intro g k hk
    obtain ⟨l, hl, rfl⟩ := (h.mem_allNames k).1 hk
    obtain ⟨x, hx, hx'⟩ := h.openRead hl
    unfold createGraph dfs
    rw [h.abs_id _ hk, hx']
    dsimp only
    split
    · rfl
    · refine congrArg some ?_
      rw [scan_eq]
      · have e : (lines x).filterMap (lineTarget w (dirname (render l))) = targetsAt w (render l) := by
          unfold targetsAt
          rw [hx']; rfl
        rw [e]
        exact scanTargets_congr (fun g t ht => ih g t (h.closed _ hk t ht)) _
      · intro line hline n hn hc
        obtain ⟨b, p, -, hp, -, hex⟩ := h.resolved hl ⟨x, hx, line, hline, includeMatch_iff.1 hn⟩ hc
        exact ⟨p, hp, hex⟩

theorem createGraphs_eq (h : Regular w headers) (depth : Nat) (hs : List Text) :
    ∀ (g : Graph), (∀ p ∈ hs, p ∈ headers) →
      createGraphs w depth g hs = dfsAll (targetsAt w) depth g (hs.map fun p => render (locate w.cwd p)) := by
  induction hs with
  | nil => intro g _; rfl
  | cons p hs ih =>
    intro g hp
    obtain ⟨hn, ha⟩ := h.header (hp p (by simp))
    unfold createGraphs
    rw [List.map_cons]
    unfold dfsAll
    rw [ha, h.createGraph_eq depth g _ ((h.mem_allNames _).2 ⟨_, hn, rfl⟩)]
    cases dfs (targetsAt w) depth g (render (locate w.cwd p)) with
    | none => rfl
    | some g' => exact ih g' fun q hq => hp q (by simp [hq])

/-- The graph collected by the script: its keys are the needed headers. -/
theorem graph (h : Regular w headers) {depth : Nat} (hd : w.tree.files.length < depth) :
    ∃ g, createGraphs w depth [] headers = some g ∧ Ordering (targetsAt w) (keys g) g [] ∧
      ∀ k, k ∈ keys g ↔ ∃ l, (searchOf w).Needed headers l ∧ k = render l := by
  have hin : ∀ k ∈ headers.map (fun p => render (locate w.cwd p)), k ∈ allNames w headers := by
    intro k hk
    obtain ⟨p, hp, rfl⟩ := List.mem_map.1 hk
    exact (h.mem_allNames _).2 ⟨_, (h.header hp).1, rfl⟩
  obtain ⟨g, h1, h2, h3, h4, h5⟩ := dfsAll_spec h.closed (lt_of_le_of_lt (card_allNames w headers) hd)
    (headers.map fun p => render (locate w.cwd p)) [] hin (by simp [keys])
  rw [List.nil_append] at h1 h2 h3 h5
  refine ⟨g, (h.createGraphs_eq depth headers [] fun p hp => hp).trans h1, ⟨by simpa using h2, by simp, ?_, by simp,
    by simp⟩, fun k => ⟨fun hk => ?_, fun hk => ?_⟩⟩
  · intro e he x
    rw [h5.deps e he]; simp
  · obtain ⟨e, he, rfl⟩ := List.mem_map.1 hk
    exact (h.mem_allNames _).1 (h4 e he)
  · obtain ⟨l, ⟨p, hp, hr⟩, rfl⟩ := hk
    induction hr with
    | refl => exact h3 _ (List.mem_map.2 ⟨p, hp, rfl⟩)
    | @tail b c hb hbc ih =>
      obtain ⟨e, he, hee⟩ := List.mem_map.1 ih
      refine h5.closed e he _ ?_
      rw [hee]
      exact (h.mem_targetsAt ⟨p, hp, hb⟩ _).2 ⟨c, hbc, rfl⟩

/-- Paths in the script's graph are paths along includes. -/
theorem transGen_iff (h : Regular w headers) {a b : Loc} (ha : (searchOf w).Needed headers a) (hb : Proper b) :
    Relation.TransGen (Edge (targetsAt w)) (render a) (render b) ↔ Relation.TransGen (searchOf w).Includes a b := by
  have aux : ∀ t, Relation.TransGen (Edge (targetsAt w)) (render a) t →
      ∃ c, t = render c ∧ (searchOf w).Needed headers c ∧ Relation.TransGen (searchOf w).Includes a c := by
    intro t ht
    induction ht with
    | single hab =>
      obtain ⟨c, hc, rfl⟩ := (h.mem_targetsAt ha _).1 hab
      exact ⟨c, rfl, needed_includes ha hc, .single hc⟩
    | tail _ hbc ih =>
      obtain ⟨c, rfl, hc, hac⟩ := ih
      obtain ⟨d, hd, rfl⟩ := (h.mem_targetsAt hc _).1 hbc
      exact ⟨d, rfl, needed_includes hc hd, hac.tail hd⟩
  constructor
  · intro ht
    obtain ⟨c, hc, hn, hac⟩ := aux _ ht
    rw [render_injective hb (h.proper hn) hc]
    exact hac
  · intro ht
    have : (searchOf w).Needed headers b ∧ Relation.TransGen (Edge (targetsAt w)) (render a) (render b) := by
      clear hb
      induction ht with
      | single hab => exact ⟨needed_includes ha hab, .single ((h.mem_targetsAt ha _).2 ⟨_, hab, rfl⟩)⟩
      | tail _ hbc ih =>
        exact ⟨needed_includes ih.1 hbc, ih.2.tail ((h.mem_targetsAt ih.1 _).2 ⟨_, hbc, rfl⟩)⟩
    exact this.2

end Regular

/-- What is written for a list of different names that are read in full. -/
theorem processHeaders_eq {w : World} (ks : List Text) : ∀ included : List Text, (∀ k ∈ ks, w.abs k = k) →
    (∀ k ∈ ks, k ∉ included) → ks.Nodup → (∀ k ∈ ks, (w.openRead k).isSome) →
    processHeaders w included ks = some (ks.flatMap fun k => startMark k ++
      (lines ((w.openRead k).getD [])).flatMap outputLine ++ endMark k) := by
  induction ks with
  | nil => intro _ _ _ _ _; rfl
  | cons k ks ih =>
    intro included hid hni hnd hop
    obtain ⟨x, hx⟩ := Option.isSome_iff_exists.1 (hop k (by simp))
    have hnd' := List.nodup_cons.1 hnd
    unfold processHeaders
    rw [hid k (by simp), if_neg (hni k (by simp)), hx, ih (k :: included) (fun j hj => hid j (by simp [hj]))
      (fun j hj hj' => by
        rcases List.mem_cons.1 hj' with rfl | hj'
        · exact hnd'.1 hj
        · exact hni j (by simp [hj]) hj') hnd'.2 (fun j hj => hop j (by simp [hj]))]
    dsimp only
    rw [List.flatMap_cons, hx]
    simp

end Verif.Lemmas
