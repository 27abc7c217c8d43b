import Verif.Lemmas.SplitText

/-! # A whole run of the aggregator -/

namespace Verif.Lemmas

open Verif.Spec Verif.PyPath Verif.Aggregate

namespace Regular

variable {w : World} {headers : List Text}

theorem length_le (h : Regular w headers) {g : Graph} (hn : (keys g).Nodup)
    (hk : ∀ k, k ∈ keys g ↔ ∃ l, (searchOf w).Needed headers l ∧ k = render l) : g.length ≤ w.tree.files.length := by
  classical
  rw [← keys_length, ← List.toFinset_card_of_nodup hn]
  refine (Finset.card_le_card fun k hkk => ?_).trans (card_allNames w headers)
  exact (h.mem_allNames k).2 ((hk k).1 (List.mem_toFinset.1 hkk))

/-- Without cycles the aggregator finishes. -/
theorem finishes (h : Regular w headers) {depth : Nat} (hd : w.tree.files.length < depth)
    (hac : ∀ l, (searchOf w).Needed headers l → ¬ (searchOf w).InCycle l) :
    ∃ order : List Loc, order.Nodup ∧ (∀ l, l ∈ order ↔ (searchOf w).Needed headers l) ∧
      order.Pairwise (fun a b => ¬ (searchOf w).Includes a b) ∧
      ∀ n, w.tree.files.length ≤ n → aggregateText w depth n headers
        = .ok (order.flatMap fun l => part l ((lines ((w.tree.read l).getD [])).flatMap outputLine)) := by
  obtain ⟨g, hg, ho, hk⟩ := h.graph hd
  have hid : ∀ k ∈ keys g, w.abs k = k := fun k hkk => h.abs_id k ((h.mem_allNames k).2 ((hk k).1 hkk))
  have hcl : ∀ k ∈ keys g, ∀ x ∈ targetsAt w k, x ∈ keys g := fun k hkk x hx =>
    (hk x).2 ((h.mem_allNames x).1 (h.closed k ((h.mem_allNames k).2 ((hk k).1 hkk)) x hx))
  have hac' : ∀ k ∈ keys g, ¬ Relation.TransGen (Edge (targetsAt w)) k k := by
    intro k hkk hc
    obtain ⟨l, hl, rfl⟩ := (hk k).1 hkk
    exact hac l hl ((h.transGen_iff hl (h.proper hl)).1 hc)
  have hn0 : (keys g).Nodup := by simpa using ho.nodup
  obtain ⟨K, hK, hrun⟩ := headerLoop_finishes hid hcl hac' g.length g [] rfl ho
  have hmem : ∀ k, k ∈ K ↔ ∃ l, (searchOf w).Needed headers l ∧ k = render l := by
    intro k
    rw [← hk k, ← hK.mem k]
    simp [keys]
  have hback : ∀ k ∈ K, render (locate [] k) = k ∧ (searchOf w).Needed headers (locate [] k) := by
    intro k hkk
    obtain ⟨l, hl, rfl⟩ := (hmem k).1 hkk
    rw [locate_render _ (h.proper hl)]
    exact ⟨rfl, hl⟩
  have hnd : K.Nodup := by simpa [keys] using hK.nodup
  have hproc : processHeaders w [] K = some (K.flatMap fun k => startMark k ++
      (lines ((w.openRead k).getD [])).flatMap outputLine ++ endMark k) := by
    refine processHeaders_eq K [] (fun k hkk => ?_) (by simp) hnd fun k hkk => ?_
    · exact h.abs_id k ((h.mem_allNames k).2 ((hmem k).1 hkk))
    · obtain ⟨l, hl, rfl⟩ := (hmem k).1 hkk
      obtain ⟨x, -, hx⟩ := h.openRead hl
      rw [hx]; rfl
  refine ⟨K.map (locate []), ?_, fun l => ?_, ?_, fun n hn => ?_⟩
  · refine List.Nodup.map_on (fun a ha b hb e => ?_) hnd
    rw [← (hback a ha).1, ← (hback b hb).1, e]
  · rw [List.mem_map]
    constructor
    · rintro ⟨k, hkk, rfl⟩
      exact (hback k hkk).2
    · intro hl
      exact ⟨render l, (hmem _).2 ⟨l, hl, rfl⟩, locate_render _ (h.proper hl)⟩
  · rw [List.pairwise_map]
    refine hK.order.imp_of_mem fun {a b} ha hb hab hi => hab ?_
    obtain ⟨la, hla, rfl⟩ := (hmem a).1 ha
    obtain ⟨lb, hlb, rfl⟩ := (hmem b).1 hb
    rw [locate_render _ (h.proper hla), locate_render _ (h.proper hlb)] at hi
    exact (h.mem_targetsAt hla _).2 ⟨lb, hi, rfl⟩
  · unfold aggregateText
    rw [hg]
    dsimp only
    rw [hrun n ((h.length_le hn0 hk).trans hn)]
    dsimp only
    rw [hproc]
    dsimp only
    congr 1
    rw [List.flatMap_map]
    refine List.flatMap_congr fun k hkk => ?_
    obtain ⟨l, hl, rfl⟩ := (hmem k).1 hkk
    obtain ⟨x, hx, hx'⟩ := h.openRead hl
    rw [locate_render _ (h.proper hl), hx, hx']
    unfold part startMark endMark
    simp only [List.append_assoc]

/-- With a cycle it never finishes. -/
theorem runs (h : Regular w headers) {depth : Nat} (hd : w.tree.files.length < depth) {l : Loc}
    (hl : (searchOf w).Needed headers l) (hc : (searchOf w).InCycle l) (n : Nat) :
    aggregateText w depth n headers = .running := by
  obtain ⟨g, hg, ho, hk⟩ := h.graph hd
  have hid : ∀ k ∈ keys g, w.abs k = k := fun k hkk => h.abs_id k ((h.mem_allNames k).2 ((hk k).1 hkk))
  have hcyc := (h.transGen_iff hl (h.proper hl)).2 hc
  have hreach : ∀ k, Relation.TransGen (Edge (targetsAt w)) (render l) k → k ∈ keys g := by
    intro k hkk
    have hin : render l ∈ allNames w headers := (h.mem_allNames _).2 ⟨l, hl, rfl⟩
    have : k ∈ allNames w headers := by
      induction hkk with
      | single hab => exact h.closed _ hin _ hab
      | tail _ hbc ih => exact h.closed _ ih _ hbc
    exact (hk k).2 ((h.mem_allNames k).1 this)
  have := headerLoop_runs (tgt := targetsAt w) (w := w) (all := keys g) hid
    (C := fun x => Relation.TransGen (Edge (targetsAt w)) (render l) x ∧
      Relation.TransGen (Edge (targetsAt w)) x (render l)) ⟨_, hcyc, hcyc⟩ (fun x hx => cycle_next hx) n g []
    (fun k hkk => hreach k hkk.1) ho
  unfold aggregateText
  rw [hg]
  dsimp only
  rw [this]

end Regular

theorem length_write_le (t : Tree) (l : Loc) (x : Text) : (t.write l x).files.length ≤ t.files.length + 1 := by
  unfold Tree.write
  simp only [List.length_cons]
  exact Nat.succ_le_succ (List.length_filter_le _ _)

/-! ## A checkable criterion, for concrete trees -/

theorem names_iff {s : Search} {a : Loc} {n : Text} :
    s.Names a n ↔ ∃ text, s.tree.read a = some text ∧ n ∈ (lines text).filterMap includeMatch := by
  unfold Search.Names
  refine exists_congr fun text => and_congr_right fun _ => ?_
  rw [List.mem_filterMap]
  exact exists_congr fun line => and_congr_right fun _ => includeMatch_iff.symm

instance (w : Text) : Decidable (ProperName w) := by unfold ProperName; infer_instance

instance (l : Loc) : Decidable (Proper l) := by unfold Proper; infer_instance

/-- The files include only files after them. -/
def sorted (s : Search) : List (Loc × Text) → Bool
  | [] => true
  | f :: fs => ((lines f.2).filterMap includeMatch).all (fun n => !("//".toList.isPrefixOf n) && (n = Search.configName ||
      match (s.candidates f.1 n).find? s.tree.isThere with
      | none => false
      | some b => fs.any fun e => e.1 = b)) && sorted s fs

/-- The criterion. -/
def sound (s : Search) (headers : List Text) : Bool :=
  decide (Proper s.cwd) && s.tree.files.all (fun f => decide (Proper f.1)) && s.tree.dirs.all (fun d => decide (Proper d)) &&
    headers.all (fun h => !("//".toList.isPrefixOf h)) && s.includePaths.all (fun p => !("//".toList.isPrefixOf p)) &&
    headers.all (fun h => s.tree.files.any fun f => f.1 = locate s.cwd h) &&
    decide (s.tree.files.map Prod.fst).Nodup && sorted s s.tree.files

theorem sorted_spec {s : Search} {fs : List (Loc × Text)} (h : sorted s fs = true) :
    (fs.map Prod.fst).Nodup → ∀ f ∈ fs, ∀ n ∈ (lines f.2).filterMap includeMatch, ¬ "//".toList <+: n ∧
      (n ≠ Search.configName → ∃ b, s.Resolves f.1 n b ∧ b ∈ fs.map Prod.fst ∧
        (fs.map Prod.fst).idxOf f.1 < (fs.map Prod.fst).idxOf b) := by
  induction fs with
  | nil => intro _ f hf; simp at hf
  | cons e fs ih =>
    intro hn f hf n hnn
    unfold sorted at h
    rw [Bool.and_eq_true, List.all_eq_true] at h
    rw [List.map_cons, List.nodup_cons] at hn
    rw [List.map_cons]
    rcases List.mem_cons.1 hf with rfl | hf
    · have := h.1 n hnn
      rw [Bool.and_eq_true, Bool.or_eq_true, Bool.not_eq_true', decide_eq_true_iff] at this
      refine ⟨fun hp => ?_, fun hc => ?_⟩
      · rw [List.isPrefixOf_iff_prefix.2 hp] at this; exact absurd this.1 (by simp)
      · have h2 := this.2.resolve_left hc
        unfold Search.Resolves
        cases hr : (s.candidates f.1 n).find? s.tree.isThere with
        | none => rw [hr] at h2; simp at h2
        | some b =>
          rw [hr] at h2
          simp only [List.any_eq_true, decide_eq_true_iff] at h2
          obtain ⟨e, he, rfl⟩ := h2
          have hm : e.1 ∈ fs.map Prod.fst := List.mem_map.2 ⟨e, he, rfl⟩
          have hne : f.1 ≠ e.1 := fun e' => hn.1 (by rw [e']; exact hm)
          refine ⟨e.1, rfl, List.mem_cons_of_mem _ hm, ?_⟩
          rw [List.idxOf_cons_self, List.idxOf_cons_ne _ hne]
          omega
    · obtain ⟨h1, h2⟩ := ih h.2 hn.2 f hf n hnn
      refine ⟨h1, fun hc => ?_⟩
      obtain ⟨b, hb, hm, hlt⟩ := h2 hc
      have hfm : f.1 ∈ fs.map Prod.fst := List.mem_map.2 ⟨f, hf, rfl⟩
      refine ⟨b, hb, List.mem_cons_of_mem _ hm, ?_⟩
      have n1 : e.1 ≠ f.1 := fun e' => hn.1 (by rw [e']; exact hfm)
      have n2 : e.1 ≠ b := fun e' => hn.1 (by rw [e']; exact hm)
      rw [List.idxOf_cons_ne _ n1, List.idxOf_cons_ne _ n2]
      omega

theorem mem_of_read {t : Tree} {l : Loc} {x : Text} (h : t.read l = some x) : (l, x) ∈ t.files := by
  obtain ⟨a, b, h1, -⟩ := List.lookup_eq_some_iff.1 h
  rw [h1]; simp

theorem read_of_mem {t : Tree} {l : Loc} (h : l ∈ t.files.map Prod.fst) : (t.read l).isSome = true := by
  unfold Tree.read
  obtain ⟨fs, hfs⟩ : ∃ fs, fs = t.files := ⟨_, rfl⟩
  rw [← hfs] at h ⊢
  clear hfs
  induction fs with
  | nil => simp at h
  | cons f fs ih =>
    rw [List.lookup_cons]
    rw [List.map_cons, List.mem_cons] at h
    by_cases e : l = f.1
    · rw [beq_iff_eq.2 e]; rfl
    · rw [beq_eq_false_iff_ne.2 e]; exact ih (h.resolve_left e)

theorem of_sound {s : Search} {headers : List Text} (h : sound s headers = true) :
    s.Ordinary headers ∧ s.Complete headers ∧ ∀ l, ¬ s.InCycle l := by
  unfold sound at h
  simp only [Bool.and_eq_true, decide_eq_true_iff, List.all_eq_true, Bool.not_eq_true', List.any_eq_true] at h
  obtain ⟨⟨⟨⟨⟨⟨⟨h1, h2⟩, h3⟩, h4⟩, h5⟩, h6⟩, h7⟩, h8⟩ := h
  have hs := sorted_spec h8 h7
  have hpre : ∀ {p : Text}, "//".toList.isPrefixOf p = false → ¬ "//".toList <+: p := by
    intro p hp hq
    rw [List.isPrefixOf_iff_prefix.2 hq] at hp
    exact absurd hp (by simp)
  have hinc : ∀ {a b}, s.Includes a b → b ∈ s.tree.files.map Prod.fst ∧
      (s.tree.files.map Prod.fst).idxOf a < (s.tree.files.map Prod.fst).idxOf b := by
    rintro a b ⟨n, hn, hc, hb⟩
    obtain ⟨x, hx, hm⟩ := names_iff.1 hn
    obtain ⟨b', hb', hm', hlt⟩ := (hs _ (mem_of_read hx) n hm).2 hc
    have : b' = b := Option.some.inj (hb'.symm.trans hb)
    rw [← this]
    exact ⟨hm', hlt⟩
  refine ⟨⟨h1, h2, h3, fun p hp => hpre (h4 p hp), fun p hp => hpre (h5 p hp), fun l n hn => ?_⟩, fun l hl => ?_,
    fun l hl => ?_⟩
  · obtain ⟨x, hx, hm⟩ := names_iff.1 hn
    exact (hs _ (mem_of_read hx) n hm).1
  · have hmem : l ∈ s.tree.files.map Prod.fst := by
      obtain ⟨p, hp, hr⟩ := hl
      rcases Relation.ReflTransGen.cases_tail hr with e | ⟨c, -, hcl⟩
      · obtain ⟨f, hf, e'⟩ := h6 p hp
        rw [e, ← e']
        exact List.mem_map.2 ⟨f, hf, rfl⟩
      · exact (hinc hcl).1
    refine ⟨read_of_mem hmem, fun n hn hc => ?_⟩
    obtain ⟨x, hx, hm⟩ := names_iff.1 hn
    obtain ⟨b, hb, -⟩ := (hs _ (mem_of_read hx) n hm).2 hc
    exact ⟨b, hb⟩
  · have : ∀ {a b}, Relation.TransGen s.Includes a b →
        (s.tree.files.map Prod.fst).idxOf a < (s.tree.files.map Prod.fst).idxOf b := by
      intro a b hab
      induction hab with
      | single hab => exact (hinc hab).2
      | tail _ hbc ih => exact ih.trans (hinc hbc).2
    exact absurd (this hl) (lt_irrefl _)

/-- The criterion for trees that may have cycles. -/
def found (s : Search) (headers : List Text) : Bool :=
  decide (Proper s.cwd) && s.tree.files.all (fun f => decide (Proper f.1)) && s.tree.dirs.all (fun d => decide (Proper d)) &&
    headers.all (fun h => !("//".toList.isPrefixOf h)) && s.includePaths.all (fun p => !("//".toList.isPrefixOf p)) &&
    headers.all (fun h => s.tree.files.any fun f => f.1 = locate s.cwd h) &&
    s.tree.files.all fun f => ((lines f.2).filterMap includeMatch).all fun n =>
      !("//".toList.isPrefixOf n) && match (s.candidates f.1 n).find? s.tree.isThere with
        | none => false
        | some b => s.tree.files.any fun e => e.1 = b

theorem of_found {s : Search} {headers : List Text} (h : found s headers = true) :
    s.Ordinary headers ∧ s.Complete headers := by
  unfold found at h
  simp only [Bool.and_eq_true, decide_eq_true_iff, List.all_eq_true, Bool.not_eq_true', List.any_eq_true] at h
  obtain ⟨⟨⟨⟨⟨⟨h1, h2⟩, h3⟩, h4⟩, h5⟩, h6⟩, h7⟩ := h
  have hpre : ∀ {p : Text}, "//".toList.isPrefixOf p = false → ¬ "//".toList <+: p := by
    intro p hp hq
    rw [List.isPrefixOf_iff_prefix.2 hq] at hp
    exact absurd hp (by simp)
  have hres : ∀ {a n}, s.Names a n → ¬ "//".toList <+: n ∧ ∃ b, s.Resolves a n b ∧ b ∈ s.tree.files.map Prod.fst := by
    intro a n hn
    obtain ⟨x, hx, hm⟩ := names_iff.1 hn
    obtain ⟨ha, hb⟩ := h7 _ (mem_of_read hx) n hm
    refine ⟨hpre ha, ?_⟩
    unfold Search.Resolves
    cases hr : (s.candidates a n).find? s.tree.isThere with
    | none => rw [hr] at hb; simp at hb
    | some b =>
      rw [hr] at hb
      simp only [List.any_eq_true, decide_eq_true_iff] at hb
      obtain ⟨e, he, rfl⟩ := hb
      exact ⟨e.1, rfl, List.mem_map.2 ⟨e, he, rfl⟩⟩
  refine ⟨⟨h1, h2, h3, fun p hp => hpre (h4 p hp), fun p hp => hpre (h5 p hp), fun l n hn => (hres hn).1⟩, fun l hl => ?_⟩
  have hmem : l ∈ s.tree.files.map Prod.fst := by
    obtain ⟨p, hp, hr⟩ := hl
    rcases Relation.ReflTransGen.cases_tail hr with e | ⟨c, -, n, hn, -, hcl⟩
    · obtain ⟨f, hf, e'⟩ := h6 p hp
      rw [e, ← e']
      exact List.mem_map.2 ⟨f, hf, rfl⟩
    · obtain ⟨-, b, hb, hm⟩ := hres hn
      rw [← Option.some.inj (hb.symm.trans hcl)]
      exact hm
  refine ⟨read_of_mem hmem, fun n hn _ => ?_⟩
  obtain ⟨-, b, hb, -⟩ := hres hn
  exact ⟨b, hb⟩

/-- A file that no other file includes is not needed unless it is asked for. -/
def unneeded (s : Search) (headers : List Text) (l : Loc) : Bool :=
  headers.all (fun h => !decide (locate s.cwd h = l)) &&
    s.tree.files.all fun f => ((lines f.2).filterMap includeMatch).all fun n =>
      !decide ((s.candidates f.1 n).find? s.tree.isThere = some l)

theorem of_unneeded {s : Search} {headers : List Text} {l : Loc} (h : unneeded s headers l = true) :
    ¬ s.Needed headers l := by
  unfold unneeded at h
  simp only [Bool.and_eq_true, List.all_eq_true, Bool.not_eq_true', decide_eq_false_iff_not] at h
  rintro ⟨p, hp, hr⟩
  rcases Relation.ReflTransGen.cases_tail hr with e | ⟨c, -, n, hn, -, hcl⟩
  · exact h.1 p hp e.symm
  · obtain ⟨x, hx, hm⟩ := names_iff.1 hn
    exact h.2 _ (mem_of_read hx) n hm hcl

end Verif.Lemmas
