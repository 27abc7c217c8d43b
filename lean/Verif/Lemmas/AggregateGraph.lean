import Mathlib.Data.Finset.Card
import Mathlib.Data.Finset.SDiff
import Mathlib.Data.Fintype.Card
import Mathlib.Order.WellFounded
import Mathlib.Data.Finite.Defs
import Mathlib.Order.WellFoundedSet
import Verif.Model.Aggregate

/-! # The include graph: depth-first collection and ordering by rounds -/

namespace Verif.Lemmas

open Verif.Spec Verif.Aggregate

/-- The keys of a dictionary. -/
def keys (g : Graph) : List Text := g.map Prod.fst

theorem keys_append (g h : Graph) : keys (g ++ h) = keys g ++ keys h := List.map_append

theorem keys_cons (e : Text × List Text) (g : Graph) : keys (e :: g) = e.1 :: keys g := rfl

theorem has_iff (g : Graph) (h : Text) : g.has h = true ↔ h ∈ keys g := by
  unfold Graph.has keys
  simp

/-- The targets in the order of the lines, processed one after the other. -/
def scanTargets (call : Graph → Text → Option Graph) (header : Text) : Graph → List Text → Graph
  | g, [] => g
  | g, p :: ps => match call (g.addDep header p) p with
    | none => g.addDep header p
    | some g' => scanTargets call header g' ps

/-- Depth-first search with the given targets. -/
def dfs (tgt : Text → List Text) : Nat → Graph → Text → Option Graph
  | 0, _, _ => none
  | depth + 1, g, k => if g.has k then some g
      else some (scanTargets (dfs tgt depth) k (g ++ [(k, [])]) (tgt k))

/-- One edge of the graph. -/
def Edge (tgt : Text → List Text) (a b : Text) : Prop := b ∈ tgt a

/-- Entries added by a search: they are complete, reachable, and their targets are known. -/
structure Added (tgt : Text → List Text) (from_ : Text → Prop) (known : List Text) (new : Graph) : Prop where
  deps : ∀ e ∈ new, ∀ x, x ∈ e.2 ↔ x ∈ tgt e.1
  closed : ∀ e ∈ new, ∀ x ∈ tgt e.1, x ∈ known
  reach : ∀ e ∈ new, ∃ r, from_ r ∧ Relation.ReflTransGen (Edge tgt) r e.1

theorem addDep_at {g0 g1 : Graph} {k : Text} {D : List Text} (h0 : k ∉ keys g0) (h1 : k ∉ keys g1) (p : Text) :
    Graph.addDep (g0 ++ (k, D) :: g1) k p = g0 ++ (k, if p ∈ D then D else D ++ [p]) :: g1 := by
  have aux : ∀ g : Graph, k ∉ keys g → g.addDep k p = g := by
    intro g hg
    unfold Graph.addDep
    conv_rhs => rw [← List.map_id g]
    refine List.map_congr_left fun e he => ?_
    rw [if_neg]
    · rfl
    · rintro rfl
      exact hg (List.mem_map_of_mem he)
  have e : Graph.addDep (g0 ++ (k, D) :: g1) k p
      = Graph.addDep g0 k p ++ (k, if p ∈ D then D else D ++ [p]) :: Graph.addDep g1 k p := by
    unfold Graph.addDep
    rw [List.map_append, List.map_cons, if_pos rfl]
  rw [e, aux _ h0, aux _ h1]

/-- What a call of the search does, for all keys in `U`. -/
def Searches (tgt : Text → List Text) (U : Finset Text) (depth : Nat) (call : Graph → Text → Option Graph) : Prop :=
  ∀ (g : Graph) (k : Text), k ∈ U → (keys g).Nodup → (U \ (keys g).toFinset).card < depth →
    ∃ new, call g k = some (g ++ new) ∧ (keys (g ++ new)).Nodup ∧ k ∈ keys (g ++ new) ∧
      (∀ e ∈ new, e.1 ∈ U) ∧ Added tgt (· = k) (keys (g ++ new)) new

theorem scanTargets_spec {tgt : Text → List Text} {U : Finset Text} {depth : Nat}
    {call : Graph → Text → Option Graph} (hcall : Searches tgt U depth call) {k : Text} (ts : List Text) :
    ∀ (g0 : Graph) (D : List Text) (g1 : Graph), (∀ t ∈ ts, t ∈ U) → (keys (g0 ++ (k, D) :: g1)).Nodup →
      (U \ (keys (g0 ++ (k, D) :: g1)).toFinset).card < depth →
      ∃ D' new, scanTargets call k (g0 ++ (k, D) :: g1) ts = g0 ++ (k, D') :: (g1 ++ new) ∧
        (∀ x, x ∈ D' ↔ x ∈ D ∨ x ∈ ts) ∧ (keys (g0 ++ (k, D') :: (g1 ++ new))).Nodup ∧
        (∀ t ∈ ts, t ∈ keys (g0 ++ (k, D') :: (g1 ++ new))) ∧ (∀ e ∈ new, e.1 ∈ U) ∧
        Added tgt (· ∈ ts) (keys (g0 ++ (k, D') :: (g1 ++ new))) new := by
  induction ts with
  | nil =>
    intro g0 D g1 _ hn _
    exact ⟨D, [], by simp [scanTargets], by simp, by simpa using hn, by simp, by simp, by simp, by simp, by simp⟩
  | cons p ps ih =>
    intro g0 D g1 hU hn hcard
    have hk0 : k ∉ keys g0 := by
      rw [keys_append, keys_cons] at hn
      exact fun h => (List.nodup_append.1 hn).2.2 k h k (by simp) rfl
    have hk1 : k ∉ keys g1 := by
      rw [keys_append, keys_cons] at hn
      exact (List.nodup_cons.1 (List.nodup_append.1 hn).2.1).1
    obtain ⟨D1, hD1⟩ : ∃ D1, D1 = if p ∈ D then D else D ++ [p] := ⟨_, rfl⟩
    have hmem : ∀ x, x ∈ D1 ↔ x ∈ D ∨ x = p := by
      intro x; rw [hD1]; split
      · rename_i h
        exact ⟨.inl, fun h' => h'.elim id fun e => e ▸ h⟩
      · simp
    have hkeys : ∀ D2 g2, keys (g0 ++ (k, D2) :: g2) = keys g0 ++ k :: keys g2 := fun D2 g2 => by
      rw [keys_append, keys_cons]
    obtain ⟨new, h1, h2, h3, h4, h5⟩ := hcall (g0 ++ (k, D1) :: g1) p (hU p (by simp))
      (by rw [hkeys] at hn ⊢; exact hn) (by rw [hkeys] at hcard ⊢; exact hcard)
    have hassoc : g0 ++ (k, D1) :: g1 ++ new = g0 ++ (k, D1) :: (g1 ++ new) := by simp
    rw [hassoc] at h1 h2 h3 h5
    obtain ⟨D', new', e1, e2, e3, e4, e5, e6⟩ := ih g0 D1 (g1 ++ new) (fun t ht => hU t (by simp [ht])) h2 (by
      refine lt_of_le_of_lt (Finset.card_le_card ?_) hcard
      refine Finset.sdiff_subset_sdiff le_rfl ?_
      intro x hx
      rw [List.mem_toFinset, hkeys] at hx ⊢
      rw [keys_append]
      simp only [List.mem_append, List.mem_cons] at hx ⊢
      tauto)
    refine ⟨D', new ++ new', ?_, ?_, ?_, ?_, ?_, ?_⟩
    · unfold scanTargets
      rw [addDep_at hk0 hk1, ← hD1, h1]
      dsimp only
      rw [e1, List.append_assoc]
    · intro x; rw [e2, hmem]; simp only [List.mem_cons]; tauto
    · rw [List.append_assoc] at e3; exact e3
    · intro t ht
      rcases List.mem_cons.1 ht with rfl | ht
      · rw [hkeys] at h3 ⊢
        rw [keys_append] at h3
        rw [keys_append, keys_append]
        simp only [List.mem_append, List.mem_cons] at h3 ⊢
        tauto
      · have := e4 t ht
        rw [List.append_assoc] at this; exact this
    · intro e he
      rcases List.mem_append.1 he with he | he
      · exact h4 e he
      · exact e5 e he
    · rw [List.append_assoc] at e6
      refine ⟨fun e he => ?_, fun e he x hx => ?_, fun e he => ?_⟩
      · rcases List.mem_append.1 he with he | he
        · exact h5.deps e he
        · exact e6.deps e he
      · rcases List.mem_append.1 he with he | he
        · have := h5.closed e he x hx
          rw [hkeys] at this ⊢
          rw [keys_append] at this
          rw [keys_append, keys_append]
          simp only [List.mem_append, List.mem_cons] at this ⊢
          tauto
        · exact e6.closed e he x hx
      · rcases List.mem_append.1 he with he | he
        · obtain ⟨r, rfl, hr⟩ := h5.reach e he
          exact ⟨r, by simp, hr⟩
        · obtain ⟨r, hr, hr'⟩ := e6.reach e he
          exact ⟨r, by simp [hr], hr'⟩

theorem dfs_spec {tgt : Text → List Text} {U : Finset Text} (hU : ∀ k ∈ U, ∀ t ∈ tgt k, t ∈ U) (depth : Nat) :
    Searches tgt U depth (dfs tgt depth) := by
  induction depth with
  | zero => intro g k _ _ h; exact absurd h (Nat.not_lt_zero _)
  | succ depth ih =>
    intro g k hk hn hcard
    unfold dfs
    by_cases hg : g.has k = true
    · rw [if_pos hg]
      exact ⟨[], by simp, by simpa using hn, by simpa using (has_iff g k).1 hg, by simp, by simp, by simp, by simp⟩
    · rw [if_neg hg]
      have hk' : k ∉ keys g := fun h => hg ((has_iff g k).2 h)
      obtain ⟨D', new, e1, e2, e3, e4, e5, e6⟩ := scanTargets_spec ih (tgt k) g [] [] (hU k hk) (by
          rw [keys_append]
          refine List.nodup_append.2 ⟨hn, by simp [keys], ?_⟩
          intro a ha b hb e
          have : b = k := by simpa [keys] using hb
          exact hk' (by rw [← this, ← e]; exact ha)) (by
          refine Nat.lt_of_lt_of_le (Finset.card_lt_card ?_) (Nat.lt_succ_iff.1 hcard)
          rw [Finset.ssubset_iff_of_subset (Finset.sdiff_subset_sdiff le_rfl (by
            intro x hx
            rw [List.mem_toFinset] at hx ⊢
            rw [keys_append]
            exact List.mem_append_left _ hx))]
          refine ⟨k, ?_, ?_⟩
          · rw [Finset.mem_sdiff, List.mem_toFinset]; exact ⟨hk, hk'⟩
          · rw [Finset.mem_sdiff, List.mem_toFinset]
            intro h
            exact h.2 (by rw [keys_append]; simp [keys]))
      rw [List.nil_append] at e1 e3 e4 e6
      refine ⟨(k, D') :: new, congrArg some e1, e3, by rw [keys_append, keys_cons]; simp, ?_, ?_⟩
      · intro e he
        rcases List.mem_cons.1 he with rfl | he
        · exact hk
        · exact e5 e he
      · refine ⟨fun e he => ?_, fun e he x hx => ?_, fun e he => ?_⟩
        · rcases List.mem_cons.1 he with rfl | he
          · intro x; rw [e2]; simp
          · exact e6.deps e he
        · rcases List.mem_cons.1 he with rfl | he
          · exact e4 x hx
          · exact e6.closed e he x hx
        · rcases List.mem_cons.1 he with rfl | he
          · exact ⟨_, rfl, .refl⟩
          · obtain ⟨r, hr, hr'⟩ := e6.reach e he
            exact ⟨k, rfl, .head hr hr'⟩

/-- The search started from each key of a list. -/
def dfsAll (tgt : Text → List Text) (depth : Nat) : Graph → List Text → Option Graph
  | g, [] => some g
  | g, k :: ks => match dfs tgt depth g k with
    | none => none
    | some g' => dfsAll tgt depth g' ks

theorem dfsAll_spec {tgt : Text → List Text} {U : Finset Text} (hU : ∀ k ∈ U, ∀ t ∈ tgt k, t ∈ U) {depth : Nat}
    (hd : U.card < depth) (ks : List Text) : ∀ g : Graph, (∀ k ∈ ks, k ∈ U) → (keys g).Nodup →
    ∃ new, dfsAll tgt depth g ks = some (g ++ new) ∧ (keys (g ++ new)).Nodup ∧ (∀ k ∈ ks, k ∈ keys (g ++ new)) ∧
      (∀ e ∈ new, e.1 ∈ U) ∧ Added tgt (· ∈ ks) (keys (g ++ new)) new := by
  induction ks with
  | nil =>
    intro g _ hn
    exact ⟨[], by simp [dfsAll], by simpa using hn, by simp, by simp, by simp, by simp, by simp⟩
  | cons k ks ih =>
    intro g hks hn
    obtain ⟨new, h1, h2, h3, h4, h5⟩ := dfs_spec hU depth g k (hks k (by simp)) hn
      (lt_of_le_of_lt (Finset.card_le_card Finset.sdiff_subset) hd)
    obtain ⟨new', e1, e2, e3, e4, e5⟩ := ih (g ++ new) (fun t ht => hks t (by simp [ht])) h2
    rw [List.append_assoc] at e1 e2 e3 e5
    have sub : ∀ x, x ∈ keys (g ++ new) → x ∈ keys (g ++ (new ++ new')) := by
      intro x hx
      rw [← List.append_assoc, keys_append]
      exact List.mem_append_left _ hx
    refine ⟨new ++ new', ?_, e2, ?_, ?_, ?_⟩
    · unfold dfsAll
      rw [h1]
      exact e1
    · intro t ht
      rcases List.mem_cons.1 ht with rfl | ht
      · exact sub _ h3
      · exact e3 t ht
    · intro e he
      rcases List.mem_append.1 he with he | he
      · exact h4 e he
      · exact e4 e he
    · refine ⟨fun e he => ?_, fun e he x hx => ?_, fun e he => ?_⟩
      · rcases List.mem_append.1 he with he | he
        · exact h5.deps e he
        · exact e5.deps e he
      · rcases List.mem_append.1 he with he | he
        · exact sub _ (h5.closed e he x hx)
        · exact e5.closed e he x hx
      · rcases List.mem_append.1 he with he | he
        · obtain ⟨r, rfl, hr⟩ := h5.reach e he
          exact ⟨r, by simp, hr⟩
        · obtain ⟨r, hr, hr'⟩ := e5.reach e he
          exact ⟨r, by simp [hr], hr'⟩

/-! ## Ordering by rounds -/

theorem foldl_removeKey (ks : List Text) : ∀ g : Graph,
    ks.foldl removeKey g = (g.filter fun e => e.1 ∉ ks).map fun e => (e.1, e.2.filter (· ∉ ks)) := by
  induction ks with
  | nil => intro g; simp
  | cons k ks ih =>
    intro g
    rw [List.foldl_cons, ih]
    unfold removeKey
    rw [List.filter_map, List.map_map, List.filter_filter]
    have : (List.filter (fun a => (decide ((a : Text × List Text).1 ≠ k)) && ((fun e : Text × List Text => decide (e.1 ∉ ks)) ∘
        fun e => (e.1, e.2.filter (· ≠ k))) a) g) = g.filter fun e => e.1 ∉ k :: ks := by
      refine List.filter_congr fun e _ => ?_
      simp
    have h2 := this
    simp only [Bool.and_comm] at h2 ⊢
    rw [h2]
    refine List.map_congr_left fun e _ => ?_
    simp only [Function.comp, List.filter_filter]
    refine congrArg _ (List.filter_congr fun x _ => ?_)
    simp [Bool.and_comm]

/-- A state of the loop: what is listed, and what remains of the graph. -/
structure Ordering (tgt : Text → List Text) (all : List Text) (remaining : Graph) (included : List Text) : Prop where
  nodup : (included ++ keys remaining).Nodup
  mem : ∀ k, k ∈ included ++ keys remaining ↔ k ∈ all
  deps : ∀ e ∈ remaining, ∀ x, x ∈ e.2 ↔ x ∈ tgt e.1 ∧ x ∉ included
  order : included.Pairwise fun a b => b ∉ tgt a
  earlier : ∀ k ∈ included, ∀ x ∈ tgt k, x ∈ included

theorem mem_readyKeys {tgt : Text → List Text} {all included : List Text} {remaining : Graph}
    (h : Ordering tgt all remaining included) (k : Text) :
    k ∈ readyKeys remaining ↔ k ∈ keys remaining ∧ ∀ x ∈ tgt k, x ∈ included := by
  unfold readyKeys keys
  simp only [List.mem_map, List.mem_filter, List.isEmpty_iff]
  constructor
  · rintro ⟨e, ⟨he, h0⟩, rfl⟩
    refine ⟨⟨e, he, rfl⟩, fun x hx => ?_⟩
    by_contra hn
    have := (h.deps e he x).2 ⟨hx, hn⟩
    rw [h0] at this
    simp at this
  · rintro ⟨⟨e, he, rfl⟩, hx⟩
    refine ⟨e, ⟨he, ?_⟩, rfl⟩
    rw [List.eq_nil_iff_forall_not_mem]
    intro x h'
    obtain ⟨h1, h2⟩ := (h.deps e he x).1 h'
    exact h2 (hx x h1)

theorem readyKeys_sublist (remaining : Graph) : (readyKeys remaining).Sublist (keys remaining) := by
  unfold readyKeys keys
  exact List.Sublist.map _ List.filter_sublist

theorem foldl_appendUnique {w : World} {ks : List Text} (hid : ∀ k ∈ ks, w.abs k = k) :
    ∀ included : List Text, (included ++ ks).Nodup → ks.foldl (appendUnique w) included = included ++ ks := by
  induction ks with
  | nil => intro _ _; simp
  | cons k ks ih =>
    intro included hn
    have e : appendUnique w included k = included ++ [k] := by
      unfold appendUnique
      rw [hid k (by simp), if_neg]
      intro h
      exact (List.nodup_append.1 hn).2.2 k h k (by simp) rfl
    rw [List.foldl_cons, e, ih (fun x hx => hid x (by simp [hx]))]
    · simp
    · simpa using hn

theorem Ordering.step {tgt : Text → List Text} {all included : List Text} {remaining : Graph}
    (h : Ordering tgt all remaining included) :
    Ordering tgt all ((readyKeys remaining).foldl removeKey remaining) (included ++ readyKeys remaining) := by
  have hk : keys ((readyKeys remaining).foldl removeKey remaining)
      = (keys remaining).filter (· ∉ readyKeys remaining) := by
    rw [foldl_removeKey]
    unfold keys
    rw [List.map_map, List.filter_map]
    rfl
  have hn := List.nodup_append.1 h.nodup
  have hsub := readyKeys_sublist remaining
  refine ⟨?_, ?_, ?_, ?_, ?_⟩
  · rw [hk]
    refine List.nodup_append.2 ⟨List.nodup_append.2 ⟨hn.1, hn.2.1.sublist hsub, fun a ha b hb =>
      hn.2.2 a ha b (hsub.subset hb)⟩, hn.2.1.filter _, ?_⟩
    intro a ha b hb e
    subst e
    rw [List.mem_filter] at hb
    rcases List.mem_append.1 ha with ha | ha
    · exact hn.2.2 a ha a hb.1 rfl
    · simp [ha] at hb
  · intro k
    rw [← h.mem, hk]
    simp only [List.mem_append, List.mem_filter, decide_eq_true_eq]
    have : k ∈ readyKeys remaining → k ∈ keys remaining := fun h => hsub.subset h
    by_cases hr : k ∈ readyKeys remaining <;> tauto
  · intro e he x
    rw [foldl_removeKey, List.mem_map] at he
    obtain ⟨e', he', rfl⟩ := he
    rw [List.mem_filter] at he'
    simp only [List.mem_filter, decide_eq_true_eq, List.mem_append, not_or]
    rw [h.deps e' he'.1]
    tauto
  · refine List.pairwise_append.2 ⟨h.order, ?_, ?_⟩
    · refine List.Nodup.pairwise_of_forall_ne (hn.2.1.sublist hsub) fun a ha b hb _ hab => ?_
      have := ((mem_readyKeys h a).1 ha).2 b hab
      exact hn.2.2 b this b (hsub.subset hb) rfl
    · intro a ha b hb hab
      exact hn.2.2 b (h.earlier a ha b hab) b (hsub.subset hb) rfl
  · intro k hk x hx
    rcases List.mem_append.1 hk with hk | hk
    · exact List.mem_append_left _ (h.earlier k hk x hx)
    · exact List.mem_append_left _ (((mem_readyKeys h k).1 hk).2 x hx)

/-- In a graph without cycles some key is ready. -/
theorem readyKeys_ne_nil {tgt : Text → List Text} {all included : List Text} {remaining : Graph}
    (h : Ordering tgt all remaining included) (hclosed : ∀ k ∈ all, ∀ x ∈ tgt k, x ∈ all)
    (hac : ∀ k ∈ all, ¬ Relation.TransGen (Edge tgt) k k) (hr : remaining ≠ []) : readyKeys remaining ≠ [] := by
  intro h0
  have hall : ∀ k ∈ keys remaining, k ∈ all := fun k hk => (h.mem k).1 (List.mem_append_right _ hk)
  have next : ∀ k ∈ keys remaining, ∃ x ∈ keys remaining, x ∈ tgt k := by
    intro k hk
    by_contra hn
    have : k ∈ readyKeys remaining := (mem_readyKeys h k).2 ⟨hk, fun x hx => by
      by_contra hx'
      have := (h.mem x).2 (hclosed k (hall k hk) x hx)
      rcases List.mem_append.1 this with h1 | h1
      · exact hx' h1
      · exact hn ⟨x, h1, hx⟩⟩
    rw [h0] at this
    simp at this
  let S := {k : Text // k ∈ keys remaining}
  let r : S → S → Prop := fun a b => Relation.TransGen (Edge tgt) b.1 a.1
  have : IsTrans S r := ⟨fun a b c h1 h2 => Relation.TransGen.trans h2 h1⟩
  have : Std.Irrefl r := ⟨fun a ha => hac a.1 (hall a.1 a.2) ha⟩
  have wf : WellFounded r := Finite.wellFounded_of_trans_of_irrefl r
  obtain ⟨e, he⟩ := List.exists_mem_of_ne_nil _ hr
  obtain ⟨m, -, hm⟩ := wf.has_min Set.univ ⟨⟨e.1, List.mem_map_of_mem he⟩, trivial⟩
  obtain ⟨x, hx, hmx⟩ := next m.1 m.2
  exact hm ⟨x, hx⟩ trivial (Relation.TransGen.single hmx)

theorem keys_length (g : Graph) : (keys g).length = g.length := by simp [keys]

theorem step_length_lt {remaining : Graph} (h : readyKeys remaining ≠ []) :
    ((readyKeys remaining).foldl removeKey remaining).length < remaining.length := by
  rw [foldl_removeKey, List.length_map]
  obtain ⟨k, hk⟩ := List.exists_mem_of_ne_nil _ h
  refine List.length_filter_lt_length_iff_exists.2 ?_
  obtain ⟨e, he, rfl⟩ := List.mem_map.1 ((readyKeys_sublist remaining).subset hk)
  exact ⟨e, he, by simpa using hk⟩

/-- Without cycles the loop ends, and lists every key after its targets. -/
theorem headerLoop_finishes {tgt : Text → List Text} {w : World} {all : List Text}
    (hid : ∀ k ∈ all, w.abs k = k) (hclosed : ∀ k ∈ all, ∀ x ∈ tgt k, x ∈ all)
    (hac : ∀ k ∈ all, ¬ Relation.TransGen (Edge tgt) k k) (m : Nat) :
    ∀ (remaining : Graph) (included : List Text), remaining.length = m → Ordering tgt all remaining included →
      ∃ order, Ordering tgt all [] order ∧ ∀ n, m ≤ n → headerLoop w n remaining included = .ok order := by
  induction m using Nat.strong_induction_on with
  | _ m ih =>
    intro remaining included hm h
    by_cases hr : remaining = []
    · subst hr
      refine ⟨included, h, fun n _ => ?_⟩
      cases n <;> simp [headerLoop]
    · have hne := readyKeys_ne_nil h hclosed hac hr
      have hlt := step_length_lt hne
      obtain ⟨order, h1, h2⟩ := ih _ (hm ▸ hlt) _ _ rfl h.step
      refine ⟨order, h1, fun n hn => ?_⟩
      cases n with
      | zero =>
        have : remaining.length = 0 := by omega
        exact absurd (List.length_eq_zero_iff.1 this) hr
      | succ n =>
        have e : included ++ readyKeys remaining = (readyKeys remaining).foldl (appendUnique w) included := by
          refine (foldl_appendUnique (fun k hk => hid k ((h.mem k).1
            (List.mem_append_right _ ((readyKeys_sublist remaining).subset hk)))) included ?_).symm
          have hnd := List.nodup_append.1 h.nodup
          exact List.nodup_append.2 ⟨hnd.1, hnd.2.1.sublist (readyKeys_sublist remaining), fun a ha b hb =>
            hnd.2.2 a ha b ((readyKeys_sublist remaining).subset hb)⟩
        unfold headerLoop
        rw [if_neg (by simpa using hr)]
        dsimp only
        rw [← e]
        exact h2 n (by omega)

/-- With a cycle it never ends. -/
theorem headerLoop_runs {tgt : Text → List Text} {w : World} {all : List Text} (hid : ∀ k ∈ all, w.abs k = k)
    {C : Text → Prop} (hC : ∃ k, C k) (hnext : ∀ k, C k → ∃ x, C x ∧ x ∈ tgt k) (n : Nat) :
    ∀ (remaining : Graph) (included : List Text), (∀ k, C k → k ∈ keys remaining) →
      Ordering tgt all remaining included → headerLoop w n remaining included = .running := by
  induction n with
  | zero =>
    intro remaining included hk _
    obtain ⟨k, hc⟩ := hC
    have : remaining ≠ [] := by
      rintro rfl
      simpa [keys] using hk k hc
    unfold headerLoop
    rw [if_neg (by simpa using this)]
  | succ n ih =>
    intro remaining included hk h
    have hr : remaining ≠ [] := by
      obtain ⟨k, hc⟩ := hC
      rintro rfl
      simpa [keys] using hk k hc
    have e : included ++ readyKeys remaining = (readyKeys remaining).foldl (appendUnique w) included := by
      refine (foldl_appendUnique (fun k hk => hid k ((h.mem k).1
        (List.mem_append_right _ ((readyKeys_sublist remaining).subset hk)))) included ?_).symm
      have hnd := List.nodup_append.1 h.nodup
      exact List.nodup_append.2 ⟨hnd.1, hnd.2.1.sublist (readyKeys_sublist remaining), fun a ha b hb =>
        hnd.2.2 a ha b ((readyKeys_sublist remaining).subset hb)⟩
    unfold headerLoop
    rw [if_neg (by simpa using hr)]
    dsimp only
    rw [← e]
    refine ih _ _ (fun k hc => ?_) h.step
    have hnr : k ∉ readyKeys remaining := by
      intro hready
      obtain ⟨x, hx, hxt⟩ := hnext k hc
      have h1 := ((mem_readyKeys h k).1 hready).2 x hxt
      exact (List.nodup_append.1 h.nodup).2.2 x h1 x (hk x hx) rfl
    obtain ⟨e', he', rfl⟩ := List.mem_map.1 (hk k hc)
    rw [foldl_removeKey]
    refine List.mem_map.2 ⟨_, List.mem_map.2 ⟨e', List.mem_filter.2 ⟨he', by simpa using hnr⟩, rfl⟩, rfl⟩

/-- From a key in a cycle one can always go on within the cycle. -/
theorem cycle_next {tgt : Text → List Text} {k x : Text}
    (hx : Relation.TransGen (Edge tgt) k x ∧ Relation.TransGen (Edge tgt) x k) :
    ∃ y, (Relation.TransGen (Edge tgt) k y ∧ Relation.TransGen (Edge tgt) y k) ∧ y ∈ tgt x := by
  obtain ⟨y, hxy, hy⟩ := Relation.TransGen.head'_iff.1 hx.2
  refine ⟨y, ⟨hx.1.tail hxy, ?_⟩, hxy⟩
  rcases Relation.reflTransGen_iff_eq_or_transGen.1 hy with rfl | h
  · exact hx.1.trans hx.2
  · exact h

end Verif.Lemmas
