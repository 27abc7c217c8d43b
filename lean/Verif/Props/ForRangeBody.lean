import Verif.Lemmas.Odometer
import Verif.Lemmas.Sequence

/-!
# Property C96: `forRange` with a body that changes the index
-/

namespace Verif.Props

open Verif.Spec Verif.Lemmas Verif.IndexTypes

variable {σ : Type}

/-- **C96, what happens.** Whatever the body does to the index it is given, `forRange` is an odometer: it ends (with some
outcome) exactly if the odometer does, and with the same outcome. -/
theorem C96_odometer (ranges start : List Int) (hne : ranges ≠ []) (hl : start.length = ranges.length)
    (his : ∀ x ∈ start, IsInt x) (hlt : ∀ k < ranges.length, start.getD k 0 < ranges.getD k 0)
    (body : List Int × σ → Res (List Int × σ))
    (hb : ∀ t s t' s', t.length = ranges.length → (∀ x ∈ t, IsInt x) → body (t, s) = .ok (t', s') →
      t'.length = ranges.length ∧ ∀ x ∈ t', IsInt x) (s : σ)
    (r : Res (List Int × σ)) :
    (∃ fuel, Body.forRange ranges body fuel start s = some r) ↔ ∃ n, odometer ranges start body n (start, s) = some r := by
  have hpos : 0 < ranges.length := List.length_pos_iff.2 hne
  have := helper_iff ⟨hl, his⟩ (fun st t s hst h => hb st.1 st.2 t s hst.1 hst.2 h) hlt (ranges.length - 1) 0 (by omega)
    (start, s) ⟨hl, his⟩ r
  simp only [odoFrom_zero, resetFrom, List.take_zero, List.drop_zero, List.nil_append] at this
  unfold Body.forRange
  simp only [if_neg hne]
  exact this

/-- `ts` are successive readings, the last of which leads to `f`. -/
private def Turns (rs ss : List Int) (f : List Int) : List (List Int) → Prop
  | [] => False
  | [t] => advance rs ss t = .done f
  | t :: t' :: ts => advance rs ss t = .next t' ∧ Turns rs ss f (t' :: ts)

private theorem turns_block {r s i : Int} {rs ss g : List Int} (hi : i ≠ 2147483647) :
    ∀ L, Turns rs ss g L →
      (i + 1 < r → ∀ f M, Turns (r :: rs) (s :: ss) f (((i + 1) :: ss) :: M) →
        Turns (r :: rs) (s :: ss) f (L.map (i :: ·) ++ ((i + 1) :: ss) :: M)) ∧
      (¬ i + 1 < r → Turns (r :: rs) (s :: ss) ((i + 1) :: g) (L.map (i :: ·)))
  | [], h => h.elim
  | [t], h => by
    refine ⟨fun h1 f M hM => ⟨?_, hM⟩, fun h1 => ?_⟩
    · simp only [Turns] at h; simp only [advance, h, if_neg hi, if_pos h1]
    · simp only [Turns] at h; simp only [List.map, Turns, advance, h, if_neg hi, if_neg h1]
  | t :: t' :: ts, h => by
    obtain ⟨a, b⟩ := turns_block (r := r) (s := s) hi (t' :: ts) h.2
    refine ⟨fun h1 f M hM => ⟨?_, a h1 f M hM⟩, fun h1 => ⟨?_, b h1⟩⟩ <;> simp only [advance, h.1]

private theorem turns_box : ∀ {rs ss : List Int}, ss.length = rs.length → (∀ k < rs.length, ss.getD k 0 < rs.getD k 0) →
    (∀ x ∈ rs, IsInt x) → Turns rs ss rs (boxFrom ss rs) ∧ ∃ M, boxFrom ss rs = ss :: M
  | [], [], _, _, _ => ⟨rfl, [], rfl⟩
  | [], _ :: _, hl, _, _ => by simp at hl
  | _ :: _, [], hl, _, _ => by simp at hl
  | r :: rs, s :: ss, hl, hlt, hi => by
    obtain ⟨h1, M, hM⟩ := turns_box (rs := rs) (ss := ss) (by simpa using hl)
      (fun k hk => by simpa using hlt (k + 1) (by simpa using hk)) (fun x hx => hi x (by simp [hx]))
    have hsr : s < r := by simpa using hlt 0 (by simp)
    have hr := (hi r (by simp)).2
    have key : ∀ (n : ℕ) (i : Int), i < r → (r - i).toNat = n + 1 →
        Turns (r :: rs) (s :: ss) (r :: rs) ((upTo i r).flatMap fun i => (boxFrom ss rs).map (i :: ·)) ∧
        ∃ M, ((upTo i r).flatMap fun i => (boxFrom ss rs).map (i :: ·)) = (i :: ss) :: M := by
      intro n
      induction n with
      | zero =>
        intro i hir hn
        have hir' : r = i + 1 := by omega
        have e : upTo i r = [i] := by rw [hir']; simp [upTo]
        rw [e, List.flatMap_singleton]
        refine ⟨?_, M.map (i :: ·), by rw [hM]; rfl⟩
        have := (turns_block (r := r) (s := s) (i := i) (by omega) _ h1).2 (by omega)
        rw [← hir'] at this
        exact this
      | succ n ih =>
        intro i hir hn
        have e : upTo i r = i :: upTo (i + 1) r := upTo_cons hir
        obtain ⟨a, M', b⟩ := ih (i + 1) (by omega) (by omega)
        rw [e, List.flatMap_cons, b]
        refine ⟨?_, M.map (i :: ·) ++ ((i + 1) :: ss) :: M', by rw [hM]; rfl⟩
        rw [b] at a
        exact (turns_block (r := r) (s := s) (i := i) (by omega) _ h1).1 (by omega) _ _ a
    exact key ((r - s).toNat - 1) s hsr (by omega)

private theorem advance_exhausted : ∀ {rs ss u : List Int}, u.length = rs.length → ss.length = rs.length →
    (∀ k < rs.length, rs.getD k 0 ≤ u.getD k 0 + 1 ∧ u.getD k 0 < 2147483647) → advance rs ss u = .done (u.map (· + 1))
  | [], _, [], _, _, _ => by simp [advance]
  | [], _, _ :: _, h, _, _ => by simp at h
  | _ :: _, _, [], h, _, _ => by simp at h
  | _ :: _, [], _ :: _, _, h, _ => by simp at h
  | r :: rs, s :: ss, t :: ts, h1, h2, h => by
    have ih := advance_exhausted (rs := rs) (ss := ss) (u := ts) (by simpa using h1) (by simpa using h2)
      (fun k hk => by simpa using h (k + 1) (by simpa using hk))
    have h0 := h 0 (by simp)
    simp only [List.getD_cons_zero] at h0
    simp only [advance, ih]
    rw [if_neg (by omega), if_neg (by omega)]
    rfl

/-- **C96, leaving early.** A body that leaves the index alone, or puts it past its ranges to end the iteration, is
called for the tuples of the box in lexicographic order up to the first call that does the latter. -/
theorem C96_leaving_partial (ranges start : List Int) (hne : ranges ≠ []) (hl : start.length = ranges.length)
    (hlt : ∀ k < ranges.length, start.getD k 0 < ranges.getD k 0) (his : ∀ x ∈ start, IsInt x)
    (hir : ∀ x ∈ ranges, IsInt x) :
    ∃ calls : List (List Int), (∀ t, t ∈ calls ↔ InRange start ranges t) ∧ calls.Pairwise LexLT ∧
      ∀ (f : List Int → σ → Res (σ × Option (List Int))) (_ : ∀ t s s' u, f t s = .ok (s', some u) →
          u.length = ranges.length ∧ ∀ k < ranges.length, ranges.getD k 0 ≤ u.getD k 0 + 1 ∧
            u.getD k 0 < 2147483647) (s : σ),
        ∃ fuel, Body.forRange ranges (fun st => do
            let r ← f st.1 st.2
            .ok (r.2.getD st.1, r.1)) fuel start s
          = some (do
            let r ← callsUntil f calls s
            .ok (match r.2 with
              | none => ranges
              | some u => u.map (· + 1), r.1)) := by
  refine ⟨boxFrom start ranges, fun _ => mem_boxFrom hl, boxFrom_pairwise hl, fun f hf s => ?_⟩
  have hint : ∀ t s s' u, f t s = .ok (s', some u) → IsIndex ranges u := fun t s s' u h => by
    obtain ⟨h1, h2⟩ := hf t s s' u h
    refine ⟨h1, fun x hx => ?_⟩
    obtain ⟨k, hk, rfl⟩ := List.mem_iff_getElem.1 hx
    have h3 := h2 k (by omega)
    have h4 : IsIndex ranges ranges := ⟨rfl, hir⟩
    have h5 := (h4.getD (k := k) (by omega)).1
    have h6 := IsIndex.getD (t := start) ⟨hl, his⟩ (k := k) (by omega)
    have h7 := hlt k (by omega)
    have h8 : u.getD k 0 = u[k] := by rw [List.getD_eq_getElem?_getD, List.getElem?_eq_getElem hk, Option.getD_some]
    rw [h8] at h3
    exact ⟨by have := h6.1; omega, by omega⟩
  refine (C96_odometer ranges start hne hl his hlt _ (fun t s t' s' h1 h2 h => ?_) s _).2 ?_
  · obtain ⟨⟨s1, o⟩, h3, h4⟩ := Res.bind_eq_ok.1 h
    simp only [Res.ok.injEq, Prod.mk.injEq] at h4
    cases o with
    | none => rw [← h4.1]; exact ⟨h1, h2⟩
    | some u => rw [← h4.1]; exact hint _ _ _ _ h3
  · obtain ⟨hturn, M, hM⟩ := turns_box hl hlt hir
    suffices H : ∀ (L : List (List Int)) (t : List Int) (s : σ), Turns ranges start ranges (t :: L) →
        ∃ n, odometer ranges start (fun st => do
            let r ← f st.1 st.2
            .ok (r.2.getD st.1, r.1)) n (t, s)
          = some (do
            let r ← callsUntil f (t :: L) s
            .ok (match r.2 with
              | none => ranges
              | some u => u.map (· + 1), r.1)) by
      rw [hM] at hturn ⊢
      exact H M start s hturn
    intro L
    induction L with
    | nil =>
      intro t s ht
      simp only [Turns] at ht
      refine ⟨1, ?_⟩
      simp only [odometer, callsUntil]
      cases hft : f t s with
      | ok r =>
        obtain ⟨s1, o⟩ := r
        cases o with
        | none => simp [ht]
        | some u => simp [advance_exhausted (hf _ _ _ _ hft).1 hl (hf _ _ _ _ hft).2]
      | illFormed => rfl
      | ub => rfl
      | abort => rfl
      | nonfinite => rfl
    | cons t' L ih =>
      intro t s ht
      obtain ⟨h1, h2⟩ := ht
      cases hft : f t s with
      | ok r =>
        obtain ⟨s1, o⟩ := r
        cases o with
        | none =>
          obtain ⟨n, hn⟩ := ih t' s1 h2
          refine ⟨n + 1, ?_⟩
          rw [callsUntil]
          simp only [odometer, hft, Res.ok_bind, Option.getD_none, h1]
          exact hn
        | some u =>
          refine ⟨1, ?_⟩
          simp [odometer, callsUntil, hft, advance_exhausted (hf _ _ _ _ hft).1 hl (hf _ _ _ _ hft).2]
      | illFormed => exact ⟨1, by simp only [odometer, callsUntil, hft]; rfl⟩
      | ub => exact ⟨1, by simp only [odometer, callsUntil, hft]; rfl⟩
      | abort => exact ⟨1, by simp only [odometer, callsUntil, hft]; rfl⟩
      | nonfinite => exact ⟨1, by simp only [odometer, callsUntil, hft]; rfl⟩

private theorem lexLT_trans : ∀ {a b c : List Int}, LexLT a b → LexLT b c → LexLT a c
  | [], _, _, h, _ => by obtain ⟨-, k, hk, -⟩ := h; simp at hk
  | _ :: _, [], _, h, _ => by have := h.1; simp at this
  | _ :: _, _ :: _, [], _, h => by have := h.1; simp at this
  | a :: as, b :: bs, c :: cs, h1, h2 => by
    obtain ⟨l1, h1⟩ := lexLT_cons.1 h1
    obtain ⟨l2, h2⟩ := lexLT_cons.1 h2
    refine lexLT_cons.2 ⟨by omega, ?_⟩
    rcases h1 with h1 | ⟨e1, h1⟩ <;> rcases h2 with h2 | ⟨e2, h2⟩
    · exact .inl (by omega)
    · exact .inl (by omega)
    · exact .inl (by omega)
    · exact .inr ⟨by omega, lexLT_trans h1 h2⟩

private theorem lexLT_irrefl (a : List Int) : ¬ LexLT a a := fun ⟨_, _, _, _, h⟩ => lt_irrefl _ h

open Classical in
/-- How many tuples of the box come after `t`. -/
private noncomputable def remaining (start ranges t : List Int) : ℕ :=
  ((boxFrom start ranges).filter fun u => decide (LexLT t u)).length

private theorem remaining_lt {start ranges t u : List Int} (hl : start.length = ranges.length) (h : LexLT t u)
    (hu : InRange start ranges u) : remaining start ranges u < remaining start ranges t := by
  classical
  unfold remaining
  have hmem : u ∈ boxFrom start ranges := (mem_boxFrom hl).2 hu
  have hsub : ((boxFrom start ranges).filter fun v => decide (LexLT u v)).Sublist
      ((boxFrom start ranges).filter fun v => decide (LexLT t v)) := by
    refine List.monotone_filter_right _ fun v hv => ?_
    simp only [decide_eq_true_eq] at hv ⊢
    exact lexLT_trans h hv
  refine lt_of_le_of_ne hsub.length_le fun e => ?_
  have heq := hsub.eq_of_length e
  have h1 : u ∈ (boxFrom start ranges).filter fun v => decide (LexLT t v) := List.mem_filter.2 ⟨hmem, by simpa using h⟩
  rw [← heq] at h1
  exact lexLT_irrefl u (by simpa using (List.mem_filter.1 h1).2)

/-- In the box but for the last entry, which may be too large. -/
private def Almost (start ranges t : List Int) : Prop :=
  t.length = ranges.length ∧ ∀ k < ranges.length, start.getD k 0 ≤ t.getD k 0 ∧
    (k + 1 < ranges.length → t.getD k 0 < ranges.getD k 0)

private theorem almost_set {start ranges t : List Int} (hpos : 0 < ranges.length) (h : InRange start ranges t) {a : Int}
    (ha : t.getD (ranges.length - 1) 0 ≤ a) :
    Almost start ranges (t.set (ranges.length - 1) a) ∧
      (t = t.set (ranges.length - 1) a ∨ LexLT t (t.set (ranges.length - 1) a)) := by
  obtain ⟨h1, h2⟩ := h
  have hlast : (t.set (ranges.length - 1) a).getD (ranges.length - 1) 0 = a := by
    rw [List.getD_eq_getElem?_getD, List.getElem?_set_self (by omega)]; rfl
  refine ⟨⟨by simpa using h1, fun k hk => ?_⟩, ?_⟩
  · by_cases hk' : k = ranges.length - 1
    · subst hk'
      rw [hlast]
      exact ⟨(h2 _ hk).1.trans ha, fun h => by omega⟩
    · have : (t.set (ranges.length - 1) a).getD k 0 = t.getD k 0 := by
        rw [List.getD_eq_getElem?_getD, List.getElem?_set_ne (Ne.symm hk'), List.getD_eq_getElem?_getD]
      rw [this]
      exact ⟨(h2 k hk).1, fun _ => (h2 k hk).2⟩
  · by_cases he : t.getD (ranges.length - 1) 0 = a
    · left
      refine List.ext_getElem? fun k => ?_
      by_cases hk' : k = ranges.length - 1
      · subst hk'
        rw [List.getElem?_set_self (by omega), List.getElem?_eq_getElem (by omega)]
        rw [List.getD_eq_getElem?_getD, List.getElem?_eq_getElem (by omega)] at he
        exact congrArg some he
      · rw [List.getElem?_set_ne (Ne.symm hk')]
    · right
      refine ⟨by simp, ranges.length - 1, by omega, ?_, by rw [hlast]; omega⟩
      rw [List.take_set_of_le (le_refl _)]

private theorem advance_almost : ∀ {start ranges t : List Int}, start.length = ranges.length →
    (∀ k < ranges.length, start.getD k 0 < ranges.getD k 0) → Almost start ranges t →
    ∀ u, advance ranges start t = .next u → InRange start ranges u ∧ LexLT t u
  | _, [], _, _, _, _, u, h => by simp [advance] at h
  | [], _ :: _, _, hl, _, _, _, _ => by simp at hl
  | _ :: _, _ :: _, [], _, _, ht, _, _ => by have := ht.1; simp at this
  | s :: ss, r :: rs, t :: ts, hl, hlt, ht, u, h => by
    have hl' : ss.length = rs.length := by simpa using hl
    have hts : ts.length = rs.length := by simpa using ht.1
    have hlt' : ∀ k < rs.length, ss.getD k 0 < rs.getD k 0 := fun k hk => by simpa using hlt (k + 1) (by simpa using hk)
    have h0 := ht.2 0 (by simp)
    simp only [List.getD_cons_zero, List.length_cons] at h0
    have ih := advance_almost (start := ss) (ranges := rs) (t := ts) hl' hlt' ⟨hts, fun k hk => by
      have := ht.2 (k + 1) (by simpa using hk)
      simpa using this⟩
    simp only [advance] at h
    split at h
    · rename_i w hw
      cases h
      obtain ⟨h1, h2⟩ := ih w hw
      have hpos : 0 < rs.length := by
        rcases Nat.eq_zero_or_pos rs.length with e | e
        · rw [List.length_eq_zero_iff.1 e] at hw; simp [advance] at hw
        · exact e
      exact ⟨inRange_cons.2 ⟨_, _, rfl, ⟨h0.1, h0.2 (by omega)⟩, h1⟩, lexLT_cons.2 ⟨h2.1, .inr ⟨rfl, h2⟩⟩⟩
    · split_ifs at h with hm hr
      cases h
      exact ⟨inRange_cons.2 ⟨_, _, rfl, ⟨by omega, hr⟩, hl', fun k hk => ⟨le_refl _, hlt' k hk⟩⟩,
        lexLT_cons.2 ⟨by omega, .inl (by omega)⟩⟩
    · cases h

/-- **C96, forward only.** A body that changes only the last entry, and only upwards, is called for tuples of the box
only, in increasing lexicographic order, and the iteration ends. -/
theorem C96_skipping_partial (ranges start : List Int) (hne : ranges ≠ []) (hl : start.length = ranges.length)
    (hlt : ∀ k < ranges.length, start.getD k 0 < ranges.getD k 0) (his : ∀ x ∈ start, IsInt x)
    (f : List Int → σ → Res (Int × σ))
    (hf : ∀ t s a s', f t s = .ok (a, s') → t.getD (ranges.length - 1) 0 ≤ a ∧ a < 2147483647) (s : σ) :
    ∃ fuel r, Body.forRange ranges (fun st => do
        let r ← f st.1 st.2.1
        .ok (st.1.set (ranges.length - 1) r.1, (r.2, st.2.2 ++ [st.1]))) fuel start (s, ([] : List (List Int))) = some r ∧
      ∀ t s' calls, r = .ok (t, s', calls) →
        calls.Pairwise LexLT ∧ ∀ t ∈ calls, InRange start ranges t := by
  obtain ⟨body, hbody⟩ : ∃ body : List Int × (σ × List (List Int)) → Res (List Int × (σ × List (List Int))),
      body = fun st => f st.1 st.2.1 >>= fun r =>
        .ok (st.1.set (ranges.length - 1) r.1, (r.2, st.2.2 ++ [st.1])) := ⟨_, rfl⟩
  have hpos : 0 < ranges.length := List.length_pos_iff.2 hne
  suffices H : ∃ n r, odometer ranges start body n (start, (s, [])) = some r ∧ ∀ t s' calls, r = .ok (t, s', calls) →
      calls.Pairwise LexLT ∧ ∀ t ∈ calls, InRange start ranges t by
    have hkeep : ∀ t s t' s', t.length = ranges.length → (∀ x ∈ t, IsInt x) → body (t, s) = .ok (t', s') →
        t'.length = ranges.length ∧ ∀ x ∈ t', IsInt x := by
      intro t s t' s' h1 h2 h
      rw [hbody] at h
      obtain ⟨⟨a, s1⟩, h3, h4⟩ := Res.bind_eq_ok.1 h
      simp only [Res.ok.injEq, Prod.mk.injEq] at h4
      obtain ⟨h5, h6⟩ := hf _ _ _ _ h3
      have hidx : IsIndex ranges t := ⟨h1, h2⟩
      rw [← h4.1]
      exact hidx.set _ ⟨le_trans (hidx.getD (by omega)).1 h5, by omega⟩
    obtain ⟨n, r, h1, h2⟩ := H
    obtain ⟨fuel, hfuel⟩ := (C96_odometer ranges start hne hl his hlt body hkeep (s, []) r).2 ⟨n, h1⟩
    exact ⟨fuel, r, hbody ▸ hfuel, h2⟩
  suffices H : ∀ (N : ℕ) (t : List Int) (s : σ) (log : List (List Int)),
      remaining start ranges t ≤ N → InRange start ranges t → log.Pairwise LexLT →
      (∀ x ∈ log, InRange start ranges x ∧ LexLT x t) →
      ∃ n r, odometer ranges start body n (t, (s, log)) = some r ∧ ∀ t s' calls, r = .ok (t, s', calls) →
        calls.Pairwise LexLT ∧ ∀ t ∈ calls, InRange start ranges t by
    exact H _ start s [] (le_refl _) ⟨hl, fun k hk => ⟨le_refl _, hlt k hk⟩⟩ List.Pairwise.nil (by simp)
  intro N
  induction N with
  | zero | succ N ih =>
    intro t s log hN ht hp hx
    have hp' : (log ++ [t]).Pairwise LexLT :=
      List.pairwise_append.2 ⟨hp, List.pairwise_singleton _ _, fun a ha b hb => by
        rw [List.mem_singleton.1 hb]; exact (hx a ha).2⟩
    have hx' : ∀ x ∈ log ++ [t], InRange start ranges x := fun x hxm => by
      rcases List.mem_append.1 hxm with h | h
      · exact (hx x h).1
      · rw [List.mem_singleton.1 h]; exact ht
    cases hft : f t s with
    | ok q =>
      obtain ⟨a, s1⟩ := q
      obtain ⟨ha1, ha2⟩ := hf _ _ _ _ hft
      have hbd : body (t, (s, log)) = .ok (t.set (ranges.length - 1) a, (s1, log ++ [t])) := by
        rw [hbody]; simp only [hft, Res.ok_bind]
      obtain ⟨hal, hle⟩ := almost_set hpos ht ha1
      cases hadv : advance ranges start (t.set (ranges.length - 1) a) with
      | next u =>
        obtain ⟨hu, hlex⟩ := advance_almost hl hlt hal u hadv
        have htu : LexLT t u := by
          rcases hle with h | h
          · rw [← h] at hlex; exact hlex
          · exact lexLT_trans h hlex
        have hdec := remaining_lt hl htu hu
        first
        | omega
        | obtain ⟨n, r, h1, h2⟩ := ih u s1 (log ++ [t]) (by omega) hu hp' (fun x hxm => ⟨hx' x hxm, by
            rcases List.mem_append.1 hxm with h | h
            · exact lexLT_trans (hx x h).2 htu
            · rw [List.mem_singleton.1 h]; exact htu⟩)
          exact ⟨n + 1, r, by simp only [odometer, hbd, hadv]; exact h1, h2⟩
      | done u =>
        refine ⟨1, .ok (u, s1, log ++ [t]), by simp only [odometer, hbd, hadv], fun t' s' calls h => ?_⟩
        simp only [Res.ok.injEq, Prod.mk.injEq] at h
        rw [← h.2.2]
        exact ⟨hp', hx'⟩
      | overflow => exact ⟨1, .ub, by simp only [odometer, hbd, hadv], fun _ _ _ h => by cases h⟩
    | illFormed => exact ⟨1, .illFormed, by simp only [odometer, hbody, hft]; rfl, fun _ _ _ h => by cases h⟩
    | ub => exact ⟨1, .ub, by simp only [odometer, hbody, hft]; rfl, fun _ _ _ h => by cases h⟩
    | abort => exact ⟨1, .abort, by simp only [odometer, hbody, hft]; rfl, fun _ _ _ h => by cases h⟩
    | nonfinite => exact ⟨1, .nonfinite, by simp only [odometer, hbody, hft]; rfl, fun _ _ _ h => by cases h⟩

/-- **C96, violated.** A body that changes an entry other than the last is called for tuples outside the box, and a body
that moves the last entry back can keep the iteration going for ever. -/
theorem C96_violated :
    Body.forRange [2, 2] (fun st => .ok (st.1.set 0 5, st.2 ++ [st.1])) 10 [0, 0] ([] : List (List Int))
      = some (.ok ([6, 2], [[0, 0], [5, 1]])) ∧
    ∀ fuel, Body.forRange [2, 2] (fun st => .ok (st.1.set 1 (-1), st.2)) fuel [0, 0] () = none := by
  refine ⟨by decide +kernel, fun fuel => ?_⟩
  cases hr : Body.forRange [2, 2] (fun st : List Int × Unit => .ok (st.1.set 1 (-1), st.2)) fuel [0, 0] () with
  | none => rfl
  | some r =>
    have hkeep : ∀ (t : List Int) (s : Unit) t' s', t.length = [(2 : Int), 2].length → (∀ x ∈ t, IsInt x) →
        (fun st : List Int × Unit => Res.ok (st.1.set 1 (-1), st.2)) (t, s) = .ok (t', s') →
        t'.length = [(2 : Int), 2].length ∧ ∀ x ∈ t', IsInt x := by
      intro t s t' s' h1 h2 h
      simp only [Res.ok.injEq, Prod.mk.injEq] at h
      rw [← h.1]
      exact IsIndex.set (ranges := [2, 2]) ⟨h1, h2⟩ 1 ⟨by norm_num, by norm_num⟩
    obtain ⟨n, hn⟩ := (C96_odometer [2, 2] [0, 0] (by simp) rfl (by simp [IsInt]) (by decide)
      (fun st : List Int × Unit => .ok (st.1.set 1 (-1), st.2)) hkeep () r).1 ⟨fuel, hr⟩
    have : ∀ n, odometer [2, 2] [0, 0] (fun st : List Int × Unit => .ok (st.1.set 1 (-1), st.2)) n ([0, 0], ())
        = none := by
      intro n
      induction n with
      | zero => rfl
      | succ n ih => exact ih
    rw [this n] at hn
    cases hn

/-- Non-vacuity of C96: leaving a loop early, and skipping every second tuple. -/
example :
    Body.forRange [2, 3] (fun st => .ok (if st.1 = [1, 0] then [2, 3] else st.1, st.2 ++ [st.1])) 10 [0, 0]
        ([] : List (List Int)) = some (.ok ([3, 4], [[0, 0], [0, 1], [0, 2], [1, 0]])) ∧
    Body.forRange [2, 3] (fun st => .ok (st.1.set 1 (st.1.getD 1 0 + 1), st.2 ++ [st.1])) 10 [0, 0]
        ([] : List (List Int)) = some (.ok ([2, 4], [[0, 0], [0, 2], [1, 0], [1, 2]])) := by
  decide +kernel

end Verif.Props
