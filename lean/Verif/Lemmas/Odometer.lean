import Verif.Model.ForRangeBody
import Verif.Spec.Odometer
import Mathlib.Data.List.Basic
import Mathlib.Tactic.Linarith

/-!
# Supporting lemmas: nested loops as an odometer
-/

namespace Verif.Lemmas

open Verif.Spec Verif.IndexTypes

variable {σ : Type} {ranges start : List Int} {body : List Int × σ → Res (List Int × σ)}

/-- The odometer that turns only the positions from `dim` on. -/
def odoFrom (ranges start : List Int) (body : List Int × σ → Res (List Int × σ)) (dim : ℕ) :
    ℕ → List Int × σ → Option (Res (List Int × σ))
  | 0, _ => none
  | n + 1, st =>
    match body st with
    | .ok (t, s) =>
      match advance (ranges.drop dim) (start.drop dim) (t.drop dim) with
      | .next u => odoFrom ranges start body dim n (t.take dim ++ u, s)
      | .done u => some (.ok (t.take dim ++ u, s))
      | .overflow => some .ub
    | r => some r

theorem odoFrom_zero : ∀ (n : ℕ) (st : List Int × σ), odoFrom ranges start body 0 n st = odometer ranges start body n st
  | 0, _ => rfl
  | n + 1, st => by
    simp only [odoFrom, odometer, List.drop_zero, List.take_zero, List.nil_append, odoFrom_zero n]
    rfl

theorem odoFrom_mono (dim : ℕ) : ∀ (n : ℕ) (st : List Int × σ) {r}, odoFrom ranges start body dim n st = some r →
    ∀ m, odoFrom ranges start body dim (n + m) st = some r
  | 0, _, _, h, _ => by simp [odoFrom] at h
  | n + 1, st, r, h, m => by
    rw [Nat.add_right_comm]
    simp only [odoFrom] at h ⊢
    split at h
    · split at h
      · exact odoFrom_mono dim n _ h m
      · exact h
      · exact h
    · exact h

/-- The index with the positions from `dim` on set back to their start. -/
def resetFrom (start : List Int) (dim : ℕ) (t : List Int) : List Int := t.take dim ++ start.drop dim

theorem resetFrom_set (hl : start.length = ranges.length) {t : List Int} (ht : t.length = ranges.length) {dim : ℕ}
    (hd : dim < ranges.length) : resetFrom start (dim + 1) (t.set dim (start.getD dim 0)) = resetFrom start dim t := by
  unfold resetFrom
  have hs : dim < start.length := by omega
  have htd : dim < t.length := by omega
  rw [List.drop_eq_getElem_cons hs, List.getD_eq_getElem?_getD, List.getElem?_eq_getElem hs, Option.getD_some,
    List.take_add_one, List.getElem?_set_self htd, List.take_set_of_le (le_refl _)]
  simp

theorem set_eq_take {t : List Int} {dim : ℕ} (h : dim < t.length) (x : Int) :
    t.set dim x = t.take dim ++ x :: t.drop (dim + 1) := List.set_eq_take_append_cons_drop .. |>.trans (if_pos h)

theorem iadd_one {x : Int} (h : IsInt x) : iadd x 1 = if x = 2147483647 then .ub else .ok (x + 1) := by
  obtain ⟨h1, h2⟩ := h
  show (if int32.InRange (x + 1) then Res.ok (x + 1) else .ub) = _
  by_cases hx : x = 2147483647
  · rw [if_pos hx, if_neg]
    rintro ⟨-, h⟩
    have : x + 1 ≤ 2147483647 := h
    omega
  · rw [if_neg hx, if_pos]
    exact ⟨by show (-2147483648 : Int) ≤ _; omega, by show _ ≤ (2147483647 : Int); omega⟩

/-- An index: as many `int`s as there are ranges. -/
def IsIndex (ranges t : List Int) : Prop := t.length = ranges.length ∧ ∀ x ∈ t, IsInt x

/-- What the body leaves in the index is an index. -/
def KeepsIndex (ranges : List Int) (body : List Int × σ → Res (List Int × σ)) : Prop :=
  ∀ st t s, IsIndex ranges st.1 → body st = .ok (t, s) → IsIndex ranges t

theorem IsIndex.getD {t : List Int} (h : IsIndex ranges t) {k : ℕ} (hk : k < ranges.length) : IsInt (t.getD k 0) := by
  have : k < t.length := by rw [h.1]; exact hk
  rw [List.getD_eq_getElem?_getD, List.getElem?_eq_getElem this]
  exact h.2 _ (List.getElem_mem this)

theorem IsIndex.set {t : List Int} (h : IsIndex ranges t) (k : ℕ) {x : Int} (hx : IsInt x) : IsIndex ranges (t.set k x) :=
  ⟨by simpa using h.1, fun y hy => (List.mem_or_eq_of_mem_set hy).elim (h.2 y) fun e => e ▸ hx⟩

theorem isIndex_reset {t : List Int} (h : IsIndex ranges t) (hs : IsIndex ranges start) (dim : ℕ) :
    IsIndex ranges (resetFrom start dim t) := by
  refine ⟨?_, fun x hx => ?_⟩
  · simp only [resetFrom, List.length_append, List.length_take, List.length_drop, h.1, hs.1]; omega
  · rcases List.mem_append.1 hx with hx | hx
    · exact h.2 x (List.mem_of_mem_take hx)
    · exact hs.2 x (List.mem_of_mem_drop hx)

theorem isInt_succ {x : Int} (h : IsInt x) (hx : x ≠ 2147483647) : IsInt (x + 1) :=
  ⟨by have := h.1; omega, by have := h.2; omega⟩

/-- How one round of the loop of position `dim` goes on after the inner loops have ended. -/
def after (ranges start : List Int) (body : List Int × σ → Res (List Int × σ)) (dim m : ℕ) (st : List Int × σ) :
    Option (Res (List Int × σ)) :=
  if st.1.getD dim 0 = 2147483647 then some .ub
  else if st.1.getD dim 0 + 1 < ranges.getD dim 0 then
    odoFrom ranges start body dim m (resetFrom start (dim + 1) (st.1.set dim (st.1.getD dim 0 + 1)), st.2)
  else some (.ok (st.1.set dim (st.1.getD dim 0 + 1), st.2))

theorem drop_cons_getD {t : List Int} {dim : ℕ} (h : dim < t.length) : t.drop dim = t.getD dim 0 :: t.drop (dim + 1) := by
  rw [List.drop_eq_getElem_cons h, List.getD_eq_getElem?_getD, List.getElem?_eq_getElem h, Option.getD_some]

theorem advance_length : ∀ {r s t : List Int}, s.length = r.length → t.length = r.length →
    (∀ u, advance r s t = .next u → u.length = r.length) ∧ ∀ u, advance r s t = .done u → u.length = r.length
  | [], s, t, _, _ => by
    refine ⟨fun u h => ?_, fun u h => ?_⟩
    · simp [advance] at h
    · simp [advance] at h; simp [h]
  | r :: rs, [], _, hs, _ => by simp at hs
  | r :: rs, s :: ss, [], _, ht => by simp at ht
  | r :: rs, s :: ss, t :: ts, hs, ht => by
    simp only [List.length_cons, Nat.add_right_cancel_iff] at hs ht
    obtain ⟨h1, h2⟩ := advance_length (r := rs) hs ht
    constructor
    · intro u h
      simp only [advance] at h
      split at h
      · rename_i w hw; cases h; simp [h1 w hw]
      · split_ifs at h
        cases h; simp [hs]
      · cases h
    · intro u h
      simp only [advance] at h
      split at h
      · cases h
      · rename_i w hw
        split_ifs at h
        cases h; simp [h2 w hw]
      · cases h

theorem advance_int : ∀ {r s t : List Int}, (∀ x ∈ s, IsInt x) → (∀ x ∈ t, IsInt x) →
    (∀ u, advance r s t = .next u → ∀ x ∈ u, IsInt x) ∧ ∀ u, advance r s t = .done u → ∀ x ∈ u, IsInt x
  | [], s, t, _, _ => by
    refine ⟨fun u h => ?_, fun u h => ?_⟩
    · simp [advance] at h
    · simp [advance] at h; simp [h]
  | r :: rs, [], _, _, _ => by
    refine ⟨fun u h => ?_, fun u h => ?_⟩
    · simp [advance] at h
    · simp [advance] at h; simp [h]
  | r :: rs, s :: ss, [], _, _ => by
    refine ⟨fun u h => ?_, fun u h => ?_⟩
    · simp [advance] at h
    · simp [advance] at h; simp [h]
  | r :: rs, s :: ss, t :: ts, hs, ht => by
    obtain ⟨h1, h2⟩ := advance_int (r := rs) (fun x hx => hs x (List.mem_cons_of_mem _ hx))
      (fun x hx => ht x (List.mem_cons_of_mem _ hx))
    have h0 : IsInt t := ht t (by simp)
    constructor
    · intro u h x hx
      simp only [advance] at h
      split at h
      · rename_i w hw
        cases h
        rcases List.mem_cons.1 hx with rfl | hx
        · exact h0
        · exact h1 w hw x hx
      · split_ifs at h with hm _
        cases h
        rcases List.mem_cons.1 hx with rfl | hx
        · exact isInt_succ h0 hm
        · exact hs x (List.mem_cons_of_mem _ hx)
      · cases h
    · intro u h x hx
      simp only [advance] at h
      split at h
      · cases h
      · rename_i w hw
        split_ifs at h with hm _
        cases h
        rcases List.mem_cons.1 hx with rfl | hx
        · exact isInt_succ h0 hm
        · exact h2 w hw x hx
      · cases h

theorem advance_index {t u : List Int} (ht : IsIndex ranges t) (hs : IsIndex ranges start) (dim : ℕ)
    (h : advance (ranges.drop dim) (start.drop dim) (t.drop dim) = .next u ∨
      advance (ranges.drop dim) (start.drop dim) (t.drop dim) = .done u) : IsIndex ranges (t.take dim ++ u) := by
  have hlen := advance_length (r := ranges.drop dim) (s := start.drop dim) (t := t.drop dim)
    (by simp [hs.1]) (by simp [ht.1])
  have hint := advance_int (r := ranges.drop dim) (s := start.drop dim) (t := t.drop dim)
    (fun x hx => hs.2 x (List.mem_of_mem_drop hx)) (fun x hx => ht.2 x (List.mem_of_mem_drop hx))
  refine ⟨?_, fun x hx => ?_⟩
  · have : u.length = (ranges.drop dim).length := h.elim (hlen.1 u) (hlen.2 u)
    simp only [List.length_append, List.length_take, this, List.length_drop, ht.1]
    omega
  · rcases List.mem_append.1 hx with hx | hx
    · exact ht.2 x (List.mem_of_mem_take hx)
    · exact h.elim (fun h => hint.1 u h x hx) (fun h => hint.2 u h x hx)

theorem odoFrom_after (hl : IsIndex ranges start) (hb : KeepsIndex ranges body) {dim : ℕ}
    (hd : dim < ranges.length) : ∀ (n : ℕ) (st st' : List Int × σ), IsIndex ranges st.1 →
    odoFrom ranges start body (dim + 1) n st = some (.ok st') →
    IsIndex ranges st'.1 ∧
    ∀ m, ∃ m', m ≤ m' ∧ m' < n + m ∧ odoFrom ranges start body dim (n + m) st = after ranges start body dim m' st'
  | 0, _, _, _, h => by simp [odoFrom] at h
  | n + 1, st, st', hst, h => by
    simp only [Nat.add_right_comm n 1, odoFrom] at h ⊢
    cases hbd : body st with
    | ok ts =>
      obtain ⟨u, s⟩ := ts
      rw [hbd] at h
      have hui := hb _ _ _ hst hbd
      have hu := hui.1
      have hs := hl.1
      have hud : dim < u.length := by omega
      have hsd : dim < start.length := by omega
      have htake : u.take (dim + 1) = u.take dim ++ [u.getD dim 0] := by
        rw [List.take_add_one, List.getD_eq_getElem?_getD, List.getElem?_eq_getElem hud]; rfl
      simp only at h ⊢
      rw [drop_cons_getD hd, drop_cons_getD hsd, drop_cons_getD hud, advance]
      cases hadv : advance (ranges.drop (dim + 1)) (start.drop (dim + 1)) (u.drop (dim + 1)) with
      | next w =>
        rw [hadv] at h
        simp only at h ⊢
        have := odoFrom_after hl hb hd n _ st' (advance_index hui hl (dim + 1) (.inl hadv)) h
        rw [htake, List.append_assoc] at this
        refine ⟨this.1, fun m => ?_⟩
        obtain ⟨m', h1, h2, h3⟩ := this.2 m
        exact ⟨m', h1, by omega, h3⟩
      | done w =>
        rw [hadv] at h
        simp only [Option.some.injEq, Res.ok.injEq] at h
        subst h
        have hg : (u.take (dim + 1) ++ w).getD dim 0 = u.getD dim 0 := by
          rw [htake, List.append_assoc, List.getD_eq_getElem?_getD, List.getElem?_append_right (by simp)]
          simp [Nat.min_eq_left (le_of_lt hud)]
        have hset : ∀ x, (u.take (dim + 1) ++ w).set dim x = u.take dim ++ x :: w := by
          intro x
          rw [htake, List.append_assoc, List.set_append_right _ _ (by simp)]
          simp [Nat.min_eq_left (le_of_lt hud)]
        refine ⟨advance_index hui hl (dim + 1) (.inr hadv), fun m => ?_⟩
        · refine ⟨n + m, by omega, by omega, ?_⟩
          simp only [after, hg, hset]
          split_ifs
          · rfl
          · simp only [resetFrom]
            congr 2
            have e : u.take dim ++ (u.getD dim 0 + 1) :: w = (u.take dim ++ [u.getD dim 0 + 1]) ++ w := by simp
            rw [e, List.take_left' (by simp; omega)]
            simp
          · rfl
      | overflow => rw [hadv] at h; simp at h
    | illFormed => rw [hbd] at h; simp at h
    | ub => rw [hbd] at h; simp at h
    | abort => rw [hbd] at h; simp at h
    | nonfinite => rw [hbd] at h; simp at h

theorem odoFrom_fails (hl : IsIndex ranges start) (hb : KeepsIndex ranges body) {dim : ℕ}
    (hd : dim < ranges.length) : ∀ (n : ℕ) (st : List Int × σ) {r}, IsIndex ranges st.1 →
    odoFrom ranges start body (dim + 1) n st = some r → (∀ st', r ≠ .ok st') → odoFrom ranges start body dim n st = some r
  | 0, _, _, _, h, _ => by simp [odoFrom] at h
  | n + 1, st, r, hst, h, hr => by
    simp only [odoFrom] at h ⊢
    cases hbd : body st with
    | ok ts =>
      obtain ⟨u, s⟩ := ts
      rw [hbd] at h
      have hui := hb _ _ _ hst hbd
      have hu := hui.1
      have hs := hl.1
      have hud : dim < u.length := by omega
      have hsd : dim < start.length := by omega
      have htake : u.take (dim + 1) = u.take dim ++ [u.getD dim 0] := by
        rw [List.take_add_one, List.getD_eq_getElem?_getD, List.getElem?_eq_getElem hud]; rfl
      simp only at h ⊢
      rw [drop_cons_getD hd, drop_cons_getD hsd, drop_cons_getD hud, advance]
      cases hadv : advance (ranges.drop (dim + 1)) (start.drop (dim + 1)) (u.drop (dim + 1)) with
      | next w =>
        rw [hadv] at h
        simp only at h ⊢
        have := odoFrom_fails hl hb hd n _ (advance_index hui hl (dim + 1) (.inl hadv)) h hr
        rw [htake, List.append_assoc] at this
        exact this
      | done w =>
        rw [hadv] at h
        simp only [Option.some.injEq] at h
        exact absurd h.symm (hr _)
      | overflow => rw [hadv] at h; exact h
    | illFormed => rw [hbd] at h; exact h
    | ub => rw [hbd] at h; exact h
    | abort => rw [hbd] at h; exact h
    | nonfinite => rw [hbd] at h; exact h

theorem odoFrom_inner (hl : IsIndex ranges start) (hb : KeepsIndex ranges body) {dim : ℕ}
    (hd : dim < ranges.length) : ∀ (n : ℕ) (st : List Int × σ) {r}, IsIndex ranges st.1 →
    odoFrom ranges start body dim n st = some r → ∃ n' ≤ n, ∃ r', odoFrom ranges start body (dim + 1) n' st = some r'
  | 0, _, _, _, h => by simp [odoFrom] at h
  | n + 1, st, r, hst, h => by
    simp only [odoFrom] at h
    cases hbd : body st with
    | ok ts =>
      obtain ⟨u, s⟩ := ts
      rw [hbd] at h
      have hui := hb _ _ _ hst hbd
      have hu := hui.1
      have hs := hl.1
      have hud : dim < u.length := by omega
      have hsd : dim < start.length := by omega
      have htake : u.take (dim + 1) = u.take dim ++ [u.getD dim 0] := by
        rw [List.take_add_one, List.getD_eq_getElem?_getD, List.getElem?_eq_getElem hud]; rfl
      simp only at h
      rw [drop_cons_getD hd, drop_cons_getD hsd, drop_cons_getD hud, advance] at h
      cases hadv : advance (ranges.drop (dim + 1)) (start.drop (dim + 1)) (u.drop (dim + 1)) with
      | next w =>
        rw [hadv] at h
        simp only at h
        have hv := advance_index hui hl (dim + 1) (.inl hadv)
        rw [htake, List.append_assoc] at hv
        obtain ⟨n', hn', r', hr'⟩ := odoFrom_inner hl hb hd n _ hv h
        refine ⟨n' + 1, by omega, r', ?_⟩
        simp only [odoFrom, hbd, hadv]
        rw [htake, List.append_assoc]
        exact hr'
      | done w => exact ⟨1, by omega, _, by simp only [odoFrom, hbd, hadv]; rfl⟩
      | overflow => exact ⟨1, by omega, _, by simp only [odoFrom, hbd, hadv]; rfl⟩
    | illFormed => exact ⟨1, by omega, _, by simp only [odoFrom, hbd]; rfl⟩
    | ub => exact ⟨1, by omega, _, by simp only [odoFrom, hbd]; rfl⟩
    | abort => exact ⟨1, by omega, _, by simp only [odoFrom, hbd]; rfl⟩
    | nonfinite => exact ⟨1, by omega, _, by simp only [odoFrom, hbd]; rfl⟩

theorem loop_mono {dim : ℕ} {range : Int} {step step' : List Int × σ → Option (Res (List Int × σ))}
    (h : ∀ st r, step st = some r → step' st = some r) :
    ∀ (n : ℕ) (st : List Int × σ) {r}, Body.loop dim range step n st = some r →
      ∀ m, Body.loop dim range step' (n + m) st = some r
  | 0, _, _, h', _ => by simp [Body.loop] at h'
  | n + 1, st, r, h', m => by
    rw [Nat.add_right_comm]
    simp only [Body.loop] at h' ⊢
    by_cases hc : st.1.getD dim 0 < range
    · rw [if_pos hc] at h' ⊢
      cases hs : step st with
      | none => rw [hs] at h'; cases h'
      | some q =>
        rw [hs] at h'
        rw [h _ _ hs]
        cases q with
        | ok st' =>
          simp only at h' ⊢
          split at h'
          · exact loop_mono h n _ h' m
          · exact h'
        | illFormed => exact h'
        | ub => exact h'
        | abort => exact h'
        | nonfinite => exact h'
    · rw [if_neg hc] at h' ⊢
      exact h'

/-- If `S` runs the inner loops as the odometer of the later positions does, then the loop of position `dim` around it
runs as the odometer of the positions from `dim` on. -/
theorem loop_iff (hl : IsIndex ranges start) (hb : KeepsIndex ranges body) {dim : ℕ} (hd : dim < ranges.length)
    (S : ℕ → List Int × σ → Option (Res (List Int × σ)))
    (hmono : ∀ f f' st r, f ≤ f' → S f st = some r → S f' st = some r)
    (hS : ∀ st : List Int × σ, IsIndex ranges st.1 → ∀ r, (∃ f, S f st = some r) ↔
      ∃ n, odoFrom ranges start body (dim + 1) n (resetFrom start (dim + 1) st.1, st.2) = some r)
    (st : List Int × σ) (ht : IsIndex ranges st.1) (hlt : st.1.getD dim 0 < ranges.getD dim 0)
    (r : Res (List Int × σ)) :
    (∃ f, Body.loop dim (ranges.getD dim 0) (S f) f st = some r) ↔
      ∃ n, odoFrom ranges start body dim n (resetFrom start (dim + 1) st.1, st.2) = some r := by
  have hgs : ∀ {t : List Int} (x : Int), t.length = ranges.length → (t.set dim x).getD dim 0 = x := by
    intro t x ht
    rw [List.getD_eq_getElem?_getD, List.getElem?_set_self (by omega)]; rfl
  constructor
  · suffices H : ∀ (j : ℕ) (f : ℕ) (st : List Int × σ), IsIndex ranges st.1 →
        st.1.getD dim 0 < ranges.getD dim 0 → Body.loop dim (ranges.getD dim 0) (S f) j st = some r →
        ∃ n, odoFrom ranges start body dim n (resetFrom start (dim + 1) st.1, st.2) = some r by
      rintro ⟨f, h⟩
      exact H f f st ht hlt h
    intro j
    induction j with
    | zero => intro f st _ _ h; simp [Body.loop] at h
    | succ j ih =>
      intro f st ht hlt h
      simp only [Body.loop, if_pos hlt] at h
      cases hs : S f st with
      | none => rw [hs] at h; cases h
      | some q =>
        obtain ⟨n, hn⟩ := (hS st ht q).1 ⟨f, hs⟩
        rw [hs] at h
        by_cases hq : ∃ st', q = .ok st'
        · obtain ⟨st', rfl⟩ := hq
          obtain ⟨hidx, hafter⟩ := odoFrom_after hl hb hd n _ _ (isIndex_reset ht hl _) hn
          have hi := hidx.getD hd
          have hlen := hidx.1
          simp only [iadd_one hi] at h
          by_cases hm : st'.1.getD dim 0 = 2147483647
          · rw [if_pos hm] at h
            obtain ⟨m', -, -, h3⟩ := hafter 0
            refine ⟨n + 0, h3.trans ?_⟩
            unfold after
            rw [if_pos hm]
            exact h
          · rw [if_neg hm] at h
            simp only at h
            by_cases hc : st'.1.getD dim 0 + 1 < ranges.getD dim 0
            · obtain ⟨m, hm'⟩ := ih f (st'.1.set dim (st'.1.getD dim 0 + 1), st'.2) (hidx.set _ (isInt_succ hi hm))
                (by rw [hgs _ hlen]; exact hc) h
              obtain ⟨m', h1, -, h3⟩ := hafter m
              refine ⟨n + m, h3.trans ?_⟩
              unfold after
              rw [if_neg hm, if_pos hc]
              obtain ⟨k, rfl⟩ := Nat.exists_eq_add_of_le h1
              exact odoFrom_mono dim m _ hm' k
            · obtain ⟨m', -, -, h3⟩ := hafter 0
              refine ⟨n + 0, h3.trans ?_⟩
              unfold after
              rw [if_neg hm, if_neg hc]
              cases j with
              | zero => simp [Body.loop] at h
              | succ j =>
                simp only [Body.loop, hgs _ hlen, if_neg hc] at h
                exact h
        · have hne : ∀ st', q ≠ .ok st' := fun st' e => hq ⟨st', e⟩
          have hr : r = q := by
            cases q with
            | ok st' => exact absurd rfl (hne st')
            | illFormed => exact (Option.some.inj h).symm
            | ub => exact (Option.some.inj h).symm
            | abort => exact (Option.some.inj h).symm
            | nonfinite => exact (Option.some.inj h).symm
          exact ⟨n, hr ▸ odoFrom_fails hl hb hd n _ (isIndex_reset ht hl _) hn hne⟩
  · suffices H : ∀ (m : ℕ) (st : List Int × σ), IsIndex ranges st.1 →
        st.1.getD dim 0 < ranges.getD dim 0 →
        odoFrom ranges start body dim m (resetFrom start (dim + 1) st.1, st.2) = some r →
        ∃ f, Body.loop dim (ranges.getD dim 0) (S f) f st = some r by
      rintro ⟨m, h⟩
      exact H m st ht hlt h
    intro m
    induction m using Nat.strong_induction_on with
    | _ m ih =>
      intro st ht hlt h
      obtain ⟨n, hnm, q, hn⟩ := odoFrom_inner hl hb hd m _ (isIndex_reset ht hl _) h
      obtain ⟨f, hf⟩ := (hS st ht q).2 ⟨n, hn⟩
      obtain ⟨k, rfl⟩ := Nat.exists_eq_add_of_le hnm
      by_cases hq : ∃ st', q = .ok st'
      · obtain ⟨st', rfl⟩ := hq
        obtain ⟨hidx, hafter⟩ := odoFrom_after hl hb hd n _ _ (isIndex_reset ht hl _) hn
        have hi := hidx.getD hd
        have hlen := hidx.1
        obtain ⟨m', h1, h2, h3⟩ := hafter k
        rw [h3] at h
        unfold after at h
        by_cases hm : st'.1.getD dim 0 = 2147483647
        · rw [if_pos hm] at h
          refine ⟨f + 1, ?_⟩
          simp only [Body.loop, if_pos hlt, hmono f (f + 1) _ _ (by omega) hf, iadd_one hi, if_pos hm]
          exact h
        · rw [if_neg hm] at h
          by_cases hc : st'.1.getD dim 0 + 1 < ranges.getD dim 0
          · rw [if_pos hc] at h
            obtain ⟨g, hg⟩ := ih m' h2 (st'.1.set dim (st'.1.getD dim 0 + 1), st'.2) (hidx.set _ (isInt_succ hi hm))
              (by rw [hgs _ hlen]; exact hc) h
            refine ⟨f + g + 1, ?_⟩
            simp only [Body.loop, if_pos hlt, hmono f (f + g + 1) _ _ (by omega) hf, iadd_one hi, if_neg hm]
            have := loop_mono (fun st r h => hmono g (f + g + 1) st r (by omega) h) g _ hg f
            rw [Nat.add_comm g f] at this
            exact this
          · rw [if_neg hc] at h
            refine ⟨f + 1 + 1, ?_⟩
            simp only [Body.loop, if_pos hlt, hmono f (f + 1 + 1) _ _ (by omega) hf, iadd_one hi, if_neg hm,
              hgs _ hlen, if_neg hc]
            exact h
      · have hne : ∀ st', q ≠ .ok st' := fun st' e => hq ⟨st', e⟩
        have hr : some r = some q := h.symm.trans (odoFrom_mono dim n _ (odoFrom_fails hl hb hd n _ (isIndex_reset ht hl _) hn hne) k)
        refine ⟨f + 1, ?_⟩
        simp only [Body.loop, if_pos hlt, hmono f (f + 1) _ _ (by omega) hf]
        rw [hr]
        cases q with
        | ok st' => exact absurd rfl (hne st')
        | illFormed => rfl
        | ub => rfl
        | abort => rfl
        | nonfinite => rfl

theorem helper_mono : ∀ (rem dim f f' : ℕ) (st : List Int × σ) (r), f ≤ f' →
    Body.forRangeHelper ranges start body f rem dim st = some r →
    Body.forRangeHelper ranges start body f' rem dim st = some r
  | 0, dim, f, f', st, r, hff, h => by
    obtain ⟨k, rfl⟩ := Nat.exists_eq_add_of_le hff
    exact loop_mono (fun _ _ h => h) f _ h k
  | rem + 1, dim, f, f', st, r, hff, h => by
    obtain ⟨k, rfl⟩ := Nat.exists_eq_add_of_le hff
    exact loop_mono (fun st r h => helper_mono rem (dim + 1) f (f + k) st r hff h) f _ h k

theorem helper_iff (hl : IsIndex ranges start) (hb : KeepsIndex ranges body)
    (hlt : ∀ k < ranges.length, start.getD k 0 < ranges.getD k 0) : ∀ (rem dim : ℕ), dim + rem + 1 = ranges.length →
    ∀ st : List Int × σ, IsIndex ranges st.1 → ∀ r,
    (∃ f, Body.forRangeHelper ranges start body f rem dim st = some r) ↔
      ∃ n, odoFrom ranges start body dim n (resetFrom start dim st.1, st.2) = some r := by
  intro rem
  induction rem with
  | zero =>
    intro dim hdim st ht r
    have hd : dim < ranges.length := by omega
    have := loop_iff hl hb hd (fun _ st => some (body st)) (fun _ _ _ _ _ h => h) (fun st hst r => ?_)
      (st.1.set dim (start.getD dim 0), st.2) (ht.set _ (hl.getD hd))
      (by rw [List.getD_eq_getElem?_getD, List.getElem?_set_self (by have := ht.1; omega)]; exact hlt dim hd) r
    · rw [resetFrom_set hl.1 ht.1 hd] at this
      exact this
    · have hreset : resetFrom start (dim + 1) st.1 = st.1 := by
        unfold resetFrom
        have h1 := hst.1
        have h2 := hl.1
        rw [List.drop_eq_nil_of_le (by omega), List.append_nil, List.take_of_length_le (by omega)]
      rw [hreset]
      have hodo : ∀ n, odoFrom ranges start body (dim + 1) (n + 1) st = some (body st) := by
        intro n
        simp only [odoFrom]
        cases hbd : body st with
        | ok ts =>
          obtain ⟨u, s⟩ := ts
          obtain ⟨hu, -⟩ := hb _ _ _ hst hbd
          simp only
          rw [List.drop_eq_nil_of_le (by omega : ranges.length ≤ dim + 1)]
          simp only [advance]
          rw [List.append_nil, List.take_of_length_le (by omega)]
        | illFormed => rfl
        | ub => rfl
        | abort => rfl
        | nonfinite => rfl
      constructor
      · rintro ⟨f, h⟩
        exact ⟨1, (hodo 0).trans h⟩
      · rintro ⟨n, h⟩
        cases n with
        | zero => simp [odoFrom] at h
        | succ n => exact ⟨0, (hodo n).symm.trans h⟩
  | succ rem ih =>
    intro dim hdim st ht r
    have hd : dim < ranges.length := by omega
    have := loop_iff hl hb hd (fun f st => Body.forRangeHelper ranges start body f rem (dim + 1) st)
      (fun f f' st r h h' => helper_mono rem (dim + 1) f f' st r h h')
      (fun st hst r => ih (dim + 1) (by omega) st hst r)
      (st.1.set dim (start.getD dim 0), st.2) (ht.set _ (hl.getD hd))
      (by rw [List.getD_eq_getElem?_getD, List.getElem?_set_self (by have := ht.1; omega)]; exact hlt dim hd) r
    rw [resetFrom_set hl.1 ht.1 hd] at this
    exact this

end Verif.Lemmas
