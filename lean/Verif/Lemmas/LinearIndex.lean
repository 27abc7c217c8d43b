import Mathlib.Algebra.BigOperators.Intervals
import Mathlib.Algebra.Order.BigOperators.Group.Finset
import Mathlib.Algebra.Order.BigOperators.Ring.Finset
import Verif.Lemmas.Sequence

/-! # Supporting lemmas for `linearIndex` of a multi-index -/

namespace Verif.Lemmas

open Verif.Spec Finset

theorem list_range_sum (n : Nat) (f : Nat → Int) : ((List.range n).map f).sum = ∑ k ∈ range n, f k :=
  rfl

/-- Product of the first `j` ranges. -/
def P (ranges : List Int) (j : Nat) : Int := ∏ i ∈ range j, ranges.getD i 0

theorem take_prod (ranges : List Int) (j : Nat) (hj : j ≤ ranges.length) :
    (ranges.take j).prod = P ranges j := by
  induction j with
  | zero => simp [P]
  | succ j ih =>
    rw [P, prod_range_succ, ← P, ← ih (by omega), List.take_add_one, List.prod_append]
    have : j < ranges.length := by omega
    simp [List.getD, this]

theorem P_length (ranges : List Int) : P ranges ranges.length = ranges.prod := by
  rw [← take_prod _ _ le_rfl, List.take_length]

theorem leading_eq (ranges idx : List Int) :
    leadingStrideIndex ranges idx
      = ∑ k ∈ range ranges.length, idx.getD k 0 * P ranges (ranges.length - 1 - k) := by
  rw [leadingStrideIndex, list_range_sum]
  refine sum_congr rfl fun k hk => ?_
  rw [take_prod _ _ (by omega)]

theorem getD_pos {ranges : List Int} (hp : ∀ d ∈ ranges, 0 < d) {i : Nat} (hi : i < ranges.length) :
    0 < ranges.getD i 0 := by
  have : ranges.getD i 0 = ranges[i] := by simp [List.getD, hi]
  rw [this]; exact hp _ (List.getElem_mem hi)

theorem P_pos {ranges : List Int} (hp : ∀ d ∈ ranges, 0 < d) {j : Nat} (hj : j ≤ ranges.length) :
    0 < P ranges j :=
  prod_pos fun i hi => getD_pos hp (by simp at hi; omega)

theorem P_succ (ranges : List Int) (j : Nat) : P ranges (j + 1) = P ranges j * ranges.getD j 0 :=
  prod_range_succ _ _

theorem P_le {ranges : List Int} (hp : ∀ d ∈ ranges, 0 < d) {j : Nat} (hj : j ≤ ranges.length) :
    P ranges j ≤ ranges.prod := by
  rw [← P_length]
  obtain ⟨m, hm⟩ := Nat.exists_eq_add_of_le hj
  have : ∀ m, j + m ≤ ranges.length → P ranges j ≤ P ranges (j + m) := by
    intro m
    induction m with
    | zero => simp
    | succ m ih =>
      intro h
      have h1 := ih (by omega)
      have h2 := P_pos hp (j := j + m) (by omega)
      have h3 := getD_pos hp (i := j + m) (by omega)
      rw [← Nat.add_assoc, P_succ]
      nlinarith
  rw [hm]; exact this m (by omega)

theorem istrideHelper_ok {rs : List Int} (hp : ∀ d ∈ rs, 0 < d) (hb : rs.prod ≤ 2147483647) :
    IndexTypes.strideHelper rs = .ok rs.prod := by
  induction rs with
  | nil => rfl
  | cons r rs ih =>
    have hle := prod_le_cons hp
    have hpos := prod_pos_of hp
    simp only [IndexTypes.strideHelper, ih (fun x hx => hp x (by simp [hx])) (by linarith),
      Res.ok_bind]
    rw [List.prod_cons] at *
    exact imul_ok ⟨by linarith, by linarith⟩

theorem istride_ok {ranges : List Int} (hs : ValidShape ranges) {k : Nat} (hk : k < ranges.length) :
    IndexTypes.stride ranges k = .ok (P ranges (ranges.length - 1 - k)) := by
  rw [IndexTypes.stride, if_pos (by omega), istrideHelper_ok, take_prod _ _ (by omega)]
  · intro d hd; exact hs.2.1 d (List.mem_of_mem_take hd)
  · rw [take_prod _ _ (by omega)]
    exact (P_le hs.2.1 (by omega)).trans hs.2.2

theorem inBox_getD {dims idx : List Int} (h : InBox dims idx) {k : Nat} (hk : k < dims.length) :
    0 ≤ idx.getD k 0 ∧ idx.getD k 0 < dims.getD k 0 := by
  have h' := inBox_iff_inRange.1 h
  have := h'.2 k hk
  simpa [List.getD, hk] using this

/-- Sum of the terms from position `k` on. -/
theorem linearIndexHelper_eq {ranges idx : List Int} (hs : ValidShape ranges) (h : InBox ranges idx)
    (m : Nat) : ∀ k, k + m + 1 = ranges.length →
    IndexTypes.linearIndexHelper ranges idx (List.range' k (m + 1))
      = int32.norm (∑ j ∈ Ico k ranges.length,
          idx.getD j 0 * P ranges (ranges.length - 1 - j)) := by
  have hnn : ∀ j < ranges.length, 0 ≤ idx.getD j 0 * P ranges (ranges.length - 1 - j) := by
    intro j hj
    have h1 := inBox_getD h hj
    have h2 := P_pos hs.2.1 (j := ranges.length - 1 - j) (by omega)
    exact mul_nonneg h1.1 h2.le
  induction m with
  | zero =>
    intro k hk
    have : Ico k ranges.length = {k} := by ext x; simp; omega
    rw [this, sum_singleton]
    simp [IndexTypes.linearIndexHelper, istride_ok hs (k := k) (by omega)]
    rfl
  | succ m ih =>
    intro k hk
    have hk' : k < ranges.length := by omega
    rw [List.range'_succ, List.range'_succ]
    simp only [IndexTypes.linearIndexHelper, istride_ok hs hk', Res.ok_bind]
    have ih' := ih (k + 1) (by omega)
    rw [List.range'_succ] at ih'
    rw [ih', sum_eq_sum_Ico_succ_bot hk']
    have hrest : 0 ≤ ∑ j ∈ Ico (k + 1) ranges.length,
        idx.getD j 0 * P ranges (ranges.length - 1 - j) :=
      sum_nonneg fun j hj => hnn j (by simp at hj; omega)
    have hk0 := hnn k hk'
    generalize idx.getD k 0 = a at *
    generalize hT : ∑ j ∈ Ico (k + 1) ranges.length,
        idx.getD j 0 * P ranges (ranges.length - 1 - j) = T at *
    by_cases h1 : IsInt (a * P ranges (ranges.length - 1 - k))
    · rw [imul_ok h1]
      simp only [Res.ok_bind]
      by_cases h2 : IsInt T
      · rw [norm_ok h2]
        rfl
      · rw [norm_ub h2, norm_ub (fun hc => h2 ⟨by linarith, by have := hc.2; linarith⟩)]
        rfl
    · rw [show imul a (P ranges (ranges.length - 1 - k)) = .ub from norm_ub h1]
      rw [show int32.norm (a * P ranges (ranges.length - 1 - k) + T) = .ub from
        norm_ub (fun hc => h1 ⟨by linarith, by have := hc.2; linarith⟩)]
      rfl

theorem leading_nonneg {ranges idx : List Int} (hs : ValidShape ranges) (h : InBox ranges idx) :
    0 ≤ leadingStrideIndex ranges idx := by
  rw [leading_eq]
  exact sum_nonneg fun j hj => mul_nonneg (inBox_getD h (by simpa using hj)).1
    (P_pos hs.2.1 (by omega)).le

theorem linearIndex_eq {ranges idx : List Int} (hs : ValidShape ranges) (h : InBox ranges idx) :
    IndexTypes.linearIndex ranges idx = int32.norm (leadingStrideIndex ranges idx) := by
  have hpos : 0 < ranges.length := List.length_pos_iff.2 hs.1
  have := linearIndexHelper_eq hs h (ranges.length - 1) 0 (by omega)
  rw [leading_eq, range_eq_Ico, ← this, IndexTypes.linearIndex, List.range_eq_range']
  congr 2
  omega

/-- The tuple with value `v` at position `k` and zero elsewhere. -/
def unitIdx (n k : Nat) (v : Int) : List Int := (List.replicate n 0).set k v

theorem unitIdx_getD (n k : Nat) (v : Int) (hk : k < n) (j : Nat) :
    (unitIdx n k v).getD j 0 = if j = k then v else 0 := by
  unfold unitIdx
  by_cases hj : j = k
  · subst hj; simp [List.getD, hk]
  · simp only [List.getD, List.getElem?_set, hj, Ne.symm hj, if_false]
    by_cases hjn : j < n <;> simp [hjn]

theorem unitIdx_inBox {ranges : List Int} (hp : ∀ d ∈ ranges, 0 < d) {k : Nat}
    (hk : k < ranges.length) {v : Int} (h0 : 0 ≤ v) (h1 : v < ranges.getD k 0) :
    InBox ranges (unitIdx ranges.length k v) := by
  rw [inBox_iff_inRange]
  refine ⟨by simp [unitIdx], fun j hj => ?_⟩
  rw [unitIdx_getD _ _ _ hk]
  have : (List.replicate ranges.length (0 : Int)).getD j 0 = 0 := by simp [List.getD, hj]
  rw [this]
  split
  · rename_i h; subst h; exact ⟨h0, h1⟩
  · exact ⟨le_rfl, getD_pos hp hj⟩

theorem leading_unit (ranges : List Int) {k : Nat} (hk : k < ranges.length) (v : Int) :
    leadingStrideIndex ranges (unitIdx ranges.length k v) = v * P ranges (ranges.length - 1 - k) := by
  rw [leading_eq, sum_eq_single k]
  · rw [unitIdx_getD _ _ _ hk, if_pos rfl]
  · intro j _ hj; rw [unitIdx_getD _ _ _ hk, if_neg hj, zero_mul]
  · intro h; simp at h; omega

theorem palindrome_iff (l : List Int) :
    l.reverse = l ↔ ∀ k < l.length, l.getD (l.length - 1 - k) 0 = l.getD k 0 := by
  constructor
  · intro h k hk
    have h1 : l.getD k 0 = l.reverse.getD k 0 := by rw [h]
    rw [h1]
    have h2 : l.length - 1 - k < l.length := by omega
    simp [List.getD, hk, h2]
  · intro h
    apply List.ext_getElem (by simp)
    intro k h1 h2
    have h3 : l.length - 1 - k < l.length := by omega
    have := h k h2
    simp only [List.getD, List.getElem?_eq_getElem h2, List.getElem?_eq_getElem h3,
      Option.getD_some] at this
    rw [List.getElem_reverse, this]

theorem leading_eq_rowMajor_of_palindrome {ranges : List Int} (h : ranges.reverse = ranges)
    (idx : List Int) : leadingStrideIndex ranges idx = rowMajor ranges idx := by
  rw [leadingStrideIndex, rowMajor]
  congr 1
  apply List.map_congr_left
  intro k hk
  simp only [List.mem_range] at hk
  congr 1
  have e : (ranges.drop (k + 1)).reverse = ranges.reverse.take (ranges.length - (k + 1)) := by
    rw [List.reverse_drop]
  rw [h] at e
  rw [← List.prod_reverse (ranges.drop (k + 1)), e]
  congr 2
  omega

theorem max_inBox {ranges : List Int} (hp : ∀ d ∈ ranges, 0 < d) :
    InBox ranges (ranges.map (· - 1)) := by
  rw [inBox_iff_inRange]
  refine ⟨by simp, fun k hk => ?_⟩
  have h1 := getD_pos hp hk
  have e : (ranges.map (· - 1)).getD k 0 = ranges.getD k 0 - 1 := by simp [List.getD, hk]
  have e2 : (List.replicate ranges.length (0 : Int)).getD k 0 = 0 := by simp [List.getD, hk]
  rw [e, e2]; omega

theorem telescope (ranges : List Int) (n : Nat) :
    ∑ j ∈ range n, (ranges.getD j 0 - 1) * P ranges j = P ranges n - 1 := by
  induction n with
  | zero => simp [P]
  | succ n ih => rw [sum_range_succ, ih, P_succ]; ring

/-- If the leading-stride numbering is injective and stays below the size, the ranges are a
palindrome. -/
theorem palindrome_of_inj {ranges : List Int} (hs : ValidShape ranges) (h2 : ∀ d ∈ ranges, 2 ≤ d)
    (hinj : ∀ a b, InBox ranges a → InBox ranges b →
      leadingStrideIndex ranges a = leadingStrideIndex ranges b → a = b)
    (hlt : ∀ a, InBox ranges a → leadingStrideIndex ranges a < ranges.prod) :
    ranges.reverse = ranges := by
  obtain ⟨n, hn⟩ : ∃ n, n = ranges.length := ⟨_, rfl⟩
  have hnpos : 0 < n := hn ▸ List.length_pos_iff.2 hs.1
  have hge : ∀ k < n, 2 ≤ ranges.getD k 0 := by
    intro k hk
    have hk' : k < ranges.length := hn ▸ hk
    have : ranges.getD k 0 = ranges[k] := by simp [List.getD, hk']
    rw [this]; exact h2 _ (List.getElem_mem hk')
  -- below the top digit, no digit may reach the next stride
  have hle : ∀ j, j + 1 < n → ranges.getD (n - 1 - j) 0 ≤ ranges.getD j 0 := by
    intro j hj
    by_contra hc
    push Not at hc
    have hbox1 := unitIdx_inBox hs.2.1 (k := n - 1 - j) (by omega) (v := ranges.getD j 0)
      (by have := hge j (by omega); omega) hc
    have hbox2 := unitIdx_inBox hs.2.1 (k := n - 1 - (j + 1)) (by omega) (v := 1) (by omega)
      (by have := hge (n - 1 - (j + 1)) (by omega); omega)
    have heq := hinj _ _ hbox1 hbox2 (by
      rw [leading_unit ranges (by omega), leading_unit ranges (by omega)]
      rw [← hn, show n - 1 - (n - 1 - j) = j by omega,
        show n - 1 - (n - 1 - (j + 1)) = j + 1 by omega, P_succ]
      ring)
    have := congrArg (fun l => l.getD (n - 1 - j) 0) heq
    simp only [unitIdx_getD _ _ _ (show n - 1 - j < ranges.length by omega),
      unitIdx_getD _ _ _ (show n - 1 - (j + 1) < ranges.length by omega), if_true] at this
    rw [if_neg (by omega)] at this
    have := hge j (by omega)
    omega
  have hint : ∀ j, 0 < j → j + 1 < n → ranges.getD (n - 1 - j) 0 = ranges.getD j 0 := by
    intro j h0 hj
    have a1 := hle j hj
    have a2 := hle (n - 1 - j) (by omega)
    rw [show n - 1 - (n - 1 - j) = j by omega] at a2
    omega
  -- the largest tuple
  have hmax := hlt _ (max_inBox hs.2.1)
  rw [leading_eq, ← hn] at hmax
  have e1 : ∑ k ∈ range n, (ranges.map (· - 1)).getD k 0 * P ranges (n - 1 - k)
      = ∑ j ∈ range n, (ranges.getD (n - 1 - j) 0 - 1) * P ranges j := by
    rw [← sum_range_reflect]
    refine sum_congr rfl fun j hj => ?_
    simp only [mem_range] at hj
    have hj' : n - 1 - j < ranges.length := by omega
    rw [show n - 1 - (n - 1 - j) = j by omega]
    congr 1
    simp [List.getD, hj']
  rw [e1, ← P_length, ← hn] at hmax
  rcases Nat.lt_or_ge n 2 with hn1 | hn2
  · -- one dimension
    rw [palindrome_iff]
    intro k hk
    congr 1; omega
  · have e2 : ∑ j ∈ range n, (ranges.getD (n - 1 - j) 0 - 1) * P ranges j
        = ∑ j ∈ range n, (ranges.getD j 0 - 1) * P ranges j
          + (ranges.getD 0 0 - ranges.getD (n - 1) 0) * (P ranges (n - 1) - 1) := by
      clear hmax e1
      obtain ⟨m, rfl⟩ : ∃ m, n = m + 2 := ⟨n - 2, by omega⟩
      rw [sum_range_succ, sum_range_succ' _ m, sum_range_succ _ (m + 1), sum_range_succ' _ m]
      have : ∑ k ∈ range m, (ranges.getD (m + 2 - 1 - (k + 1)) 0 - 1) * P ranges (k + 1)
          = ∑ k ∈ range m, (ranges.getD (k + 1) 0 - 1) * P ranges (k + 1) := by
        refine sum_congr rfl fun k hk => ?_
        simp only [mem_range] at hk
        rw [hint (k + 1) (by omega) (by omega)]
      rw [this]
      rw [show m + 2 - 1 - 0 = m + 1 by omega, show m + 2 - 1 - (m + 1) = 0 by omega,
        show m + 2 - 1 = m + 1 by omega, show P ranges 0 = 1 from rfl]
      ring
    rw [e2, telescope] at hmax
    have hP : 2 ≤ P ranges (n - 1) := by
      obtain ⟨m, hm⟩ : ∃ m, n - 1 = m + 1 := ⟨n - 2, by omega⟩
      have := P_pos hs.2.1 (j := m) (by omega)
      have := hge m (by omega)
      rw [hm, P_succ]; nlinarith
    have h0 := hle 0 (by omega)
    simp only [Nat.sub_zero] at h0
    have hends : ranges.getD (n - 1) 0 = ranges.getD 0 0 := by
      by_contra hne
      have : 1 ≤ ranges.getD 0 0 - ranges.getD (n - 1) 0 := by omega
      nlinarith
    rw [palindrome_iff]
    intro k hk
    rcases Nat.eq_zero_or_pos k with rfl | hk0
    · simpa [hn] using hends
    · rcases Nat.lt_or_ge (k + 1) n with hk1 | hk1
      · rw [← hn]; exact hint k hk0 hk1
      · have : k = n - 1 := by omega
        subst this
        rw [← hn, Nat.sub_self]; exact hends.symm

end Verif.Lemmas
