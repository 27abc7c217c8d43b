import Verif.Lemmas.LinearIndex
import Verif.Lemmas.IndexConversion
import Verif.Model.TypedIndex

/-!
# Property C92: multi-indices of any integer type

The property says that `linearIndex` and `forRange` of a `MultiIndexRange` do for every integer type what they do for
`int` (C13–C15).  For `forRange` this is false for every other type.
-/

namespace Verif.Props

open Verif.Spec Verif.Lemmas Verif.IndexConversion

private theorem declare_ok {t : CType} {ranges : List Int} (hne : ranges ≠ [])
    (h : ∀ r ∈ ranges, (t.min ≤ r ∧ r ≤ t.max) ∧ IsInt r) : TypedIndex.declare t ranges = .ok () :=
  staticAssert_true ⟨hne, h⟩

private theorem i32_arith (x : Int) : CType.i32.withInt.arith x = int32.norm x := by
  show (if int32.InRange x then Res.ok x else .ub) = _
  rfl

private theorem norm_isInt {x v : Int} (h : int32.norm x = .ok v) : IsInt v := by
  unfold IntType.norm at h
  split_ifs at h with hr
  cases h; exact hr

private theorem i32_convertTo {x : Int} (h : IsInt x) : TypedIndex.convertTo .i32 x = x := by
  unfold TypedIndex.convertTo
  rw [if_neg (by decide)]; exact i32_convert h

private theorem strideHelper_isInt (rs : List Int) {v : Int} (h : IndexTypes.strideHelper rs = .ok v) : IsInt v := by
  cases rs with
  | nil => cases h; exact ⟨by norm_num, by norm_num⟩
  | cons r rs =>
    obtain ⟨a, -, h2⟩ := Res.bind_eq_ok.1 h
    exact norm_isInt h2

private theorem term_int (ranges data : List Int) (k : Nat) :
    TypedIndex.term .i32 ranges data k = IndexTypes.stride ranges k >>= fun s => imul (data.getD k 0) s := by
  unfold TypedIndex.term TypedIndex.stride
  cases hs : IndexTypes.stride ranges k with
  | ok s =>
    have : IsInt s := by
      unfold IndexTypes.stride at hs
      split_ifs at hs
      exact strideHelper_isInt _ hs
    simp only [Res.ok_bind, i32_convertTo this, i32_arith]
    rfl
  | _ => rfl

private theorem helper_int (ranges data : List Int) (ks : List Nat) :
    TypedIndex.linearIndexHelper .i32 ranges data ks = IndexTypes.linearIndexHelper ranges data ks ∧
    ∀ v, IndexTypes.linearIndexHelper ranges data ks = .ok v → IsInt v := by
  induction ks with
  | nil => exact ⟨rfl, fun v h => by cases h⟩
  | cons k ks ih =>
    cases ks with
    | nil =>
      refine ⟨term_int ranges data k, fun v h => ?_⟩
      obtain ⟨a, -, h2⟩ := Res.bind_eq_ok.1 h
      exact norm_isInt h2
    | cons k' ks =>
      constructor
      · simp only [TypedIndex.linearIndexHelper, IndexTypes.linearIndexHelper, ih.1, term_int, i32_arith, bind_assoc]
        rfl
      · intro v h
        obtain ⟨a, -, h⟩ := Res.bind_eq_ok.1 h
        obtain ⟨b, -, h⟩ := Res.bind_eq_ok.1 h
        obtain ⟨c, -, h⟩ := Res.bind_eq_ok.1 h
        exact norm_isInt h

/-- **C92, `int`.** For `int` the templates are those of C13–C15. -/
theorem C92_int (ranges : List Int) (hne : ranges ≠ []) (hr : ∀ r ∈ ranges, IsInt r) :
    (∀ data, TypedIndex.linearIndex .i32 ranges data = IndexTypes.linearIndex ranges data) ∧
    ∀ (σ : Type) (f : List Int → σ → Res σ) (start : List Int) (s : σ),
      TypedIndex.forRange .i32 ranges f start s = IndexTypes.forRange ranges f start s := by
  have hd : TypedIndex.declare .i32 ranges = .ok () := declare_ok hne fun r h => ⟨hr r h, hr r h⟩
  constructor
  · intro data
    unfold TypedIndex.linearIndex IndexTypes.linearIndex
    rw [hd, (helper_int ranges data _).1, Res.ok_bind]
    cases h : IndexTypes.linearIndexHelper ranges data (List.range ranges.length) with
    | ok v => simp only [Res.ok_bind, i32_convertTo ((helper_int ranges data _).2 v h)]
    | _ => rfl
  · intro σ f start s
    unfold TypedIndex.forRange
    rw [hd, Res.ok_bind]
    rfl

/-- A multi-index type that can be declared: positive ranges that the base type and `int` can hold. -/
def Declarable (t : CType) (ranges : List Int) : Prop :=
  ranges ≠ [] ∧ ∀ r ∈ ranges, 0 < r ∧ r ≤ t.max ∧ r ≤ 2147483647

private theorem declare_of {t : CType} {ranges : List Int} (h : Declarable t ranges) :
    TypedIndex.declare t ranges = .ok () := by
  refine declare_ok h.1 fun r hr => ?_
  obtain ⟨h1, h2, h3⟩ := h.2 r hr
  have : t.min ≤ 0 := by cases t <;> decide
  exact ⟨⟨by omega, h2⟩, by constructor <;> omega⟩

private theorem max_le_withInt (t : CType) : t.max ≤ t.withInt.max := by cases t <;> decide

private theorem arith_nonneg {t : CType} {x : Int} (h0 : 0 ≤ x) (h1 : x ≤ t.max) : t.withInt.arith x = .ok x := by
  have h2 := max_le_withInt t
  have h3 := withInt_bounds t
  rw [CType.arith, if_pos ⟨by omega, by omega⟩]

private theorem convertTo_nonneg {t : CType} {x : Int} (h0 : 0 ≤ x) (h1 : x ≤ t.max) : TypedIndex.convertTo t x = x := by
  unfold TypedIndex.convertTo
  by_cases ht : t = .bool
  · subst ht
    change x ≤ 1 at h1
    rw [if_pos rfl]
    split_ifs <;> omega
  · rw [if_neg ht]
    have : t.min ≤ 0 := by cases t <;> decide
    exact convert_id (by omega) h1

private theorem P_mono {ranges : List Int} (hp : ∀ d ∈ ranges, 0 < d) {j m : Nat} (hjm : j ≤ m) (hm : m ≤ ranges.length) :
    P ranges j ≤ P ranges m := by
  obtain ⟨d, rfl⟩ := Nat.exists_eq_add_of_le hjm
  clear hjm
  induction d with
  | zero => simp
  | succ d ih =>
    have h1 := ih (by omega)
    have h2 := P_pos hp (j := j + d) (by omega)
    have h3 := getD_pos hp (i := j + d) (by omega)
    rw [← Nat.add_assoc, P_succ]
    nlinarith

private theorem stride_ok' {ranges : List Int} (hp : ∀ d ∈ ranges, 0 < d) (hs : ranges.dropLast.prod ≤ 2147483647)
    {k : Nat} (hk : k < ranges.length) : IndexTypes.stride ranges k = .ok (P ranges (ranges.length - 1 - k)) := by
  rw [IndexTypes.stride, if_pos (by omega), istrideHelper_ok, take_prod _ _ (by omega)]
  · intro d hd; exact hp d (List.mem_of_mem_take hd)
  · rw [List.dropLast_eq_take, take_prod _ _ (by omega)] at hs
    rw [take_prod _ _ (by omega)]
    exact (P_mono hp (by omega) (by omega)).trans hs

open Finset in
private theorem helper_typed {t : CType} {ranges idx : List Int} (hp : ∀ d ∈ ranges, 0 < d)
    (hs : ranges.dropLast.prod ≤ 2147483647) (h : InBox ranges idx) (m : Nat) : ∀ k, k + m + 1 = ranges.length →
    ∑ j ∈ Ico k ranges.length, idx.getD j 0 * P ranges (ranges.length - 1 - j) ≤ t.max →
    TypedIndex.linearIndexHelper t ranges idx (List.range' k (m + 1))
      = .ok (∑ j ∈ Ico k ranges.length, idx.getD j 0 * P ranges (ranges.length - 1 - j)) := by
  have hnn : ∀ j < ranges.length, 0 ≤ idx.getD j 0 * P ranges (ranges.length - 1 - j) := fun j hj =>
    mul_nonneg (inBox_getD h hj).1 (P_pos hp (by omega)).le
  have hterm : ∀ k < ranges.length, idx.getD k 0 * P ranges (ranges.length - 1 - k) ≤ t.max →
      TypedIndex.term t ranges idx k = .ok (idx.getD k 0 * P ranges (ranges.length - 1 - k)) := by
    intro k hk hle
    have hP := P_pos hp (j := ranges.length - 1 - k) (by omega)
    have hi := (inBox_getD h hk).1
    have h0 := hnn k hk
    unfold TypedIndex.term TypedIndex.stride
    rw [stride_ok' hp hs hk]
    simp only [Res.ok_bind]
    rcases hi.eq_or_lt with h1 | h1
    · rw [← h1, zero_mul, zero_mul]
      exact arith_nonneg le_rfl ((h0.trans hle))
    · rw [convertTo_nonneg hP.le (le_trans (by nlinarith) hle)]
      exact arith_nonneg h0 hle
  induction m with
  | zero =>
    intro k hk hle
    have : Ico k ranges.length = {k} := by ext x; simp; omega
    rw [this, sum_singleton] at hle ⊢
    exact hterm k (by omega) hle
  | succ m ih =>
    intro k hk hle
    have hk' : k < ranges.length := by omega
    rw [sum_eq_sum_Ico_succ_bot hk'] at hle ⊢
    have hrest : 0 ≤ ∑ j ∈ Ico (k + 1) ranges.length, idx.getD j 0 * P ranges (ranges.length - 1 - j) :=
      sum_nonneg fun j hj => hnn j (by simp at hj; omega)
    have h0 := hnn k hk'
    have ih' := ih (k + 1) (by omega) (by omega)
    rw [List.range'_succ, List.range'_succ]
    rw [List.range'_succ] at ih'
    simp only [TypedIndex.linearIndexHelper, hterm k hk' (by omega), ih', Res.ok_bind]
    exact arith_nonneg (by omega) hle

/-- **C92, `linearIndex`, part that holds.** As for `int`, the number is formed with strides from the leading ranges (C15);
it is right whenever the base type can hold it and `int` can hold the strides. -/
theorem C92_linearIndex_partial (t : CType) (ranges idx : List Int) (hd : Declarable t ranges) (h : InBox ranges idx)
    (hs : ranges.dropLast.prod ≤ 2147483647) (hle : leadingStrideIndex ranges idx ≤ t.max) :
    TypedIndex.linearIndex t ranges idx = .ok (leadingStrideIndex ranges idx) := by
  have hp : ∀ d ∈ ranges, 0 < d := fun d hd' => (hd.2 d hd').1
  have h0 : 0 ≤ leadingStrideIndex ranges idx := by
    rw [leading_eq]
    exact Finset.sum_nonneg fun j hj => mul_nonneg (inBox_getD h (by simpa using hj)).1 (P_pos hp (by omega)).le
  have hlen : 0 < ranges.length := List.length_pos_iff.2 hd.1
  obtain ⟨m, hm⟩ := Nat.exists_eq_add_of_le hlen
  have hm' : ranges.length = m + 1 := by omega
  have key := helper_typed (t := t) hp hs h m 0 (by omega) (by rw [← Finset.range_eq_Ico, ← leading_eq]; exact hle)
  rw [← Finset.range_eq_Ico, ← leading_eq, ← hm', ← List.range_eq_range'] at key
  unfold TypedIndex.linearIndex
  rw [declare_of hd, key]
  simp only [Res.ok_bind]
  rw [convertTo_nonneg h0 hle]

private theorem strideHelper_ub {rs : List Int} (hp : ∀ d ∈ rs, 0 < d) (h : 2147483647 < rs.prod) :
    IndexTypes.strideHelper rs = .ub := by
  induction rs with
  | nil => simp at h
  | cons r rs ih =>
    have hp' : ∀ d ∈ rs, 0 < d := fun x hx => hp x (by simp [hx])
    unfold IndexTypes.strideHelper
    by_cases hle : rs.prod ≤ 2147483647
    · rw [istrideHelper_ok hp' hle, Res.ok_bind]
      rw [List.prod_cons] at h
      exact norm_ub fun hc => by have := hc.2; omega
    · rw [ih hp' (by omega)]; rfl

/-- **C92, strides.** If the product of all ranges but the last exceeds `int`, `linearIndex` is undefined for every index and
every base type. -/
theorem C92_linearIndex_stride (t : CType) (ranges idx : List Int) (hd : Declarable t ranges)
    (hs : 2147483647 < ranges.dropLast.prod) : TypedIndex.linearIndex t ranges idx = .ub := by
  have hst : IndexTypes.stride ranges 0 = .ub := by
    rw [IndexTypes.stride, if_pos (by omega), Nat.sub_zero, ← List.dropLast_eq_take]
    exact strideHelper_ub (fun d h => (hd.2 d (List.dropLast_subset _ h)).1) hs
  have ht : TypedIndex.term t ranges idx 0 = .ub := by
    unfold TypedIndex.term TypedIndex.stride; rw [hst]; rfl
  have hlen : 2 ≤ ranges.length := by
    by_contra hc
    rcases ranges with _ | ⟨a, _ | ⟨b, l⟩⟩
    · simp at hs
    · simp at hs
    · simp at hc
  obtain ⟨m, hm⟩ : ∃ m, ranges.length = m + 2 := ⟨ranges.length - 2, by omega⟩
  unfold TypedIndex.linearIndex
  rw [declare_of hd, hm, List.range_succ_eq_map, List.range_succ_eq_map]
  simp only [List.map_cons, Res.ok_bind, TypedIndex.linearIndexHelper, ht]
  rfl

/-- **C92 is false for `linearIndex`.** With `long` indices a box of 2^48 elements has no numbers, because the strides are
formed in `int`.  With `unsigned char` two indices of a 20 by 20 box share a number, because the number wraps. -/
theorem C92_linearIndex_violated :
    (Declarable .i64 [65536, 65536, 65536] ∧ InBox [65536, 65536, 65536] [0, 0, 0] ∧
      ([65536, 65536, 65536] : List Int).prod ≤ CType.i64.max ∧
      TypedIndex.linearIndex .i64 [65536, 65536, 65536] [0, 0, 0] = .ub) ∧
    (Declarable .u8 [20, 20] ∧ InBox [20, 20] [19, 19] ∧ InBox [20, 20] [7, 3] ∧
      TypedIndex.linearIndex .u8 [20, 20] [19, 19] = .ok 143 ∧ TypedIndex.linearIndex .u8 [20, 20] [7, 3] = .ok 143) := by
  refine ⟨⟨?_, by decide, by decide, ?_⟩, ?_, by decide, by decide, by decide +kernel, by decide +kernel⟩
  · exact ⟨by decide, by decide⟩
  · exact C92_linearIndex_stride .i64 _ _ ⟨by decide, by decide⟩ (by decide)
  · exact ⟨by decide, by decide⟩

/-- **C92 is false for `forRange`.** It compiles for no base type other than `int`, whatever the ranges and the body. -/
theorem C92_forRange_violated (t : CType) (ht : t ≠ .i32) (ranges : List Int) {σ : Type} (f : List Int → σ → Res σ)
    (start : List Int) (s : σ) : TypedIndex.forRange t ranges f start s = .illFormed := by
  unfold TypedIndex.forRange
  by_cases hd : ranges ≠ [] ∧ ∀ r ∈ ranges, (t.min ≤ r ∧ r ≤ t.max) ∧ int32.InRange r
  · rw [show TypedIndex.declare t ranges = .ok () from staticAssert_true hd]
    simp only [Res.ok_bind, Res.staticAssert, if_neg ht]
    rfl
  · rw [show TypedIndex.declare t ranges = .illFormed by unfold TypedIndex.declare Res.staticAssert; rw [if_neg hd]]
    rfl

/-- **C92, numbers.** `linearIndex` of a number is the number, with its type.  For a multi-index with a single range this is
what the other overload gives: the two agree for every base type, range and index in the range. -/
theorem C92_linear (t : CType) (r i : Int) (hd : Declarable t [r]) (hi : InBox [r] [i]) :
    TypedIndex.linearIndex t [r] [i] = .ok i ∧ TypedIndex.linearIndexOfLinear ⟨t, i⟩ = .ok ⟨t, i⟩ := by
  have h := inBox_getD hi (k := 0) (by simp)
  have hr := (hd.2 r (by simp)).2.1
  have e : leadingStrideIndex [r] [i] = i := by simp [leadingStrideIndex]
  refine ⟨?_, rfl⟩
  rw [C92_linearIndex_partial t [r] [i] hd hi (by simp) (by
    rw [e]; simp only [List.getD_cons_zero] at h; omega), e]

/-- Non-vacuity of C92: a number that only a 64-bit type can hold, and one at the limit of `unsigned char`. -/
example : TypedIndex.linearIndex .i64 [40000, 2, 100000] [39999, 1, 99999] = .ok 3200059999 ∧
    TypedIndex.linearIndex .u8 [16, 16] [15, 15] = .ok 255 ∧
    TypedIndex.linearIndex .i32 [2, 3] [1, 2] = IndexTypes.linearIndex [2, 3] [1, 2] := by
  refine ⟨?_, ?_, (C92_int _ (by decide) (by simp [IsInt])).1 _⟩ <;> decide +kernel

end Verif.Props
