import Verif.Lemmas.LinearIndex
import Verif.Lemmas.CArrayAccess

/-! # Properties C10–C16: compile-time and run-time loops, multi-indices -/

namespace Verif.Props

open Verif.Spec Verif.Lemmas

/-- **C10.** `forSequence<END>(f)` is the same as calling `f` once for each integer in `[0,END)` in
ascending order, for every stateful `f`; a negative `END` does not compile. -/
theorem C10_forSequence (e : Int) :
    (e < 0 → ∀ (σ : Type) (f : Int → σ → Res σ) (s : σ),
      Sequence.forSequence e f s = .illFormed) ∧
    (0 ≤ e → ∃ calls : List Int, (∀ i, i ∈ calls ↔ 0 ≤ i ∧ i < e) ∧ calls.Pairwise (· < ·) ∧
      ∀ (σ : Type) (f : Int → σ → Res σ) (s : σ),
        Sequence.forSequence e f s = runCalls calls f s) := by
  constructor
  · intro h σ f s
    simp [Sequence.forSequence, Sequence.makeIntegerSequence, not_le.2 h]
  · intro h
    exact ⟨upTo 0 e, fun i => mem_upTo, upTo_pairwise 0 e, fun σ f s => forSequence_eq h f s⟩

/-- Non-vacuity of C10: recording the calls; and `END = 0` makes none. -/
example : Sequence.forSequence 4 (fun i tr => .ok (tr ++ [i])) [] = .ok [0, 1, 2, 3] ∧
    Sequence.forSequence 0 (fun i tr => .ok (tr ++ [i])) [9] = .ok [9] := by
  constructor <;> decide +kernel

/-- **C11.** `forNestedSequence<E_0,..>(f)` is the same as calling `f` once for each tuple of the box,
and for no other, in strictly increasing lexicographic order. -/
theorem C11_forNestedSequence (ends : List Int) (hne : ends ≠ []) (h : ∀ e ∈ ends, 0 ≤ e) :
    ∃ calls : List (List Int), (∀ t, t ∈ calls ↔ InBox ends t) ∧ calls.Pairwise LexLT ∧
      ∀ (σ : Type) (f : List Int → σ → Res σ) (s : σ),
        Sequence.forNestedSequence ends f s = runCalls calls f s := by
  refine ⟨boxFrom (List.replicate ends.length 0) ends, fun t => ?_, boxFrom_pairwise (by simp),
    fun σ f s => ?_⟩
  · rw [mem_boxFrom (by simp), inBox_iff_inRange]
  · have e1 := staticForNested_eq hne h f [] s
    simp only [List.nil_append] at e1
    rw [Sequence.forNestedSequence, e1]

/-- Non-vacuity of C11. -/
example : Sequence.forNestedSequence [2, 3] (fun t tr => .ok (tr ++ [t])) []
    = .ok [[0, 0], [0, 1], [0, 2], [1, 0], [1, 1], [1, 2]] := by decide +kernel

/-- Strict lexicographic order excludes repeated calls. -/
theorem LexLT_irrefl (t : List Int) : ¬ LexLT t t := by
  rintro ⟨-, k, -, -, h⟩; exact lt_irrefl _ h

/-- **C12.** The k-th call of `forNestedSequence<DIMS...>` gets exactly the tuple of the k-th storage
element of an array of dimensions `DIMS`. -/
theorem C12_nested_loop_is_storage_order (cfg : Config) (dims : List Int) (hs : ValidShape dims) :
    ∃ calls : List (List Int),
      Sequence.forNestedSequence dims (fun t tr => .ok (tr ++ [t])) [] = .ok calls ∧
      (calls.length : Int) = dims.prod ∧
      ∀ k, (hk : k < calls.length) →
        CArray.parenRT cfg dims.prod.toNat (CArray.whole dims) calls[k] = .ok (k : Int) := by
  have hnn : ∀ e ∈ dims, 0 ≤ e := fun e he => (hs.2.1 e he).le
  have hmap := boxFrom_getElem hnn
  have hpp := prod_pos_of hs.2.1
  have hlen : (boxFrom (List.replicate dims.length 0) dims).length = dims.prod.toNat := by
    have := congrArg List.length hmap
    simpa [upTo] using this
  refine ⟨boxFrom (List.replicate dims.length 0) dims, ?_, by omega, ?_⟩
  · have e1 := staticForNested_eq hs.1 hnn (fun t tr => .ok (tr ++ [t])) [] []
    have e2 := runCalls_trace (boxFrom (List.replicate dims.length 0) dims) []
    simp only [List.nil_append] at e1 e2
    rw [Sequence.forNestedSequence, e1, e2]
  · intro k hk
    have hmem := (mem_boxFrom (by simp)).1 (List.getElem_mem hk)
    rw [← inBox_iff_inRange] at hmem
    rw [parenRT_ok cfg (v := CArray.whole dims) hs ⟨le_rfl, by simp only [CArray.whole]; omega⟩ hmem]
    simp only [CArray.whole, zero_add]
    have h1 : ((boxFrom (List.replicate dims.length 0) dims).map (rowMajor dims))[k]'(by simpa using hk)
        = (upTo 0 dims.prod)[k]'(by simp [upTo]; omega) := by simp only [hmap]
    rw [List.getElem_map] at h1
    rw [h1]
    simp [upTo]

/-- Non-vacuity of C12: the fifth call for 2x3 is the tuple of storage element 4. -/
example : ValidShape [2, 3] ∧
    CArray.parenRT checkedHost 6 (CArray.whole [2, 3]) [1, 1] = .ok 4 := by
  exact ⟨⟨by simp, by simp, by simp⟩, by decide +kernel⟩

/-- **C13.** `forRange(index,f)` is the same as calling `f` once for each tuple with
`start_k ≤ i_k < range_k`, and for no other, in strictly increasing lexicographic order, where `start`
is what the index initially holds.  Each call sees the index object holding that tuple. -/
theorem C13_forRange (ranges start : List Int) (hne : ranges ≠ [])
    (hl : start.length = ranges.length) (his : ∀ x ∈ start, IsInt x) (hir : ∀ x ∈ ranges, IsInt x) :
    ∃ calls : List (List Int), (∀ t, t ∈ calls ↔ InRange start ranges t) ∧ calls.Pairwise LexLT ∧
      ∃ final : List Int, ∀ (σ : Type) (f : List Int → σ → Res σ) (s : σ),
        IndexTypes.forRange ranges f start s
          = (runCalls calls f s >>= fun s' => .ok (final, s')) :=
  ⟨boxFrom start ranges, fun _ => mem_boxFrom hl, boxFrom_pairwise hl, _,
    fun _ f s => forRange_eq f hne hl his hir s⟩

/-- **C13, second part.** Starting from the default index, `forRange` makes the same calls in the same
order as `forNestedSequence` over the same ranges. -/
theorem C13_forRange_eq_forNestedSequence (ranges : List Int) (hne : ranges ≠ [])
    (h0 : ∀ r ∈ ranges, 0 ≤ r) (hir : ∀ x ∈ ranges, IsInt x) {σ : Type}
    (f : List Int → σ → Res σ) (s : σ) :
    Prod.snd <$> IndexTypes.forRange ranges f (IndexTypes.defaultIndex ranges) s
      = Sequence.forNestedSequence ranges f s := by
  have e1 := staticForNested_eq hne h0 f [] s
  simp only [List.nil_append] at e1
  rw [Sequence.forNestedSequence, e1, forRange_eq f hne (by simp [IndexTypes.defaultIndex])
    (by intro x hx
        have : x = 0 := by simpa [IndexTypes.defaultIndex, hne] using hx
        subst this; exact ⟨by norm_num, by norm_num⟩) hir, IndexTypes.defaultIndex]
  cases runCalls (boxFrom (List.replicate ranges.length 0) ranges) f s <;> rfl

/-- Non-vacuity of C13: a box that does not start at zero. -/
example : IndexTypes.forRange [2, 4] (fun t tr => .ok (tr ++ [t])) [0, 2] []
    = .ok ([2, 4], [[0, 2], [0, 3], [1, 2], [1, 3]]) := by decide +kernel

/-- **C14.** After a `forRange` that finished, component `k` of the index is its range if no dimension
up to `k` was empty, and its start otherwise.  So if at least one tuple was visited the index equals
the ranges, and running `forRange` again on the same object makes no call. -/
theorem C14_forRange_exhausts (ranges start : List Int) (hne : ranges ≠ [])
    (hl : start.length = ranges.length) (his : ∀ x ∈ start, IsInt x) (hir : ∀ x ∈ ranges, IsInt x)
    {σ : Type} (f : List Int → σ → Res σ) (s s' : σ) (final : List Int)
    (hrun : IndexTypes.forRange ranges f start s = .ok (final, s')) :
    final.length = ranges.length ∧
    (∀ k < ranges.length, final.getD k 0
      = if ∀ j ≤ k, start.getD j 0 < ranges.getD j 0 then ranges.getD k 0 else start.getD k 0) ∧
    ((∃ t, InRange start ranges t) → final = ranges ∧
      ∀ (τ : Type) (g : List Int → τ → Res τ) (u : τ),
        IndexTypes.forRange ranges g final u = .ok (ranges, u)) := by
  rw [forRange_eq f hne hl his hir] at hrun
  have hfin : final = finalIdx start ranges start := by
    revert hrun
    cases runCalls (boxFrom start ranges) f s <;> simp
    rintro rfl -; rfl
  subst hfin
  refine ⟨by rw [finalIdx_length, hl], fun k hk => finalIdx_getD start ranges hl k hk, ?_⟩
  rintro ⟨t, ht⟩
  have hfr : finalIdx start ranges start = ranges := by
    apply List.ext_getElem (by rw [finalIdx_length, hl])
    intro k h1 h2
    have := finalIdx_getD start ranges hl k h2
    rw [if_pos (fun j hj => by have := ht.2 j (by omega); omega)] at this
    simpa [List.getD, h1, h2] using this
  refine ⟨hfr, fun τ g u => ?_⟩
  rw [hfr, forRange_eq g hne rfl hir hir]
  have hempty : boxFrom ranges ranges = [] := by
    rw [List.eq_nil_iff_forall_not_mem]
    intro x hx
    have h := ((mem_boxFrom rfl).1 hx).2 0 (List.length_pos_iff.2 hne)
    omega
  have : finalIdx ranges ranges ranges = ranges := by
    have h := finalIdx_idem start ranges start
    cases ranges with
    | nil => rfl
    | cons r rs => simp [finalIdx]
  simp [hempty, this]

/-- Non-vacuity of C14: a second run of the loop visits nothing. -/
example : IndexTypes.forRange [2, 4] (fun t tr => .ok (tr ++ [t])) [2, 4] []
    = .ok ([2, 4], []) := by decide +kernel

/-- **C15 fails.** For ranges 2x3 the in-range multi-indices (0,2) and (1,0) get the same linear
index, and for ranges 3x2 the linear index of (2,1) is not below the size 6. -/
theorem C15_violated :
    (InBox [2, 3] [0, 2] ∧ InBox [2, 3] [1, 0] ∧
      IndexTypes.linearIndex [2, 3] [0, 2] = .ok 2 ∧ IndexTypes.linearIndex [2, 3] [1, 0] = .ok 2) ∧
    (InBox [3, 2] [2, 1] ∧ IndexTypes.linearIndex [3, 2] [2, 1] = .ok 7) := by
  refine ⟨⟨by decide, by decide, by decide +kernel, by decide +kernel⟩, by decide, by decide +kernel⟩

/-- The computed value, exactly: strides come from the leading ranges, and the computation is undefined
when that value leaves `int` (which can happen although the size fits in `int`). -/
theorem C15_value (ranges : List Int) (hs : ValidShape ranges) (idx : List Int)
    (h : InBox ranges idx) :
    0 ≤ leadingStrideIndex ranges idx ∧
    IndexTypes.linearIndex ranges idx =
      if leadingStrideIndex ranges idx ≤ 2147483647 then .ok (leadingStrideIndex ranges idx)
      else .ub := by
  have h0 := leading_nonneg hs h
  refine ⟨h0, ?_⟩
  rw [linearIndex_eq hs h]
  split
  · rename_i h1; exact norm_ok ⟨by omega, h1⟩
  · rename_i h1; exact norm_ub fun hc => h1 hc.2

/-- **C15, part that holds.** If the ranges read the same backwards (in particular when all are equal)
then `linearIndex` is the row-major number: one-to-one onto `0 .. Π R - 1`, and the k-th multi-index
visited by `forRange` from zero has linear index k.  Missing: all other ranges, see
`C15_numbering_iff_palindrome`. -/
theorem C15_partial (ranges : List Int) (hs : ValidShape ranges) (hpal : ranges.reverse = ranges) :
    (∀ idx, InBox ranges idx → IndexTypes.linearIndex ranges idx = .ok (rowMajor ranges idx)) ∧
    Set.BijOn (rowMajor ranges) {idx | InBox ranges idx} {k | 0 ≤ k ∧ k < ranges.prod} ∧
    ∃ final calls, IndexTypes.forRange ranges (fun t tr => .ok (tr ++ [t]))
        (IndexTypes.defaultIndex ranges) [] = .ok (final, calls) ∧
      ∀ k, (hk : k < calls.length) → IndexTypes.linearIndex ranges calls[k] = .ok (k : Int) := by
  have hval : ∀ idx, InBox ranges idx →
      IndexTypes.linearIndex ranges idx = .ok (rowMajor ranges idx) := by
    intro idx h
    have hb := rowMajor_bounds h
    have hle := hs.2.2
    rw [linearIndex_eq hs h, leading_eq_rowMajor_of_palindrome hpal]
    exact norm_ok ⟨by omega, by omega⟩
  refine ⟨hval, ⟨fun idx h => rowMajor_bounds h, fun a ha b hb h => rowMajor_inj ha hb h, ?_⟩, ?_⟩
  · rintro k ⟨hk0, hk1⟩
    obtain ⟨idx, hb, hr⟩ := rowMajor_surj hs.2.1 hk0 hk1
    exact ⟨idx, hb, hr⟩
  · have hnn : ∀ e ∈ ranges, 0 ≤ e := fun e he => (hs.2.1 e he).le
    have hint : ∀ e ∈ ranges, IsInt e := by
      intro e he
      have h1 := hs.2.1 e he
      have h2 : e ≤ ranges.prod := by
        obtain ⟨l1, l2, rfl⟩ := List.append_of_mem he
        have p1 := prod_pos_of (dims := l1) fun x hx => hs.2.1 x (by simp [hx])
        have p2 := prod_pos_of (dims := l2) fun x hx => hs.2.1 x (by simp [hx])
        rw [List.prod_append, List.prod_cons]
        have : 1 ≤ l1.prod * l2.prod := by nlinarith
        nlinarith
      exact ⟨by omega, h2.trans hs.2.2⟩
    have hmap := boxFrom_getElem hnn
    refine ⟨finalIdx (List.replicate ranges.length 0) ranges (List.replicate ranges.length 0),
      boxFrom (List.replicate ranges.length 0) ranges, ?_, ?_⟩
    · rw [forRange_eq _ hs.1 (by simp [IndexTypes.defaultIndex])
        (by intro x hx
            have : x = 0 := by simpa [IndexTypes.defaultIndex, hs.1] using hx
            subst this; exact ⟨by norm_num, by norm_num⟩) hint, runCalls_trace,
        IndexTypes.defaultIndex]
      rfl
    · intro k hk
      have hmem := (mem_boxFrom (by simp)).1 (List.getElem_mem hk)
      rw [← inBox_iff_inRange] at hmem
      rw [hval _ hmem]
      have hlen : (boxFrom (List.replicate ranges.length 0) ranges).length
          = (upTo 0 ranges.prod).length := by rw [← hmap, List.length_map]
      have h1 : ((boxFrom (List.replicate ranges.length 0) ranges).map
          (rowMajor ranges))[k]'(by simpa using hk) = (upTo 0 ranges.prod)[k]'(by omega) := by
        simp only [hmap]
      rw [List.getElem_map] at h1
      rw [h1]
      simp [upTo]

/-- How far C15 goes, exactly: for ranges of at least two, `linearIndex` is defined, below the size and
one-to-one on the box if and only if the ranges are a palindrome. -/
theorem C15_numbering_iff_palindrome (ranges : List Int) (hs : ValidShape ranges)
    (h2 : ∀ r ∈ ranges, 2 ≤ r) :
    ((∀ idx, InBox ranges idx →
        ∃ v, IndexTypes.linearIndex ranges idx = .ok v ∧ 0 ≤ v ∧ v < ranges.prod) ∧
      (∀ a b, InBox ranges a → InBox ranges b →
        IndexTypes.linearIndex ranges a = IndexTypes.linearIndex ranges b → a = b)) ↔
    ranges.reverse = ranges := by
  constructor
  · rintro ⟨hdef, hinj⟩
    have hv : ∀ idx, InBox ranges idx →
        IndexTypes.linearIndex ranges idx = .ok (leadingStrideIndex ranges idx) ∧
          leadingStrideIndex ranges idx < ranges.prod := by
      intro idx h
      obtain ⟨v, h1, h2, h3⟩ := hdef idx h
      have h4 := (C15_value ranges hs idx h).2
      rw [h1] at h4
      split at h4
      · have : v = leadingStrideIndex ranges idx := by simpa using h4
        rw [← this]; exact ⟨h1, h3⟩
      · cases h4
    refine palindrome_of_inj hs h2 (fun a b ha hb hab => hinj a b ha hb ?_) fun a ha => (hv a ha).2
    rw [(hv a ha).1, (hv b hb).1, hab]
  · intro hpal
    obtain ⟨h1, -, -⟩ := C15_partial ranges hs hpal
    refine ⟨fun idx h => ⟨_, h1 idx h, rowMajor_bounds h⟩, fun a b ha hb hab => ?_⟩
    rw [h1 a ha, h1 b hb] at hab
    exact rowMajor_inj ha hb (by simpa using hab)

/-- Non-vacuity of the C15 theorems: 2x3x2 is a palindrome with unequal ranges; 50000x2 overflows. -/
example : ValidShape [2, 3, 2] ∧ ([2, 3, 2] : List Int).reverse = [2, 3, 2] ∧
    IndexTypes.linearIndex [2, 3, 2] [1, 2, 1] = .ok 11 ∧
    ValidShape [50000, 2] ∧ InBox [50000, 2] [49999, 0] ∧
    IndexTypes.linearIndex [50000, 2] [49999, 0] = .ub := by
  refine ⟨⟨by simp, by simp, by simp⟩, rfl, by decide +kernel, ⟨by simp, by simp, by simp⟩,
    by decide, by decide +kernel⟩

/-- **C16 fails.** A callable that accepts exactly (caller argument, index), with no template call
operator, is accepted by the call `f(args...,0)` but rejected by `executeSequence<1>(f,args...)`. -/
theorem C16_violated :
    ∃ (f : Sequence.Callable) (args : List Sequence.Arg),
      f.invocable (args ++ [.ic 0]) = true ∧ Sequence.executeSequence 1 f args = .illFormed :=
  ⟨⟨fun l => decide (l = [.user 7, .ic 0]), fun _ _ => false⟩, [.user 7], by decide, by decide⟩

/-- **C16, part that holds.** If the callable is insensitive to the order of the two groups of
arguments (in particular if it is fully generic, or no caller arguments are passed) and accepts
`f(args...,0,..,END-1)`, then exactly this call is made.  Missing: callables that accept only one of
the two orders. -/
theorem C16_partial (e : Int) (he : 0 ≤ e) (f : Sequence.Callable) (args : List Sequence.Arg)
    (hsym : ∀ is : List Sequence.Arg, f.invocable (is ++ args) = f.invocable (args ++ is)) :
    ∃ is : List Int, (∀ i, i ∈ is ↔ 0 ≤ i ∧ i < e) ∧ is.Pairwise (· < ·) ∧
      (f.invocable (args ++ is.map .ic) = true →
        Sequence.executeSequence e f args = .ok (.plain (args ++ is.map .ic))) := by
  refine ⟨upTo 0 e, fun i => mem_upTo, upTo_pairwise 0 e, fun h => ?_⟩
  simp [Sequence.executeSequence, makeIntegerSequence_ok he, hsym, h]

/-- Without caller arguments the order question does not arise. -/
theorem C16_no_args (e : Int) (he : 0 ≤ e) (f : Sequence.Callable) :
    ∃ is : List Int, (∀ i, i ∈ is ↔ 0 ≤ i ∧ i < e) ∧ is.Pairwise (· < ·) ∧
      (f.invocable (is.map .ic) = true →
        Sequence.executeSequence e f [] = .ok (.plain (is.map .ic))) := by
  simpa using C16_partial e he f [] (by simp)

/-- Non-vacuity of C16: a fully generic callable. -/
example : Sequence.executeSequence 3 ⟨fun _ => true, fun _ _ => false⟩ [.user 0]
    = .ok (.plain [.user 0, .ic 0, .ic 1, .ic 2]) := by decide

end Verif.Props
