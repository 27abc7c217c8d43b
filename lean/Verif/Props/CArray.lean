import Verif.Lemmas.CArrayAccess

/-! # Properties C01–C09: multidimensional arrays -/

namespace Verif.Props

open Verif.Spec Verif.Lemmas

/-- **C01.** For every shape, in every configuration, `a(i_0,..)` is the row-major element of the
array (or of the view, relative to where the view starts), and the row-major number is a bijection
between the in-range tuples and `0 .. size-1`. -/
theorem C01_rowMajor_bijection (cfg : Config) (v : View) (len : Nat) (hs : ValidShape v.dims)
    (h0 : 0 ≤ v.off) (h1 : v.off + v.dims.prod ≤ len) :
    (∀ idx, InBox v.dims idx →
      CArray.parenRT cfg len v idx = .ok (v.off + rowMajor v.dims idx)) ∧
    Set.BijOn (rowMajor v.dims) {idx | InBox v.dims idx} {k | 0 ≤ k ∧ k < v.dims.prod} := by
  refine ⟨fun idx h => parenRT_ok cfg hs ⟨h0, h1⟩ h, ?_, ?_, ?_⟩
  · intro idx h; exact rowMajor_bounds h
  · intro a ha b hb h; exact rowMajor_inj ha hb h
  · rintro k ⟨hk0, hk1⟩
    obtain ⟨idx, hb, hr⟩ := rowMajor_surj hs.2.1 hk0 hk1
    exact ⟨idx, hb, hr⟩

/-- Non-vacuity of C01: the 2x3x4 array of the unit tests, element (1,2,3). -/
example : ValidShape [2, 3, 4] ∧ InBox [2, 3, 4] [1, 2, 3] ∧ rowMajor [2, 3, 4] [1, 2, 3] = 23 ∧
    CArray.parenRT checkedHost 24 (CArray.whole [2, 3, 4]) [1, 2, 3] = .ok 23 := by
  refine ⟨⟨by simp, by simp, by simp⟩, by decide, by decide, by decide +kernel⟩

/-- **C02.** After any history of in-range assignments, written with parentheses or brackets, every
element reads (by either notation) as the last value assigned to it, or as its initial value; cells
of the underlying block outside the array are unchanged. -/
theorem C02_array_is_a_map {R : Type} (cfg : Config) (v : View) (mem : List R)
    (history : List (Assign R)) (hs : ValidShape v.dims)
    (h0 : 0 ≤ v.off) (h1 : v.off + v.dims.prod ≤ mem.length)
    (hin : ∀ w ∈ history, InBox v.dims w.idx) :
    ∃ mem', CArray.runHistory cfg v mem history = .ok mem' ∧ mem'.length = mem.length ∧
      (∀ idx, InBox v.dims idx → ∃ init, CArray.read cfg mem v idx = .ok init ∧
        CArray.read cfg mem' v idx = .ok (lastAssigned init history idx) ∧
        CArray.readBracket cfg mem' v idx = .ok (lastAssigned init history idx)) ∧
      (∀ k : Nat, (k : Int) < v.off ∨ v.off + v.dims.prod ≤ k → mem'[k]? = mem[k]?) := by
  obtain ⟨mem', hr, hl, hrd, hout⟩ := runHistory_ok cfg hs history ⟨h0, h1⟩ hin
  have hf' : Fits mem'.length v := ⟨h0, by rw [hl]; exact h1⟩
  refine ⟨mem', hr, hl, ?_, ?_⟩
  · intro idx hidx
    have hb := rowMajor_bounds hidx
    obtain ⟨x, -, hx⟩ := load_ok (mem := mem) (a := v.off + rowMajor v.dims idx)
      (by linarith) (by linarith)
    refine ⟨x, ?_, ?_, ?_⟩
    · rw [read_eq cfg hs ⟨h0, h1⟩ hidx, hx]
    · rw [read_eq cfg hs hf' hidx, hrd idx hidx x hx]
    · rw [readBracket_eq cfg hs hf' hidx, hrd idx hidx x hx]
  · intro k hk
    have hld := hout k (by omega) hk
    by_cases hkl : k < mem.length
    · obtain ⟨x, hx1, hx2⟩ := load_ok (mem := mem) (a := (k : Int)) (by omega) (by omega)
      rw [hx2, load_eq_ok (by omega)] at hld
      simp only [Int.toNat_natCast] at hx1 hld
      rw [hx1, hld]
    · rw [List.getElem?_eq_none (by omega), List.getElem?_eq_none (by omega)]

/-- Non-vacuity of C02: two assignments to one element and one to another. -/
example : (CArray.runHistory checkedHost (CArray.whole [2, 2]) [10, 11, 12, 13]
    [⟨.paren, [1, 0], 5⟩, ⟨.bracket, [0, 1], 6⟩, ⟨.bracket, [1, 0], 7⟩])
      = .ok [10, 6, 7, 13] := by decide +kernel

/-- **C03.** A full chain `a[i_0]..[i_{r-1}]` denotes the same storage element as `a(i_0,..)`.  Every
proper prefix of the chain denotes a view of the remaining dimensions, inside the same storage, whose
elements — named with parentheses or further brackets — are the elements of the original array. -/
theorem C03_brackets_eq_parens (cfg : Config) (v : View) (len : Nat) (hs : ValidShape v.dims)
    (h0 : 0 ≤ v.off) (h1 : v.off + v.dims.prod ≤ len) :
    (∀ idx, InBox v.dims idx → ∃ a, CArray.parenRT cfg len v idx = .ok a ∧
      CArray.bracketChain cfg len (.sub v) idx = .ok (.elem a)) ∧
    (∀ pre post, post ≠ [] → InBox v.dims (pre ++ post) →
      ∃ s : View, CArray.bracketChain cfg len (.sub v) pre = .ok (.sub s) ∧
        s.dims = v.dims.drop pre.length ∧ v.off ≤ s.off ∧ s.off + s.dims.prod ≤ v.off + v.dims.prod ∧
        (∀ post', InBox s.dims post' →
          CArray.parenRT cfg len s post' = CArray.parenRT cfg len v (pre ++ post') ∧
          ∃ a, CArray.parenRT cfg len v (pre ++ post') = .ok a ∧
            CArray.bracketChain cfg len (.sub s) post' = .ok (.elem a))) := by
  constructor
  · intro idx h
    exact ⟨_, parenRT_ok cfg hs ⟨h0, h1⟩ h,
      bracketChain_ok cfg (dims := v.dims) (off := v.off) hs ⟨h0, h1⟩ h⟩
  · intro pre post hpost h
    obtain ⟨p, hc, hv, hfit, hin, heq⟩ :=
      bracketChain_prefix cfg (dims := v.dims) (off := v.off) hs ⟨h0, h1⟩ hpost h
    -- the prefix is in range, so any in-range remainder extends it
    have hsplit : ∀ post', InBox (v.dims.drop pre.length) post' → InBox v.dims (pre ++ post') := by
      intro post' h'
      have hlen : pre.length ≤ v.dims.length := by
        have := inBox_length h; simp at this; omega
      have htake : List.Forall₂ (fun i d : Int => 0 ≤ i ∧ i < d) pre (v.dims.take pre.length) := by
        have := List.forall₂_take pre.length h
        simpa using this
      have := List.rel_append htake h'
      simp only [List.take_append_drop] at this
      exact this
    have haddr : ∀ post', InBox (v.dims.drop pre.length) post' →
        p + rowMajor (v.dims.drop pre.length) post' = v.off + rowMajor v.dims (pre ++ post') := by
      intro post' h'
      have hne : post' ≠ [] := by
        rintro rfl
        have := inBox_length h'; simp at this
        have h3 := inBox_length h; simp at h3
        have : post.length = 0 := by omega
        exact hpost (List.length_eq_zero_iff.1 this)
      obtain ⟨p', hc', -, -, -, heq'⟩ :=
        bracketChain_prefix cfg (dims := v.dims) (off := v.off) (len := len) hs ⟨h0, h1⟩ hne
          (hsplit post' h')
      rw [hc] at hc'
      have : p = p' := by simpa using hc'
      rw [this, heq']
    refine ⟨⟨v.dims.drop pre.length, p⟩, hc, rfl, ?_, ?_, ?_⟩
    · -- the first element of the slice is at or after the first element of the array
      obtain ⟨z, hz, hz0⟩ := rowMajor_surj hv.2.1 (k := 0) le_rfl (prod_pos_of hv.2.1)
      have h2 := haddr z hz
      have := rowMajor_bounds (hsplit z hz)
      simp only; linarith
    · obtain ⟨z, hz, hz0⟩ := rowMajor_surj hv.2.1 (k := (v.dims.drop pre.length).prod - 1)
        (by have := prod_pos_of hv.2.1; omega) (by omega)
      have h2 := haddr z hz
      have := rowMajor_bounds (hsplit z hz)
      simp only; linarith
    · intro post' h'
      have e1 := parenRT_ok cfg (v := ⟨v.dims.drop pre.length, p⟩) hv hfit h'
      have e2 := parenRT_ok cfg (v := v) hs ⟨h0, h1⟩ (hsplit post' h')
      have e3 := haddr post' h'
      simp only at e1
      refine ⟨by rw [e1, e2, e3], _, e2, ?_⟩
      have := bracketChain_ok cfg (dims := v.dims.drop pre.length) (off := p) hv hfit h'
      rw [this, e3]

/-- Non-vacuity of C03: the slice `a[1]` of a 2x3 array starts at element 3. -/
example : CArray.bracketChain checkedHost 6 (.sub (CArray.whole [2, 3])) [1] = .ok (.sub ⟨[3], 3⟩) ∧
    CArray.bracketChain checkedHost 6 (.sub (CArray.whole [2, 3])) [1, 2] = .ok (.elem 5) := by
  constructor <;> decide +kernel

/-- **C03**, converse: an array has exactly as many `[]` as dimensions. Whatever further indices
follow a complete in-range tuple, the expression does not compile (the elements are scalars). -/
theorem C03_too_many (cfg : Config) (v : View) (len : Nat) (hs : ValidShape v.dims)
    (h0 : 0 ≤ v.off) (h1 : v.off + v.dims.prod ≤ len) (idx more : List Int) (h : InBox v.dims idx)
    (hmore : more ≠ []) :
    CArray.bracketChain cfg len (.sub v) (idx ++ more) = .illFormed := by
  have append : ∀ (r : Ref) (a b : List Int),
      CArray.bracketChain cfg len r (a ++ b)
        = CArray.bracketChain cfg len r a >>= fun r => CArray.bracketChain cfg len r b := by
    intro r a b
    induction a generalizing r with
    | nil => rfl
    | cons i is ih =>
      cases r with
      | elem p => rfl
      | sub v =>
        show (CArray.bracket cfg len v i >>= fun r => CArray.bracketChain cfg len r (is ++ b)) = _
        simp only [ih]
        show _ = ((CArray.bracket cfg len v i >>= fun r => CArray.bracketChain cfg len r is)
          >>= fun r => CArray.bracketChain cfg len r b)
        rw [bind_assoc]
  rw [append, bracketChain_ok cfg (dims := v.dims) (off := v.off) hs ⟨h0, h1⟩ h, Res.ok_bind]
  obtain ⟨i, is, rfl⟩ := List.exists_cons_of_ne_nil hmore
  rfl

/-- Non-vacuity of `C03_too_many`: `a[1][2][0]` for a 2x3 array. -/
example : CArray.bracketChain checkedHost 6 (.sub (CArray.whole [2, 3])) [1, 2, 0] = .illFormed :=
  C03_too_many checkedHost (CArray.whole [2, 3]) 6 (by unfold ValidShape; decide) (by decide) (by decide) [1, 2] [0]
    (by decide) (by decide)

/-- **C04.** On the host at run time with bounds checking enabled, for every tuple of indices of the
right length: an in-range tuple denotes its element, an out-of-range tuple aborts. In particular no
tuple leads to undefined behaviour.  A wrong number of indices does not compile. -/
theorem C04_bounds_check (v : View) (len : Nat) (hs : ValidShape v.dims)
    (h0 : 0 ≤ v.off) (h1 : v.off + v.dims.prod ≤ len) (idx : List Int) :
    (idx.length ≠ v.dims.length → CArray.parenRT checkedHost len v idx = .illFormed) ∧
    (idx.length = v.dims.length →
      CArray.parenRT checkedHost len v idx
        = (if InBox v.dims idx then .ok (v.off + rowMajor v.dims idx) else .abort) ∧
      CArray.bracketChain checkedHost len (.sub v) idx
        = (if InBox v.dims idx then .ok (.elem (v.off + rowMajor v.dims idx)) else .abort)) := by
  constructor
  · intro hl
    simp [CArray.parenRT, staticAssert_false hl]
  · intro hl
    constructor
    · split
      · rename_i h; exact parenRT_ok _ hs ⟨h0, h1⟩ h
      · rename_i h
        simp [CArray.parenRT, staticAssert_true hl, CArrayHelper.evalRT,
          levelRT_abort (cfg := checkedHost) rfl rfl rfl hs hl h]
    · split
      · rename_i h; exact bracketChain_ok _ (dims := v.dims) (off := v.off) hs ⟨h0, h1⟩ h
      · rename_i h
        exact bracketChain_abort (cfg := checkedHost) rfl rfl rfl (dims := v.dims) (off := v.off)
          hs ⟨h0, h1⟩ hl h

/-- Without bounds checking the same tuple silently denotes another element: `a(0,3)` of a 2x3 array
is `a(1,0)`.  So the check is what provides C04. -/
theorem C04_unchecked_aliases :
    ¬ InBox [2, 3] [0, 3] ∧
    CArray.parenRT uncheckedHost 6 (CArray.whole [2, 3]) [0, 3]
      = CArray.parenRT uncheckedHost 6 (CArray.whole [2, 3]) [1, 0] ∧
    CArray.parenRT checkedHost 6 (CArray.whole [2, 3]) [0, 3] = .abort := by
  refine ⟨by decide, by decide +kernel, by decide +kernel⟩

/-- Non-vacuity of C04: a negative last index that would land inside the buffer. -/
example : ([1, -1] : List Int).length = [2, 3].length ∧ ¬ InBox [2, 3] [1, -1] ∧
    CArray.parenRT checkedHost 6 (CArray.whole [2, 3]) [1, -1] = .abort := by
  refine ⟨rfl, by decide, by decide +kernel⟩

/-- **C05.** For every tuple of any length: `a.operator()<i_0,..>()` compiles exactly when the tuple
has the right length and is in range, and then denotes the same element as `a(i_0,..)`. -/
theorem C05_compile_time_accessor (cfg : Config) (v : View) (len : Nat) (hs : ValidShape v.dims)
    (h0 : 0 ≤ v.off) (h1 : v.off + v.dims.prod ≤ len) (idx : List Int) :
    (InBox v.dims idx → ∃ a, CArray.parenCT len v idx = .ok a ∧
      CArray.parenRT cfg len v idx = .ok a) ∧
    (¬ InBox v.dims idx → CArray.parenCT len v idx = .illFormed) := by
  constructor
  · intro h
    exact ⟨_, parenCT_ok hs ⟨h0, h1⟩ h, parenRT_ok cfg hs ⟨h0, h1⟩ h⟩
  · intro h
    by_cases hl : idx.length = v.dims.length
    · simp [CArray.parenCT, staticAssert_true hl, CArrayHelper.evalCT, levelCT_illFormed hs hl h]
    · simp [CArray.parenCT, staticAssert_false hl]

/-- Non-vacuity of C05. -/
example : CArray.parenCT 24 (CArray.whole [2, 3, 4]) [1, 0, 3] = .ok 15 ∧
    CArray.parenCT 24 (CArray.whole [2, 3, 4]) [0, 3, 0] = .illFormed := by
  constructor <;> decide +kernel

/-- **C06.** If the number of elements fits in `int`, then for in-range tuples every stride, every
product and every partial sum is an `int` value, and all accessors finish without overflow. -/
theorem C06_no_overflow (cfg : Config) (dims : List Int) (hs : ValidShape dims) (idx : List Int)
    (h : InBox dims idx) :
    (∀ k < dims.length, IsInt ((dims.drop (k + 1)).prod) ∧
      IsInt (idx.getD k 0 * (dims.drop (k + 1)).prod) ∧
      IsInt (rowMajor (dims.drop k) (idx.drop k))) ∧
    CArrayHelper.size dims = .ok dims.prod ∧
    CArrayHelper.stride dims = .ok dims.tail.prod ∧
    (CArrayHelper.evalRT cfg dims idx).IsOk ∧
    (CArrayHelper.evalCT dims idx).IsOk ∧
    (CArray.bracketChain cfg dims.prod.toNat (.sub (CArray.whole dims)) idx).IsOk := by
  have hpp := prod_pos_of hs.2.1
  refine ⟨?_, size_ok hs.1 hs.2.1 hs.2.2, ?_, ⟨_, levelRT_ok cfg hs.1 h hs.2.2⟩,
    ⟨_, levelCT_ok hs.1 h hs.2.2⟩, ⟨_, bracketChain_ok cfg (off := 0) hs ⟨le_rfl, ?_⟩ h⟩⟩
  · obtain ⟨-, hp, hb⟩ := hs
    clear hpp cfg
    induction dims generalizing idx with
    | nil => simp
    | cons d ds ih =>
      cases idx with
      | nil => simp at h
      | cons i is =>
        obtain ⟨⟨h0, h1⟩, h2⟩ := inBox_cons.1 h
        have hle := prod_le_cons hp
        have hp' : ∀ x ∈ ds, 0 < x := fun x hx => hp x (by simp [hx])
        have hds := prod_pos_of hp'
        intro k hk
        cases k with
        | zero =>
          have hbnd := rowMajor_bounds h
          have hbnd2 := rowMajor_bounds h2
          have hm : 0 ≤ i * ds.prod := by positivity
          simp only [zero_add, List.drop_succ_cons, List.drop_zero, List.getD_cons_zero]
          refine ⟨⟨by linarith, by linarith⟩, ⟨by linarith, ?_⟩, ⟨by linarith, by linarith⟩⟩
          rw [rowMajor_cons] at hbnd; linarith
        | succ k =>
          simpa using ih is h2 hp' (by linarith) k (by simpa using hk)
  · cases dims with
    | nil => exact absurd rfl hs.1
    | cons d ds =>
      have := prod_le_cons hs.2.1
      exact strideHelper_ok (fun x hx => hs.2.1 x (by simp [hx])) (by have := hs.2.2; linarith)
  · simp only [zero_add]
    omega

/-- The bound of C06 is exact: with positive `int` dimensions, the size is defined (and the array type
exists) exactly when the product fits in `int`. -/
theorem C06_size_defined_iff (dims : List Int) (hne : dims ≠ []) (hp : ∀ d ∈ dims, 0 < d)
    (hi : ∀ d ∈ dims, IsInt d) :
    (CArrayHelper.size dims).IsOk ↔ dims.prod ≤ 2147483647 := by
  constructor
  · rintro ⟨n, hn⟩
    by_contra h
    rw [size_ub hne hp (fun d hd => (hi d hd).2) (by omega)] at hn
    cases hn
  · intro h; exact ⟨_, size_ok hne hp h⟩

/-- Non-vacuity of C06: an array of 2147483646 elements, its last element, and one just too large. -/
example : ValidShape [2, 1073741823] ∧ InBox [2, 1073741823] [1, 1073741822] ∧
    CArrayHelper.evalRT uncheckedHost [2, 1073741823] [1, 1073741822] = .ok 2147483645 ∧
    CArrayHelper.size [2, 1073741824] = .ub := by
  refine ⟨⟨by simp, by simp, by simp⟩, by decide, by decide +kernel, by decide +kernel⟩

/-- **C07 fails.** With bounds checking enabled, a tuple that is out of range is accepted in a
constant expression: `a(0,3)` of a 2x3 array is element 3. -/
theorem C07_violated :
    ∃ dims idx a, ValidShape dims ∧ ¬ InBox dims idx ∧ idx.length = dims.length ∧
      (CArray.parenRT checkedConst dims.prod.toNat (CArray.whole dims) idx).constexpr = .ok a :=
  ⟨[2, 3], [0, 3], 3, ⟨by simp, by simp, by simp⟩, by decide, rfl, by decide +kernel⟩

/-- What is accepted instead, exactly: a constant-evaluated access with a tuple of the right length
is accepted iff the row-major formula does not overflow and lands inside the buffer, whether or not
the individual indices are in range. -/
theorem C07_accepted_iff (dims : List Int) (hs : ValidShape dims) (idx : List Int) (a : Int) :
    (CArray.parenRT checkedConst dims.prod.toNat (CArray.whole dims) idx).constexpr = .ok a ↔
      idx.length = dims.length ∧ NoOverflow dims idx ∧ a = rowMajor dims idx ∧
        0 ≤ a ∧ a < dims.prod := by
  have hu : Unguarded checkedConst := .inr rfl
  have hpp := prod_pos_of hs.2.1
  by_cases hl : idx.length = dims.length
  · obtain ⟨h1, h2⟩ := levelRT_unguarded hu hs hl
    have hl' : idx.length = (CArray.whole dims).dims.length := hl
    have e : CArray.parenRT checkedConst dims.prod.toNat (CArray.whole dims) idx
        = (CArrayHelper.levelRT checkedConst dims idx >>=
            CArray.element dims.prod.toNat (CArray.whole dims)) := by
      unfold CArray.parenRT
      rw [staticAssert_true hl']; rfl
    rw [e]
    by_cases hn : NoOverflow dims idx
    · simp only [h1 hn, Res.ok_bind, CArray.element, CArray.whole, zero_add]
      split
      · rename_i hb
        simp only [Res.constexpr_ok, Res.ok.injEq]
        constructor
        · rintro rfl; exact ⟨hl, hn, rfl, hb.1, by omega⟩
        · rintro ⟨-, -, rfl, -⟩; rfl
      · rename_i hb
        simp only [Res.constexpr_ub, reduceCtorEq, false_iff]
        rintro ⟨-, -, rfl, h3, h4⟩
        exact hb ⟨h3, by omega⟩
    · simp only [h2 hn, Res.ub_bind, Res.constexpr_ub, reduceCtorEq, false_iff]
      rintro ⟨-, h, -⟩; exact hn h
  · have hl' : ¬ idx.length = (CArray.whole dims).dims.length := hl
    simp [CArray.parenRT, staticAssert_false hl', hl]

/-- **C07, part that holds.** A constant-evaluated access whose *first* index is out of range, the
others being in range, is rejected by the compiler (in particular every out-of-range index of a
one-dimensional array).  Missing for the full property: out-of-range indices in later positions. -/
theorem C07_partial (d : Int) (ds : List Int) (hs : ValidShape (d :: ds)) (i : Int) (is : List Int)
    (hi : ¬ (0 ≤ i ∧ i < d)) (his : InBox ds is) :
    (CArray.parenRT checkedConst (d :: ds).prod.toNat (CArray.whole (d :: ds)) (i :: is)).constexpr
      = .illFormed := by
  have key : ∀ a, (CArray.parenRT checkedConst (d :: ds).prod.toNat (CArray.whole (d :: ds))
      (i :: is)).constexpr ≠ .ok a := by
    intro a h
    obtain ⟨-, -, h3, h4, h5⟩ := (C07_accepted_iff _ hs _ _).1 h
    have hb := rowMajor_bounds his
    rw [rowMajor_cons] at h3
    rw [List.prod_cons] at h5
    apply hi
    constructor
    · by_contra hc
      have : i ≤ -1 := by omega
      nlinarith
    · by_contra hc
      have : d ≤ i := by omega
      nlinarith
  revert key
  cases CArray.parenRT checkedConst (d :: ds).prod.toNat (CArray.whole (d :: ds)) (i :: is) <;>
    simp

/-- Non-vacuity of the C07 theorems. -/
example : ¬ ((0 : Int) ≤ 2 ∧ (2 : Int) < 2) ∧ InBox [3] [1] ∧
    (CArray.parenRT checkedConst 6 (CArray.whole [2, 3]) [2, 1]).constexpr = .illFormed := by
  refine ⟨by decide, by decide, by decide +kernel⟩

/-- **C08.** List initialisation with `m` values compiles exactly when `m` does not exceed the size;
the element at row-major number `k` is then the `k`-th value, or zero past the end of the list. -/
theorem C08_list_init {R : Type} (cfg : Config) (zero : R) (dims : List Int) (hs : ValidShape dims)
    (args : List R) :
    (dims.prod < args.length → CArray.listInit zero dims args = .illFormed) ∧
    (args.length ≤ dims.prod → ∃ mem, CArray.listInit zero dims args = .ok mem ∧
      (mem.length : Int) = dims.prod ∧
      ∀ idx, InBox dims idx → CArray.read cfg mem (CArray.whole dims) idx
        = .ok (args.getD (rowMajor dims idx).toNat zero)) := by
  have hpp := prod_pos_of hs.2.1
  constructor
  · intro h
    simp [CArray.listInit, size_ok hs.1 hs.2.1 hs.2.2, staticAssert_true hpp,
      staticAssert_false (not_le.2 h)]
  · intro h
    have hlen : ((args ++ List.replicate (dims.prod.toNat - args.length) zero).length : Int)
        = dims.prod := by simp; omega
    refine ⟨_, by
      simp only [CArray.listInit, size_ok hs.1 hs.2.1 hs.2.2, Res.constexpr_ok, Res.ok_bind,
        staticAssert_true hpp, staticAssert_true h], hlen, ?_⟩
    intro idx hidx
    have hb := rowMajor_bounds hidx
    rw [read_eq cfg (v := CArray.whole dims) hs ⟨le_rfl, by simp only [CArray.whole, zero_add]; rw [hlen]⟩ hidx]
    simp only [CArray.whole, zero_add]
    rw [load_eq_ok hb.1]
    by_cases hk : (rowMajor dims idx).toNat < args.length
    · rw [List.getElem?_append_left hk]
      simp [List.getD, hk]
    · rw [List.getElem?_append_right (by omega), List.getElem?_replicate, if_pos (by omega)]
      simp [List.getD, List.getElem?_eq_none (not_lt.1 hk)]

/-- Non-vacuity of C08: `{7}` sets only the first element; five values do not fit a 2x2 array. -/
example : CArray.listInit 0 [2, 2] [7] = .ok [7, 0, 0, 0] ∧
    CArray.listInit 0 [2, 2] [1, 2, 3, 4, 5] = .illFormed := by
  constructor <;> decide +kernel

/-- **C09.** `rank` is the number of dimensions, `extent<k>` is the k-th dimension and does not
compile for any other `k`, and `size` is the product of the extents. -/
theorem C09_rank_extent_size (v : View) (hs : ValidShape v.dims) :
    CArray.rank v = v.dims.length ∧
    (∀ k : Int, (0 ≤ k ∧ k < v.dims.length → CArray.extent v k = .ok (v.dims.getD k.toNat 0)) ∧
      (¬ (0 ≤ k ∧ k < v.dims.length) → CArray.extent v k = .illFormed)) ∧
    CArray.size v = .ok v.dims.prod ∧
    ∃ extents : List Int, extents.length = CArray.rank v ∧
      (∀ k : Nat, (h : k < extents.length) → CArray.extent v k = .ok extents[k]) ∧
      CArray.size v = .ok extents.prod := by
  refine ⟨rfl, fun k => ⟨?_, ?_⟩, size_ok hs.1 hs.2.1 hs.2.2, v.dims, rfl,
    fun k h => get_ok h, size_ok hs.1 hs.2.1 hs.2.2⟩
  · rintro ⟨h0, h1⟩
    have hk : k.toNat < v.dims.length := by omega
    have := get_ok hk
    rw [Int.toNat_of_nonneg h0] at this
    rw [CArray.extent, this]
    simp [List.getD, hk]
  · intro h
    exact get_illFormed (by omega)

/-- Non-vacuity of C09. -/
example : CArray.extent (CArray.whole [2, 3, 4]) 1 = .ok 3 ∧
    CArray.extent (CArray.whole [2, 3, 4]) 3 = .illFormed ∧
    CArray.extent (CArray.whole [2, 3, 4]) (-1) = .illFormed ∧
    CArray.size (CArray.whole [2, 3, 4]) = .ok 24 := by
  refine ⟨?_, ?_, ?_, ?_⟩ <;> decide +kernel

end Verif.Props
