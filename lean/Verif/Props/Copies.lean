import Verif.Model.Copies
import Verif.Props.CArray

/-!
# Property C93: arrays are values, views are references
-/

namespace Verif.Props

open Verif.Spec Verif.Lemmas

variable {R : Type}

/-! ### The invariant -/

def ArrayDims (m : List (Meaning R)) (r : Nat) (d : List Int) : Prop := ∃ f, m[r]? = some (.array d f)

/-- A variable of the program holds what its meaning says. -/
def HoldsAt (m : List (Meaning R)) : Meaning R → Copies.Var R → Prop
  | .array d f, .array e mem => e = d ∧ ValidShape d ∧ (mem.length : Int) = d.prod ∧
      ∀ idx, InBox d idx → CArray.load mem (rowMajor d idx) = .ok (f idx)
  | .view r d pre, .view t v => t = r ∧ v.dims = d ∧ ValidShape d ∧ ∃ dr, ArrayDims m r dr ∧ 0 ≤ v.off ∧
      v.off + d.prod ≤ dr.prod ∧
      ∀ idx, InBox d idx → InBox dr (pre ++ idx) ∧ v.off + rowMajor d idx = rowMajor dr (pre ++ idx)
  | _, _ => False

def Holds (m : List (Meaning R)) (s : List (Copies.Var R)) : Prop :=
  m.length = s.length ∧ ∀ (i : Nat) x y, m[i]? = some x → s[i]? = some y → HoldsAt m x y

theorem holdsAt_mono {m m' : List (Meaning R)} (h : ∀ r d, ArrayDims m r d → ArrayDims m' r d)
    {x : Meaning R} {y : Copies.Var R} (hx : HoldsAt m x y) : HoldsAt m' x y := by
  cases x <;> cases y
  · exact hx
  · exact hx
  · exact hx
  · obtain ⟨h1, h2, h3, dr, h4, h5⟩ := hx
    exact ⟨h1, h2, h3, dr, h _ _ h4, h5⟩

theorem holds_some {m : List (Meaning R)} {s : List (Copies.Var R)} (h : Holds m s) {i : Nat} {x : Meaning R}
    (hx : m[i]? = some x) : ∃ y, s[i]? = some y ∧ HoldsAt m x y := by
  have hi : i < m.length := (List.getElem?_eq_some_iff.1 hx).1
  have hi' : i < s.length := h.1 ▸ hi
  exact ⟨s[i], List.getElem?_eq_getElem hi', h.2 i x _ hx (List.getElem?_eq_getElem hi')⟩

theorem holds_push {m : List (Meaning R)} {s : List (Copies.Var R)} (h : Holds m s) {x : Meaning R}
    {y : Copies.Var R} (hxy : HoldsAt m x y) : Holds (m ++ [x]) (s ++ [y]) := by
  have hmono : ∀ r d, ArrayDims m r d → ArrayDims (m ++ [x]) r d := by
    rintro r d ⟨f, hf⟩
    refine ⟨f, ?_⟩
    rw [List.getElem?_append_left (List.getElem?_eq_some_iff.1 hf).1]; exact hf
  refine ⟨by simp [h.1], fun i a b ha hb => ?_⟩
  by_cases hi : i < m.length
  · rw [List.getElem?_append_left hi] at ha
    rw [List.getElem?_append_left (h.1 ▸ hi)] at hb
    exact holdsAt_mono hmono (h.2 i a b ha hb)
  · have hi' : i < (m ++ [x]).length := (List.getElem?_eq_some_iff.1 ha).1
    simp only [List.length_append, List.length_singleton] at hi'
    obtain rfl : i = m.length := by omega
    rw [List.getElem?_concat_length] at ha
    rw [h.1, List.getElem?_concat_length] at hb
    cases ha; cases hb
    exact holdsAt_mono hmono hxy

theorem holds_set {m : List (Meaning R)} {s : List (Copies.Var R)} (h : Holds m s) {t : Nat} {d : List Int}
    {f f' : List Int → R} {mem' : List R} (hm : m[t]? = some (.array d f)) (hv : ValidShape d)
    (hlen : (mem'.length : Int) = d.prod) (hload : ∀ idx, InBox d idx → CArray.load mem' (rowMajor d idx) = .ok (f' idx)) :
    Holds (m.set t (.array d f')) (s.set t (.array d mem')) := by
  have ht : t < m.length := (List.getElem?_eq_some_iff.1 hm).1
  have hmono : ∀ r e, ArrayDims m r e → ArrayDims (m.set t (.array d f')) r e := by
    rintro r e ⟨g, hg⟩
    by_cases hr : t = r
    · subst hr
      rw [hm] at hg
      cases hg
      exact ⟨f', by simp [ht]⟩
    · exact ⟨g, by rw [List.getElem?_set_ne hr]; exact hg⟩
  refine ⟨by simp [h.1], fun i a b ha hb => ?_⟩
  by_cases hi : t = i
  · subst hi
    rw [List.getElem?_set_self ht] at ha
    rw [List.getElem?_set_self (h.1 ▸ ht)] at hb
    cases ha; cases hb
    exact ⟨rfl, hv, hlen, hload⟩
  · rw [List.getElem?_set_ne hi] at ha hb
    exact holdsAt_mono hmono (h.2 i a b ha hb)

/-- The array and the leading indices that a variable stands for. -/
def rootOf (i : Nat) : Meaning R → Nat × List Int
  | .array _ _ => (i, [])
  | .view r _ pre => (r, pre)

theorem copies_deref_ok {m : List (Meaning R)} {s : List (Copies.Var R)} (h : Holds m s) {i : Nat} {x : Meaning R}
    (hx : m[i]? = some x) :
    ∃ mem v dr fr, Copies.deref s i = .ok ((rootOf i x).1, mem, v) ∧ v.dims = x.dims ∧ ValidShape v.dims ∧
      0 ≤ v.off ∧ v.off + v.dims.prod ≤ mem.length ∧
      m[(rootOf i x).1]? = some (.array dr fr) ∧ s[(rootOf i x).1]? = some (.array dr mem) ∧ ValidShape dr ∧
      (mem.length : Int) = dr.prod ∧
      (∀ idx, InBox dr idx → CArray.load mem (rowMajor dr idx) = .ok (fr idx)) ∧
      ∀ idx, InBox v.dims idx →
        InBox dr ((rootOf i x).2 ++ idx) ∧ v.off + rowMajor v.dims idx = rowMajor dr ((rootOf i x).2 ++ idx) := by
  obtain ⟨y, hy, hxy⟩ := holds_some h hx
  cases x with
  | array d f =>
    cases y with
    | view t v => exact hxy.elim
    | array e mem =>
      obtain ⟨rfl, hv, hlen, hload⟩ := hxy
      refine ⟨mem, CArray.whole e, e, f, ?_, rfl, hv, le_rfl, ?_, hx, hy, hv, hlen, hload, fun idx hi => ⟨hi, ?_⟩⟩
      · simp only [Copies.deref, hy, rootOf]
      · show 0 + e.prod ≤ _
        omega
      · show 0 + rowMajor e idx = _
        rw [zero_add]; rfl
  | view r d pre =>
    cases y with
    | array e mem => exact hxy.elim
    | view t v =>
      obtain ⟨rfl, rfl, hv, dr, ⟨fr, hfr⟩, h0, h1, h2⟩ := hxy
      obtain ⟨z, hz, hrz⟩ := holds_some h hfr
      cases z with
      | view t' v' => exact hrz.elim
      | array e mem =>
        obtain ⟨rfl, hv', hlen, hload⟩ := hrz
        refine ⟨mem, v, e, fr, ?_, rfl, hv, h0, by omega, hfr, hz, hv', hlen, hload, h2⟩
        simp only [Copies.deref, hy, hz, rootOf]

theorem take_drop_inBox {d pre post : List Int} (h : InBox (d.take pre.length) pre)
    (h' : InBox (d.drop pre.length) post) : InBox d (pre ++ post) := by
  have := List.rel_append h h'
  simp only [List.take_append_drop] at this
  exact this

theorem copies_slice_ok (cfg : Config) {len : Nat} {v : View} (hs : ValidShape v.dims) (h0 : 0 ≤ v.off)
    (h1 : v.off + v.dims.prod ≤ len) {pre : List Int} (hlt : pre.length < v.dims.length)
    (hin : InBox (v.dims.take pre.length) pre) :
    ∃ w, CArray.bracketChain cfg len (.sub v) pre = .ok (.sub w) ∧ w.dims = v.dims.drop pre.length ∧ ValidShape w.dims ∧
      0 ≤ w.off ∧ w.off + w.dims.prod ≤ v.off + v.dims.prod ∧
      ∀ idx, InBox w.dims idx → InBox v.dims (pre ++ idx) ∧ w.off + rowMajor w.dims idx = v.off + rowMajor v.dims (pre ++ idx) := by
  have hpos : ∀ d ∈ v.dims.drop pre.length, 0 < d := fun d hd => hs.2.1 d (List.mem_of_mem_drop hd)
  have hne : v.dims.drop pre.length ≠ [] := by
    intro hc
    have := congrArg List.length hc
    simp at this; omega
  obtain ⟨z, hz, -⟩ := rowMajor_surj hpos (k := 0) le_rfl (prod_pos_of hpos)
  have hzne : z ≠ [] := by
    rintro rfl
    exact hne (by simpa [InBox] using hz)
  obtain ⟨p, hc, hv, hfit, -, -⟩ := bracketChain_prefix cfg (len := len) (dims := v.dims) (off := v.off) hs ⟨h0, h1⟩ hzne
    (take_drop_inBox hin hz)
  obtain ⟨w, hw, hd, hlo, hhi, -⟩ := (C03_brackets_eq_parens cfg v len hs h0 h1).2 pre z hzne (take_drop_inBox hin hz)
  have hwv : ValidShape w.dims := by rw [hd]; exact hv
  refine ⟨w, hw, hd, hwv, h0.trans hlo, hhi, fun idx hidx => ?_⟩
  rw [hd] at hidx ⊢
  have hbox := take_drop_inBox hin hidx
  have hine : idx ≠ [] := by
    rintro rfl
    exact hne (by simpa [InBox] using hidx)
  obtain ⟨p', hc', -, -, -, heq⟩ :=
    bracketChain_prefix cfg (len := len) (dims := v.dims) (off := v.off) hs ⟨h0, h1⟩ hine hbox
  refine ⟨hbox, ?_⟩
  rw [show CArray.bracketChain cfg len (.sub ⟨v.dims, v.off⟩) pre = .ok (.sub w) from hw] at hc'
  cases hc'
  exact heq

theorem copies_write_ok (cfg : Config) {m m' : List (Meaning R)} {s : List (Copies.Var R)} (h : Holds m s) {i : Nat}
    {x : Meaning R} (hx : m[i]? = some x) {w : Assign R} (hin : InBox x.dims w.idx)
    (hm : setElement m (rootOf i x).1 ((rootOf i x).2 ++ w.idx) w.val = some m') (zero : R) :
    ∃ s', Copies.step cfg zero s (.write i w) = .ok s' ∧ Holds m' s' := by
  obtain ⟨mem, v, dr, fr, hd, hdims, hv, h0, h1, hmr, hsr, hvr, hlen, hload, haddr⟩ := copies_deref_ok h hx
  rw [← hdims] at hin
  obtain ⟨hbox, hadd⟩ := haddr _ hin
  have hb := rowMajor_bounds hin
  simp only [setElement, hmr] at hm
  cases hm
  refine ⟨s.set (rootOf i x).1 (.array dr (mem.set (v.off + rowMajor v.dims w.idx).toNat w.val)), ?_, ?_⟩
  · simp only [Copies.step, hd, Res.ok_bind, assign_eq cfg hv ⟨h0, h1⟩ hin, Copies.setBuffer, hsr]
  · refine holds_set h hmr hvr (by simpa using hlen) fun idx hidx => ?_
    rw [load_set (by omega) (by omega) (rowMajor_bounds hidx).1, hadd]
    by_cases he : idx = (rootOf i x).2 ++ w.idx
    · rw [if_pos he, if_pos (by rw [he])]
    · rw [if_neg he, if_neg fun hc => he (rowMajor_inj hidx hbox hc.symm)]
      exact hload idx hidx

theorem copies_step_ok (cfg : Config) (zero : R) {m m' : List (Meaning R)} {s : List (Copies.Var R)} (h : Holds m s)
    {st : Stmt R} (hm : meaning zero m st = some m') : ∃ s', Copies.step cfg zero s st = .ok s' ∧ Holds m' s' := by
  cases st with
  | declare d args =>
    simp only [meaning] at hm
    split_ifs at hm with hc
    cases hm
    obtain ⟨mem, h1, h2, h3⟩ := (C08_list_init cfg zero d hc.1 args).2 hc.2
    refine ⟨s ++ [.array d mem], by simp only [Copies.step, h1, Res.ok_bind], ?_⟩
    refine holds_push h (x := .array d _) (y := .array d mem) ⟨rfl, hc.1, h2, fun idx hi => ?_⟩
    rw [← h3 idx hi, read_eq cfg (v := CArray.whole d) hc.1 ⟨le_rfl, by show 0 + d.prod ≤ _; omega⟩ hi]
    show _ = CArray.load mem (0 + rowMajor d idx)
    rw [zero_add]
  | copy i =>
    simp only [meaning, Option.map_eq_some_iff] at hm
    obtain ⟨x, hx, rfl⟩ := hm
    obtain ⟨y, hy, hxy⟩ := holds_some h hx
    refine ⟨s ++ [y], ?_, holds_push h hxy⟩
    cases y <;> simp only [Copies.step, hy]
  | slice i pre =>
    simp only [meaning] at hm
    cases hx : m[i]? with
    | none => rw [hx] at hm; simp at hm
    | some x =>
      rw [hx] at hm
      simp only at hm
      split_ifs at hm with hc
      obtain ⟨-, hlt, hin⟩ := hc
      obtain ⟨mem, v, dr, fr, hd, hdims, hv, h0, h1, hmr, hsr, hvr, hlen, hload, haddr⟩ := copies_deref_ok h hx
      rw [← hdims] at hlt hin
      obtain ⟨w, hw, hwd, hwv, hw0, hw1, hwa⟩ := copies_slice_ok cfg hv h0 h1 hlt hin
      refine ⟨s ++ [.view (rootOf i x).1 w], ?_, ?_⟩
      · simp only [Copies.step, hd, Res.ok_bind, hw]
      · have hm' : m' = m ++ [.view (rootOf i x).1 w.dims ((rootOf i x).2 ++ pre)] := by
          rw [hwd, hdims]
          cases x <;> simp only [Option.some.injEq] at hm <;> subst hm <;> rfl
        rw [hm']
        refine holds_push h (y := .view (rootOf i x).1 w) ⟨rfl, rfl, hwv, dr, ⟨fr, hmr⟩, hw0, by omega, fun idx hidx => ?_⟩
        obtain ⟨ha, hb⟩ := hwa idx hidx
        obtain ⟨hc, hd'⟩ := haddr _ ha
        rw [List.append_assoc]
        exact ⟨hc, by rw [hb, hd']⟩
  | view i =>
    simp only [meaning] at hm
    cases hx : m[i]? with
    | none => rw [hx] at hm; simp at hm
    | some x =>
      rw [hx] at hm
      cases x with
      | view r d pre => simp at hm
      | array d f =>
        simp only [Option.some.injEq] at hm
        subst hm
        obtain ⟨y, hy, hxy⟩ := holds_some h hx
        cases y with
        | view t v => exact hxy.elim
        | array e mem =>
          obtain ⟨rfl, hv, hlen, hload⟩ := hxy
          have hvw : CArrayTypes.viewOfArray false false e mem.length = .ok ⟨e, 0⟩ := by
            simp only [CArrayTypes.viewOfArray, size_ok hv.1 hv.2.1 hv.2.2, Res.constexpr_ok, Res.ok_bind,
              staticAssert_true (prod_pos_of hv.2.1), hlen, if_true]
            rfl
          refine ⟨s ++ [.view i ⟨e, 0⟩], by simp only [Copies.step, hy, hvw, Res.ok_bind], ?_⟩
          refine holds_push h (y := .view i ⟨e, 0⟩) ⟨rfl, rfl, hv, e, ⟨f, hx⟩, le_rfl, by simp, fun idx hi => ⟨hi, by simp⟩⟩
  | assign i j =>
    simp only [meaning] at hm
    cases hx : m[i]? with
    | none => rw [hx] at hm; simp at hm
    | some x =>
      cases hz : m[j]? with
      | none => rw [hx, hz] at hm; cases x <;> simp at hm
      | some z =>
        rw [hx, hz] at hm
        cases x with
        | view r d pre => simp at hm
        | array d f =>
          cases z with
          | view r d pre => simp at hm
          | array e g =>
            simp only at hm
            split_ifs at hm with hde
            subst hde
            cases hm
            obtain ⟨y, hy, hxy⟩ := holds_some h hx
            obtain ⟨u, hu, hzu⟩ := holds_some h hz
            cases y with
            | view t v => exact hxy.elim
            | array e mem =>
              cases u with
              | view t v => exact hzu.elim
              | array e' mem' =>
                obtain ⟨rfl, hv, -, -⟩ := hxy
                obtain ⟨rfl, -, hlen, hload⟩ := hzu
                refine ⟨s.set i (.array e' mem'), ?_, holds_set h hx hv hlen hload⟩
                simp only [Copies.step, hy, hu, if_true, Copies.setBuffer]
  | write i w =>
    simp only [meaning] at hm
    cases hx : m[i]? with
    | none => rw [hx] at hm; simp at hm
    | some x =>
      rw [hx] at hm
      cases x with
      | array d f =>
        simp only at hm
        split_ifs at hm with hin
        exact copies_write_ok cfg h hx hin hm zero
      | view r d pre =>
        simp only at hm
        split_ifs at hm with hin
        exact copies_write_ok cfg h hx hin hm zero

theorem copies_run_ok (cfg : Config) (zero : R) (prog : List (Stmt R)) {m m' : List (Meaning R)}
    {s : List (Copies.Var R)} (h : Holds m s) (hm : meanings zero m prog = some m') :
    ∃ s', Copies.run cfg zero s prog = .ok s' ∧ Holds m' s' := by
  induction prog generalizing m s with
  | nil => cases hm; exact ⟨s, rfl, h⟩
  | cons st prog ih =>
    obtain ⟨m1, h1, h2⟩ := Option.bind_eq_some_iff.1 hm
    obtain ⟨s1, h3, h4⟩ := copies_step_ok cfg zero h h1
    obtain ⟨s', h5, h6⟩ := ih h4 h2
    exact ⟨s', by simp only [Copies.run, h3, Res.ok_bind, h5], h6⟩

/-- Reading an element through any name, in either notation. -/
theorem copies_read_ok (cfg : Config) {m : List (Meaning R)} {s : List (Copies.Var R)} (h : Holds m s) (i : Nat)
    (style : Style) (idx : List Int) (x : R) (hval : valueOf m i idx = some x) :
    Copies.readVar cfg s i style idx = .ok x := by
  cases hx : m[i]? with
  | none => simp only [valueOf, hx] at hval; cases hval
  | some y =>
    obtain ⟨mem, v, dr, fr, hd, hdims, hv, h0, h1', hmr, -, -, -, hload, haddr⟩ := copies_deref_ok h hx
    have hin : InBox v.dims idx ∧ x = fr ((rootOf i y).2 ++ idx) := by
      simp only [valueOf, hx] at hval
      rw [hdims]
      cases y with
      | array d f =>
        simp only [rootOf, hx, Option.some.injEq, Meaning.array.injEq] at hmr
        simp only at hval
        split_ifs at hval with hb
        cases hval
        exact ⟨hb, by rw [hmr.2]; rfl⟩
      | view r d pre =>
        simp only [rootOf] at hmr
        simp only [hmr] at hval
        split_ifs at hval with hb
        cases hval
        exact ⟨hb, rfl⟩
    obtain ⟨hbox, hadd⟩ := haddr idx hin.1
    have hl : CArray.load mem (v.off + rowMajor v.dims idx) = .ok x := by rw [hadd, hin.2]; exact hload _ hbox
    cases style
    · simp only [Copies.readVar, hd, Res.ok_bind, read_eq cfg hv ⟨h0, h1'⟩ hin.1, hl]
    · simp only [Copies.readVar, hd, Res.ok_bind, readBracket_eq cfg hv ⟨h0, h1'⟩ hin.1, hl]

/-- **C93.** A program that declares arrays, copies them, takes views and slices of them, assigns arrays to each other and
writes elements through any of these names, runs without error, and every element read through any name has the value
that the program means: copies of arrays are independent, views and their copies are other names for the elements. -/
theorem C93_values (cfg : Config) (zero : R) (prog : List (Stmt R)) (m : List (Meaning R))
    (h : meanings zero [] prog = some m) :
    ∃ s, Copies.run cfg zero [] prog = .ok s ∧ s.length = m.length ∧
      ∀ i style idx x, valueOf m i idx = some x → Copies.readVar cfg s i style idx = .ok x := by
  obtain ⟨s, h1, h2⟩ := copies_run_ok cfg zero prog (m := []) (s := []) ⟨rfl, fun i x y hx => by simp at hx⟩ h
  exact ⟨s, h1, h2.1.symm, copies_read_ok cfg h2⟩

/-- **C93, assignment.** `x = y` compiles only between arrays of equal dimensions: a view cannot be assigned to, nor to an
array. -/
theorem C93_assignment (cfg : Config) (zero : R) (s s' : List (Copies.Var R)) (i j : Nat)
    (h : Copies.step cfg zero s (.assign i j) = .ok s') :
    ∃ d mem mem', s[i]? = some (.array d mem) ∧ s[j]? = some (.array d mem') := by
  cases hi : s[i]? with
  | none => simp only [Copies.step, hi] at h; cases h
  | some x =>
    cases x with
    | view t v => simp only [Copies.step, hi] at h; cases h
    | array d mem =>
      cases hj : s[j]? with
      | none => simp only [Copies.step, hi, hj] at h; cases h
      | some y =>
        cases y with
        | view t v => simp only [Copies.step, hi, hj] at h; cases h
        | array e mem' =>
          simp only [Copies.step, hi, hj] at h
          split_ifs at h with hde
          subst hde
          exact ⟨d, mem, mem', rfl, rfl⟩

/-- Non-vacuity of C93: variable 0 is an array, 1 a copy of it, 2 a slice of variable 0, 3 a copy of that slice.  Writing
through the copied slice changes the array but not its copy; assigning the copy back changes what the slice shows. -/
private def sample : List (Stmt Int) :=
  [.declare [2, 3] [1, 2, 3, 4, 5, 6], .copy 0, .slice 0 [1], .copy 2, .write 3 ⟨.bracket, [2], 60⟩]

example : ∃ m, meanings (0 : Int) [] sample = some m ∧ valueOf m 0 [1, 2] = some 60 ∧ valueOf m 1 [1, 2] = some 6 ∧
    valueOf m 2 [2] = some 60 := by
  have hs : ValidShape [2, 3] := ⟨by decide, by decide, by decide⟩
  refine ⟨_, by simp [sample, meanings, meaning, hs, Meaning.dims, InBox, setElement]; rfl, ?_, ?_, ?_⟩ <;>
    simp [valueOf, InBox, rowMajor, List.range_succ]

example (cfg : Config) : ∃ s, Copies.run cfg (0 : Int) [] (sample ++ [.assign 0 1]) = .ok s ∧
    Copies.readVar cfg s 2 .paren [2] = .ok 6 := by
  have hs : ValidShape [2, 3] := ⟨by decide, by decide, by decide⟩
  obtain ⟨s, h1, -, h2⟩ := C93_values cfg (0 : Int) (sample ++ [.assign 0 1]) _
    (by simp [sample, meanings, meaning, hs, Meaning.dims, InBox, setElement]; rfl)
  exact ⟨s, h1, h2 2 .paren [2] 6 (by simp [valueOf, InBox, rowMajor, List.range_succ])⟩

end Verif.Props
