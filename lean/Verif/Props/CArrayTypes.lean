import Verif.Model.CArrayTypes
import Verif.Lemmas.CArrayAccess

/-! # Properties C70–C72: const-correctness, views of built-in arrays, the array aliases -/

namespace Verif.Props

open Verif.Spec Verif.Lemmas Verif.CArrayTypes

/-- An invariant of all steps: elements stay const. -/
theorem path_elemConst (ss : List Step) :
    ∀ a : ArrTy, a.elemConst = true → path (.arr a) ss ≠ some (.elem false) := by
  induction ss with
  | nil => intro a _ h; simp [path] at h
  | cons s ss ih =>
    intro a ha h
    have helem : ∀ b : Bool, b = true → path (.elem b) ss ≠ some (.elem false) := by
      rintro b rfl
      cases ss <;> simp [path, step]
    cases s with
    | paren =>
      simp only [path, step, parenTy] at h
      split at h
      · refine helem _ ?_ h; simp [ha]
      · simp at h
    | bracket =>
      simp only [path, step, bracketTy] at h
      split at h
      · split at h
        · simp at h
        · refine helem _ ?_ h; simp [ha]
        · refine ih _ ?_ h; simp [ha]
      · simp at h
    | bindConst => exact ih { a with objConst := true } ha h
    | copy =>
      simp only [path, step] at h
      split at h
      · exact ih { a with objConst := false } ha h
      · simp at h
    | data =>
      simp only [path, step, dataTy] at h
      split at h
      all_goals (refine helem _ ?_ h; simp [ha])

/-- An invariant for const owning arrays: they stay const, or become views of const elements. -/
theorem path_constOwned (ss : List Step) :
    ∀ a : ArrTy, a.objConst = true → a.buffer ≠ .pointer → path (.arr a) ss ≠ some (.elem false) := by
  induction ss with
  | nil => intro a _ _ h; simp [path] at h
  | cons s ss ih =>
    intro a ha hb h
    have helem : ∀ b : Bool, b = true → path (.elem b) ss ≠ some (.elem false) := by
      rintro b rfl
      cases ss <;> simp [path, step]
    cases s with
    | paren =>
      simp only [path, step, parenTy] at h
      split at h
      · refine helem _ ?_ h; simp [ha]
      · simp at h
    | bracket =>
      simp only [path, step, bracketTy] at h
      split at h
      · split at h
        · simp at h
        · refine helem _ ?_ h; simp [ha]
        · refine path_elemConst ss _ ?_ h; simp [ha]
      · simp at h
    | bindConst => exact ih { a with objConst := true } rfl hb h
    | copy =>
      simp only [path, step, if_neg hb] at h
      simp at h
    | data =>
      simp only [path, step, dataTy] at h
      split at h
      · refine helem _ ?_ h; simp [ha]
      · refine helem _ ?_ h; simp [ha]
      · exact absurd (by assumption) hb

/-- An invariant of the access operators: a const array, or one of const elements, stays so. -/
theorem path_operators (ss : List Step) (hss : ∀ s ∈ ss, s ≠ .copy ∧ s ≠ .data) :
    ∀ a : ArrTy, a.objConst = true ∨ a.elemConst = true → path (.arr a) ss ≠ some (.elem false) := by
  induction ss with
  | nil => intro a _ h; simp [path] at h
  | cons s ss ih =>
    intro a ha h
    have ih := ih fun s hs => hss s (by simp [hs])
    have helem : ∀ b : Bool, b = true → path (.elem b) ss ≠ some (.elem false) := by
      rintro b rfl
      cases ss <;> simp [path, step]
    have hc : (if a.objConst then true else a.elemConst) = true := by
      rcases ha with h | h <;> simp [h]
    cases s with
    | paren =>
      simp only [path, step, parenTy] at h
      split at h
      · exact helem _ hc h
      · simp at h
    | bracket =>
      simp only [path, step, bracketTy] at h
      split at h
      · split at h
        · simp at h
        · exact helem _ hc h
        · exact path_elemConst ss _ hc h
      · simp at h
    | bindConst => exact ih { a with objConst := true } (.inl rfl) h
    | copy => exact absurd rfl (hss .copy (by simp)).1
    | data => exact absurd rfl (hss .data (by simp)).2

theorem path_brackets (n : Nat) :
    ∀ a : ArrTy, a.rank = n + 1 → a.buffer ≠ .value → a.objConst = false → a.elemConst = false →
      path (.arr a) (List.replicate (n + 1) .bracket) = some (.elem false) := by
  induction n with
  | zero =>
    rintro ⟨b, ec, oc, r⟩ hr hb ho he
    simp only at hr hb ho he
    subst hr ho he
    cases b <;> simp_all [path, step, bracketTy, Buffer.subscriptable]
  | succ n ih =>
    rintro ⟨b, ec, oc, r⟩ hr hb ho he
    simp only at hr hb ho he
    subst hr ho he
    have := ih ⟨.pointer, false, false, n + 1⟩ rfl (by simp) rfl rfl
    rw [List.replicate_succ, path]
    cases b <;> simp_all [step, bracketTy, Buffer.subscriptable]

/-- **C70.** No sequence of accesses, slices, bindings, copies of slices and uses of `data()` that starts
at a const array, or at an array or view whose elements are const, ends at an assignable element.  A
const view of non-const elements is not assignable through the access operators.  Conversely an element
of a non-const array or view of non-const elements can be assigned through `()` and through `[]..[]`. -/
theorem C70_const_correct (rank : Nat) :
    (∀ ss, path (.arr (carrayNd false true rank)) ss ≠ some (.elem false)) ∧
    (∀ ss oc, path (.arr (carrayNd true oc rank)) ss ≠ some (.elem false)) ∧
    (∀ ss oc, path (.arr (carrayViewNd true oc rank)) ss ≠ some (.elem false)) ∧
    (∀ ss, (∀ s ∈ ss, s ≠ .copy ∧ s ≠ .data) →
      path (.arr (carrayViewNd false true rank)) ss ≠ some (.elem false)) ∧
    (0 < rank → ∀ a ∈ [carrayNd false false rank, carrayViewNd false false rank],
      path (.arr a) [.paren] = some (.elem false) ∧
      path (.arr a) (List.replicate rank .bracket) = some (.elem false)) := by
  refine ⟨fun ss => path_constOwned ss _ rfl (by simp [carrayNd]), fun ss oc => path_elemConst ss _ rfl,
    fun ss oc => path_elemConst ss _ rfl, fun ss h => path_operators ss h _ (.inl rfl), ?_⟩
  intro hr a ha
  obtain ⟨n, rfl⟩ : ∃ n, rank = n + 1 := ⟨rank - 1, by omega⟩
  have hb : a.rank = n + 1 ∧ a.buffer ≠ .value ∧ a.objConst = false ∧ a.elemConst = false := by
    simp only [List.mem_cons, List.not_mem_nil, or_false] at ha
    rcases ha with rfl | rfl <;> simp [carrayNd, carrayViewNd]
  refine ⟨?_, path_brackets n a hb.1 hb.2.1 hb.2.2.1 hb.2.2.2⟩
  simp only [List.mem_cons, List.not_mem_nil, or_false] at ha
  rcases ha with rfl | rfl <;> rfl

/-- What the fourth clause of C70 leaves out: a const view can be modified through `data()` or through a
copy of the view, as with a const pointer. -/
theorem C70_const_view_is_shallow (rank : Nat) :
    path (.arr (carrayViewNd false true rank)) [.data] = some (.elem false) ∧
    path (.arr (carrayViewNd false true rank)) [.copy, .paren] = some (.elem false) := by
  constructor <;> rfl

/-- Non-vacuity of C70: `a[i][j]` and `a[i](j,k)` on a const 3-dimensional array compile and give const
elements; slices of a non-const one are assignable. -/
example : path (.arr (carrayNd false true 3)) [.bracket, .bracket, .bracket] = some (.elem true) ∧
    path (.arr (carrayNd false true 3)) [.bracket, .copy, .paren] = some (.elem true) ∧
    path (.arr (carrayNd false false 3)) [.bracket, .bindConst, .copy, .bracket, .paren]
      = some (.elem false) := by
  refine ⟨rfl, rfl, rfl⟩

/-- **C71 fails.** A 2x3x4 view of a built-in array of 10 elements compiles, and with bounds checking
enabled reading its in-range element (1,2,3) is an access outside that array. -/
theorem C71_view_size_violated :
    ∃ (dims : List Int) (mem : List Int) (v : View) (idx : List Int),
      ValidShape dims ∧ (mem.length : Int) ≠ dims.prod ∧
      viewOfArray false false dims mem.length = .ok v ∧ InBox dims idx ∧
      CArray.read checkedHost mem v idx = .ub :=
  ⟨[2, 3, 4], [0, 1, 2, 3, 4, 5, 6, 7, 8, 9], ⟨[2, 3, 4], 0⟩, [1, 2, 3],
    ⟨by simp, by simp, by simp⟩, by decide, by decide, by decide, by decide +kernel⟩

/-- **C71, part that holds.** A view of a built-in array of any length compiles unless it would drop a
const; its element `idx` is element number `rowMajor dims idx` of that array when there is one, and
reading it is undefined otherwise.  So all accesses are defined exactly when the array has at least as
many elements as the view.  Missing: rejection of arrays of another length. -/
theorem C71_view_partial {R : Type} (cfg : Config) (viewConst bufConst : Bool) (dims : List Int)
    (hs : ValidShape dims) (mem : List R) :
    ((bufConst = true ∧ viewConst = false) →
      viewOfArray viewConst bufConst dims mem.length = .illFormed) ∧
    (¬ (bufConst = true ∧ viewConst = false) →
      ∃ v, viewOfArray viewConst bufConst dims mem.length = .ok v ∧ v.dims = dims ∧
        (∀ idx, InBox dims idx → ∀ k : Nat, rowMajor dims idx = k →
          CArray.read cfg mem v idx
            = match mem[k]? with
              | some x => .ok x
              | none => .ub) ∧
        ((∀ idx, InBox dims idx → (CArray.read cfg mem v idx).IsOk) ↔ dims.prod ≤ mem.length)) := by
  have hpp := prod_pos_of hs.2.1
  have hsz := size_ok hs.1 hs.2.1 hs.2.2
  constructor
  · rintro ⟨rfl, rfl⟩
    simp only [viewOfArray, hsz, Res.constexpr_ok, Res.ok_bind, staticAssert_true hpp]
    split
    · rfl
    · rfl
  · intro hc
    have hv : viewOfArray viewConst bufConst dims mem.length = .ok ⟨dims, 0⟩ := by
      simp only [viewOfArray, hsz, Res.constexpr_ok, Res.ok_bind, staticAssert_true hpp]
      cases viewConst <;> cases bufConst <;> simp_all [Res.staticAssert]
    have hread : ∀ idx, InBox dims idx → ∀ k : Nat, rowMajor dims idx = k →
        CArray.read cfg mem ⟨dims, 0⟩ idx
          = match mem[k]? with
            | some x => .ok x
            | none => .ub := by
      intro idx hi k hk
      have hl : idx.length = (⟨dims, 0⟩ : View).dims.length := inBox_length hi
      have he : CArrayHelper.evalRT cfg dims idx = .ok (rowMajor dims idx) :=
        levelRT_ok cfg hs.1 hi hs.2.2
      simp only [CArray.read, CArray.parenRT, staticAssert_true hl, Res.ok_bind, he, hk,
        CArray.element, zero_add]
      by_cases hlt : k < mem.length
      · rw [if_pos ⟨by omega, by omega⟩]
        simp only [Res.ok_bind, CArray.load]
        rw [dif_pos ⟨by omega, by omega⟩]
        simp [hlt]
      · rw [if_neg (by omega)]
        simp [List.getElem?_eq_none (not_lt.1 hlt)]
    refine ⟨⟨dims, 0⟩, hv, rfl, hread, ?_, ?_⟩
    · intro hall
      by_contra hlt
      obtain ⟨idx, hb, hr⟩ := rowMajor_surj hs.2.1 (k := (mem.length : Int)) (by omega) (by omega)
      obtain ⟨x, hx⟩ := hall idx hb
      rw [hread idx hb mem.length hr, List.getElem?_eq_none le_rfl] at hx
      cases hx
    · intro hle idx hb
      have hbd := rowMajor_bounds hb
      obtain ⟨k, hk⟩ : ∃ k : Nat, rowMajor dims idx = k := ⟨(rowMajor dims idx).toNat, by omega⟩
      rw [hread idx hb k hk]
      have : k < mem.length := by omega
      simp only [List.getElem?_eq_getElem this]
      exact ⟨_, rfl⟩

/-- Non-vacuity of C71: the view of the unit tests, and a longer buffer. -/
example : ∃ v, viewOfArray false false [2, 3] 6 = .ok v ∧
    CArray.read checkedHost [10, 11, 12, 13, 14, 15] v [1, 2] = .ok 15 ∧
    viewOfArray false false [2, 3] 8 = .ok v ∧ viewOfArray false true [2, 3] 6 = .illFormed :=
  ⟨⟨[2, 3], 0⟩, by decide, by decide +kernel, by decide, by decide⟩

/-- **C72 fails** for `ScalarView`: no access operator of it compiles, const or not. -/
theorem C72_scalarView_violated (elemConst objConst : Bool) :
    step (.arr (scalarView elemConst objConst)) .paren = none ∧
    step (.arr (scalarView elemConst objConst)) .bracket = none := by
  constructor <;> rfl

/-- **C72, part that holds.** For `Scalar`, `CArrayNd` and `CArrayViewNd` of every rank, `a(..)` compiles,
and so does `a[i]` repeated as often as the rank, giving an element.  Missing: `ScalarView`. -/
theorem C72_aliases_partial (elemConst objConst : Bool) (n : Nat) :
    ∀ a ∈ [scalar elemConst objConst, carrayNd elemConst objConst (n + 1),
        carrayViewNd elemConst objConst (n + 1)],
      (∃ c, path (.arr a) [.paren] = some (.elem c)) ∧
      ∃ c, path (.arr a) (List.replicate a.rank .bracket) = some (.elem c) := by
  have key : ∀ (m : Nat) (a : ArrTy), a.rank = m + 1 → a.buffer ≠ .value →
      ∃ c, path (.arr a) (List.replicate (m + 1) .bracket) = some (.elem c) := by
    intro m
    induction m with
    | zero =>
      rintro ⟨b, ec, oc, r⟩ hr hb
      simp only at hr hb
      subst hr
      cases b <;> simp_all [path, step, bracketTy, Buffer.subscriptable]
    | succ m ih =>
      rintro ⟨b, ec, oc, r⟩ hr hb
      simp only at hr hb
      subst hr
      obtain ⟨c, hc⟩ := ih ⟨.pointer, if oc then true else ec, false, m + 1⟩ rfl (by simp)
      refine ⟨c, ?_⟩
      rw [List.replicate_succ, path]
      cases b <;> simp_all [step, bracketTy, Buffer.subscriptable]
  intro a ha
  have hb : ∃ m, a.rank = m + 1 ∧ a.buffer ≠ .value := by
    simp only [List.mem_cons, List.not_mem_nil, or_false] at ha
    rcases ha with rfl | rfl | rfl <;> simp [scalar, carrayNd, carrayViewNd]
  obtain ⟨m, hr, hb⟩ := hb
  constructor
  · refine ⟨if a.objConst then true else a.elemConst, ?_⟩
    have : a.buffer.subscriptable = true := by
      revert hb; cases a.buffer <;> simp [Buffer.subscriptable]
    simp [path, step, parenTy, this]
  · rw [hr]; exact key m a hr hb

/-- Non-vacuity of C72: a `Scalar` is read with `s(0)` and `s[0]`. -/
example : path (.arr (scalar false false)) [.paren] = some (.elem false) ∧
    path (.arr (scalar false true)) [.bracket] = some (.elem true) := ⟨rfl, rfl⟩

end Verif.Props
