import Verif.Model.IndexConversion
import Verif.Lemmas.CArrayAccess

/-! # Supporting lemmas: integer conversions of array indices -/

namespace Verif.Lemmas

open Verif.Spec Verif.IndexConversion

theorem convert_id {t : CType} {x : Int} (h0 : t.min ≤ x) (h1 : x ≤ t.max) : t.convert x = x := by
  rw [CType.convert, Int.emod_eq_of_lt (by omega) (by omega)]; omega

theorem withInt_bounds (t : CType) : t.withInt.min ≤ 0 ∧ 2147483647 ≤ t.withInt.max := by
  cases t <;> decide

theorem withInt_convert_nonneg (t : CType) {x : Int} (h0 : 0 ≤ x) (h1 : x ≤ 2147483647) :
    t.withInt.convert x = x := by
  have := withInt_bounds t
  exact convert_id (by omega) (by omega)

theorem withInt_arith_nonneg (t : CType) {x : Int} (h0 : 0 ≤ x) (h1 : x ≤ 2147483647) :
    t.withInt.arith x = .ok x := by
  have := withInt_bounds t
  rw [CType.arith, if_pos (by omega)]

theorem i32_convert {x : Int} (h : IsInt x) : CType.i32.convert x = x := convert_id h.1 h.2

/-- The usual arithmetic conversions preserve the value of the index. -/
theorem withInt_convert_valid {i : Index} (h : i.Valid) : i.ty.withInt.convert i.val = i.val := by
  obtain ⟨t, x⟩ := i
  obtain ⟨h0, h1⟩ := h
  simp only at h0 h1
  apply convert_id
  · refine le_trans ?_ h0
    show t.withInt.min ≤ t.min
    clear h0 h1; cases t <;> decide
  · refine le_trans h1 ?_
    show t.max ≤ t.withInt.max
    clear h0 h1; cases t <;> decide

theorem boundsAssertTyped_eq (cfg : Config) {i : Index} (hi : i.Valid) {d : Int} (h0 : 0 ≤ d)
    (h1 : d ≤ 2147483647) : boundsAssertTyped cfg i d = boundsAssert cfg i.val d := by
  simp only [boundsAssertTyped, boundsAssert, withInt_convert_valid hi,
    withInt_convert_nonneg i.ty h0 h1, withInt_convert_nonneg i.ty le_rfl (by norm_num)]

/-- In-range tuples: the index types make no difference. -/
theorem levelTyped_ok (cfg : Config) {dims : List Int} {idx : List Index} (hne : dims ≠ [])
    (hv : ∀ i ∈ idx, i.Valid) (h : InBox dims (idx.map Index.val)) (hb : dims.prod ≤ 2147483647) :
    levelTyped cfg dims idx = .ok (rowMajor dims (idx.map Index.val)) := by
  induction dims generalizing idx with
  | nil => simp at hne
  | cons d ds ih =>
    cases idx with
    | nil => simp at h
    | cons i is =>
      rw [List.map_cons] at h
      have hpos := inBox_pos h
      obtain ⟨⟨h0, h1⟩, h2⟩ := inBox_cons.1 h
      have hp' : ∀ x ∈ ds, 0 < x := fun x hx => hpos x (by simp [hx])
      have hle := prod_le_cons hpos
      have hds := prod_pos_of hp'
      have hdp : d ≤ (d :: ds).prod := by
        rw [List.prod_cons]; nlinarith [hpos d (by simp)]
      have hbnd := rowMajor_bounds h
      have hbnd2 := rowMajor_bounds h2
      have hi := hv i (by simp)
      have hif : boundsAssertTyped cfg i d = .ok () := by
        rw [boundsAssertTyped_eq cfg hi (by omega) (by omega)]
        exact boundsAssert_true cfg ⟨h0, h1⟩
      rw [List.map_cons]
      rw [rowMajor_cons] at hbnd ⊢
      have hm : 0 ≤ i.val * ds.prod := by positivity
      have hs := strideHelper_ok hp' (by linarith)
      cases ds with
      | nil =>
        simp only [levelTyped, hif, Res.ok_bind]
        simp only [List.prod_nil] at hs
        simp at hbnd hb hm
        rw [hs]
        simp only [Res.constexpr_ok, Res.ok_bind, withInt_convert_valid hi,
          withInt_convert_nonneg i.ty (x := 1) (by norm_num) (by norm_num), mul_one]
        rw [withInt_arith_nonneg i.ty (by omega) (by omega)]
        simp only [Res.ok_bind]
        rw [i32_convert ⟨by omega, by omega⟩]
        simp
      | cons e es =>
        simp only [levelTyped, hif, Res.ok_bind, hs, Res.constexpr_ok, withInt_convert_valid hi]
        rw [withInt_convert_nonneg i.ty (x := (e :: es).prod) (by omega) (by omega),
          withInt_arith_nonneg i.ty hm (by omega)]
        simp only [Res.ok_bind]
        rw [ih (by simp) (fun j hj => hv j (by simp [hj])) h2 (by linarith)]
        simp only [Res.ok_bind]
        rw [withInt_convert_nonneg i.ty (by omega) (by omega),
          withInt_arith_nonneg i.ty (by omega) (by omega)]
        simp only [Res.ok_bind]
        rw [i32_convert ⟨by omega, by omega⟩]

/-- Out-of-range tuples are caught by the check of `operator()` whatever the index types. -/
theorem levelTyped_abort {cfg : Config} (hb : cfg.boundsCheck = true) (hc : cfg.constEval = false)
    (hd : cfg.device = false) {dims : List Int} {idx : List Index} (hs : ValidShape dims)
    (hv : ∀ i ∈ idx, i.Valid) (hl : idx.length = dims.length)
    (h : ¬ InBox dims (idx.map Index.val)) :
    levelTyped cfg dims idx = .abort := by
  induction dims generalizing idx with
  | nil => exact absurd rfl hs.1
  | cons d ds ih =>
    cases idx with
    | nil => simp at hl
    | cons i is =>
      have hiv := hv i (by simp)
      have hdp : 0 < d ∧ d ≤ 2147483647 := by
        have h1 := hs.2.1 d (by simp)
        have h2 := prod_pos_of (dims := ds) fun x hx => hs.2.1 x (by simp [hx])
        have h3 := hs.2.2
        rw [List.prod_cons] at h3
        exact ⟨h1, by nlinarith⟩
      have hba := boundsAssertTyped_eq cfg hiv hdp.1.le hdp.2
      by_cases hi : 0 ≤ i.val ∧ i.val < d
      · cases ds with
        | nil =>
          exfalso; apply h
          simp at hl; subst hl
          simp [InBox, hi]
        | cons e es =>
          have ht := validShape_tail hs
          have hp := prod_pos_of ht.2.1
          have hle := hs.2.2
          rw [List.prod_cons] at hle
          have hs' := strideHelper_ok ht.2.1 ht.2.2
          have := ih ht (fun j hj => hv j (by simp [hj])) (by simpa using hl)
            (fun h2 => h (inBox_cons.2 ⟨hi, h2⟩))
          simp only [levelTyped, hba, boundsAssert_true cfg hi, Res.ok_bind, hs', Res.constexpr_ok,
            withInt_convert_valid hiv]
          rw [withInt_convert_nonneg i.ty (x := (e :: es).prod) (by omega) ht.2.2,
            withInt_arith_nonneg i.ty (by obtain ⟨h0, h1⟩ := hi; nlinarith)
              (by obtain ⟨h0, h1⟩ := hi; nlinarith)]
          simp only [Res.ok_bind]
          rw [this]; rfl
      · simp only [levelTyped, hba, boundsAssert_abort hb hc hd hi, Res.abort_bind]

end Verif.Lemmas
