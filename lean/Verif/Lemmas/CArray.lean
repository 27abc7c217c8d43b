import Mathlib.Tactic.Linarith
import Mathlib.Tactic.Ring
import Mathlib.Algebra.BigOperators.Group.List.Lemmas
import Mathlib.Algebra.Order.BigOperators.Group.List
import Mathlib.Data.Set.Function
import Verif.Model.CArray
import Verif.Spec.Box

/-! # Supporting lemmas for the array properties -/

namespace Verif.Lemmas

open Verif.Spec

theorem norm_ok {x : Int} (h : IsInt x) : int32.norm x = .ok x := by
  have : int32.InRange x := h
  simp [IntType.norm, this]

theorem norm_ub {x : Int} (h : ¬ IsInt x) : int32.norm x = .ub := by
  have : ¬ int32.InRange x := h
  simp [IntType.norm, this]

theorem imul_ok {a b : Int} (h : IsInt (a * b)) : imul a b = .ok (a * b) := norm_ok h
theorem iadd_ok {a b : Int} (h : IsInt (a + b)) : iadd a b = .ok (a + b) := norm_ok h

theorem staticAssert_true {p : Prop} [Decidable p] (h : p) : Res.staticAssert p = .ok () := by
  simp [Res.staticAssert, h]

theorem staticAssert_false {p : Prop} [Decidable p] (h : ¬ p) :
    Res.staticAssert p = .illFormed := by
  simp [Res.staticAssert, h]

theorem prod_pos_of {dims : List Int} (h : ∀ d ∈ dims, 0 < d) : 0 < dims.prod := by
  induction dims with
  | nil => simp
  | cons d ds ih =>
    rw [List.prod_cons]
    exact mul_pos (h d (by simp)) (ih fun x hx => h x (by simp [hx]))

theorem prod_le_cons {d : Int} {ds : List Int} (h : ∀ x ∈ d :: ds, 0 < x) :
    ds.prod ≤ (d :: ds).prod := by
  have hd : 0 < d := h d (by simp)
  have hp : 0 < ds.prod := prod_pos_of fun x hx => h x (by simp [hx])
  rw [List.prod_cons]; nlinarith

@[simp] theorem rowMajor_nil (idx : List Int) : rowMajor [] idx = 0 := by simp [rowMajor]

@[simp] theorem rowMajor_cons (d i : Int) (ds is : List Int) :
    rowMajor (d :: ds) (i :: is) = i * ds.prod + rowMajor ds is := by
  simp [rowMajor, List.range_succ_eq_map, Function.comp_def]

theorem inBox_length {dims idx : List Int} (h : InBox dims idx) : idx.length = dims.length :=
  List.Forall₂.length_eq h

theorem inBox_cons {d i : Int} {ds is : List Int} :
    InBox (d :: ds) (i :: is) ↔ (0 ≤ i ∧ i < d) ∧ InBox ds is := by
  simp [InBox]

@[simp] theorem inBox_nil_iff {idx : List Int} : InBox [] idx ↔ idx = [] := by
  simp [InBox]

@[simp] theorem not_inBox_cons_nil {d : Int} {ds : List Int} : ¬ InBox (d :: ds) [] := by
  simp [InBox]

theorem rowMajor_bounds {dims idx : List Int} (h : InBox dims idx) :
    0 ≤ rowMajor dims idx ∧ rowMajor dims idx < dims.prod := by
  induction dims generalizing idx with
  | nil => simp
  | cons d ds ih =>
    cases idx with
    | nil => simp at h
    | cons i is =>
      obtain ⟨⟨h0, h1⟩, h2⟩ := inBox_cons.1 h
      obtain ⟨h3, h4⟩ := ih h2
      rw [rowMajor_cons, List.prod_cons]
      constructor
      · have : 0 ≤ ds.prod := by linarith
        positivity
      · nlinarith

theorem inBox_pos {dims idx : List Int} (h : InBox dims idx) : ∀ d ∈ dims, 0 < d := by
  induction dims generalizing idx with
  | nil => simp
  | cons d ds ih =>
    cases idx with
    | nil => simp at h
    | cons i is =>
      obtain ⟨⟨h0, h1⟩, h2⟩ := inBox_cons.1 h
      intro x hx
      rcases List.mem_cons.1 hx with rfl | hx
      · omega
      · exact ih h2 x hx

theorem strideHelper_ok {ds : List Int} (hp : ∀ d ∈ ds, 0 < d) (hb : ds.prod ≤ 2147483647) :
    CArrayHelper.strideHelper (ds ++ [1]) = .ok ds.prod := by
  induction ds with
  | nil => simp [CArrayHelper.strideHelper]
  | cons d ds ih =>
    have hp' : ∀ x ∈ ds, 0 < x := fun x hx => hp x (by simp [hx])
    have hle := prod_le_cons hp
    have hpos := prod_pos_of hp
    have ih := ih hp' (by linarith)
    cases ds with
    | nil =>
      simp only [List.nil_append] at ih
      simp only [List.cons_append, List.nil_append, CArrayHelper.strideHelper, Res.ok_bind]
      rw [imul_ok] <;> simp_all [IsInt] ; omega
    | cons e es =>
      simp only [List.cons_append] at ih
      simp only [List.cons_append, CArrayHelper.strideHelper, ih, Res.ok_bind]
      rw [imul_ok]
      · simp
      · rw [List.prod_cons] at hb hpos
        constructor <;> linarith

theorem size_ok {ds : List Int} (hne : ds ≠ []) (hp : ∀ d ∈ ds, 0 < d)
    (hb : ds.prod ≤ 2147483647) : CArrayHelper.size ds = .ok ds.prod := by
  induction ds with
  | nil => simp at hne
  | cons d ds ih =>
    have hp' : ∀ x ∈ ds, 0 < x := fun x hx => hp x (by simp [hx])
    have hle := prod_le_cons hp
    have hpos := prod_pos_of hp
    cases ds with
    | nil => simp [CArrayHelper.size]
    | cons e es =>
      simp only [CArrayHelper.size, ih (by simp) hp' (by linarith), Res.ok_bind]
      rw [imul_ok]
      · simp
      · rw [List.prod_cons] at hb hpos
        constructor <;> linarith

theorem boundsFmt_ok : formatOutcome boundsFmt 2 = .ok () := by decide +kernel

theorem boundsAssert_true (cfg : Config) {i d : Int} (h : 0 ≤ i ∧ i < d) :
    boundsAssert cfg i d = .ok () := by
  simp [boundsAssert, shivaAssertMsg, h]

/-- In-range tuples: the run-time linear index is the row-major number, in every configuration. -/
theorem levelRT_ok (cfg : Config) {dims idx : List Int} (hne : dims ≠ []) (h : InBox dims idx)
    (hb : dims.prod ≤ 2147483647) :
    CArrayHelper.levelRT cfg dims idx = .ok (rowMajor dims idx) := by
  induction dims generalizing idx with
  | nil => simp at hne
  | cons d ds ih =>
    cases idx with
    | nil => simp at h
    | cons i is =>
      have hpos := inBox_pos h
      obtain ⟨⟨h0, h1⟩, h2⟩ := inBox_cons.1 h
      have hp' : ∀ x ∈ ds, 0 < x := fun x hx => hpos x (by simp [hx])
      have hle := prod_le_cons hpos
      have hds := prod_pos_of hp'
      have hbnd := rowMajor_bounds h
      have hbnd2 := rowMajor_bounds h2
      have hif : boundsAssert cfg i d = .ok () := boundsAssert_true cfg ⟨h0, h1⟩
      rw [rowMajor_cons] at hbnd ⊢
      have hm : 0 ≤ i * ds.prod := by positivity
      have hs := strideHelper_ok hp' (by linarith)
      cases ds with
      | nil =>
        simp only [CArrayHelper.levelRT, hif, Res.ok_bind]
        simp only [List.prod_nil] at hs
        rw [hs]
        simp only [Res.constexpr_ok, Res.ok_bind]
        rw [imul_ok]
        · simp
        · simp at hbnd hb hm ⊢; constructor <;> linarith
      | cons e es =>
        simp only [CArrayHelper.levelRT, hif, Res.ok_bind, hs, Res.constexpr_ok]
        rw [imul_ok (by constructor <;> linarith)]
        simp only [Res.ok_bind]
        rw [ih (by simp) h2 (by linarith)]
        simp only [Res.ok_bind]
        rw [iadd_ok (by constructor <;> linarith)]

/-- In-range tuples: the compile-time linear index is the row-major number. -/
theorem levelCT_ok {dims idx : List Int} (hne : dims ≠ []) (h : InBox dims idx)
    (hb : dims.prod ≤ 2147483647) :
    CArrayHelper.levelCT dims idx = .ok (rowMajor dims idx) := by
  induction dims generalizing idx with
  | nil => simp at hne
  | cons d ds ih =>
    cases idx with
    | nil => simp at h
    | cons i is =>
      have hpos := inBox_pos h
      obtain ⟨⟨h0, h1⟩, h2⟩ := inBox_cons.1 h
      have hp' : ∀ x ∈ ds, 0 < x := fun x hx => hpos x (by simp [hx])
      have hle := prod_le_cons hpos
      have hds := prod_pos_of hp'
      have hbnd := rowMajor_bounds h
      have hbnd2 := rowMajor_bounds h2
      have hif : Res.staticAssert (0 ≤ i ∧ i < d) = Res.ok () := staticAssert_true ⟨h0, h1⟩
      rw [rowMajor_cons] at hbnd ⊢
      have hm : 0 ≤ i * ds.prod := by positivity
      have hs := strideHelper_ok hp' (by linarith)
      cases ds with
      | nil =>
        simp only [CArrayHelper.levelCT, hif, Res.ok_bind]
        simp only [List.prod_nil] at hs
        rw [hs]
        simp only [Res.constexpr_ok, Res.ok_bind]
        rw [imul_ok]
        · simp
        · simp at hbnd hb hm ⊢; constructor <;> linarith
      | cons e es =>
        simp only [CArrayHelper.levelCT, hif, Res.ok_bind, hs, Res.constexpr_ok]
        rw [imul_ok (by constructor <;> linarith)]
        simp only [Res.ok_bind]
        rw [ih (by simp) h2 (by linarith)]
        simp only [Res.ok_bind]
        rw [iadd_ok (by constructor <;> linarith)]

/-- Row-major numbering is injective on the box. -/
theorem rowMajor_inj {dims a b : List Int} (ha : InBox dims a) (hb : InBox dims b)
    (h : rowMajor dims a = rowMajor dims b) : a = b := by
  induction dims generalizing a b with
  | nil => simp at ha hb; simp [ha, hb]
  | cons d ds ih =>
    cases a with
    | nil => simp at ha
    | cons i is =>
      cases b with
      | nil => simp at hb
      | cons j js =>
        obtain ⟨⟨h0, h1⟩, h2⟩ := inBox_cons.1 ha
        obtain ⟨⟨k0, k1⟩, k2⟩ := inBox_cons.1 hb
        have ba := rowMajor_bounds h2
        have bb := rowMajor_bounds k2
        rw [rowMajor_cons, rowMajor_cons] at h
        have hij : i = j := by
          by_contra hne
          rcases lt_or_gt_of_ne hne with hlt | hlt
          · have : i + 1 ≤ j := hlt
            nlinarith
          · have : j + 1 ≤ i := hlt
            nlinarith
        subst hij
        rw [ih h2 k2 (by linarith)]

/-- Every number below the size is the row-major number of an in-range tuple. -/
theorem rowMajor_surj {dims : List Int} (hp : ∀ d ∈ dims, 0 < d) {k : Int} (h0 : 0 ≤ k)
    (h1 : k < dims.prod) : ∃ idx, InBox dims idx ∧ rowMajor dims idx = k := by
  induction dims generalizing k with
  | nil => exact ⟨[], by simp, by simp at h1 ⊢; omega⟩
  | cons d ds ih =>
    have hp' : ∀ x ∈ ds, 0 < x := fun x hx => hp x (by simp [hx])
    have hds := prod_pos_of hp'
    obtain ⟨is, hb, hr⟩ := ih hp' (Int.emod_nonneg k (ne_of_gt hds)) (Int.emod_lt_of_pos k hds)
    refine ⟨(k / ds.prod) :: is, inBox_cons.2 ⟨⟨?_, ?_⟩, hb⟩, ?_⟩
    · exact Int.ediv_nonneg h0 hds.le
    · rw [List.prod_cons] at h1
      exact Int.ediv_lt_of_lt_mul hds h1
    · rw [rowMajor_cons, hr]
      have := Int.mul_ediv_add_emod k ds.prod
      linarith

end Verif.Lemmas
