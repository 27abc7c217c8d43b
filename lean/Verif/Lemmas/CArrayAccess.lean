import Verif.Lemmas.CArray
import Verif.Spec.History

/-! # Supporting lemmas: element access, slices and histories -/

namespace Verif.Lemmas

open Verif.Spec

/-- A view lies inside a block of `len` elements. -/
def Fits (len : Nat) (v : View) : Prop := 0 ≤ v.off ∧ v.off + v.dims.prod ≤ len

theorem element_ok {len : Nat} {v : View} {k : Int} (h0 : 0 ≤ v.off + k) (h1 : v.off + k < len) :
    CArray.element len v k = .ok (v.off + k) := by simp [CArray.element, h0, h1]

theorem parenRT_ok (cfg : Config) {len : Nat} {v : View} (hs : ValidShape v.dims) (hf : Fits len v)
    {idx : List Int} (h : InBox v.dims idx) :
    CArray.parenRT cfg len v idx = .ok (v.off + rowMajor v.dims idx) := by
  have hb := rowMajor_bounds h
  obtain ⟨hf0, hf1⟩ := hf
  simp only [CArray.parenRT, staticAssert_true (inBox_length h), Res.ok_bind, CArrayHelper.evalRT,
    levelRT_ok cfg hs.1 h hs.2.2]
  exact element_ok (by linarith) (by linarith)

theorem parenCT_ok {len : Nat} {v : View} (hs : ValidShape v.dims) (hf : Fits len v)
    {idx : List Int} (h : InBox v.dims idx) :
    CArray.parenCT len v idx = .ok (v.off + rowMajor v.dims idx) := by
  have hb := rowMajor_bounds h
  obtain ⟨hf0, hf1⟩ := hf
  simp only [CArray.parenCT, staticAssert_true (inBox_length h), Res.ok_bind, CArrayHelper.evalCT,
    levelCT_ok hs.1 h hs.2.2]
  exact element_ok (by linarith) (by linarith)

theorem validShape_tail {d e : Int} {es : List Int} (h : ValidShape (d :: e :: es)) :
    ValidShape (e :: es) := by
  obtain ⟨_, h1, h2⟩ := h
  have := prod_le_cons h1
  exact ⟨by simp, fun x hx => h1 x (List.mem_cons_of_mem _ hx), by linarith⟩

/-- One `operator[]` on a view of rank at least two, in range. -/
theorem bracket_sub_ok (cfg : Config) {len : Nat} {d e off : Int} {es : List Int}
    (hs : ValidShape (d :: e :: es)) (hf : Fits len ⟨d :: e :: es, off⟩) {i : Int}
    (h0 : 0 ≤ i) (h1 : i < d) :
    CArray.bracket cfg len ⟨d :: e :: es, off⟩ i
        = .ok (.sub ⟨e :: es, off + i * (e :: es).prod⟩) ∧
      Fits len ⟨e :: es, off + i * (e :: es).prod⟩ := by
  obtain ⟨hf0, hf1⟩ := hf
  have ht := validShape_tail hs
  have hp := prod_pos_of ht.2.1
  have hle := hs.2.2
  simp only at hf0 hf1
  rw [List.prod_cons] at hf1 hle
  have hm : 0 ≤ i * (e :: es).prod := by positivity
  have hm2 : (i + 1) * (e :: es).prod ≤ d * (e :: es).prod :=
    Int.mul_le_mul_of_nonneg_right (by omega) hp.le
  have hst : CArrayHelper.stride ((d :: e :: es) ++ [1]) = .ok (e :: es).prod := by
    have h1p : (e :: es ++ [1]).prod = (e :: es).prod := by simp
    have := strideHelper_ok (ds := e :: es ++ [1]) (by
      intro x hx
      simp only [List.mem_append, List.mem_singleton] at hx
      rcases hx with hx | rfl
      · exact ht.2.1 x hx
      · norm_num) (by rw [h1p]; exact ht.2.2)
    rw [h1p] at this
    exact this
  constructor
  · simp only [CArray.bracket, boundsAssert_true cfg ⟨h0, h1⟩, Res.ok_bind, hst]
    rw [imul_ok (by constructor <;> nlinarith)]
    simp only [Res.ok_bind]
    have : CArray.pointer len ⟨d :: e :: es, off⟩ (i * (e :: es).prod)
        = .ok (off + i * (e :: es).prod) := by
      simp only [CArray.pointer]
      rw [if_pos]
      constructor <;> nlinarith
    rw [this]; rfl
  · constructor
    · simp only; linarith
    · simp only; nlinarith

theorem bracket_elem_ok (cfg : Config) {len : Nat} {d off : Int}
    (hs : ValidShape [d]) (hf : Fits len ⟨[d], off⟩) {i : Int} (h0 : 0 ≤ i) (h1 : i < d) :
    CArray.bracket cfg len ⟨[d], off⟩ i = .ok (.elem (off + i)) := by
  simp only [CArray.bracket, boundsAssert_true cfg ⟨h0, h1⟩, Res.ok_bind]
  rw [parenRT_ok cfg (v := ⟨[d], off⟩) hs hf (idx := [i]) (by simp [InBox, h0, h1])]
  simp

/-- A full chain of `operator[]` denotes the row-major element. -/
theorem bracketChain_ok (cfg : Config) {len : Nat} {dims : List Int} {off : Int}
    (hs : ValidShape dims) (hf : Fits len ⟨dims, off⟩) {idx : List Int} (h : InBox dims idx) :
    CArray.bracketChain cfg len (.sub ⟨dims, off⟩) idx = .ok (.elem (off + rowMajor dims idx)) := by
  induction dims generalizing off idx with
  | nil => exact absurd rfl hs.1
  | cons d ds ih =>
    cases idx with
    | nil => simp at h
    | cons i is =>
      obtain ⟨⟨h0, h1⟩, h2⟩ := inBox_cons.1 h
      cases ds with
      | nil =>
        simp at h2; subst h2
        simp [CArray.bracketChain, bracket_elem_ok cfg hs hf h0 h1]
      | cons e es =>
        obtain ⟨hb, hf'⟩ := bracket_sub_ok cfg hs hf h0 h1
        simp only [CArray.bracketChain, hb, Res.ok_bind]
        rw [ih (validShape_tail hs) hf' h2, rowMajor_cons]
        congr 2; ring

/-- A proper prefix of a chain denotes a view of the remaining dimensions. -/
theorem bracketChain_prefix (cfg : Config) {len : Nat} {dims : List Int} {off : Int}
    (hs : ValidShape dims) (hf : Fits len ⟨dims, off⟩) {pre post : List Int} (hpost : post ≠ [])
    (h : InBox dims (pre ++ post)) :
    ∃ p, CArray.bracketChain cfg len (.sub ⟨dims, off⟩) pre
        = .ok (.sub ⟨dims.drop pre.length, p⟩) ∧
      ValidShape (dims.drop pre.length) ∧ Fits len ⟨dims.drop pre.length, p⟩ ∧
      InBox (dims.drop pre.length) post ∧
      p + rowMajor (dims.drop pre.length) post = off + rowMajor dims (pre ++ post) := by
  induction pre generalizing dims off with
  | nil => exact ⟨off, rfl, hs, hf, h, rfl⟩
  | cons i is ih =>
    cases dims with
    | nil => simp at h
    | cons d ds =>
      obtain ⟨⟨h0, h1⟩, h2⟩ := inBox_cons.1 h
      cases ds with
      | nil => simp at h2; exact absurd h2.2 hpost
      | cons e es =>
        obtain ⟨hb, hf'⟩ := bracket_sub_ok cfg hs hf h0 h1
        obtain ⟨p, hc, hv, hfit, hin, heq⟩ := ih (validShape_tail hs) hf' h2
        refine ⟨p, ?_, hv, hfit, hin, ?_⟩
        · simp only [CArray.bracketChain, hb, Res.ok_bind]
          exact hc
        · simp only [List.length_cons, List.drop_succ_cons, List.cons_append, rowMajor_cons] at heq ⊢
          rw [heq]; ring

/-! ### Bounds checking -/

theorem boundsAssert_abort {cfg : Config} (hb : cfg.boundsCheck = true) (hc : cfg.constEval = false)
    (hd : cfg.device = false) {i d : Int} (h : ¬ (0 ≤ i ∧ i < d)) :
    boundsAssert cfg i d = .abort := by
  simp only [boundsAssert, hb, if_true, shivaAssertMsg, hc, shivaAssertionFailed, hd,
    boundsFmt_ok]
  simp [h]

theorem levelRT_abort {cfg : Config} (hb : cfg.boundsCheck = true) (hc : cfg.constEval = false)
    (hd : cfg.device = false) {dims idx : List Int} (hs : ValidShape dims)
    (hl : idx.length = dims.length) (h : ¬ InBox dims idx) :
    CArrayHelper.levelRT cfg dims idx = .abort := by
  induction dims generalizing idx with
  | nil => exact absurd rfl hs.1
  | cons d ds ih =>
    cases idx with
    | nil => simp at hl
    | cons i is =>
      by_cases hi : 0 ≤ i ∧ i < d
      · cases ds with
        | nil =>
          exfalso; apply h
          simp at hl; subst hl
          simp [InBox, hi]
        | cons e es =>
          have ht := validShape_tail hs
          have hp := prod_pos_of ht.2.1
          have hle := hs.2.2
          rw [List.prod_cons] at hle
          have hs' := strideHelper_ok ht.2.1 ht.2.2
          have := ih ht (by simpa using hl) (fun h2 => h (inBox_cons.2 ⟨hi, h2⟩))
          simp only [CArrayHelper.levelRT, boundsAssert_true cfg hi, Res.ok_bind, hs',
            Res.constexpr_ok]
          rw [imul_ok (by obtain ⟨h0, h1⟩ := hi; constructor <;> nlinarith)]
          simp only [Res.ok_bind]
          rw [this]; rfl
      · simp only [CArrayHelper.levelRT, boundsAssert_abort hb hc hd hi, Res.abort_bind]

theorem bracketChain_abort {cfg : Config} (hb : cfg.boundsCheck = true)
    (hc : cfg.constEval = false) (hd : cfg.device = false) {len : Nat} {dims : List Int} {off : Int}
    (hs : ValidShape dims) (hf : Fits len ⟨dims, off⟩) {idx : List Int}
    (hl : idx.length = dims.length) (h : ¬ InBox dims idx) :
    CArray.bracketChain cfg len (.sub ⟨dims, off⟩) idx = .abort := by
  induction dims generalizing off idx with
  | nil => exact absurd rfl hs.1
  | cons d ds ih =>
    cases idx with
    | nil => simp at hl
    | cons i is =>
      by_cases hi : 0 ≤ i ∧ i < d
      · cases ds with
        | nil =>
          exfalso; apply h
          simp at hl; subst hl
          simp [InBox, hi]
        | cons e es =>
          obtain ⟨hbr, hf'⟩ := bracket_sub_ok cfg hs hf hi.1 hi.2
          simp only [CArray.bracketChain, hbr, Res.ok_bind]
          exact ih (validShape_tail hs) hf' (by simpa using hl)
            (fun h2 => h (inBox_cons.2 ⟨hi, h2⟩))
      · simp only [CArray.bracketChain, CArray.bracket, boundsAssert_abort hb hc hd hi,
          Res.abort_bind]

theorem levelCT_illFormed {dims idx : List Int} (hs : ValidShape dims)
    (hl : idx.length = dims.length) (h : ¬ InBox dims idx) :
    CArrayHelper.levelCT dims idx = .illFormed := by
  induction dims generalizing idx with
  | nil => exact absurd rfl hs.1
  | cons d ds ih =>
    cases idx with
    | nil => simp at hl
    | cons i is =>
      by_cases hi : 0 ≤ i ∧ i < d
      · cases ds with
        | nil =>
          exfalso; apply h
          simp at hl; subst hl
          simp [InBox, hi]
        | cons e es =>
          have ht := validShape_tail hs
          have hp := prod_pos_of ht.2.1
          have hle := hs.2.2
          rw [List.prod_cons] at hle
          have hs' := strideHelper_ok ht.2.1 ht.2.2
          have := ih ht (by simpa using hl) (fun h2 => h (inBox_cons.2 ⟨hi, h2⟩))
          simp only [CArrayHelper.levelCT, staticAssert_true hi, Res.ok_bind, hs',
            Res.constexpr_ok]
          rw [imul_ok (by obtain ⟨h0, h1⟩ := hi; constructor <;> nlinarith)]
          simp only [Res.ok_bind]
          rw [this]; rfl
      · simp only [CArrayHelper.levelCT, staticAssert_false hi, Res.illFormed_bind]

/-! ### Accesses whose bounds check does not fire -/

/-- The bounds check has no effect: disabled, or skipped during constant evaluation. -/
def Unguarded (cfg : Config) : Prop := cfg.boundsCheck = false ∨ cfg.constEval = true

theorem boundsAssert_unguarded {cfg : Config} (h : Unguarded cfg) (i d : Int) :
    boundsAssert cfg i d = .ok () := by
  rcases h with h | h <;> simp [boundsAssert, shivaAssertMsg, h]

theorem noOverflow_cons {d i : Int} {ds is : List Int} :
    NoOverflow (d :: ds) (i :: is) ↔
      (IsInt (i * ds.prod) ∧ IsInt (rowMajor (d :: ds) (i :: is))) ∧ NoOverflow ds is := by
  constructor
  · intro h
    refine ⟨by simpa using h 0 (by simp), fun k hk => ?_⟩
    simpa using h (k + 1) (by simpa using hk)
  · rintro ⟨h0, h1⟩ k hk
    cases k with
    | zero => simpa using h0
    | succ k => simpa using h1 k (by simpa using hk)

/-- Without an effective bounds check the linear index is the row-major formula, undefined exactly
when it overflows. -/
theorem levelRT_unguarded {cfg : Config} (hu : Unguarded cfg) {dims idx : List Int}
    (hs : ValidShape dims) (hl : idx.length = dims.length) :
    (NoOverflow dims idx → CArrayHelper.levelRT cfg dims idx = .ok (rowMajor dims idx)) ∧
    (¬ NoOverflow dims idx → CArrayHelper.levelRT cfg dims idx = .ub) := by
  induction dims generalizing idx with
  | nil => exact absurd rfl hs.1
  | cons d ds ih =>
    cases idx with
    | nil => simp at hl
    | cons i is =>
      cases ds with
      | nil =>
        simp at hl; subst hl
        have hst : CArrayHelper.strideHelper ([] ++ [1]) = .ok 1 := by
          simp [CArrayHelper.strideHelper]
        rw [noOverflow_cons]
        simp only [CArrayHelper.levelRT, boundsAssert_unguarded hu, Res.ok_bind, hst,
          Res.constexpr_ok]
        have h0 : NoOverflow [] [] := by intro k hk; simp at hk
        constructor
        · rintro ⟨⟨h1, -⟩, -⟩
          rw [imul_ok (by simpa using h1)]; simp
        · intro h1
          have : ¬ IsInt (i * 1) := by
            intro h2; apply h1; simp [h0] ; simpa using h2
          exact norm_ub this
      | cons e es =>
        have ht := validShape_tail hs
        have hst := strideHelper_ok ht.2.1 ht.2.2
        obtain ⟨ih1, ih2⟩ := ih ht (idx := is) (by simpa using hl)
        rw [noOverflow_cons]
        simp only [CArrayHelper.levelRT, boundsAssert_unguarded hu, Res.ok_bind, hst,
          Res.constexpr_ok]
        constructor
        · rintro ⟨⟨h1, h2⟩, h3⟩
          rw [imul_ok h1]
          simp only [Res.ok_bind, ih1 h3]
          rw [rowMajor_cons] at h2 ⊢
          exact iadd_ok h2
        · intro hn
          by_cases h1 : IsInt (i * (e :: es).prod)
          · rw [imul_ok h1]
            simp only [Res.ok_bind]
            by_cases h3 : NoOverflow (e :: es) is
            · simp only [ih1 h3, Res.ok_bind]
              apply norm_ub
              intro h2
              exact hn ⟨⟨h1, by rw [rowMajor_cons]; exact h2⟩, h3⟩
            · simp only [ih2 h3, Res.ub_bind]
          · rw [show imul i (e :: es).prod = .ub from norm_ub h1]; rfl

/-! ### Loads, stores and histories -/

section
variable {R : Type}

theorem load_ok {mem : List R} {a : Int} (h0 : 0 ≤ a) (h1 : a < mem.length) :
    ∃ x, mem[a.toNat]? = some x ∧ CArray.load mem a = .ok x := by
  have h : a.toNat < mem.length := by omega
  refine ⟨mem[a.toNat], by simp [h], ?_⟩
  simp [CArray.load, h0, h1]

theorem load_eq_ok {mem : List R} {a : Int} {x : R} (h0 : 0 ≤ a) :
    CArray.load mem a = .ok x ↔ mem[a.toNat]? = some x := by
  unfold CArray.load
  split
  · rename_i h
    have : a.toNat < mem.length := by omega
    simp [this]
  · rename_i h
    have : mem.length ≤ a.toNat := by omega
    simp [this]

theorem store_ok {mem : List R} {a : Int} (h0 : 0 ≤ a) (h1 : a < mem.length) (x : R) :
    CArray.store mem a x = .ok (mem.set a.toNat x) := by simp [CArray.store, h0, h1]

theorem load_set {mem : List R} {a b : Int} (ha : 0 ≤ a) (ha1 : a < mem.length) (hb : 0 ≤ b)
    (x : R) :
    CArray.load (mem.set a.toNat x) b = if a = b then .ok x else CArray.load mem b := by
  split
  · rename_i h; subst h
    rw [load_eq_ok hb]
    have : a.toNat < mem.length := by omega
    simp [this]
  · rename_i h
    have hne : a.toNat ≠ b.toNat := by omega
    unfold CArray.load
    simp [List.getElem_set_ne hne]

theorem read_eq (cfg : Config) {mem : List R} {v : View} (hs : ValidShape v.dims)
    (hf : Fits mem.length v) {idx : List Int} (h : InBox v.dims idx) :
    CArray.read cfg mem v idx = CArray.load mem (v.off + rowMajor v.dims idx) := by
  simp [CArray.read, parenRT_ok cfg hs hf h]

theorem readBracket_eq (cfg : Config) {mem : List R} {v : View} (hs : ValidShape v.dims)
    (hf : Fits mem.length v) {idx : List Int} (h : InBox v.dims idx) :
    CArray.readBracket cfg mem v idx = CArray.load mem (v.off + rowMajor v.dims idx) := by
  have := bracketChain_ok cfg (len := mem.length) (dims := v.dims) (off := v.off) hs hf h
  simp only [CArray.readBracket]
  rw [show (Ref.sub v) = .sub ⟨v.dims, v.off⟩ from rfl, this]
  rfl

theorem write_eq (cfg : Config) {mem : List R} {v : View} (hs : ValidShape v.dims)
    (hf : Fits mem.length v) {idx : List Int} (h : InBox v.dims idx) (x : R) :
    CArray.write cfg mem v idx x = .ok (mem.set (v.off + rowMajor v.dims idx).toNat x) := by
  have hb := rowMajor_bounds h
  obtain ⟨h0, h1⟩ := hf
  simp only [CArray.write, parenRT_ok cfg hs ⟨h0, h1⟩ h, Res.ok_bind]
  exact store_ok (by linarith) (by linarith) x

theorem writeBracket_eq (cfg : Config) {mem : List R} {v : View} (hs : ValidShape v.dims)
    (hf : Fits mem.length v) {idx : List Int} (h : InBox v.dims idx) (x : R) :
    CArray.writeBracket cfg mem v idx x
      = .ok (mem.set (v.off + rowMajor v.dims idx).toNat x) := by
  have hb := rowMajor_bounds h
  have := bracketChain_ok cfg (len := mem.length) (dims := v.dims) (off := v.off) hs hf h
  obtain ⟨h0, h1⟩ := hf
  simp only [CArray.writeBracket]
  rw [show (Ref.sub v) = .sub ⟨v.dims, v.off⟩ from rfl, this]
  exact store_ok (by linarith) (by linarith) x

theorem assign_eq (cfg : Config) {mem : List R} {v : View} (hs : ValidShape v.dims)
    (hf : Fits mem.length v) {w : Assign R} (h : InBox v.dims w.idx) :
    CArray.assign cfg v mem w
      = .ok (mem.set (v.off + rowMajor v.dims w.idx).toNat w.val) := by
  unfold CArray.assign
  cases w.style
  · exact write_eq cfg hs hf h _
  · exact writeBracket_eq cfg hs hf h _

theorem lastAssigned_cons_ne (init : R) (w : Assign R) (ws : List (Assign R)) (idx : List Int)
    (h : w.idx ≠ idx) : lastAssigned init (w :: ws) idx = lastAssigned init ws idx := by
  simp [lastAssigned, h]

theorem lastAssigned_cons_eq (init : R) (w : Assign R) (ws : List (Assign R)) (idx : List Int)
    (h : w.idx = idx) : lastAssigned init (w :: ws) idx = lastAssigned w.val ws idx := by
  simp only [lastAssigned, List.filter_cons, h, decide_true, if_true]
  cases hg : ws.filter (fun w => decide (w.idx = idx)) with
  | nil => simp
  | cons a l => rw [List.getLast?_cons_cons, List.getLast?_cons]

/-- Contents of memory after a history of in-range assignments. -/
theorem runHistory_ok (cfg : Config) {v : View} (hs : ValidShape v.dims)
    (history : List (Assign R)) {mem : List R} (hf : Fits mem.length v)
    (hin : ∀ w ∈ history, InBox v.dims w.idx) :
    ∃ mem', CArray.runHistory cfg v mem history = .ok mem' ∧ mem'.length = mem.length ∧
      (∀ idx, InBox v.dims idx → ∀ x,
        CArray.load mem (v.off + rowMajor v.dims idx) = .ok x →
        CArray.load mem' (v.off + rowMajor v.dims idx) = .ok (lastAssigned x history idx)) ∧
      (∀ a : Int, 0 ≤ a → (a < v.off ∨ v.off + v.dims.prod ≤ a) →
        CArray.load mem' a = CArray.load mem a) := by
  induction history generalizing mem with
  | nil =>
    exact ⟨mem, rfl, rfl, fun idx _ x hx => by simpa [lastAssigned] using hx, fun _ _ _ => rfl⟩
  | cons w ws ih =>
    have hw := hin w (by simp)
    have hbw := rowMajor_bounds hw
    obtain ⟨mem', hr, hl, hrd, hout⟩ := ih
      (mem := mem.set (v.off + rowMajor v.dims w.idx).toNat w.val)
      (by simpa using hf) (fun w' hw' => hin w' (by simp [hw']))
    have h0 : 0 ≤ v.off + rowMajor v.dims w.idx := by have := hf.1; linarith
    have h1 : v.off + rowMajor v.dims w.idx < mem.length := by have := hf.2; linarith
    refine ⟨mem', ?_, by simpa using hl, ?_, ?_⟩
    · simp only [CArray.runHistory, assign_eq cfg hs hf hw, Res.ok_bind, hr]
    · intro idx hidx x hx
      have hbi := rowMajor_bounds hidx
      have hi0 : 0 ≤ v.off + rowMajor v.dims idx := by have := hf.1; linarith
      by_cases he : w.idx = idx
      · rw [lastAssigned_cons_eq _ _ _ _ he]
        apply hrd idx hidx
        rw [load_set h0 h1 hi0, if_pos (by rw [he])]
      · rw [lastAssigned_cons_ne _ _ _ _ he]
        apply hrd idx hidx
        rw [load_set h0 h1 hi0, if_neg, hx]
        intro hc
        exact he (rowMajor_inj hw hidx (by linarith))
    · intro a ha0 ha
      rw [hout a ha0 ha, load_set h0 h1 ha0, if_neg]
      intro hc; subst hc
      rcases ha with ha | ha <;> linarith

end

/-! ### Extents and sizes -/

theorem get_ok {dims : List Int} {k : Nat} (h : k < dims.length) :
    CArrayHelper.get k dims = .ok (dims[k]) := by
  induction dims generalizing k with
  | nil => simp at h
  | cons d ds ih =>
    cases k with
    | zero => simp [CArrayHelper.get]
    | succ k =>
      have hk : ((k + 1 : Nat) : Int) ≠ 0 := by omega
      have he : ((k + 1 : Nat) : Int) - 1 = (k : Nat) := by omega
      simp only [CArrayHelper.get, hk, if_false, he]
      rw [ih (by simpa using h)]; simp

theorem get_illFormed {dims : List Int} {k : Int} (h : k < 0 ∨ dims.length ≤ k) :
    CArrayHelper.get k dims = .illFormed := by
  induction dims generalizing k with
  | nil => simp [CArrayHelper.get]
  | cons d ds ih =>
    have hk : k ≠ 0 := by
      rcases h with h | h
      · omega
      · simp at h; omega
    simp only [CArrayHelper.get, hk, if_false]
    apply ih
    rcases h with h | h
    · left; omega
    · right; simp at h; omega

/-- For positive dimensions `size` is defined exactly when the product fits in `int`. -/
theorem size_ub {ds : List Int} (hne : ds ≠ []) (hp : ∀ d ∈ ds, 0 < d)
    (hi : ∀ d ∈ ds, d ≤ 2147483647)
    (hb : 2147483647 < ds.prod) : CArrayHelper.size ds = .ub := by
  induction ds with
  | nil => simp at hne
  | cons d ds ih =>
    have hp' : ∀ x ∈ ds, 0 < x := fun x hx => hp x (by simp [hx])
    cases ds with
    | nil => simp at hb hi; omega
    | cons e es =>
      simp only [CArrayHelper.size]
      by_cases h : (e :: es).prod ≤ 2147483647
      · rw [size_ok (by simp) hp' h]
        simp only [Res.ok_bind]
        apply norm_ub
        rintro ⟨_, h2⟩
        rw [List.prod_cons] at hb
        omega
      · rw [ih (by simp) hp' (fun x hx => hi x (by simp [hx])) (by omega)]; rfl

end Verif.Lemmas
