import Verif.Lemmas.FloatTables
import Verif.Lemmas.Inverse

/-! The 3x3 inverse in a binary format: when no exceptions occur. -/

namespace Verif.Lemmas

open Verif.Spec Verif.MathUtilities

variable {F : FloatFormat}

/-- Rounding does not cross a power of two of the normal range from above. -/
theorem zpow_le_nearest {M : ℤ} (hM : F.minExp ≤ M) {x : ℝ} (h : 2 ^ M ≤ |x|) : 2 ^ M ≤ |F.nearest x| := by
  wlog hx : 0 ≤ x generalizing x
  · have := this (x := -x) (by rwa [abs_neg]) (by linarith)
    rwa [nearest_neg, abs_neg] at this
  rw [abs_of_nonneg hx] at h
  have hpos : 0 < x := lt_of_lt_of_le (by positivity) h
  have hL : M ≤ Int.log 2 x := (Int.zpow_le_iff_le_log (by norm_num) hpos).1 (by exact_mod_cast h)
  have hle : (2 : ℝ) ^ Int.log 2 x ≤ x := by
    have := Int.zpow_log_le_self (b := 2) (r := x) (by norm_num) hpos
    exact_mod_cast this
  have e : F.unitExp x = Int.log 2 x - F.fracBits := by
    unfold FloatFormat.unitExp
    rw [abs_of_nonneg hx, max_eq_left (hM.trans hL)]
  have hp : (0 : ℝ) < 2 ^ F.unitExp x := by positivity
  have h1 : ((2 ^ F.fracBits : ℤ) : ℝ) ≤ x / 2 ^ F.unitExp x := by
    rw [le_div_iff₀ hp, e, zpow_sub₀ (by norm_num), zpow_natCast]
    push_cast
    rw [mul_div_cancel₀ _ (by positivity)]
    exact hle
  have h2 := roundEven_mono h1
  rw [roundEven_int] at h2
  have h3 : ((2 ^ F.fracBits : ℤ) : ℝ) ≤ (roundEven (x / 2 ^ F.unitExp x) : ℝ) := by exact_mod_cast h2
  have h4 : (2 : ℝ) ^ Int.log 2 x ≤ F.nearest x := by
    unfold FloatFormat.nearest
    calc (2 : ℝ) ^ Int.log 2 x = ((2 ^ F.fracBits : ℤ) : ℝ) * 2 ^ F.unitExp x := by
          rw [e, zpow_sub₀ (by norm_num), zpow_natCast]; push_cast
          rw [mul_div_cancel₀ _ (by positivity)]
      _ ≤ _ := mul_le_mul_of_nonneg_right h3 hp.le
  exact ((zpow_le_zpow_right₀ (by norm_num) hL).trans h4).trans (le_abs_self _)

/-- The conditions on the exponents under which `inverse` raises no exceptions. -/
structure InverseRange (F : FloatFormat) (g M : ℤ) : Prop where
  ordered : g ≤ M
  det_low : F.minExp - F.fracBits ≤ 3 * g
  pair_low : F.minExp - F.fracBits ≤ 2 * g
  det_high : 3 * M + 3 ≤ F.maxExp
  pair_high : 2 * M + 1 ≤ F.maxExp
  recip_low : F.minExp ≤ -(3 * M + 3)
  recip_high : -(3 * g) ≤ F.maxExp
  entry_low : F.minExp ≤ 2 * g - (3 * M + 3)
  entry_high : 2 * M + 1 - 3 * g ≤ F.maxExp

variable {g M : ℤ} (h : InverseRange F g M)
include h

theorem cofactor_inRange {a b c d : Flt} (ha : InRange ⟨g, M⟩ a) (hb : InRange ⟨g, M⟩ b) (hc : InRange ⟨g, M⟩ c)
    (hd : InRange ⟨g, M⟩ d) : InRange ⟨2 * g, 2 * M + 1⟩ (Flt.sub F (Flt.mul F a b) (Flt.mul F c d)) := by
  obtain ⟨h1, h2, h3, h4, h5, h6, h7, h8, h9⟩ := h
  have p1 := inRange_mul (F := F) ha hb (by simp only; omega) (by simp only; omega) (by simp only; omega)
  have p2 := inRange_mul (F := F) hc hd (by simp only; omega) (by simp only; omega) (by simp only; omega)
  have := inRange_sub (F := F) p1 p2 (by simp only; omega) (by simp only; omega) (by simp only; omega)
  simp only [min_self, max_self, ← two_mul] at this
  exact this

theorem det_inRange {a b c p q r : Flt} (ha : InRange ⟨g, M⟩ a) (hb : InRange ⟨g, M⟩ b) (hc : InRange ⟨g, M⟩ c)
    (hp : InRange ⟨2 * g, 2 * M + 1⟩ p) (hq : InRange ⟨2 * g, 2 * M + 1⟩ q) (hr : InRange ⟨2 * g, 2 * M + 1⟩ r) :
    InRange ⟨3 * g, 3 * M + 3⟩ (Flt.add F (Flt.add F (Flt.mul F a p) (Flt.mul F b q)) (Flt.mul F c r)) := by
  obtain ⟨h1, h2, h3, h4, h5, h6, h7, h8, h9⟩ := h
  have p1 := inRange_mul (F := F) ha hp (by simp only; omega) (by simp only; omega) (by simp only; omega)
  have p2 := inRange_mul (F := F) hb hq (by simp only; omega) (by simp only; omega) (by simp only; omega)
  have p3 := inRange_mul (F := F) hc hr (by simp only; omega) (by simp only; omega) (by simp only; omega)
  have s1 := inRange_add (F := F) p1 p2 (by simp only; omega) (by simp only; omega) (by simp only; omega)
  have s2 := inRange_add (F := F) s1 p3 (by simp only; omega) (by simp only; omega) (by simp only; omega)
  obtain ⟨x, hx, hx1, hx2⟩ := s2
  simp only at hx1 hx2
  exact ⟨x, hx, hx1.mono (by simp only; omega), hx2.trans (zpow_le_zpow_right₀ (by norm_num) (by simp only; omega))⟩

/-- The reciprocal of the determinant. -/
theorem recip_inRange {δ : ℝ} (hδ : InRange ⟨3 * g, 3 * M + 3⟩ (Flt.ofReal δ)) (h0 : δ ≠ 0) :
    ∃ y, Flt.div F ((floatArith F).lit 1) (Flt.ofReal δ) = .ok (Flt.ofReal y) ∧
      OnGrid (-(3 * M + 3) - F.fracBits) y ∧ |y| ≤ 2 ^ (-(3 * g)) ∧ 2 ^ (-(3 * M + 3)) ≤ |y| := by
  obtain ⟨h1, h2, h3, h4, h5, h6, h7, h8, h9⟩ := h
  obtain ⟨δ', e, hg, ht⟩ := hδ
  obtain rfl : δ = δ' := Datum.finite.inj (congrArg Flt.datum e)
  have hone : (floatArith F).lit 1 = Flt.ofReal 1 := by
    have hord := F.ordered
    have hn1 : F.nearest 1 = 1 := by
      apply nearest_of_onGrid
      have : F.unitExp 1 ≤ 0 := by
        unfold FloatFormat.unitExp
        rw [abs_one, Int.log_one_right]
        have := F.ordered
        omega
      have h := OnGrid.zpow (M := 0) this
      simpa using h
    show Flt.round F false ((1 : ℚ) : ℝ) = _
    have hno : ¬ F.Overflows 1 := by
      unfold FloatFormat.Overflows
      rw [hn1, abs_one, not_le]
      exact one_lt_zpow₀ (by norm_num) (by omega)
    have hnu : ¬ F.Underflows 1 := fun hu => hu.2 hn1
    simp [Flt.round, hno, hnu, hn1, Flt.ofReal]
  have hlow := hg.le_abs h0
  have hdpos := abs_pos.2 h0
  have hx1 : (2 : ℝ) ^ (-(3 * M + 3)) ≤ |1 / δ| := by
    rw [abs_div, abs_one, zpow_neg, inv_eq_one_div]
    exact one_div_le_one_div_of_le hdpos ht
  have hx2 : |1 / δ| ≤ (2 : ℝ) ^ (-(3 * g)) := by
    rw [abs_div, abs_one, zpow_neg, inv_eq_one_div]
    exact one_div_le_one_div_of_le (by positivity) hlow
  obtain ⟨y, hy, hy1, hy2⟩ := round_inRange_of_le (F := F) (g := -(3 * M + 3)) (M := -(3 * g)) (by omega) (by omega)
    (by omega) (.inr hx1) hx2
  refine ⟨y, ?_, hy1, hy2, ?_⟩
  · rw [hone]
    simp only [Flt.div, Flt.ofReal, if_neg h0, Bool.or_self]
    rw [hy]; rfl
  · have hr : (Flt.round F false (1 / δ)).raised = false := by rw [hy]; rfl
    have h1 := (sim_round F hr).2
    rw [hy] at h1
    have e := Datum.finite.inj h1
    rw [e, cleanRound]
    split_ifs
    · exact hx1
    · exact zpow_le_nearest (by omega) hx1

theorem entry_inRange {a : Flt} (ha : InRange ⟨2 * g, 2 * M + 1⟩ a) {y : ℝ} (h1 : OnGrid (-(3 * M + 3) - F.fracBits) y)
    (h2 : |y| ≤ 2 ^ (-(3 * g))) (h3 : 2 ^ (-(3 * M + 3)) ≤ |y|) :
    ∃ x, Flt.mul F a (Flt.ofReal y) = Flt.ofReal x := by
  obtain ⟨k1, k2, k3, k4, k5, k6, k7, k8, k9⟩ := h
  obtain ⟨x, hx, -, -⟩ := inRange_mul_of_le (F := F) ha (s' := ⟨-(3 * M + 3) - F.fracBits, -(3 * g)⟩)
    ⟨y, rfl, h1, h2⟩ (g := -(3 * M + 3))
    (fun z hz => by
      obtain rfl : y = z := Datum.finite.inj (congrArg Flt.datum hz)
      exact .inr h3) (by simp only; omega) (by simp only; omega) (by simp only; omega)
  exact ⟨x, hx⟩

/-- `inverse` of a matrix in the range raises no exceptions. -/
theorem inverse_clean {A : Matrix (Fin 3) (Fin 3) ℝ} (hA : ∀ i j, OnGrid g (A i j) ∧ |A i j| ≤ 2 ^ M) :
    ∃ (δ : ℝ) (after : Res (List Flt)),
      inverseNative (floatArith F) (matMem (A.map Flt.ofReal)) = .ok (Flt.ofReal δ, after) ∧
      (δ ≠ 0 → ∃ P : Matrix (Fin 3) (Fin 3) ℝ, after = .ok (matMem (P.map Flt.ofReal))) := by
  have hI : ∀ i j, InRange ⟨g, M⟩ (Flt.ofReal (A i j)) := fun i j => ⟨_, rfl, hA i j⟩
  rw [matMem_three, inverseNative_eq]
  simp only [Matrix.map_apply]
  have c00 := cofactor_inRange h (hI 1 1) (hI 2 2) (hI 1 2) (hI 2 1)
  have c01 := cofactor_inRange h (hI 0 2) (hI 2 1) (hI 0 1) (hI 2 2)
  have c02 := cofactor_inRange h (hI 0 1) (hI 1 2) (hI 0 2) (hI 1 1)
  have c10 := cofactor_inRange h (hI 1 2) (hI 2 0) (hI 1 0) (hI 2 2)
  have c11 := cofactor_inRange h (hI 0 0) (hI 2 2) (hI 0 2) (hI 2 0)
  have c12 := cofactor_inRange h (hI 0 2) (hI 1 0) (hI 0 0) (hI 1 2)
  have c20 := cofactor_inRange h (hI 1 0) (hI 2 1) (hI 1 1) (hI 2 0)
  have c21 := cofactor_inRange h (hI 0 1) (hI 2 0) (hI 0 0) (hI 2 1)
  have c22 := cofactor_inRange h (hI 0 0) (hI 1 1) (hI 0 1) (hI 1 0)
  have hdet := det_inRange h (hI 0 0) (hI 1 0) (hI 2 0) c00 c01 c02
  obtain ⟨δ, hδ, hδ1, hδ2⟩ := hdet
  simp only [floatArith]
  rw [hδ]
  refine ⟨δ, _, rfl, fun h0 => ?_⟩
  obtain ⟨y, hy, hy1, hy2, hy3⟩ := recip_inRange h ⟨δ, rfl, hδ1, hδ2⟩ h0
  obtain ⟨x00, e00⟩ := entry_inRange h c00 hy1 hy2 hy3
  obtain ⟨x01, e01⟩ := entry_inRange h c01 hy1 hy2 hy3
  obtain ⟨x02, e02⟩ := entry_inRange h c02 hy1 hy2 hy3
  obtain ⟨x10, e10⟩ := entry_inRange h c10 hy1 hy2 hy3
  obtain ⟨x11, e11⟩ := entry_inRange h c11 hy1 hy2 hy3
  obtain ⟨x12, e12⟩ := entry_inRange h c12 hy1 hy2 hy3
  obtain ⟨x20, e20⟩ := entry_inRange h c20 hy1 hy2 hy3
  obtain ⟨x21, e21⟩ := entry_inRange h c21 hy1 hy2 hy3
  obtain ⟨x22, e22⟩ := entry_inRange h c22 hy1 hy2 hy3
  simp only [floatArith] at hy
  refine ⟨!![x00, x01, x02; x10, x11, x12; x20, x21, x22], ?_⟩
  rw [hy, Res.ok_bind, matMem_three, e00, e01, e02, e10, e11, e12, e20, e21, e22]
  simp

end Verif.Lemmas
