import Verif.Lemmas.FloatInverse
import Verif.Props.Float

/-! # Properties C83 and C84: exceptions in the 3x3 inverse -/

namespace Verif.Props

open Verif.Spec Verif.Lemmas Verif.MathUtilities

variable {F : FloatFormat}

private theorem moderate_grid {m : ℕ} {x : ℝ} (h : Moderate F m x) :
    OnGrid (-m - F.fracBits) x ∧ |x| ≤ 2 ^ (m : ℤ) := by
  rcases h with rfl | ⟨hr, h1, h2⟩
  · exact ⟨OnGrid.zero _, by rw [abs_zero]; positivity⟩
  · refine ⟨?_, by rwa [zpow_natCast]⟩
    have hpos : 0 < |x| := lt_of_lt_of_le (by positivity) h1
    have hlog : -(m : ℤ) ≤ Int.log 2 |x| := (Int.zpow_le_iff_le_log (by norm_num) hpos).1 (by
      push_cast
      rw [zpow_neg, zpow_natCast, ← one_div]; exact h1)
    have := (onGrid_unit F x).mono (h := -m - F.fracBits) (by unfold FloatFormat.unitExp; omega)
    rwa [hr.1] at this

private theorem accurate_ofReal {y target bound : ℝ} (h : Accurate (Flt.ofReal y) target bound) :
    |y - target| ≤ bound := by
  rcases h with h | ⟨z, hz, hb⟩
  · simp [Flt.ofReal] at h
  · rw [Datum.finite.inj (congrArg Flt.datum hz)]; exact hb

private theorem inverse_moderate {m : ℕ} (hF : InverseRange F (-m - F.fracBits) m) (A : Matrix (Fin 3) (Fin 3) ℝ)
    (hA : ∀ i j, Moderate F m (A i j)) (mem : List Flt) (hm : HoldsNative mem (A.map Flt.ofReal)) :
    ∃ (δ : ℝ) (after : Res (List Flt)), inverseNative (floatArith F) mem = .ok (Flt.ofReal δ, after) ∧
      let ε := errBound (unitRoundoff F) 5
      |δ - A.det| ≤ ε * detMagnitude A ∧ (δ = 0 → after = .nonfinite) ∧
      (δ ≠ 0 → ∃ (mem' : List Flt) (P : Matrix (Fin 3) (Fin 3) ℝ), after = .ok mem' ∧
        HoldsNative mem' (P.map Flt.ofReal) ∧
        ∀ i j, |P i j - A.adjugate i j / δ| ≤ ε * (adjMagnitude A i j / |δ|) ∧
          (A.det ≠ 0 → ε * detMagnitude A ≤ |A.det| / 2 →
            |P i j - A⁻¹ i j| ≤ 2 * ε * (1 + detMagnitude A / |A.det|) * (adjMagnitude A i j / |A.det|))) := by
  obtain ⟨det, after, h1, h2⟩ := C81_inverse (F := F) A mem hm
  rw [holdsNative_iff] at hm
  subst hm
  obtain ⟨δ, after', h3, h4⟩ := inverse_clean hF (fun i j => moderate_grid (hA i j))
  obtain ⟨rfl, rfl⟩ := Prod.mk.inj (Res.ok.inj (h1.symm.trans h3))
  refine ⟨δ, after, h1, ?_⟩
  rcases h2 with h2 | ⟨δ', e, hb, hz, -, hP⟩
  · simp [Flt.ofReal] at h2
  obtain rfl : δ = δ' := Datum.finite.inj (congrArg Flt.datum e)
  refine ⟨hb, hz, fun h0 => ?_⟩
  obtain ⟨P, hP1⟩ := h4 h0
  obtain ⟨mem', Q, hQ, hQ1, hQ2⟩ := hP h0
  have e1 := Res.ok.inj (hP1.symm.trans hQ)
  refine ⟨mem', P, hQ, holdsNative_iff.2 e1.symm, fun i j => ?_⟩
  have hPQ : Q i j = Flt.ofReal (P i j) :=
    Res.ok.inj ((hQ1.2 i j).symm.trans ((holdsNative_iff.2 e1.symm : HoldsNative mem' (P.map Flt.ofReal)).2 i j))
  obtain ⟨k1, k2⟩ := hQ2 i j
  rw [hPQ] at k1 k2
  exact ⟨accurate_ofReal k1, fun a b => accurate_ofReal (k2 a b)⟩

/-- **C83, `double`.** `inverse` of a 3x3 matrix whose entries are zero or of magnitude between `2^-173` and
`2^173` raises no exceptions (other than `inexact`, and the division by zero if the computed determinant is
zero), and what it leaves obeys the bounds of C73 with `u = 2^-53`. -/
theorem C83_inverse_double (A : Matrix (Fin 3) (Fin 3) ℝ) (hA : ∀ i j, Moderate binary64 173 (A i j))
    (mem : List Flt) (hm : HoldsNative mem (A.map Flt.ofReal)) :
    ∃ (δ : ℝ) (after : Res (List Flt)), inverseNative (floatArith binary64) mem = .ok (Flt.ofReal δ, after) ∧
      let ε := errBound (1 / 2 ^ 53) 5
      |δ - A.det| ≤ ε * detMagnitude A ∧ (δ = 0 → after = .nonfinite) ∧
      (δ ≠ 0 → ∃ (mem' : List Flt) (P : Matrix (Fin 3) (Fin 3) ℝ), after = .ok mem' ∧
        HoldsNative mem' (P.map Flt.ofReal) ∧
        ∀ i j, |P i j - A.adjugate i j / δ| ≤ ε * (adjMagnitude A i j / |δ|) ∧
          (A.det ≠ 0 → ε * detMagnitude A ≤ |A.det| / 2 →
            |P i j - A⁻¹ i j| ≤ 2 * ε * (1 + detMagnitude A / |A.det|) * (adjMagnitude A i j / |A.det|))) := by
  have h := inverse_moderate (F := binary64) (m := 173)
    (by constructor <;> simp only [binary64] <;> norm_num) A hA mem hm
  rwa [unitRoundoff_formats.1] at h

/-- **C83, `float`.** The same for entries that are zero or of magnitude between `2^-11` and `2^11`, with
`u = 2^-24`. -/
theorem C83_inverse_float (A : Matrix (Fin 3) (Fin 3) ℝ) (hA : ∀ i j, Moderate binary32 11 (A i j))
    (mem : List Flt) (hm : HoldsNative mem (A.map Flt.ofReal)) :
    ∃ (δ : ℝ) (after : Res (List Flt)), inverseNative (floatArith binary32) mem = .ok (Flt.ofReal δ, after) ∧
      let ε := errBound (1 / 2 ^ 24) 5
      |δ - A.det| ≤ ε * detMagnitude A ∧ (δ = 0 → after = .nonfinite) ∧
      (δ ≠ 0 → ∃ (mem' : List Flt) (P : Matrix (Fin 3) (Fin 3) ℝ), after = .ok mem' ∧
        HoldsNative mem' (P.map Flt.ofReal) ∧
        ∀ i j, |P i j - A.adjugate i j / δ| ≤ ε * (adjMagnitude A i j / |δ|) ∧
          (A.det ≠ 0 → ε * detMagnitude A ≤ |A.det| / 2 →
            |P i j - A⁻¹ i j| ≤ 2 * ε * (1 + detMagnitude A / |A.det|) * (adjMagnitude A i j / |A.det|))) := by
  have h := inverse_moderate (F := binary32) (m := 11)
    (by constructor <;> simp only [binary32] <;> norm_num) A hA mem hm
  rwa [unitRoundoff_formats.2] at h

/-- **C83, CArrays.** The same for a `CArrayNd< REAL_TYPE, 3, 3 >`, in every configuration and both types. -/
theorem C83_inverse_carray (cfg : Config) (F : FloatFormat) (m : ℕ)
    (hF : F = binary64 ∧ m = 173 ∨ F = binary32 ∧ m = 11)
    (A : Matrix (Fin 3) (Fin 3) ℝ) (hA : ∀ i j, Moderate F m (A i j))
    (mem : List Flt) (hm : HoldsMatrix mem (A.map Flt.ofReal)) :
    ∃ (δ : ℝ) (after : Res (List Flt)),
      inverse (floatArith F) (carray cfg (CArray.whole [3, 3])) mem = .ok (Flt.ofReal δ, after) ∧
      let ε := errBound (unitRoundoff F) 5
      |δ - A.det| ≤ ε * detMagnitude A ∧ (δ = 0 → after = .nonfinite) ∧
      (δ ≠ 0 → ∃ (mem' : List Flt) (P : Matrix (Fin 3) (Fin 3) ℝ), after = .ok mem' ∧
        HoldsMatrix mem' (P.map Flt.ofReal) ∧
        ∀ i j, |P i j - A.adjugate i j / δ| ≤ ε * (adjMagnitude A i j / |δ|) ∧
          (A.det ≠ 0 → ε * detMagnitude A ≤ |A.det| / 2 →
            |P i j - A⁻¹ i j| ≤ 2 * ε * (1 + detMagnitude A / |A.det|) * (adjMagnitude A i j / |A.det|))) := by
  have hr : InverseRange F (-m - F.fracBits) m := by
    rcases hF with ⟨rfl, rfl⟩ | ⟨rfl, rfl⟩
    · constructor <;> simp only [binary64] <;> norm_num
    · constructor <;> simp only [binary32] <;> norm_num
  have hm := (holds_iff (by norm_num) (by norm_num)).1 hm
  obtain ⟨δ, after, h1, h2, h3, h4⟩ := inverse_moderate hr A hA mem (holdsNative_iff.2 hm)
  have e := inverse_carray cfg (floatArith F) [] [] (m := mem) (by rw [hm]; exact matMem_length _)
  rw [h1] at e
  simp only [List.nil_append, List.append_nil] at e
  refine ⟨δ, (fun m' => m') <$> after, e, h2, fun h => by rw [h3 h]; rfl, fun h => ?_⟩
  obtain ⟨mem', P, hm', hP, h5⟩ := h4 h
  rw [holdsNative_iff] at hP
  subst hP
  exact ⟨matMem (P.map Flt.ofReal), P, by rw [hm']; rfl, (holds_iff (by norm_num) (by norm_num)).2 rfl, h5⟩

/-! ### outside the range -/

/-- The powers of two of the format. -/
private theorem represents_zpow {k : ℤ} (h1 : F.minExp - F.fracBits ≤ k) (h2 : k ≤ F.maxExp) :
    Represents F (2 ^ k) := by
  have hlog : Int.log 2 ((2 : ℝ) ^ k) = k := by
    have := Int.log_zpow (R := ℝ) (b := 2) (by norm_num) k
    exact_mod_cast this
  have habs : |(2 : ℝ) ^ k| = 2 ^ k := abs_of_pos (by positivity)
  constructor
  · apply nearest_of_onGrid
    apply OnGrid.zpow
    unfold FloatFormat.unitExp
    rw [habs, hlog]
    omega
  · rw [habs]; exact zpow_lt_zpow_right₀ (by norm_num) (by omega)

private theorem round_represented {x : ℝ} (h : Represents F x) : Flt.round F false x = Flt.ofReal x := by
  have h1 : ¬ F.Overflows x := by unfold FloatFormat.Overflows; rw [h.1, not_le]; exact h.2
  have h2 : ¬ F.Underflows x := fun hu => hu.2 h.1
  simp [Flt.round, h1, h2, h.1, Flt.ofReal]

/-- What C84 asks for: `inverse` computes the inverse accurately for every matrix with entries of the format
that is not close to a singular one and has an inverse with entries of the format.  Only values count, not
whether an exception was raised on the way. -/
def InverseAccurateAtAllScales (F : FloatFormat) : Prop :=
  ∀ (A : Matrix (Fin 3) (Fin 3) ℝ) (mem : List Flt), HoldsNative mem (A.map Flt.ofReal) →
    (∀ i j, Represents F (A i j) ∧ Represents F (A⁻¹ i j)) → A.det ≠ 0 →
    errBound (unitRoundoff F) 5 * detMagnitude A ≤ |A.det| / 2 →
    ∃ (det : Flt) (mem' : List Flt) (M : Matrix (Fin 3) (Fin 3) Flt) (P : Matrix (Fin 3) (Fin 3) ℝ),
      inverseNative (floatArith F) mem = .ok (det, .ok mem') ∧ HoldsNative mem' M ∧
      ∀ i j, (M i j).datum = .finite (P i j) ∧
        |P i j - A⁻¹ i j| ≤ 2 * errBound (unitRoundoff F) 5 * (1 + detMagnitude A / |A.det|)
          * (adjMagnitude A i j / |A.det|)

private theorem represents_zero : Represents F 0 := ⟨nearest_zero F, by rw [abs_zero]; positivity⟩

private theorem mul_zpow_zpow {j k : ℤ} (h1 : F.minExp - F.fracBits ≤ j + k) (h2 : j + k ≤ F.maxExp) :
    Flt.mul F (Flt.ofReal (2 ^ j)) (Flt.ofReal (2 ^ k)) = Flt.ofReal (2 ^ (j + k)) := by
  show Flt.round F false ((2 : ℝ) ^ j * 2 ^ k) = _
  rw [← zpow_add₀ (by norm_num)]
  exact round_represented (represents_zpow h1 h2)

private theorem mul_zero' (x : ℝ) : Flt.mul F (Flt.ofReal x) (Flt.ofReal 0) = Flt.ofReal 0 := by
  show Flt.round F false (x * 0) = _
  rw [mul_zero]; exact round_represented represents_zero

private theorem zero_mul' (x : ℝ) : Flt.mul F (Flt.ofReal 0) (Flt.ofReal x) = Flt.ofReal 0 := by
  show Flt.round F false (0 * x) = _
  rw [zero_mul]; exact round_represented represents_zero

private theorem sub_zero' {x : ℝ} (h : Represents F x) : Flt.sub F (Flt.ofReal x) (Flt.ofReal 0) = Flt.ofReal x := by
  show Flt.round F false (x + -0) = _
  rw [neg_zero, add_zero]; exact round_represented h

private theorem log_zpow' (k : ℤ) : Int.log 2 ((2 : ℝ) ^ k) = k := by
  have := Int.log_zpow (R := ℝ) (b := 2) (by norm_num) k
  exact_mod_cast this

private theorem round_overflow {k : ℤ} (h : F.maxExp + 1 ≤ k) :
    Flt.round F false ((2 : ℝ) ^ k) = ⟨.inf false, true⟩ := by
  have hn : F.nearest ((2 : ℝ) ^ k) = 2 ^ k := by
    apply nearest_of_onGrid
    apply OnGrid.zpow
    unfold FloatFormat.unitExp
    have := F.ordered
    rw [abs_of_pos (by positivity), log_zpow']
    omega
  have ho : F.Overflows ((2 : ℝ) ^ k) := by
    unfold FloatFormat.Overflows
    rw [hn, abs_of_pos (by positivity)]
    exact zpow_le_zpow_right₀ (by norm_num) h
  have hp : ¬ ((2 : ℝ) ^ k < 0) := not_lt.2 (by positivity)
  simp [Flt.round, ho, hp]

private theorem round_one (h1 : F.minExp - F.fracBits ≤ 0) (h2 : 0 ≤ F.maxExp) :
    Flt.round F false ((1 : ℚ) : ℝ) = Flt.ofReal 1 := by
  have := round_represented (represents_zpow (F := F) (k := 0) h1 h2)
  simpa using this

/-- If `2^k` squared is finite and cubed is not, `inverse` of `2^k` times the identity returns the determinant
infinity and leaves the zero matrix. -/
theorem C84_overflow {k : ℤ} (h2 : 2 * k ≤ F.maxExp) (h3 : F.maxExp + 1 ≤ 3 * k)
    (h4 : F.minExp - F.fracBits ≤ 0) (mem : List Flt)
    (hm : HoldsNative mem ((Matrix.diagonal fun _ => (2 : ℝ) ^ k).map Flt.ofReal)) :
    ∃ mem', inverseNative (floatArith F) mem = .ok (⟨.inf false, true⟩, .ok mem') ∧
      HoldsNative mem' (Matrix.of fun _ _ => (⟨.finite 0, true⟩ : Flt)) := by
  have hkk : Represents F ((2 : ℝ) ^ (k + k)) := represents_zpow (by omega) (by omega)
  have hover : Flt.mul F (Flt.ofReal (2 ^ k)) (Flt.ofReal (2 ^ (k + k))) = ⟨.inf false, true⟩ := by
    show Flt.round F false ((2 : ℝ) ^ k * 2 ^ (k + k)) = _
    rw [← zpow_add₀ (by norm_num)]
    exact round_overflow (by omega)
  have hz : ∀ y : ℝ, Flt.mul F (Flt.ofReal y) ⟨.finite 0, true⟩ = ⟨.finite 0, true⟩ := by
    intro y
    have ho : ¬ F.Overflows 0 := by
      unfold FloatFormat.Overflows; rw [nearest_zero, abs_zero, not_le]; positivity
    simp [Flt.mul, Flt.ofReal, Flt.round, ho, nearest_zero]
  have hd : Flt.div F (Flt.ofReal 1) ⟨.inf false, true⟩ = .ok ⟨.finite 0, true⟩ := by
    simp [Flt.div, Flt.ofReal]
  have ha : Flt.add F ⟨.inf false, true⟩ (Flt.ofReal 0) = ⟨.inf false, true⟩ := by
    simp [Flt.add, Flt.ofReal]
  rw [holdsNative_iff] at hm
  subst hm
  refine ⟨_, ?_, holdsNative_iff.2 rfl⟩
  rw [matMem_three, matMem_three, inverseNative_eq]
  simp only [Matrix.map_apply, Matrix.of_apply, Matrix.diagonal_apply_eq,
    Matrix.diagonal_apply_ne _ (show (0 : Fin 3) ≠ 1 by decide),
    Matrix.diagonal_apply_ne _ (show (0 : Fin 3) ≠ 2 by decide),
    Matrix.diagonal_apply_ne _ (show (1 : Fin 3) ≠ 0 by decide),
    Matrix.diagonal_apply_ne _ (show (1 : Fin 3) ≠ 2 by decide),
    Matrix.diagonal_apply_ne _ (show (2 : Fin 3) ≠ 0 by decide),
    Matrix.diagonal_apply_ne _ (show (2 : Fin 3) ≠ 1 by decide), floatArith, mul_zero', zero_mul',
    mul_zpow_zpow (F := F) (j := k) (k := k) (by omega) (by omega), sub_zero' hkk,
    sub_zero' (represents_zero (F := F)), hover, ha, round_one h4 (by omega), hd]
  show Res.ok (_, Res.ok _) = _
  simp only [hz]

private theorem diagonal_inverse (k : ℤ) :
    (Matrix.diagonal fun _ : Fin 3 => (2 : ℝ) ^ k)⁻¹ = Matrix.diagonal fun _ => (2 : ℝ) ^ (-k) := by
  apply Matrix.inv_eq_right_inv
  rw [Matrix.diagonal_mul_diagonal, ← Matrix.diagonal_one]
  congr 1
  funext i
  rw [← zpow_add₀ (by norm_num), add_neg_cancel, zpow_zero]

private theorem diagonal_det (k : ℤ) :
    (Matrix.diagonal fun _ : Fin 3 => (2 : ℝ) ^ k).det = (2 ^ k) ^ 3 := by
  rw [Matrix.det_diagonal]; simp

private theorem diagonal_magnitude {n : ℕ} (k : ℤ) :
    detMagnitude (Matrix.diagonal fun _ : Fin n => (2 : ℝ) ^ k) = (2 ^ k) ^ n := by
  unfold detMagnitude
  rw [Finset.sum_eq_single 1]
  · simp [abs_of_pos (show (0 : ℝ) < 2 ^ k by positivity)]
  · intro σ _ hσ
    obtain ⟨i, hi⟩ : ∃ i, σ i ≠ i := by
      by_contra hc
      push Not at hc
      exact hσ (Equiv.ext hc)
    exact Finset.prod_eq_zero (Finset.mem_univ i) (by rw [Matrix.diagonal_apply_ne _ hi, abs_zero])
  · simp

private theorem adj_magnitude (k : ℤ) :
    adjMagnitude (Matrix.diagonal fun _ => (2 : ℝ) ^ k) 0 0 = (2 ^ k) ^ 2 := by
  unfold adjMagnitude
  rw [← diagonal_magnitude (n := 2) k]
  congr 1
  rw [Matrix.submatrix_diagonal _ _ (Fin.succAbove_right_injective)]
  rfl

private theorem not_accurate {k : ℤ} (h2 : 2 * k ≤ F.maxExp) (h3 : F.maxExp + 1 ≤ 3 * k)
    (h4 : F.minExp - F.fracBits ≤ -k) (hu : errBound (unitRoundoff F) 5 ≤ 1 / 8) :
    ¬ InverseAccurateAtAllScales F := by
  intro h
  have hp : (0 : ℝ) < 2 ^ k := by positivity
  obtain ⟨mem', hr, hz⟩ := C84_overflow h2 h3 (by omega) _ (holdsNative_iff.2 rfl)
  obtain ⟨det, m2, M, P, hr2, hM, hP⟩ := h (Matrix.diagonal fun _ => (2 : ℝ) ^ k) _ (holdsNative_iff.2 rfl)
    (by
      intro i j
      rw [diagonal_inverse, Matrix.diagonal_apply, Matrix.diagonal_apply]
      split_ifs
      · exact ⟨represents_zpow (by omega) (by omega), represents_zpow h4 (by omega)⟩
      · exact ⟨represents_zero, represents_zero⟩)
    (by rw [diagonal_det]; positivity)
    (by
      rw [diagonal_det, diagonal_magnitude, abs_of_pos (by positivity)]
      have : (0 : ℝ) < (2 ^ k) ^ 3 := by positivity
      nlinarith)
  obtain rfl : mem' = m2 := Res.ok.inj (Prod.mk.inj (Res.ok.inj (hr.symm.trans hr2))).2
  obtain ⟨d, hb⟩ := hP 0 0
  have e : (⟨.finite 0, true⟩ : Flt) = M 0 0 := Res.ok.inj ((hz.2 0 0).symm.trans (hM.2 0 0))
  rw [← e] at d
  rw [← Datum.finite.inj d, diagonal_inverse, Matrix.diagonal_apply_eq, diagonal_det, diagonal_magnitude,
    adj_magnitude, zero_sub, abs_neg, zpow_neg, abs_of_pos (by positivity), abs_of_pos (by positivity),
    div_self (by positivity)] at hb
  have e2 : ((2 : ℝ) ^ k) ^ 2 / (2 ^ k) ^ 3 = (2 ^ k)⁻¹ := by field_simp
  rw [e2] at hb
  have : (0 : ℝ) < (2 ^ k)⁻¹ := by positivity
  nlinarith

/-- **C84 is false**, in `double` and in `float`: the inverse of `2^400` (`2^50`) times the identity comes out
as the zero matrix, although it is `2^-400` (`2^-50`) times the identity, which the format represents. -/
theorem C84_violated : ¬ InverseAccurateAtAllScales binary64 ∧ ¬ InverseAccurateAtAllScales binary32 := by
  constructor
  · refine not_accurate (k := 400) (by norm_num [binary64]) (by norm_num [binary64])
      (by norm_num [binary64]) ?_
    rw [unitRoundoff_formats.1]
    unfold errBound; norm_num
  · refine not_accurate (k := 50) (by norm_num [binary32]) (by norm_num [binary32])
      (by norm_num [binary32]) ?_
    rw [unitRoundoff_formats.2]
    unfold errBound; norm_num

/-- **C84, the proved part.**  What C84 asks for holds if every entry is zero or of magnitude between `2^-173` and
`2^173` in `double`, between `2^-11` and `2^11` in `float`.  Missing: matrices with entries outside this range,
for which it can fail. -/
theorem C84_partial (F : FloatFormat) (m : ℕ) (hF : F = binary64 ∧ m = 173 ∨ F = binary32 ∧ m = 11)
    (A : Matrix (Fin 3) (Fin 3) ℝ) (hA : ∀ i j, Moderate F m (A i j)) (mem : List Flt)
    (hm : HoldsNative mem (A.map Flt.ofReal)) (h0 : A.det ≠ 0)
    (hc : errBound (unitRoundoff F) 5 * detMagnitude A ≤ |A.det| / 2) :
    ∃ (det : Flt) (mem' : List Flt) (P : Matrix (Fin 3) (Fin 3) ℝ),
      inverseNative (floatArith F) mem = .ok (det, .ok mem') ∧ HoldsNative mem' (P.map Flt.ofReal) ∧
      ∀ i j, |P i j - A⁻¹ i j| ≤ 2 * errBound (unitRoundoff F) 5 * (1 + detMagnitude A / |A.det|)
        * (adjMagnitude A i j / |A.det|) := by
  have hr : InverseRange F (-m - F.fracBits) m := by
    rcases hF with ⟨rfl, rfl⟩ | ⟨rfl, rfl⟩
    · constructor <;> simp only [binary64] <;> norm_num
    · constructor <;> simp only [binary32] <;> norm_num
  obtain ⟨δ, after, h1, h2, -, h3⟩ := inverse_moderate hr A hA mem hm
  have hδ : δ ≠ 0 := by
    rintro rfl
    have hp := abs_pos.2 h0
    rw [zero_sub, abs_neg] at h2
    linarith
  obtain ⟨mem', P, rfl, hP, hb⟩ := h3 hδ
  exact ⟨_, mem', P, h1, hP, fun i j => (hb i j).2 h0 hc⟩

/-- The hypotheses of C83 and C84 hold for a matrix with a large off-diagonal entry. -/
example : ∃ (δ : ℝ) (mem' : List Flt), inverseNative (floatArith binary64)
      (matMem ((!![2, 1024, 0; 0, 4, 0; 0, 0, 1] : Matrix (Fin 3) (Fin 3) ℝ).map Flt.ofReal))
        = .ok (Flt.ofReal δ, .ok mem') ∧ |δ - 8| ≤ 1 / 10 ^ 14 := by
  have hz : ∀ k : ℕ, k ≤ 100 → Moderate binary64 173 (2 ^ k) := fun k hk => by
    have hr := represents_zpow (F := binary64) (k := k) (by simp only [binary64]; omega)
      (by simp only [binary64]; omega)
    rw [zpow_natCast] at hr
    refine .inr ⟨hr, ?_, ?_⟩ <;> rw [abs_of_pos (by positivity)]
    · exact (show (1 : ℝ) / 2 ^ 173 ≤ 1 by norm_num).trans (one_le_pow₀ (by norm_num))
    · exact pow_le_pow_right₀ (by norm_num) (by omega)
  have hA : ∀ i j, Moderate binary64 173 ((!![2, 1024, 0; 0, 4, 0; 0, 0, 1] : Matrix (Fin 3) (Fin 3) ℝ) i j) := by
    have h1 := hz 0 (by omega); have h2 := hz 1 (by omega); have h3 := hz 2 (by omega)
    have h4 := hz 10 (by omega); have h0 : Moderate binary64 173 0 := .inl rfl
    norm_num at h1 h2 h3 h4
    intro i j
    fin_cases i <;> fin_cases j <;> simp <;> assumption
  obtain ⟨δ, after, h1, h2, -, h3⟩ := C83_inverse_double _ hA _ (holdsNative_iff.2 rfl)
  have hd : (!![2, 1024, 0; 0, 4, 0; 0, 0, 1] : Matrix (Fin 3) (Fin 3) ℝ).det = 8 := by
    simp [Matrix.det_fin_three]; norm_num
  have hm : detMagnitude (!![2, 1024, 0; 0, 4, 0; 0, 0, 1] : Matrix (Fin 3) (Fin 3) ℝ) = 8 := by
    simp [detMagnitude_three]; norm_num
  rw [hd, hm] at h2
  have hb : |δ - 8| ≤ 1 / 10 ^ 14 := h2.trans (by unfold errBound; norm_num)
  have hδ : δ ≠ 0 := by rintro rfl; norm_num at hb
  obtain ⟨mem', P, rfl, -⟩ := h3 hδ
  exact ⟨δ, mem', h1, hb⟩

end Verif.Props
