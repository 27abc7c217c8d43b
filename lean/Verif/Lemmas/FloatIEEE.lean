import Verif.Lemmas.DoubleRounding
import Verif.Lemmas.FloatInverse
import Verif.Spec.IEEE

/-! # Rounding in the model is rounding to nearest, ties to even -/

namespace Verif.Lemmas

open Verif.Spec

/-- No integer is nearer. -/
theorem roundEven_nearest (t : ℝ) (k : ℤ) : |(roundEven t : ℝ) - t| ≤ |(k : ℝ) - t| := by
  by_contra hlt
  push Not at hlt
  have h1 := roundEven_err t
  have h2 : |((roundEven t - k : ℤ) : ℝ)| < 1 := by
    push_cast
    have := abs_sub ((roundEven t : ℝ) - t) ((k : ℝ) - t)
    rw [sub_sub_sub_cancel_right] at this
    linarith
  have h3 : |roundEven t - k| < 1 := by exact_mod_cast h2
  have : roundEven t = k := by have := abs_lt.1 h3; omega
  rw [this] at hlt
  exact lt_irrefl _ hlt

/-- If another integer is as near, the result is even, and the other one is odd. -/
theorem roundEven_tie {t : ℝ} {k : ℤ} (hne : k ≠ roundEven t) (h : |(k : ℝ) - t| = |(roundEven t : ℝ) - t|) :
    Even (roundEven t) ∧ ¬ Even k := by
  have hx := Int.floor_add_fract t
  have h0 := Int.fract_nonneg t
  have h1 := Int.fract_lt_one t
  have hmid : (k : ℝ) + roundEven t = 2 * t := by
    rcases abs_eq_abs.1 h with h | h
    · exact absurd (by exact_mod_cast sub_left_inj.1 h) hne
    · linarith
  have hhalf : Int.fract t = 1 / 2 := by
    have hkr : (k : ℝ) + roundEven t = 2 * ⌊t⌋ + 2 * Int.fract t := by linarith
    obtain ⟨j, hj⟩ : ∃ j : ℤ, 2 * Int.fract t = j := ⟨k + roundEven t - 2 * ⌊t⌋, by push_cast; linarith⟩
    have hj0 : (0 : ℝ) ≤ j := by linarith
    have hj1 : (j : ℝ) < 2 := by linarith
    have hj0' : 0 ≤ j := by exact_mod_cast hj0
    have hj1' : j < 2 := by exact_mod_cast hj1
    rcases (show j = 0 ∨ j = 1 by omega) with rfl | rfl
    · exfalso
      have hf : Int.fract t = 0 := by simpa using hj
      have : roundEven t = ⌊t⌋ := by unfold roundEven; rw [hf]; norm_num
      rw [this] at hmid
      have : (k : ℝ) = ⌊t⌋ := by rw [hf] at hx; linarith
      exact hne (by rw [‹roundEven t = ⌊t⌋›]; exact_mod_cast this)
    · push_cast at hj; linarith
  have hr : roundEven t = if Even ⌊t⌋ then ⌊t⌋ else ⌊t⌋ + 1 := by
    unfold roundEven; rw [hhalf]; norm_num
  have hs : k + roundEven t = 2 * ⌊t⌋ + 1 := by
    have : (k : ℝ) + roundEven t = 2 * ⌊t⌋ + 1 := by linarith
    exact_mod_cast this
  by_cases he : Even ⌊t⌋
  · rw [if_pos he] at hr
    refine ⟨hr ▸ he, ?_⟩
    have : k = ⌊t⌋ + 1 := by omega
    rw [this, Int.even_add_one]; exact not_not.2 he
  · rw [if_neg he] at hr
    refine ⟨by rw [hr, Int.even_add_one]; exact he, ?_⟩
    have : k = ⌊t⌋ := by omega
    rwa [this]

variable {F : FloatFormat}

theorem numberWith_abs_lt {m e : ℤ} {x : ℝ} (h : NumberWith F m e x) : |x| < 2 ^ (e + F.fracBits + 1) := by
  obtain ⟨rfl, hm, -, -⟩ := h
  have hp : (0 : ℝ) < 2 ^ e := by positivity
  rw [abs_mul, abs_of_pos hp, show e + F.fracBits + 1 = ((F.fracBits + 1 : ℕ) : ℤ) + e by push_cast; ring,
    zpow_add₀ (by norm_num), zpow_natCast]
  exact mul_lt_mul_of_pos_right (by exact_mod_cast hm) hp

theorem unitExp_le_of_lt {x : ℝ} (h0 : x ≠ 0) {e : ℤ} (hx : |x| < 2 ^ (e + F.fracBits + 1)) (he : F.minExp - F.fracBits ≤ e) :
    F.unitExp x ≤ e := by
  have := (Int.lt_zpow_iff_log_lt (b := 2) (by norm_num) (abs_pos.2 h0)).1 (by exact_mod_cast hx)
  unfold FloatFormat.unitExp
  omega

theorem number_onGrid {m e : ℤ} {x : ℝ} (h0 : x ≠ 0) (h : NumberWith F m e x) : F.unitExp x ≤ e ∧ OnGrid (F.unitExp x) x := by
  have h1 := unitExp_le_of_lt h0 (numberWith_abs_lt h) h.2.2.1
  exact ⟨h1, OnGrid.mono ⟨m, h.1⟩ h1⟩

theorem isNumber_zero : IsNumber F 0 := by
  refine ⟨0, F.minExp - F.fracBits, by simp, by simp, le_refl _, ?_⟩
  have := F.ordered
  omega

/-- The significand before adjustment. -/
theorem signif_bound (x : ℝ) : |roundEven (x / 2 ^ F.unitExp x)| ≤ 2 ^ (F.fracBits + 1) := by
  have hp : (0 : ℝ) < 2 ^ F.unitExp x := by positivity
  have h1 := abs_lt_zpow_unit F x
  have h2 : |x / 2 ^ F.unitExp x| < 2 ^ (F.fracBits + 1) := by
    rw [abs_div, abs_of_pos hp, div_lt_iff₀ hp]
    refine h1.trans_eq ?_
    rw [show F.unitExp x + F.fracBits + 1 = ((F.fracBits + 1 : ℕ) : ℤ) + F.unitExp x by push_cast; ring,
      zpow_add₀ (by norm_num), zpow_natCast]
  obtain ⟨h3, h4⟩ := abs_lt.1 h2
  have hi : ((2 ^ (F.fracBits + 1) : ℤ) : ℝ) = 2 ^ (F.fracBits + 1) := by push_cast; rfl
  rw [abs_le]
  constructor
  · rw [← roundEven_int (-2 ^ (F.fracBits + 1))]
    exact roundEven_mono (by push_cast; exact h3.le)
  · rw [← roundEven_int (2 ^ (F.fracBits + 1))]
    exact roundEven_mono (by push_cast; exact h4.le)

theorem unitExp_le_max {x : ℝ} (h0 : x ≠ 0) (ho : ¬ F.Overflows x) : F.unitExp x ≤ F.maxExp - F.fracBits := by
  have hlt : |x| < 2 ^ (F.maxExp + 1) := by
    by_contra hge
    push Not at hge
    exact ho (zpow_le_nearest (by have := F.ordered; omega) hge)
  have := (Int.lt_zpow_iff_log_lt (b := 2) (by norm_num) (abs_pos.2 h0)).1 (by exact_mod_cast hlt)
  have := F.ordered
  unfold FloatFormat.unitExp
  omega

/-- The significand and exponent of the rounded number. -/
theorem nearest_number {x : ℝ} (h0 : x ≠ 0) (ho : ¬ F.Overflows x) :
    (|roundEven (x / 2 ^ F.unitExp x)| < 2 ^ (F.fracBits + 1) ∧
      NumberWith F (roundEven (x / 2 ^ F.unitExp x)) (F.unitExp x) (F.nearest x)) ∨
    ∃ m : ℤ, |m| = 2 ^ F.fracBits ∧ NumberWith F m (F.unitExp x + 1) (F.nearest x) := by
  have hmin := unitExp_min F x
  have hmax := unitExp_le_max h0 ho
  rcases (signif_bound x).lt_or_eq with hlt | heq
  · exact .inl ⟨hlt, rfl, hlt, hmin, hmax⟩
  · right
    obtain ⟨n, hn⟩ : ∃ n, n = roundEven (x / 2 ^ F.unitExp x) := ⟨_, rfl⟩
    rw [← hn] at heq
    obtain ⟨m, hm, hm'⟩ : ∃ m : ℤ, n = m * 2 ∧ |m| = 2 ^ F.fracBits := by
      rcases abs_eq (by positivity) |>.1 heq with h | h
      · exact ⟨2 ^ F.fracBits, by rw [h, pow_succ], abs_of_pos (by positivity)⟩
      · exact ⟨-2 ^ F.fracBits, by rw [h, pow_succ]; ring, by rw [abs_neg]; exact abs_of_pos (by positivity)⟩
    have hval : F.nearest x = m * 2 ^ (F.unitExp x + 1) := by
      unfold FloatFormat.nearest
      rw [← hn, hm, zpow_add_one₀ (by norm_num)]
      push_cast; ring
    refine ⟨m, hm', hval, ?_, by omega, ?_⟩
    · rw [hm', pow_succ]
      have : (0 : ℤ) < 2 ^ F.fracBits := by positivity
      omega
    · by_contra hgt
      push Not at hgt
      apply ho
      unfold FloatFormat.Overflows
      rw [hval, abs_mul, abs_of_pos (by positivity : (0 : ℝ) < 2 ^ (F.unitExp x + 1)), ← Int.cast_abs, hm']
      push_cast
      rw [← zpow_natCast, ← zpow_add₀ (by norm_num)]
      exact zpow_le_zpow_right₀ (by norm_num) (by omega)

theorem isNumber_nearest {x : ℝ} (ho : ¬ F.Overflows x) : IsNumber F (F.nearest x) := by
  rcases eq_or_ne x 0 with rfl | h0
  · rw [nearest_zero]; exact isNumber_zero
  rcases nearest_number h0 ho with ⟨-, h⟩ | ⟨m, -, h⟩
  · exact ⟨_, _, h⟩
  · exact ⟨_, _, h⟩

theorem represents_iff_isNumber {x : ℝ} : Represents F x ↔ IsNumber F x := by
  constructor
  · rintro ⟨h1, h2⟩
    rw [← h1]
    exact isNumber_nearest (by unfold FloatFormat.Overflows; rw [h1]; exact not_le.2 h2)
  · intro h
    rcases eq_or_ne x 0 with rfl | h0
    · exact ⟨nearest_zero F, by rw [abs_zero]; positivity⟩
    · obtain ⟨m, e, h⟩ := h
      refine ⟨nearest_of_onGrid F (number_onGrid h0 h).2, (numberWith_abs_lt h).trans_le ?_⟩
      exact zpow_le_zpow_right₀ (by norm_num) (by have := h.2.2.2; omega)

/-- A number that is not a multiple of the unit of `x` is further from `x` than a multiple of it. -/
theorem finer_is_farther {x z : ℝ} (hz0 : z ≠ 0) (hlt : F.unitExp z < F.unitExp x) :
    ∃ k : ℤ, |(k : ℝ) * 2 ^ F.unitExp x - x| < |z - x| := by
  have hx0 : x ≠ 0 ∨ x = 0 := (eq_or_ne x 0).symm
  have hzmin := unitExp_min F z
  have hz := abs_lt_zpow_unit F z
  have hz' : |z| < 2 ^ (F.unitExp x + F.fracBits) := hz.trans_le (zpow_le_zpow_right₀ (by norm_num) (by omega))
  rcases hx0 with hx0 | rfl
  · have hlog : F.unitExp x = Int.log 2 |x| - F.fracBits := by
      have : F.minExp < Int.log 2 |x| := by unfold FloatFormat.unitExp at hlt hzmin; omega
      unfold FloatFormat.unitExp; omega
    have hx : 2 ^ (F.unitExp x + F.fracBits) ≤ |x| := by
      rw [hlog, sub_add_cancel]
      have := Int.zpow_log_le_self (b := 2) (by norm_num) (abs_pos.2 hx0)
      exact_mod_cast this
    have hg : ((2 : ℤ) ^ F.fracBits : ℤ) * (2 : ℝ) ^ F.unitExp x = 2 ^ (F.unitExp x + F.fracBits) := by
      rw [zpow_add₀ (by norm_num), zpow_natCast]; push_cast; ring
    obtain ⟨h1, h2⟩ := abs_lt.1 hz'
    rcases abs_cases x with ⟨e, hs⟩ | ⟨e, hs⟩
    · refine ⟨2 ^ F.fracBits, ?_⟩
      rw [hg, abs_of_nonpos (by linarith), abs_of_nonpos (by linarith)]
      linarith
    · refine ⟨-2 ^ F.fracBits, ?_⟩
      rw [Int.cast_neg, neg_mul, hg, abs_of_nonneg (by linarith), abs_of_nonneg (by linarith)]
      linarith
  · exact ⟨0, by simpa using hz0⟩

theorem grid_dist (x : ℝ) (k : ℤ) :
    |(k : ℝ) * 2 ^ F.unitExp x - x| = |(k : ℝ) - x / 2 ^ F.unitExp x| * 2 ^ F.unitExp x := by
  have hp : (0 : ℝ) < 2 ^ F.unitExp x := by positivity
  rw [← abs_of_pos hp, ← abs_mul, abs_of_pos hp, sub_mul, div_mul_cancel₀ _ hp.ne']

theorem nearest_dist (x : ℝ) (k : ℤ) : |F.nearest x - x| ≤ |(k : ℝ) * 2 ^ F.unitExp x - x| := by
  unfold FloatFormat.nearest
  rw [grid_dist, grid_dist]
  exact mul_le_mul_of_nonneg_right (roundEven_nearest _ _) (by positivity)

/-- Among the numbers only multiples of the unit of `x` can be as near as the rounded number. -/
theorem number_cases {x z : ℝ} (hz : IsNumber F z) :
    OnGrid (F.unitExp x) z ∨ |F.nearest x - x| < |z - x| := by
  rcases eq_or_ne z 0 with rfl | hz0
  · exact .inl (OnGrid.zero _)
  obtain ⟨m, e, h⟩ := hz
  by_cases hu : F.unitExp x ≤ F.unitExp z
  · exact .inl ((number_onGrid hz0 h).2.mono hu)
  · obtain ⟨k, hk⟩ := finer_is_farther hz0 (not_le.1 hu)
    exact .inr ((nearest_dist x k).trans_lt hk)

theorem nearest_roundsTo (hf : 1 ≤ F.fracBits) {x : ℝ} (ho : ¬ F.Overflows x) : RoundsTo F x (F.nearest x) where
  number := isNumber_nearest ho
  nearest z hz := by
    rcases number_cases (x := x) hz with ⟨k, rfl⟩ | h
    · exact nearest_dist x k
    · exact h.le
  ties z hz hne hd := by
    rcases number_cases (x := x) hz with ⟨k, hk⟩ | h
    · have hp : (0 : ℝ) < 2 ^ F.unitExp x := by positivity
      have hx0 : x ≠ 0 := by
        rintro rfl
        rw [nearest_zero] at hd hne
        simp at hd
        exact hne hd
      have hkne : k ≠ roundEven (x / 2 ^ F.unitExp x) := by
        rintro rfl
        exact hne (by rw [hk]; rfl)
      have htie := roundEven_tie hkne (by
        rw [hk] at hd
        unfold FloatFormat.nearest at hd
        rw [grid_dist, grid_dist] at hd
        exact mul_right_cancel₀ hp.ne' hd)
      rcases nearest_number hx0 ho with ⟨-, h⟩ | ⟨m, hm, h⟩
      · refine ⟨_, _, h, ?_, htie.1⟩
        by_cases hmin : F.unitExp x = F.minExp - F.fracBits
        · exact .inr hmin
        · left
          have hlog : F.unitExp x = Int.log 2 |x| - F.fracBits := by
            unfold FloatFormat.unitExp at hmin ⊢; omega
          have hge : 2 ^ (F.unitExp x + F.fracBits) ≤ |x| := by
            rw [hlog, sub_add_cancel]
            have := Int.zpow_log_le_self (b := 2) (by norm_num) (abs_pos.2 hx0)
            exact_mod_cast this
          have h2 : (2 : ℝ) ^ F.fracBits ≤ |x / 2 ^ F.unitExp x| := by
            rw [abs_div, abs_of_pos hp, le_div_iff₀ hp, mul_comm, ← zpow_natCast, ← zpow_add₀ (by norm_num)]
            exact hge
          rcases le_abs.1 h2 with h3 | h3
          · refine le_abs.2 (.inl ?_)
            rw [← roundEven_int (2 ^ F.fracBits)]
            exact roundEven_mono (by push_cast; exact h3)
          · refine le_abs.2 (.inr ?_)
            rw [← roundEven_neg, ← roundEven_int (2 ^ F.fracBits)]
            exact roundEven_mono (by push_cast; exact h3)
      · refine ⟨m, _, h, .inl hm.ge, ?_⟩
        rw [← even_abs, hm]
        exact (Int.even_pow.2 ⟨even_two, by omega⟩)
    · exact absurd hd h.ne'

/-- Rounding to nearest with ties to even has one result. -/
theorem roundsTo_unique (hf : 1 ≤ F.fracBits) {x y : ℝ} (ho : ¬ F.Overflows x) (hy : RoundsTo F x y) : y = F.nearest x := by
  by_contra hne
  have hn := nearest_roundsTo hf ho
  have hd : |y - x| = |F.nearest x - x| := le_antisymm (hy.nearest _ hn.number) (hn.nearest _ hy.number)
  have hx0 : x ≠ 0 := by
    rintro rfl
    rw [nearest_zero] at hd hne
    simp at hd
    exact hne hd
  rcases number_cases (x := x) hy.number with ⟨k, hk⟩ | h
  · have hp : (0 : ℝ) < 2 ^ F.unitExp x := by positivity
    have hkne : k ≠ roundEven (x / 2 ^ F.unitExp x) := by
      rintro rfl
      exact hne (by rw [hk]; rfl)
    have hodd := (roundEven_tie hkne (by
      rw [hk] at hd
      unfold FloatFormat.nearest at hd
      rw [grid_dist, grid_dist] at hd
      exact mul_right_cancel₀ hp.ne' hd)).2
    obtain ⟨m, e, hme, -, hm⟩ := hy.ties _ hn.number (Ne.symm hne) hd.symm
    by_cases hle : F.unitExp x ≤ e
    · apply hodd
      obtain ⟨j, hj⟩ := Int.le.dest hle
      have h1 : (k : ℝ) = m * 2 ^ j := by
        have h2 := hk.symm.trans hme.1
        rw [← hj, zpow_add₀ (by norm_num), zpow_natCast] at h2
        have h3 : (k : ℝ) * 2 ^ F.unitExp x = (m * 2 ^ j) * 2 ^ F.unitExp x := by rw [h2]; ring
        exact mul_right_cancel₀ hp.ne' h3
      have h2 : k = m * 2 ^ j := by exact_mod_cast h1
      rw [h2]; exact hm.mul_right _
    · have hy0 : y ≠ 0 := by
        rintro rfl
        have : (k : ℝ) = 0 := by
          rcases mul_eq_zero.1 hk.symm with h | h
          · exact h
          · exact absurd h hp.ne'
        have : k = 0 := by exact_mod_cast this
        exact hodd (this ▸ Even.zero)
      have hu := (number_onGrid hy0 hme).1
      obtain ⟨j, hj⟩ := finer_is_farther (F := F) (x := x) hy0 (by omega)
      have := nearest_dist (F := F) x j
      linarith
  · linarith

/-- When the result becomes infinite. -/
theorem overflows_iff {x : ℝ} : F.Overflows x ↔ overflowBound F ≤ |x| := by
  wlog hx : 0 ≤ x generalizing x
  · have := this (x := -x) (by linarith)
    unfold FloatFormat.Overflows at this ⊢
    rwa [nearest_neg, abs_neg, abs_neg] at this
  have hord := F.ordered
  have hM : (0 : ℝ) < 2 ^ F.maxExp := by positivity
  have hb : overflowBound F = ((2 : ℝ) ^ (F.fracBits + 1) - 1 / 2) * 2 ^ (F.maxExp - F.fracBits) := by
    unfold overflowBound
    rw [zpow_sub₀ (by norm_num), zpow_natCast, inv_pow, pow_succ]
    field_simp
  have hsmall : (1 : ℝ) ≤ 2 ^ F.fracBits := one_le_pow₀ (by norm_num)
  have hlow : (2 : ℝ) ^ F.maxExp ≤ overflowBound F := by
    unfold overflowBound
    have : (2 : ℝ)⁻¹ ^ (F.fracBits + 1) ≤ 1 := pow_le_one₀ (by norm_num) (by norm_num)
    nlinarith
  by_cases h1 : |x| < 2 ^ F.maxExp
  · exact ⟨fun h => absurd h (not_overflows F h1.le (by omega)), fun h => by linarith⟩
  push Not at h1
  by_cases h2 : 2 ^ (F.maxExp + 1) ≤ |x|
  · refine ⟨fun _ => ?_, fun _ => zpow_le_nearest (by omega) h2⟩
    refine le_trans ?_ h2
    rw [zpow_add_one₀ (by norm_num), mul_comm]
    unfold overflowBound
    have : (0 : ℝ) ≤ (2 : ℝ)⁻¹ ^ (F.fracBits + 1) := by positivity
    nlinarith
  push Not at h2
  have h0 : 0 < |x| := hM.trans_le h1
  have hlog : Int.log 2 |x| = F.maxExp := (log_eq_iff h0).2 ⟨h1, h2⟩
  have hu : F.unitExp x = F.maxExp - F.fracBits := by unfold FloatFormat.unitExp; omega
  have hp : (0 : ℝ) < 2 ^ (F.maxExp - F.fracBits) := by positivity
  rw [abs_of_nonneg hx] at *
  have htop : (2 : ℝ) ^ (F.maxExp + 1) = ((2 ^ (F.fracBits + 1) : ℤ) : ℝ) * 2 ^ (F.maxExp - F.fracBits) := by
    push_cast
    rw [← zpow_natCast, ← zpow_add₀ (by norm_num)]
    congr 1; push_cast; ring
  have hhalf : roundEven ((2 : ℝ) ^ (F.fracBits + 1) - 1 / 2) = 2 ^ (F.fracBits + 1) := by
    have hfl : ⌊(2 : ℝ) ^ (F.fracBits + 1) - 1 / 2⌋ = 2 ^ (F.fracBits + 1) - 1 := by
      rw [Int.floor_eq_iff]; push_cast; constructor <;> linarith
    have hfr : Int.fract ((2 : ℝ) ^ (F.fracBits + 1) - 1 / 2) = 1 / 2 := by
      rw [← Int.self_sub_floor, hfl]; push_cast; ring
    have hev : ¬ Even ((2 : ℤ) ^ (F.fracBits + 1) - 1) := by
      rw [Int.even_sub_one, not_not]
      exact Int.even_pow.2 ⟨even_two, by omega⟩
    unfold roundEven
    rw [hfr, hfl, if_neg (lt_irrefl _), if_neg (lt_irrefl _), if_neg hev]
    ring
  have hr0 : 0 ≤ roundEven (x / 2 ^ (F.maxExp - F.fracBits)) := by
    have := roundEven_mono (x := ((0 : ℤ) : ℝ)) (y := x / 2 ^ (F.maxExp - F.fracBits)) (by simp; positivity)
    rwa [roundEven_int] at this
  unfold FloatFormat.Overflows FloatFormat.nearest
  rw [hu, abs_of_nonneg (mul_nonneg (by exact_mod_cast hr0) hp.le), htop, mul_le_mul_iff_left₀ hp, Int.cast_le, hb]
  constructor
  · intro h
    by_contra hlt
    push Not at hlt
    have hlt' : x / 2 ^ (F.maxExp - F.fracBits) < 2 ^ (F.fracBits + 1) - 1 / 2 := (div_lt_iff₀ hp).2 hlt
    have h3 := roundEven_err (x / 2 ^ (F.maxExp - F.fracBits))
    have h4 := roundEven_nearest (x / 2 ^ (F.maxExp - F.fracBits)) (2 ^ (F.fracBits + 1) - 1)
    have h5 : ((2 ^ (F.fracBits + 1) : ℤ) : ℝ) ≤ roundEven (x / 2 ^ (F.maxExp - F.fracBits)) := by exact_mod_cast h
    push_cast at h4 h5
    have h6 := (abs_le.1 h3).2
    linarith
  · intro h
    rw [← hhalf]
    exact roundEven_mono ((le_div_iff₀ hp).2 h)

end Verif.Lemmas
