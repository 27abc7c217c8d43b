import Verif.Model.Float
import Verif.Spec.Float
import Mathlib.Tactic.Linarith
import Mathlib.Tactic.Positivity
import Mathlib.Algebra.Order.Field.Power
import Mathlib.Tactic.FieldSimp
import Mathlib.Tactic.Ring

/-! Rounding to a binary format: error, grids, and magnitude. -/

namespace Verif.Lemmas

open Verif.Spec

theorem roundEven_err (x : ℝ) : |(roundEven x : ℝ) - x| ≤ 1 / 2 := by
  have h := Int.floor_add_fract x
  have h0 := Int.fract_nonneg x
  have h1 := Int.fract_lt_one x
  unfold roundEven
  split_ifs with a b c
  · rw [abs_le]; constructor <;> linarith
  · push_cast; rw [abs_le]; constructor <;> linarith
  · rw [abs_le]; constructor <;> linarith
  · push_cast; rw [abs_le]; constructor <;> linarith

theorem roundEven_int (n : ℤ) : roundEven n = n := by
  simp [roundEven]

theorem roundEven_mono {x y : ℝ} (h : x ≤ y) : roundEven x ≤ roundEven y := by
  have hf := Int.floor_mono h
  have hx := Int.floor_add_fract x
  have hy := Int.floor_add_fract y
  rcases hf.lt_or_eq with hlt | he
  · have h1 : roundEven x ≤ ⌊x⌋ + 1 := by
      unfold roundEven; split_ifs <;> omega
    have h2 : ⌊y⌋ ≤ roundEven y := by
      unfold roundEven; split_ifs <;> omega
    omega
  · have hfr : Int.fract x ≤ Int.fract y := by
      rw [he] at hx
      linarith
    unfold roundEven
    rw [he]
    split_ifs <;> first | omega | (exfalso; linarith)

theorem roundEven_neg (x : ℝ) : roundEven (-x) = -roundEven x := by
  have hx := Int.floor_add_fract x
  by_cases h0 : Int.fract x = 0
  · obtain ⟨n, hn⟩ : ∃ n : ℤ, x = n := ⟨⌊x⌋, by rw [h0, add_zero] at hx; exact hx.symm⟩
    rw [hn, ← Int.cast_neg, roundEven_int, roundEven_int]
  have hpos : 0 < Int.fract x := lt_of_le_of_ne (Int.fract_nonneg x) (Ne.symm h0)
  have h1 := Int.fract_lt_one x
  have hfl : ⌊-x⌋ = -⌊x⌋ - 1 := by
    rw [Int.floor_eq_iff]
    push_cast
    constructor <;> linarith
  have hfr : Int.fract (-x) = 1 - Int.fract x := by
    have := Int.floor_add_fract (-x)
    rw [hfl] at this
    push_cast at this
    linarith
  have hev : Even (-⌊x⌋ - 1) ↔ ¬ Even ⌊x⌋ := by
    rw [Int.even_sub_one, even_neg]
  unfold roundEven
  rw [hfl, hfr]
  simp only [hev]
  split_ifs <;> first | omega | (exfalso; linarith)

variable (F : FloatFormat)

theorem nearest_zero : F.nearest 0 = 0 := by
  unfold FloatFormat.nearest
  rw [zero_div, show (0 : ℝ) = ((0 : ℤ) : ℝ) by simp, roundEven_int]
  simp

theorem unitExp_neg (x : ℝ) : F.unitExp (-x) = F.unitExp x := by simp [FloatFormat.unitExp]

theorem nearest_neg (x : ℝ) : F.nearest (-x) = -F.nearest x := by
  unfold FloatFormat.nearest
  rw [unitExp_neg, neg_div, roundEven_neg]
  push_cast
  ring

/-- The error is at most half a unit. -/
theorem nearest_err_unit (x : ℝ) : |F.nearest x - x| ≤ 2 ^ F.unitExp x / 2 := by
  have hp : (0 : ℝ) < 2 ^ F.unitExp x := by positivity
  have h := roundEven_err (x / 2 ^ F.unitExp x)
  have e : F.nearest x - x = ((roundEven (x / 2 ^ F.unitExp x) : ℝ) - x / 2 ^ F.unitExp x) * 2 ^ F.unitExp x := by
    unfold FloatFormat.nearest
    rw [sub_mul, div_mul_cancel₀ _ hp.ne']
  rw [e, abs_mul, abs_of_pos hp]
  calc _ ≤ 1 / 2 * (2 : ℝ) ^ F.unitExp x := mul_le_mul_of_nonneg_right h hp.le
    _ = _ := by ring

/-- The error for normal numbers. -/
theorem nearest_err_normal {x : ℝ} (hx : 2 ^ F.minExp ≤ |x|) : |F.nearest x - x| ≤ unitRoundoff F * |x| := by
  have hpos : 0 < |x| := lt_of_lt_of_le (by positivity) hx
  have hlog : F.minExp ≤ Int.log 2 |x| := (Int.zpow_le_iff_le_log (by norm_num) hpos).1 (by exact_mod_cast hx)
  have hle : (2 : ℝ) ^ Int.log 2 |x| ≤ |x| := by
    have := Int.zpow_log_le_self (b := 2) (by norm_num) hpos
    exact_mod_cast this
  refine (nearest_err_unit F x).trans ?_
  have e : F.unitExp x = Int.log 2 |x| - F.fracBits := by
    unfold FloatFormat.unitExp; rw [max_eq_left hlog]
  rw [e, zpow_sub₀ (by norm_num), zpow_natCast, unitRoundoff, inv_pow, pow_succ]
  rw [show (2 : ℝ) ^ Int.log 2 |x| / 2 ^ F.fracBits / 2 = (2 ^ F.fracBits * 2)⁻¹ * 2 ^ Int.log 2 |x| by
    field_simp]
  exact mul_le_mul_of_nonneg_left hle (by positivity)

/-- The error of every operation without overflow: relative for normal numbers, absolute below. -/
theorem nearest_err (x : ℝ) :
    |F.nearest x - x| ≤ unitRoundoff F * |x| + 2 ^ (F.minExp - F.fracBits) / 2 := by
  by_cases hx : 2 ^ F.minExp ≤ |x|
  · refine (nearest_err_normal F hx).trans ?_
    have : (0 : ℝ) < 2 ^ (F.minExp - F.fracBits) := by positivity
    linarith
  · push Not at hx
    have hu : 0 ≤ unitRoundoff F * |x| := mul_nonneg (by unfold unitRoundoff; positivity) (abs_nonneg _)
    rcases eq_or_ne x 0 with rfl | h0
    · rw [nearest_zero]; simp; positivity
    have hlog : Int.log 2 |x| ≤ F.minExp := by
      have := (Int.lt_zpow_iff_log_lt (b := 2) (by norm_num) (abs_pos.2 h0)).1 (by exact_mod_cast hx)
      exact this.le
    refine (nearest_err_unit F x).trans ?_
    have e : F.unitExp x = F.minExp - F.fracBits := by
      unfold FloatFormat.unitExp; rw [max_eq_right hlog]
    rw [e]
    linarith

/-- `x` is a multiple of `2^g`. -/
def OnGrid (g : ℤ) (x : ℝ) : Prop := ∃ n : ℤ, x = n * 2 ^ g

theorem OnGrid.mono {g h : ℤ} {x : ℝ} (hx : OnGrid g x) (hle : h ≤ g) : OnGrid h x := by
  obtain ⟨n, rfl⟩ := hx
  obtain ⟨k, rfl⟩ := Int.le.dest hle
  refine ⟨n * 2 ^ k, ?_⟩
  push_cast
  rw [zpow_add₀ (by norm_num), zpow_natCast]
  ring

theorem OnGrid.add {g : ℤ} {x y : ℝ} (hx : OnGrid g x) (hy : OnGrid g y) : OnGrid g (x + y) := by
  obtain ⟨n, rfl⟩ := hx
  obtain ⟨m, rfl⟩ := hy
  exact ⟨n + m, by push_cast; ring⟩

theorem OnGrid.neg {g : ℤ} {x : ℝ} (hx : OnGrid g x) : OnGrid g (-x) := by
  obtain ⟨n, rfl⟩ := hx
  exact ⟨-n, by push_cast; ring⟩

theorem OnGrid.mul {g h : ℤ} {x y : ℝ} (hx : OnGrid g x) (hy : OnGrid h y) : OnGrid (g + h) (x * y) := by
  obtain ⟨n, rfl⟩ := hx
  obtain ⟨m, rfl⟩ := hy
  exact ⟨n * m, by push_cast; rw [zpow_add₀ (by norm_num)]; ring⟩

theorem OnGrid.zero (g : ℤ) : OnGrid g 0 := ⟨0, by simp⟩

theorem OnGrid.zpow {g M : ℤ} (h : g ≤ M) : OnGrid g ((2 : ℝ) ^ M) := by
  obtain ⟨k, rfl⟩ := Int.le.dest h
  exact ⟨2 ^ k, by push_cast; rw [zpow_add₀ (by norm_num), zpow_natCast]; ring⟩

theorem OnGrid.le_abs {g : ℤ} {x : ℝ} (hx : OnGrid g x) (h0 : x ≠ 0) : 2 ^ g ≤ |x| := by
  obtain ⟨n, rfl⟩ := hx
  have hn : n ≠ 0 := by rintro rfl; simp at h0
  have h1 : (1 : ℝ) ≤ |(n : ℝ)| := by
    have := Int.one_le_abs hn
    exact_mod_cast this
  rw [abs_mul, abs_of_pos (by positivity : (0 : ℝ) < 2 ^ g)]
  exact le_mul_of_one_le_left (by positivity) h1

theorem nearest_of_onGrid {x : ℝ} (h : OnGrid (F.unitExp x) x) : F.nearest x = x := by
  obtain ⟨n, hn⟩ := h
  unfold FloatFormat.nearest
  have : x / 2 ^ F.unitExp x = n := by
    rw [div_eq_iff (by positivity)]
    exact hn
  rw [this, roundEven_int, ← hn]

theorem onGrid_unit (x : ℝ) : OnGrid (F.unitExp x) (F.nearest x) := ⟨_, rfl⟩

theorem onGrid_nearest {g : ℤ} {x : ℝ} (h : OnGrid g x) : OnGrid g (F.nearest x) := by
  rcases le_total g (F.unitExp x) with hle | hle
  · exact (onGrid_unit F x).mono hle
  · rw [nearest_of_onGrid F (h.mono hle)]; exact h

theorem unitExp_mono {x y : ℝ} (h0 : x ≠ 0) (h : |x| ≤ |y|) : F.unitExp x ≤ F.unitExp y := by
  unfold FloatFormat.unitExp
  have := Int.log_mono_right (b := 2) (abs_pos.2 h0) h
  omega

theorem unitExp_min (x : ℝ) : F.minExp - F.fracBits ≤ F.unitExp x := by
  unfold FloatFormat.unitExp
  omega

/-- Rounding does not go beyond a power of two. -/
theorem nearest_le_zpow {M : ℤ} (hM : F.minExp - F.fracBits ≤ M) {x : ℝ} (h : |x| ≤ 2 ^ M) :
    |F.nearest x| ≤ 2 ^ M := by
  wlog hx : 0 ≤ x generalizing x
  · have := this (x := -x) (by rwa [abs_neg]) (by linarith)
    rwa [nearest_neg, abs_neg] at this
  rcases eq_or_ne x 0 with rfl | h0
  · rw [nearest_zero, abs_zero]; positivity
  have hu : F.unitExp x ≤ M := by
    unfold FloatFormat.unitExp
    have : Int.log 2 |x| ≤ M := by
      have h1 := Int.log_mono_right (b := 2) (abs_pos.2 h0) h
      have h2 : Int.log 2 ((2 : ℝ) ^ M) = M := by
        have := Int.log_zpow (R := ℝ) (b := 2) (by norm_num) M
        exact_mod_cast this
      omega
    have := Int.natCast_nonneg F.fracBits
    omega
  have hp : (0 : ℝ) < 2 ^ F.unitExp x := by positivity
  obtain ⟨n, hn⟩ := OnGrid.zpow hu
  rw [abs_of_nonneg hx] at h
  have h1 : roundEven (x / 2 ^ F.unitExp x) ≤ n := by
    rw [← roundEven_int n]
    apply roundEven_mono
    rw [div_le_iff₀ hp, ← hn]
    exact h
  have h2 : 0 ≤ roundEven (x / 2 ^ F.unitExp x) := by
    have := roundEven_mono (x := ((0 : ℤ) : ℝ)) (y := x / 2 ^ F.unitExp x) (by simp; positivity)
    rwa [roundEven_int] at this
  unfold FloatFormat.nearest
  rw [abs_of_nonneg (mul_nonneg (by exact_mod_cast h2) hp.le), hn]
  exact mul_le_mul_of_nonneg_right (by exact_mod_cast h1) hp.le

theorem not_overflows {x : ℝ} (h : |x| ≤ 2 ^ F.maxExp) (hm : F.minExp - F.fracBits ≤ F.maxExp) :
    ¬ F.Overflows x := by
  have h1 := nearest_le_zpow F hm h
  unfold FloatFormat.Overflows
  rw [not_le]
  refine lt_of_le_of_lt h1 ?_
  rw [zpow_add_one₀ (by norm_num)]
  have : (0 : ℝ) < 2 ^ F.maxExp := by positivity
  linarith

theorem not_underflows_of_le {x : ℝ} (h : 2 ^ F.minExp ≤ |x|) : ¬ F.Underflows x :=
  fun h' => absurd h'.1 (not_lt.2 h)

/-- Multiples of the smallest number do not underflow. -/
theorem not_underflows_of_onGrid {x : ℝ} (h : OnGrid (F.minExp - F.fracBits) x) : ¬ F.Underflows x := by
  rintro ⟨h1, h2⟩
  apply h2
  rcases eq_or_ne x 0 with rfl | h0
  · exact nearest_zero F
  apply nearest_of_onGrid
  have hlog : Int.log 2 |x| ≤ F.minExp := by
    have := (Int.lt_zpow_iff_log_lt (b := 2) (by norm_num) (abs_pos.2 h0)).1 (by exact_mod_cast h1)
    exact this.le
  have e : F.unitExp x = F.minExp - F.fracBits := by
    unfold FloatFormat.unitExp; rw [max_eq_right hlog]
  rw [e]; exact h

open Classical in
/-- Rounding of the operations without exceptions, extended so that the error is small everywhere. -/
noncomputable def cleanRound (x : ℝ) : ℝ := if F.Underflows x then x else F.nearest x

theorem cleanRound_rounds : Rounds (cleanRound F) (unitRoundoff F) where
  nonneg := by unfold unitRoundoff; positivity
  le_half := by
    unfold unitRoundoff
    rw [pow_succ]
    have : ((2 : ℝ)⁻¹) ^ F.fracBits ≤ 1 := pow_le_one₀ (by norm_num) (by norm_num)
    linarith
  err x := by
    have h0 : 0 ≤ unitRoundoff F * |x| := mul_nonneg (by unfold unitRoundoff; positivity) (abs_nonneg _)
    unfold cleanRound
    split_ifs with h
    · simpa using h0
    · by_cases hx : 2 ^ F.minExp ≤ |x|
      · exact nearest_err_normal F hx
      · have : F.nearest x = x := by
          by_contra hne
          exact h ⟨not_le.1 hx, hne⟩
        rw [this]; simpa using h0

end Verif.Lemmas
