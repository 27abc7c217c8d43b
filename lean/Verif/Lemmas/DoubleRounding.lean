import Verif.Model.Mixed
import Verif.Lemmas.FloatTables

/-! Rounding to `double` and then to `float` is rounding to `float`, for quotients. -/

namespace Verif.Lemmas

open Verif.Spec

/-- Rounding depends only on the position relative to multiples of one half. -/
theorem roundEven_congr {x y : ℝ} (h : ∀ k : ℤ, (x < k / 2 ↔ y < k / 2) ∧ ((k : ℝ) / 2 < x ↔ (k : ℝ) / 2 < y)) :
    roundEven x = roundEven y := by
  have hf : ⌊x⌋ = ⌊y⌋ := by
    have key : ∀ n : ℤ, (n : ℝ) ≤ x ↔ (n : ℝ) ≤ y := fun n => by
      have := (h (2 * n)).1
      push_cast at this
      rw [mul_div_cancel_left₀ _ (by norm_num)] at this
      rw [← not_lt, ← not_lt, this]
    apply le_antisymm
    · exact Int.le_floor.2 ((key _).1 (Int.floor_le x))
    · exact Int.le_floor.2 ((key _).2 (Int.floor_le y))
  obtain ⟨h1, h2⟩ := h (2 * ⌊x⌋ + 1)
  push_cast at h1 h2
  have e1 : (Int.fract x < 1 / 2) ↔ (Int.fract y < 1 / 2) := by
    unfold Int.fract
    rw [← hf]
    constructor <;> intro h' <;> [have := h1.1 (by linarith); have := h1.2 (by linarith)] <;> linarith
  have e2 : (1 / 2 < Int.fract x) ↔ (1 / 2 < Int.fract y) := by
    unfold Int.fract
    rw [← hf]
    constructor <;> intro h' <;> [have := h2.1 (by linarith); have := h2.2 (by linarith)] <;> linarith
  unfold roundEven
  simp only [e1, e2, hf]

variable {F G : FloatFormat}

theorem log_eq_iff {x : ℝ} (hx : 0 < x) {e : ℤ} : Int.log 2 x = e ↔ (2 : ℝ) ^ e ≤ x ∧ x < 2 ^ (e + 1) := by
  have h1 := Int.zpow_le_iff_le_log (b := 2) (R := ℝ) (x := e) (by norm_num) hx
  have h2 := Int.lt_zpow_iff_log_lt (b := 2) (R := ℝ) (x := e + 1) (by norm_num) hx
  push_cast at h1 h2
  rw [h1, h2]
  omega

section
variable {x y : ℝ} (hx : x ≠ 0)
  (hs : ∀ m, OnGrid (F.unitExp x - 1) m → m ≠ x → |y - x| < |x - m|)

include hs in
theorem side_lt {m : ℝ} (hm : OnGrid (F.unitExp x - 1) m) (hne : m ≠ x) : (x < m ↔ y < m) ∧ (m < x ↔ m < y) := by
  have h := hs m hm hne
  rcases lt_or_gt_of_ne hne with h' | h'
  · rw [abs_of_pos (by linarith : 0 < x - m)] at h
    have := (abs_lt.1 h).1
    exact ⟨⟨fun _ => by linarith, fun _ => by linarith⟩, ⟨fun _ => by linarith, fun _ => h'⟩⟩
  · rw [abs_of_neg (by linarith : x - m < 0)] at h
    have := (abs_lt.1 h).2
    exact ⟨⟨fun _ => by linarith, fun _ => h'⟩, ⟨fun _ => by linarith, fun _ => by linarith⟩⟩

include hx hs in
theorem same_sign : (0 < x ↔ 0 < y) ∧ (x < 0 ↔ y < 0) :=
  let h := side_lt hs (OnGrid.zero _) hx.symm
  ⟨h.2, h.1⟩

include hx hs in
/-- Nearby numbers not separated by a multiple of half a unit have the same unit, and either both or neither are
in the range of normal numbers. -/
theorem same_unit (hg : ¬ OnGrid (F.unitExp x - 1) x) :
    F.unitExp y = F.unitExp x ∧ (|x| < 2 ^ F.minExp ↔ |y| < 2 ^ F.minExp) := by
  have hne : ∀ m, OnGrid (F.unitExp x - 1) m → m ≠ x := fun m hm e => hg (e ▸ hm)
  obtain ⟨s1, s2⟩ := same_sign hx hs
  have hy : y ≠ 0 := by
    rcases lt_or_gt_of_ne hx with h | h
    · exact (s2.1 h).ne
    · exact (s1.1 h).ne'
  -- compare absolute values
  have key : ∀ M, F.unitExp x - 1 ≤ M → (|x| < 2 ^ M ↔ |y| < 2 ^ M) := by
    intro M hM
    have hp : (0 : ℝ) < 2 ^ M := by positivity
    have k1 := side_lt hs (OnGrid.zpow hM) (hne _ (OnGrid.zpow hM))
    have k2 := side_lt hs (OnGrid.zpow hM).neg (hne _ (OnGrid.zpow hM).neg)
    rw [abs_lt, abs_lt, k1.1, k2.2]
  have hxp := abs_pos.2 hx
  have hyp := abs_pos.2 hy
  obtain ⟨h1, h2⟩ := (log_eq_iff hxp).1 rfl
  have hfb : (0 : ℤ) ≤ F.fracBits := Int.natCast_nonneg _
  rcases le_or_gt F.minExp (Int.log 2 |x|) with hn | hn
  · have hu : F.unitExp x = Int.log 2 |x| - F.fracBits := by
      unfold FloatFormat.unitExp; rw [max_eq_left hn]
    have hlog : Int.log 2 |y| = Int.log 2 |x| := by
      rw [log_eq_iff hyp]
      refine ⟨?_, (key _ (by omega)).1 h2⟩
      rw [← not_lt, ← key _ (by omega), not_lt]
      exact h1
    refine ⟨by unfold FloatFormat.unitExp; rw [hlog], ?_⟩
    have hle : (2 : ℝ) ^ F.minExp ≤ 2 ^ Int.log 2 |x| := zpow_le_zpow_right₀ (by norm_num) hn
    have h3 := ((log_eq_iff hyp).1 hlog).1
    constructor <;> intro h' <;> linarith
  · have hu : F.unitExp x = F.minExp - F.fracBits := by
      unfold FloatFormat.unitExp; rw [max_eq_right hn.le]
    have k := key F.minExp (by omega)
    refine ⟨?_, k⟩
    have hxm : |x| < 2 ^ F.minExp := lt_of_lt_of_le h2 (zpow_le_zpow_right₀ (by norm_num) (by omega))
    have hym := k.1 hxm
    have hl := (Int.lt_zpow_iff_log_lt (b := 2) (by norm_num) hyp).1 (by push_cast; exact hym)
    rw [hu]
    unfold FloatFormat.unitExp
    rw [max_eq_right hl.le]

include hx hs in
theorem nearest_congr (hg : ¬ OnGrid (F.unitExp x - 1) x) : F.nearest y = F.nearest x := by
  have hne : ∀ m, OnGrid (F.unitExp x - 1) m → m ≠ x := fun m hm e => hg (e ▸ hm)
  unfold FloatFormat.nearest
  rw [(same_unit hx hs hg).1]
  congr 2
  obtain ⟨u, hu⟩ : ∃ u, u = F.unitExp x := ⟨_, rfl⟩
  rw [← hu] at hs hne ⊢
  have hp : (0 : ℝ) < 2 ^ u := by positivity
  apply roundEven_congr
  intro k
  have hm : OnGrid (u - 1) ((k : ℝ) / 2 * 2 ^ u) :=
    ⟨k, by rw [zpow_sub_one₀ (by norm_num)]; ring⟩
  have h := side_lt (F := F) (x := x) (by rw [← hu]; exact hs) (by rw [← hu]; exact hm) (hne _ hm)
  rw [div_lt_iff₀ hp, div_lt_iff₀ hp, lt_div_iff₀ hp, lt_div_iff₀ hp]
  exact ⟨h.1.symm, h.2.symm⟩

end

/-- Rounding first to a finer format and then to `F` gives what rounding to `F` gives, exceptions included, if the
number is not very close to a multiple of half a unit of `F` without being one. -/
theorem convert_round {r : Bool} {x : ℝ} (ho : ¬ G.Overflows x) (hu : ¬ G.Underflows x)
    (hle : G.unitExp x ≤ F.unitExp x - 1)
    (hs : ∀ m, OnGrid (F.unitExp x - 1) m → m ≠ x → |G.nearest x - x| < |x - m|) :
    Flt.convert F (Flt.round G r x) = Flt.round F r x := by
  have e : Flt.round G r x = ⟨.finite (G.nearest x), r⟩ := by simp [Flt.round, ho, hu]
  rw [e]
  show Flt.round F r (G.nearest x) = _
  by_cases hg : OnGrid (F.unitExp x - 1) x
  · rw [nearest_of_onGrid G (hg.mono hle)]
  have hx : x ≠ 0 := by rintro rfl; exact hg (OnGrid.zero _)
  have hne : ∀ m, OnGrid (F.unitExp x - 1) m → m ≠ x := fun m hm e => hg (e ▸ hm)
  have hn := nearest_congr hx hs hg
  have hU : F.Underflows (G.nearest x) ↔ F.Underflows x := by
    unfold FloatFormat.Underflows
    rw [(same_unit hx hs hg).2, hn]
    refine and_congr_right fun _ => not_congr ⟨fun h => ?_, fun h => ?_⟩
    · by_contra _
      have hm : OnGrid (F.unitExp x - 1) (G.nearest x) := by
        rw [← h]; exact (onGrid_unit F x).mono (by omega)
      have := hs _ hm (hne _ hm)
      rw [abs_sub_comm] at this
      exact lt_irrefl _ this
    · exact absurd h (hne _ ((onGrid_unit F x).mono (by omega)))
  have hO : F.Overflows (G.nearest x) ↔ F.Overflows x := by unfold FloatFormat.Overflows; rw [hn]
  have hS := (same_sign hx hs).2
  unfold Flt.round
  by_cases hO' : F.Overflows x
  · rw [if_pos (hO.2 hO'), if_pos hO']
    simp only [hS]
  · rw [if_neg (fun h => hO' (hO.1 h)), if_neg hO', hn]
    congr 2
    exact decide_eq_decide.2 hU

/-! ### quotients of a power of two by a `float` -/

theorem abs_lt_zpow_unit (F : FloatFormat) (b : ℝ) : |b| < 2 ^ (F.unitExp b + F.fracBits + 1) := by
  have h1 := Int.lt_zpow_succ_log_self (b := 2) (by norm_num) |b|
  push_cast at h1
  refine lt_of_lt_of_le h1 (zpow_le_zpow_right₀ (by norm_num) ?_)
  unfold FloatFormat.unitExp
  omega

/-- A power of two divided by a `float` in `double`, converted to `float`. -/
theorem convert_quotient {r : Bool} {b : ℝ} (hb : Represents binary32 b) (h0 : b ≠ 0) {s : ℕ} (hs : s ≤ 100) :
    Flt.convert binary32 (Flt.round binary64 r (2 ^ s / b)) = Flt.round binary32 r (2 ^ s / b) := by
  obtain ⟨x, hx⟩ : ∃ x : ℝ, x = 2 ^ s / b := ⟨_, rfl⟩
  rw [← hx]
  have hbp := abs_pos.2 h0
  have hxb : x * b = 2 ^ s := by rw [hx]; field_simp
  have hxne : x ≠ 0 := by rintro rfl; rw [zero_mul] at hxb; exact absurd hxb.symm (by positivity)
  have hxp := abs_pos.2 hxne
  have habs : |x| * |b| = 2 ^ (s : ℤ) := by rw [← abs_mul, hxb, zpow_natCast]; exact abs_of_pos (by positivity)
  -- exponents
  have hgb : OnGrid (binary32.unitExp b) b := by have := onGrid_unit binary32 b; rwa [hb.1] at this
  obtain ⟨x1, x2⟩ := (log_eq_iff hxp).1 rfl
  obtain ⟨b1, b2⟩ := (log_eq_iff hbp).1 rfl
  have hb3 : Int.log 2 |b| < 128 :=
    (Int.lt_zpow_iff_log_lt (b := 2) (by norm_num) hbp).1 (by have := hb.2; simp only [binary32] at this; exact_mod_cast this)
  have hb4 : -149 ≤ Int.log 2 |b| := by
    apply (Int.zpow_le_iff_le_log (b := 2) (by norm_num) hbp).1
    have h := (hgb.mono (unitExp_min binary32 b)).le_abs h0
    simp only [binary32] at h
    exact_mod_cast h
  have e1 : Int.log 2 |x| + Int.log 2 |b| ≤ s := by
    have : (2 : ℝ) ^ (Int.log 2 |x| + Int.log 2 |b|) ≤ 2 ^ (s : ℤ) := by
      rw [zpow_add₀ (by norm_num), ← habs]
      exact mul_le_mul x1 b1 (by positivity) hxp.le
    exact (zpow_le_zpow_iff_right₀ (by norm_num)).1 this
  have e2 : s < Int.log 2 |x| + 1 + (Int.log 2 |b| + 1) := by
    have : (2 : ℝ) ^ (s : ℤ) < 2 ^ (Int.log 2 |x| + 1 + (Int.log 2 |b| + 1)) := by
      rw [zpow_add₀ (by norm_num), ← habs]
      exact mul_lt_mul'' x2 b2 hxp.le hbp.le
    exact (zpow_lt_zpow_iff_right₀ (by norm_num)).1 this
  have hU : binary32.unitExp x = max (Int.log 2 |x|) (-126) - 23 := rfl
  have hUb : binary32.unitExp b = max (Int.log 2 |b|) (-126) - 23 := rfl
  have hG : binary64.unitExp x = max (Int.log 2 |x|) (-1022) - 52 := rfl
  apply convert_round
  · apply not_overflows
    · refine x2.le.trans (zpow_le_zpow_right₀ (by norm_num) ?_)
      simp only [binary64]; omega
    · simp only [binary64]; omega
  · apply not_underflows_of_le
    refine le_trans (zpow_le_zpow_right₀ (by norm_num) ?_) x1
    simp only [binary64]; omega
  · omega
  · intro m hm hne
    have hgrid : OnGrid (binary32.unitExp x - 1 + binary32.unitExp b) (x * b + -(m * b)) :=
      OnGrid.add (by rw [hxb, ← zpow_natCast]; exact OnGrid.zpow (by omega)) (hm.mul hgb).neg
    have hnz : x * b + -(m * b) ≠ 0 := by
      intro h
      have : (x - m) * b = 0 := by linarith
      rcases mul_eq_zero.1 this with h | h
      · exact hne (by linarith)
      · exact h0 h
    have h1 := hgrid.le_abs hnz
    rw [show x * b + -(m * b) = (x - m) * b by ring, abs_mul] at h1
    have h2 := abs_lt_zpow_unit binary32 b
    have h3 := nearest_err_unit binary64 x
    have h4 : (2 : ℝ) ^ binary64.unitExp x ≤ 2 ^ (binary32.unitExp x - 25) :=
      zpow_le_zpow_right₀ (by norm_num) (by omega)
    have hpos : (0 : ℝ) < 2 ^ (binary32.unitExp x - 25) := by positivity
    have h5 : (2 : ℝ) ^ (binary32.unitExp x - 1 + binary32.unitExp b) =
        2 ^ (binary32.unitExp x - 25) * 2 ^ (binary32.unitExp b + (binary32.fracBits : ℤ) + 1) := by
      rw [← zpow_add₀ (by norm_num)]
      congr 1
      simp only [show (binary32.fracBits : ℤ) = 23 from rfl]
      omega
    have h6 : (2 : ℝ) ^ (binary32.unitExp x - 25) ≤ |x - m| := by
      by_contra hlt
      have := mul_lt_mul'' (not_le.1 hlt) h2 (abs_nonneg _) (abs_nonneg _)
      rw [← h5] at this
      exact absurd h1 (not_le.2 this)
    linarith

end Verif.Lemmas
