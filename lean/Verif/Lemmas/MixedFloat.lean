import Verif.Lemmas.DoubleRounding
import Verif.Lemmas.FloatInverse
import Verif.Lemmas.Mixed
import Verif.Spec.Mixed

/-! The code for `float` and for `double`, compared with the same code in a single type. -/

namespace Verif.Lemmas

open Verif.Spec

/-! ### `double` -/

theorem realMax_eq : ((realMax : ℚ) : ℝ) = binary64.maxFinite := by
  have h : ((2 : ℝ) - 2⁻¹ ^ 52) * 2 ^ (1023 : ℤ) = 2 ^ (1024 : ℤ) - 2 ^ (971 : ℤ) := by
    rw [show (1024 : ℤ) = 971 + 53 by norm_num, show (1023 : ℤ) = 971 + 52 by norm_num,
      zpow_add₀ (by norm_num), zpow_add₀ (by norm_num)]
    generalize (2 : ℝ) ^ (971 : ℤ) = t
    norm_num
    ring
  show _ = ((2 : ℝ) - 2⁻¹ ^ 52) * 2 ^ (1023 : ℤ)
  rw [h]
  unfold realMax
  rw [Rat.cast_intCast, Int.cast_sub, Int.cast_pow, Int.cast_pow, Int.cast_ofNat]
  exact congrArg₂ (· - ·) (zpow_natCast (2 : ℝ) 1024).symm (zpow_natCast (2 : ℝ) 971).symm

theorem round_realMax : Flt.round binary64 false (realMax : ℚ) = Flt.ofReal binary64.maxFinite := by
  have h : evalRound binary64 realMax = some realMax := by decide +kernel
  exact (evalRound_sound binary64 h).trans (congrArg Flt.ofReal realMax_eq)

theorem doubleMixed_eq : doubleMixed = sameMixed (floatArith binary64) := by
  unfold doubleMixed sameMixed
  congr 1
  exact round_realMax.symm

/-! ### `float` -/

theorem round_datum_represents {F : FloatFormat} {r : Bool} {x y : ℝ} (h : (Flt.round F r x).datum = .finite y) :
    Represents F y := by
  unfold Flt.round at h
  split_ifs at h with ho
  exact Datum.finite.inj h ▸ represents_nearest F ho

theorem sub_datum_represents {F : FloatFormat} {a b : Flt} {y : ℝ} (h : (Flt.sub F a b).datum = .finite y) :
    Represents F y := by
  obtain ⟨da, ra⟩ := a
  obtain ⟨db, rb⟩ := b
  cases da <;> cases db <;> simp only [Flt.sub, Flt.neg, Flt.add] at h <;> try (exact round_datum_represents h)
  all_goals first | (split_ifs at h) | (cases h)

theorem round_zero (F : FloatFormat) (r : Bool) : Flt.round F r 0 = ⟨.finite 0, r⟩ := by
  have ho : ¬ F.Overflows 0 := by
    unfold FloatFormat.Overflows; rw [nearest_zero, abs_zero, not_le]; positivity
  simp [Flt.round, ho, nearest_zero, FloatFormat.Underflows]

theorem lit_pow {F : FloatFormat} (hF : F ∈ [binary32, binary64]) {s : ℕ} (hs : s ≤ 1) :
    (floatArith F).lit (2 ^ s) = Flt.ofReal (2 ^ s) := by
  have h : evalRound F (2 ^ s) = some (2 ^ s) := by
    have h : ∀ F ∈ [binary32, binary64], ∀ s ∈ [0, 1], evalRound F (2 ^ s) = some (2 ^ s) := by decide +kernel
    exact h F hF s (by simp only [List.mem_cons, List.not_mem_nil, or_false]; omega)
  have := evalRound_sound F h
  push_cast at this
  show Flt.round F false ((2 ^ s : ℚ) : ℝ) = _
  push_cast
  exact this

/-- Dividing one or two by a `float` in `double` and converting to `float` is dividing in `float`. -/
theorem narrow_quotient {s : ℕ} (hs : s ≤ 1) {d : Flt} (hd : ∀ y, d.datum = .finite y → Represents binary32 y) :
    (floatMixed.wide.div (floatMixed.wide.lit (2 ^ s)) d >>= fun q => Res.ok (floatMixed.narrow q))
      = (floatArith binary32).div ((floatArith binary32).lit (2 ^ s)) d := by
  rw [lit_pow (by simp) hs]
  show (Flt.div binary64 ((floatArith binary64).lit (2 ^ s)) d >>= _) = Flt.div binary32 _ d
  rw [lit_pow (by simp) hs]
  obtain ⟨dd, r⟩ := d
  cases dd with
  | finite y =>
    have hy := hd y rfl
    simp only [Flt.div, Flt.ofReal]
    by_cases h0 : y = 0
    · rw [if_pos h0, if_pos h0]; rfl
    · rw [if_neg h0, if_neg h0]
      show Res.ok (Flt.convert binary32 _) = _
      rw [convert_quotient hy h0 (by omega)]
  | inf s =>
    show Res.ok (Flt.convert binary32 ⟨.finite 0, false || r⟩) = Res.ok ⟨.finite 0, false || r⟩
    show Res.ok (Flt.round binary32 (false || r) 0) = _
    rw [round_zero]
  | nan => rfl

theorem float_lit_one : floatMixed.lit 1 = (floatArith binary32).lit 1 := by
  have h := lit_pow (F := binary32) (by simp) (s := 0) (by omega)
  have h' := lit_pow (F := binary64) (by simp) (s := 0) (by omega)
  rw [pow_zero, pow_zero] at h h'
  show Flt.convert binary32 ((floatArith binary64).lit 1) = _
  rw [h', h]
  have := h
  simp only [floatArith] at this
  push_cast at this
  exact this

theorem float_lit_zero : floatMixed.lit 0 = (floatArith binary32).lit 0 := by
  show Flt.convert binary32 (Flt.round binary64 false ((0 : ℚ) : ℝ)) = Flt.round binary32 false ((0 : ℚ) : ℝ)
  rw [Rat.cast_zero, round_zero]
  rfl

theorem mixed_basis_eq {R W : Type} (M : Mixed R W) (h0 : M.lit 0 = M.real.lit 0) (h1 : M.lit 1 = M.real.lit 1)
    (hq : ∀ a b : R, (M.wide.div (M.wide.lit 1) (M.widen (M.real.sub a b)) >>= fun q => Res.ok (M.narrow q))
      = M.real.div (M.real.lit 1) (M.real.sub a b)) (S : Int → Spacing R) (order : Int) :
    M.lagrangeBasis S order = lagrangeBasis M.real S order := by
  have e1 : Mixed.LagrangeBasis.valueProductTerm M = LagrangeBasis.valueProductTerm M.real := by
    funext S bf term x
    unfold Mixed.LagrangeBasis.valueProductTerm LagrangeBasis.valueProductTerm
    rw [h1]
    split_ifs
    · rfl
    · congr 1; funext cFI
      congr 1; funext cBF
      rw [← hq]
      cases M.wide.div (M.wide.lit 1) (M.widen (M.real.sub cBF cFI)) <;> rfl
  have e2 : Mixed.LagrangeBasis.valueProductFactor M = LagrangeBasis.valueProductFactor M.real := by
    funext values term deriv
    unfold Mixed.LagrangeBasis.valueProductFactor LagrangeBasis.valueProductFactor
    rw [h1]
  have e3 : Mixed.LagrangeBasis.gradientOfValueTerm M = LagrangeBasis.gradientOfValueTerm M.real := by
    funext S bf term
    unfold Mixed.LagrangeBasis.gradientOfValueTerm LagrangeBasis.gradientOfValueTerm
    rw [h0]
    split_ifs
    · rfl
    · congr 1; funext cFI
      congr 1; funext cBF
      exact hq _ _
  unfold Mixed.lagrangeBasis lagrangeBasis
  congr 1
  funext n
  congr 2
  · funext bf x
    unfold Mixed.LagrangeBasis.value LagrangeBasis.value
    rw [e1]
  · funext bf x
    unfold Mixed.LagrangeBasis.gradient LagrangeBasis.gradient Mixed.LagrangeBasis.gradientTerm LagrangeBasis.gradientTerm
    rw [e1, e2, e3]

/-- Lagrange bases in `float` do what they would do without `double` literals. -/
theorem floatMixed_basis (S : Int → Spacing Flt) (order : Int) :
    floatMixed.lagrangeBasis S order = lagrangeBasis (floatArith binary32) S order := by
  refine mixed_basis_eq floatMixed float_lit_zero float_lit_one (fun a b => ?_) S order
  have := narrow_quotient (s := 0) (by omega) (d := Flt.sub binary32 a b) fun y => sub_datum_represents
  rw [pow_zero] at this
  exact this

/-! ### equal spacing in `float` -/

/-- Numbers with few enough digits are not rounded. -/
theorem round_of_onGrid {F : FloatFormat} {r : Bool} {x : ℝ} {g M : ℤ} (hg : OnGrid g x) (hx : |x| < 2 ^ (M + 1))
    (h1 : M - F.fracBits ≤ g) (h2 : F.minExp - F.fracBits ≤ g) (h3 : M ≤ F.maxExp) : Flt.round F r x = ⟨.finite x, r⟩ := by
  rcases eq_or_ne x 0 with rfl | h0
  · exact round_zero F r
  have hxp := abs_pos.2 h0
  have hlog : Int.log 2 |x| ≤ M := by
    have h := ((log_eq_iff hxp).1 rfl).1.trans_lt hx
    have := (zpow_lt_zpow_iff_right₀ (by norm_num)).1 h
    omega
  have hn : F.nearest x = x := nearest_of_onGrid F (hg.mono (by unfold FloatFormat.unitExp; omega))
  have ho : ¬ F.Overflows x := by
    unfold FloatFormat.Overflows
    rw [hn, not_le]
    exact hx.trans_le (zpow_le_zpow_right₀ (by norm_num) (by omega))
  simp [Flt.round, ho, hn, FloatFormat.Underflows]

theorem onGrid_int (n : ℤ) : OnGrid 0 (n : ℝ) := ⟨n, by simp⟩

theorem nearest_nonneg (F : FloatFormat) {x : ℝ} (h : 0 ≤ x) : 0 ≤ F.nearest x := by
  unfold FloatFormat.nearest
  have h1 := roundEven_mono (show ((0 : ℤ) : ℝ) ≤ x / 2 ^ F.unitExp x by simp; positivity)
  rw [roundEven_int] at h1
  have : (0 : ℝ) ≤ (roundEven (x / 2 ^ F.unitExp x) : ℝ) := by exact_mod_cast h1
  positivity

/-- Rounding positive numbers of moderate size. -/
theorem round_between {F : FloatFormat} (hF : F ∈ [binary32, binary64]) {r : Bool} {x : ℝ} {a b : ℤ} (ha : -100 ≤ a) (hb : b ≤ 100)
    (h1 : 2 ^ a ≤ x) (h2 : x ≤ 2 ^ b) :
    ∃ y, Flt.round F r x = ⟨.finite y, r⟩ ∧ 2 ^ a ≤ y ∧ y ≤ 2 ^ b ∧ Represents F y := by
  have hf : F.minExp ≤ -101 ∧ 101 ≤ F.maxExp ∧ (0 : ℤ) ≤ F.fracBits := by
    simp only [List.mem_cons, List.not_mem_nil, or_false] at hF
    rcases hF with rfl | rfl <;> simp [binary32, binary64]
  have hpa : (0 : ℝ) < 2 ^ a := by positivity
  have hx : 0 < x := lt_of_lt_of_le hpa h1
  have hab : |x| = x := abs_of_pos hx
  have ho := not_overflows F (x := x) (by rw [hab]; exact h2.trans (zpow_le_zpow_right₀ (by norm_num) (by omega))) (by omega)
  have hu : ¬ F.Underflows x := not_underflows_of_le F (by
    rw [hab]; exact (zpow_le_zpow_right₀ (by norm_num) (by omega)).trans h1)
  refine ⟨F.nearest x, by simp [Flt.round, ho, hu], ?_, ?_, represents_nearest F ho⟩
  · have h := zpow_le_nearest (F := F) (M := a) (x := x) (by omega) (by rwa [hab])
    rwa [abs_of_nonneg (nearest_nonneg F hx.le)] at h
  · have := nearest_le_zpow F (M := b) (x := x) (by
      have := (zpow_le_zpow_iff_right₀ (by norm_num : (1 : ℝ) < 2)).1 (h1.trans h2)
      omega) (by rw [hab]; exact h2)
    exact (le_abs_self _).trans this

theorem float_int {m : ℤ} (h0 : 0 ≤ m) (hm : m ≤ 16777216) : (floatArith binary32).lit m = Flt.ofReal m := by
  show Flt.round binary32 false ((m : ℚ) : ℝ) = _
  rw [Rat.cast_intCast]
  rcases hm.eq_or_lt with rfl | hm
  · exact round_of_onGrid (g := 24) (M := 24) ⟨1, by norm_num⟩ (by norm_num) (by simp only [binary32]; omega)
      (by simp only [binary32]; omega) (by simp only [binary32]; omega)
  refine round_of_onGrid (M := 23) (onGrid_int m) ?_ ?_ ?_ ?_
  · rw [abs_of_nonneg (by exact_mod_cast h0)]
    have : (m : ℝ) < 16777216 := by exact_mod_cast hm
    norm_num
    linarith
  all_goals (simp only [binary32]; omega)

theorem double_int {m : ℤ} (h0 : 0 ≤ m) (hm : m ≤ 2147483647) : (floatArith binary64).lit m = Flt.ofReal m := by
  show Flt.round binary64 false ((m : ℚ) : ℝ) = _
  rw [Rat.cast_intCast]
  refine round_of_onGrid (M := 31) (onGrid_int m) ?_ ?_ ?_ ?_
  · rw [abs_of_nonneg (by exact_mod_cast h0)]
    have : (m : ℝ) ≤ 2147483647 := by exact_mod_cast hm
    norm_num
    linarith
  all_goals (simp only [binary64]; omega)

/-- The interval in `float` and in `double`. -/
theorem mixed_interval (T : RealType) {n : Int} (h2 : 2 ≤ n) (hn : n ≤ 2147483647) :
    ∃ (h : ℝ) (L : ℤ), Mixed.EqualSpacing.interval T.arith n = .ok (Flt.ofReal h) ∧ 0 ≤ L ∧ L ≤ 30 ∧
      ((n - 1 : ℤ) : ℝ) ≤ 2 ^ (L + 1) ∧ 2 ^ (-L) ≤ h ∧ h ≤ 2 ^ (1 - L) := by
  obtain ⟨d, hd⟩ : ∃ d, d = n - 1 := ⟨_, rfl⟩
  have hsub : isub n 1 = .ok d := by
    rw [hd]
    exact tnorm_ok ⟨by show (-2147483648 : Int) ≤ _; omega, by show _ ≤ (2147483647 : Int); omega⟩
  rw [← hd]
  have hd1 : (1 : ℝ) ≤ d := by exact_mod_cast (show 1 ≤ d by omega)
  have hd2 : (d : ℝ) < 2147483647 := by exact_mod_cast (show d < 2147483647 by omega)
  have hdp : (0 : ℝ) < d := by linarith
  obtain ⟨L, hL⟩ : ∃ L, L = Int.log 2 (d : ℝ) := ⟨_, rfl⟩
  obtain ⟨l1, l2⟩ := (log_eq_iff hdp).1 hL.symm
  have hL0 : 0 ≤ L := by
    rw [hL]; exact (Int.zpow_le_iff_le_log (b := 2) (by norm_num) hdp).1 (by simpa using hd1)
  have hL1 : L ≤ 30 := by
    have h : (2 : ℝ) ^ L < 2 ^ (31 : ℤ) := lt_of_le_of_lt l1 (by norm_num; linarith)
    have := (zpow_lt_zpow_iff_right₀ (by norm_num)).1 h
    omega
  have q1 : (2 : ℝ) ^ (-L) ≤ 2 / d := by
    rw [le_div_iff₀ hdp, zpow_neg, inv_mul_le_iff₀ (by positivity)]
    rw [zpow_add₀ (by norm_num), zpow_one] at l2
    exact l2.le
  have q2 : (2 : ℝ) / d ≤ 2 ^ (1 - L) := by
    rw [div_le_iff₀ hdp, zpow_sub₀ (by norm_num), zpow_one]
    have hp : (0 : ℝ) < 2 ^ L := by positivity
    rw [div_mul_eq_mul_div, le_div_iff₀ hp]
    linarith
  obtain ⟨y, hy, y1, y2, -⟩ := round_between (F := binary64) (by simp) (r := false) (by omega) (by omega) q1 q2
  have e2 := lit_pow (F := binary64) (by simp) (s := 1) (by omega)
  rw [pow_one, pow_one] at e2
  have ediv : Flt.div binary64 ((floatArith binary64).lit 2) ((floatArith binary64).lit d) = .ok (Flt.ofReal y) := by
    rw [e2, double_int (by omega) (by omega)]
    show (if (d : ℝ) = 0 then Res.nonfinite else Res.ok (Flt.round binary64 (false || false) (2 / d))) = _
    rw [if_neg hdp.ne']
    exact congrArg Res.ok hy
  cases T with
  | float =>
    obtain ⟨h, hh, k1, k2, -⟩ := round_between (F := binary32) (by simp) (r := false) (by omega) (by omega) y1 y2
    refine ⟨h, L, ?_, hL0, hL1, l2.le, k1, k2⟩
    unfold Mixed.EqualSpacing.interval
    rw [hsub]
    show (Flt.div binary64 ((floatArith binary64).lit 2) ((floatArith binary64).lit d) >>= fun q => Res.ok (Flt.convert binary32 q)) = _
    rw [ediv]
    exact congrArg Res.ok hh
  | double =>
    refine ⟨y, L, ?_, hL0, hL1, l2.le, y1, y2⟩
    unfold Mixed.EqualSpacing.interval
    rw [hsub]
    show (Flt.div binary64 ((floatArith binary64).lit 2) ((floatArith binary64).lit d) >>= fun q => Res.ok q) = _
    rw [ediv]
    rfl

theorem lit_neg_one {F : FloatFormat} (hF : F ∈ [binary32, binary64]) : (floatArith F).lit (-1) = Flt.ofReal (-1) := by
  have h : ∀ F ∈ [binary32, binary64], evalRound F (-1) = some (-1) := by decide +kernel
  have := evalRound_sound F (h F hF)
  push_cast at this
  show Flt.round F false ((-1 : ℚ) : ℝ) = _
  push_cast
  exact this

/-- `INDEX * interval()`. -/
theorem mixed_product {F : FloatFormat} (hF : F ∈ [binary32, binary64]) {n i : Int} {h : ℝ} {L : ℤ} (hL0 : 0 ≤ L)
    (hL1 : L ≤ 30) (hd : ((n - 1 : ℤ) : ℝ) ≤ 2 ^ (L + 1)) (k1 : 2 ^ (-L) ≤ h) (k2 : h ≤ 2 ^ (1 - L)) (h0 : 0 ≤ i) (hi : i < n) :
    ∃ t : ℝ, Flt.mul F ((floatArith F).lit i) (Flt.ofReal h) = Flt.ofReal t ∧
      (t = 0 ∨ 2 ^ (-L) ≤ t ∧ t ≤ 2 ^ (2 : ℤ) ∧ Represents F t) := by
  rcases h0.eq_or_lt with rfl | h0
  · refine ⟨0, ?_, .inl rfl⟩
    have : (floatArith F).lit ((0 : Int) : ℚ) = Flt.ofReal 0 := by
      show Flt.round F false (((0 : Int) : ℚ) : ℝ) = _
      rw [Int.cast_zero, Rat.cast_zero, round_zero]; rfl
    rw [this]
    show Flt.round F false (0 * h) = _
    rw [zero_mul, round_zero]; rfl
  · have i1 : (2 : ℝ) ^ (0 : ℤ) ≤ i := by rw [zpow_zero]; exact_mod_cast h0
    have i2 : (i : ℝ) ≤ 2 ^ (L + 1) := le_trans (by exact_mod_cast (show i ≤ n - 1 by omega)) hd
    obtain ⟨y, hy, y1, y2, -⟩ := round_between (F := F) hF (r := false) (by omega) (by omega) i1 i2
    have hhp : (0 : ℝ) < h := lt_of_lt_of_le (by positivity) k1
    have p1 : (2 : ℝ) ^ (-L) ≤ y * h := by
      rw [zpow_zero] at y1
      nlinarith
    have p2 : y * h ≤ 2 ^ (2 : ℤ) := by
      calc y * h ≤ 2 ^ (L + 1) * 2 ^ (1 - L) := mul_le_mul y2 k2 hhp.le (by positivity)
        _ = 2 ^ (2 : ℤ) := by rw [← zpow_add₀ (by norm_num)]; congr 1; ring
    obtain ⟨t, ht, t1, t2, hr⟩ := round_between (F := F) hF (r := false) (by omega) (by omega) p1 p2
    refine ⟨t, ?_, .inr ⟨t1, t2, hr⟩⟩
    have e : (floatArith F).lit (i : ℚ) = Flt.ofReal y := by
      show Flt.round F false (((i : Int) : ℚ) : ℝ) = _
      rw [Rat.cast_intCast, hy]; rfl
    rw [e]
    exact ht

theorem mixed_sum {F : FloatFormat} (hF : F ∈ [binary32, binary64]) {t : ℝ} {L : ℤ} (hL1 : L ≤ 30)
    (h : t = 0 ∨ 2 ^ (-L) ≤ t ∧ t ≤ 2 ^ (2 : ℤ) ∧ Represents F t) : ∃ x, Flt.round F false (-1 + t) = Flt.ofReal x := by
  have hf : F.minExp ≤ -126 ∧ 3 ≤ F.maxExp ∧ (F.fracBits : ℤ) ≤ 52 ∧ F.minExp - F.fracBits ≤ -100 ∧ 23 ≤ F.fracBits := by
    simp only [List.mem_cons, List.not_mem_nil, or_false] at hF
    rcases hF with rfl | rfl <;> simp [binary32, binary64]
  have hu : F.unitExp t = max (Int.log 2 |t|) F.minExp - F.fracBits := rfl
  have hg : OnGrid (-82) (-1 + t) := by
    refine OnGrid.add ⟨-2 ^ 82, by norm_num⟩ ?_
    rcases h with rfl | ⟨t1, t2, hr⟩
    · exact OnGrid.zero _
    have htp : (0 : ℝ) < t := lt_of_lt_of_le (by positivity) t1
    have hab : |t| = t := abs_of_pos htp
    have hgt : OnGrid (F.unitExp t) t := by have := onGrid_unit F t; rwa [hr.1] at this
    have hl : -L ≤ Int.log 2 |t| :=
      (Int.zpow_le_iff_le_log (b := 2) (by norm_num) (by rwa [hab])).1 (by rw [hab]; exact_mod_cast t1)
    exact hgt.mono (by omega)
  have hb : |(-1 : ℝ) + t| ≤ 2 ^ (3 : ℤ) := by
    have h0 : 0 ≤ t ∧ t ≤ 4 := by
      rcases h with rfl | ⟨t1, t2, -⟩
      · norm_num
      · norm_num at t2
        exact ⟨le_trans (by positivity) t1, t2⟩
    norm_num
    rw [abs_le]
    constructor <;> linarith
  have ho := not_overflows F (hb.trans (zpow_le_zpow_right₀ (by norm_num) hf.2.1)) (by omega)
  have hU := not_underflows_of_onGrid F (hg.mono (by omega : F.minExp - F.fracBits ≤ -82))
  exact ⟨F.nearest (-1 + t), by simp [Flt.round, ho, hU, Flt.ofReal]⟩

/-- In `float` the sum in `coordinate< INDEX >()` is exact in `double`. -/
theorem float_equal_agree {n i : Int} (h2 : 2 ≤ n) (hn : n ≤ 2147483647) (h0 : 0 ≤ i) (hi : i < n) :
    SameNumber ((floatMixed.equalSpacing n).coordRT i) ((floatMixed.equalSpacing n).coordCT i) := by
  obtain ⟨h, L, hh, hL0, hL1, hd, k1, k2⟩ := mixed_interval .float h2 hn
  replace hh : Mixed.EqualSpacing.interval floatMixed n = _ := hh
  obtain ⟨t, ht, htr⟩ := mixed_product (F := binary32) (by simp) hL0 hL1 hd k1 k2 h0 hi
  obtain ⟨x, hx⟩ := mixed_sum (by simp) hL1 htr
  have l32 := lit_neg_one (F := binary32) (by simp)
  have l64 := lit_pow (F := binary64) (by simp) (s := 0) (by omega)
  rw [pow_zero, pow_zero] at l64
  have hsum : Flt.round binary64 false (-1 + t) = Flt.ofReal (-1 + t) := by
    rcases htr with rfl | ⟨t1, t2, hr⟩
    · refine round_of_onGrid (g := 0) (M := 0) ⟨-1, by norm_num⟩ (by norm_num) ?_ ?_ ?_ <;> simp only [binary64] <;> omega
    have htp : (0 : ℝ) < t := lt_of_lt_of_le (by positivity) t1
    have hab : |t| = t := abs_of_pos htp
    have hgt : OnGrid (binary32.unitExp t) t := by have := onGrid_unit binary32 t; rwa [hr.1] at this
    have hu : binary32.unitExp t = max (Int.log 2 |t|) (-126) - 23 := rfl
    norm_num at t2
    rcases lt_or_ge t 2 with h | h
    · have hl : -L ≤ Int.log 2 |t| :=
        (Int.zpow_le_iff_le_log (b := 2) (by norm_num) (by rwa [hab])).1 (by rw [hab]; exact_mod_cast t1)
      refine round_of_onGrid (g := -53) (M := -1) (OnGrid.add ⟨-2 ^ 53, by norm_num⟩ (hgt.mono (by omega))) ?_ ?_ ?_ ?_
      · norm_num
        rw [abs_lt]
        constructor <;> linarith
      all_goals (simp only [binary64]; omega)
    · have hl : 1 ≤ Int.log 2 |t| :=
        (Int.zpow_le_iff_le_log (b := 2) (by norm_num) (by rwa [hab])).1 (by rw [hab]; simpa using h)
      refine round_of_onGrid (g := -22) (M := 2) (OnGrid.add ⟨-2 ^ 22, by norm_num⟩ (hgt.mono (by omega))) ?_ ?_ ?_ ?_
      · norm_num
        rw [abs_lt]
        constructor <;> linarith
      all_goals (simp only [binary64]; omega)
  refine ⟨x, ?_, ?_⟩
  all_goals rw [← hx]
  · show Mixed.EqualSpacing.coordRT floatMixed n i = _
    unfold Mixed.EqualSpacing.coordRT
    rw [hh]
    show Res.ok (Flt.add binary32 ((floatArith binary32).lit (-1)) (Flt.mul binary32 ((floatArith binary32).lit i) (Flt.ofReal h))) = _
    rw [ht, l32]
    rfl
  · show Mixed.EqualSpacing.coordCT floatMixed n i = _
    unfold Mixed.EqualSpacing.coordCT
    rw [hh]
    show Res.ok (Flt.convert binary32 (Flt.add binary64 (Flt.neg ((floatArith binary64).lit 1))
      (Flt.mul binary32 ((floatArith binary32).lit i) (Flt.ofReal h)))) = _
    rw [ht, l64]
    show Res.ok (Flt.convert binary32 (Flt.round binary64 false (-1 + t))) = _
    rw [hsum]
    rfl

theorem double_equal_agree {n i : Int} (h2 : 2 ≤ n) (hn : n ≤ 2147483647) (h0 : 0 ≤ i) (hi : i < n) :
    SameNumber ((doubleMixed.equalSpacing n).coordRT i) ((doubleMixed.equalSpacing n).coordCT i) := by
  obtain ⟨h, L, hh, hL0, hL1, hd, k1, k2⟩ := mixed_interval .double h2 hn
  replace hh : Mixed.EqualSpacing.interval doubleMixed n = _ := hh
  obtain ⟨t, ht, htr⟩ := mixed_product (F := binary64) (by simp) hL0 hL1 hd k1 k2 h0 hi
  obtain ⟨x, hx⟩ := mixed_sum (by simp) hL1 htr
  have l1 := lit_neg_one (F := binary64) (by simp)
  have l64 := lit_pow (F := binary64) (by simp) (s := 0) (by omega)
  rw [pow_zero, pow_zero] at l64
  refine ⟨x, ?_, ?_⟩
  all_goals rw [← hx]
  · show Mixed.EqualSpacing.coordRT doubleMixed n i = _
    unfold Mixed.EqualSpacing.coordRT
    rw [hh]
    show Res.ok (Flt.add binary64 ((floatArith binary64).lit (-1)) (Flt.mul binary64 ((floatArith binary64).lit i) (Flt.ofReal h))) = _
    rw [ht, l1]
    rfl
  · show Mixed.EqualSpacing.coordCT doubleMixed n i = _
    unfold Mixed.EqualSpacing.coordCT
    rw [hh]
    show Res.ok (Flt.add binary64 (Flt.neg ((floatArith binary64).lit 1))
      (Flt.mul binary64 ((floatArith binary64).lit i) (Flt.ofReal h))) = _
    rw [ht, l64]
    rfl

/-- `coordinate< INDEX >()` of equal spacing, from `INDEX * interval()`. -/
theorem equal_of_product (T : RealType) {n i : Int} {h t x : ℝ}
    (hh : Mixed.EqualSpacing.interval T.arith n = .ok (Flt.ofReal h))
    (ht : Flt.mul T.format ((floatArith T.format).lit i) (Flt.ofReal h) = Flt.ofReal t)
    (h64 : Flt.round binary64 false (-1 + t) = Flt.ofReal x) (hx : Flt.round T.format false x = Flt.ofReal x) :
    (Family.equal.spacingIn T.arith n).coordCT i = .ok (Flt.ofReal x) := by
  have l64 := lit_pow (F := binary64) (by simp) (s := 0) (by omega)
  rw [pow_zero, pow_zero] at l64
  show Mixed.EqualSpacing.coordCT T.arith n i = _
  unfold Mixed.EqualSpacing.coordCT
  rw [hh]
  cases T with
  | float =>
    show Res.ok (Flt.convert binary32 (Flt.add binary64 (Flt.neg ((floatArith binary64).lit 1))
      (Flt.mul binary32 ((floatArith binary32).lit i) (Flt.ofReal h)))) = _
    replace ht : Flt.mul binary32 ((floatArith binary32).lit i) (Flt.ofReal h) = _ := ht
    rw [ht, l64]
    show Res.ok (Flt.convert binary32 (Flt.round binary64 false (-1 + t))) = _
    rw [h64]
    exact congrArg Res.ok hx
  | double =>
    show Res.ok (Flt.add binary64 (Flt.neg ((floatArith binary64).lit 1))
      (Flt.mul binary64 ((floatArith binary64).lit i) (Flt.ofReal h))) = _
    replace ht : Flt.mul binary64 ((floatArith binary64).lit i) (Flt.ofReal h) = _ := ht
    rw [ht, l64]
    exact congrArg Res.ok h64

theorem format_mem (T : RealType) : T.format ∈ [binary32, binary64] := by cases T <;> simp [RealType.format]

theorem equal_first (T : RealType) {n : Int} (h2 : 2 ≤ n) (hn : n ≤ 2147483647) :
    (Family.equal.spacingIn T.arith n).coordCT 0 = .ok (Flt.ofReal (-1)) := by
  obtain ⟨h, L, hh, -⟩ := mixed_interval T h2 hn
  have key : ∀ F ∈ [binary32, binary64], Flt.round F false (-1) = Flt.ofReal (-1) := fun F hF => by
    have := lit_neg_one hF
    simp only [floatArith] at this
    push_cast at this
    exact this
  refine equal_of_product T (t := 0) hh ?_ (by rw [add_zero]; exact key _ (by simp)) (key _ (format_mem T))
  have : (floatArith T.format).lit ((0 : Int) : ℚ) = Flt.ofReal 0 := by
    show Flt.round T.format false (((0 : Int) : ℚ) : ℝ) = _
    rw [Int.cast_zero, Rat.cast_zero, round_zero]; rfl
  rw [this]
  show Flt.round T.format false (0 * h) = _
  rw [zero_mul, round_zero]; rfl

theorem interval_exact (T : RealType) {n : Int} (h2 : 2 ≤ n) (hn : n ≤ 2147483647) {h : ℝ}
    (h64 : Flt.round binary64 false (2 / ((n - 1 : ℤ) : ℝ)) = Flt.ofReal h) (hT : Flt.round T.format false h = Flt.ofReal h) :
    Mixed.EqualSpacing.interval T.arith n = .ok (Flt.ofReal h) := by
  obtain ⟨d, hd⟩ : ∃ d, d = n - 1 := ⟨_, rfl⟩
  have hsub : isub n 1 = .ok d := by
    rw [hd]
    exact tnorm_ok ⟨by show (-2147483648 : Int) ≤ _; omega, by show _ ≤ (2147483647 : Int); omega⟩
  rw [← hd] at h64
  have hdp : (d : ℝ) ≠ 0 := by exact_mod_cast (show d ≠ 0 by omega)
  have e2 := lit_pow (F := binary64) (by simp) (s := 1) (by omega)
  rw [pow_one, pow_one] at e2
  have ediv : Flt.div binary64 ((floatArith binary64).lit 2) ((floatArith binary64).lit d) = .ok (Flt.ofReal h) := by
    rw [e2, double_int (by omega) (by omega)]
    show (if (d : ℝ) = 0 then Res.nonfinite else Res.ok (Flt.round binary64 (false || false) (2 / d))) = _
    rw [if_neg hdp]
    exact congrArg Res.ok h64
  unfold Mixed.EqualSpacing.interval
  rw [hsub]
  cases T with
  | float =>
    show (Flt.div binary64 ((floatArith binary64).lit 2) ((floatArith binary64).lit d) >>= fun q => Res.ok (Flt.convert binary32 q)) = _
    rw [ediv]
    exact congrArg Res.ok hT
  | double =>
    show (Flt.div binary64 ((floatArith binary64).lit 2) ((floatArith binary64).lit d) >>= fun q => Res.ok q) = _
    rw [ediv]
    rfl

theorem equal_power (T : RealType) {k : ℕ} (hk : k ≤ 23) (i : Fin (2 ^ k + 1)) :
    (Family.equal.spacingIn T.arith ((2 ^ k + 1 : ℕ) : Int)).coordCT (i : ℕ)
      = .ok (Flt.ofReal (-1 + 2 * (i : ℕ) / 2 ^ k)) := by
  have hf : ∀ F ∈ [binary32, binary64], F.minExp - F.fracBits ≤ -126 ∧ 24 ≤ F.maxExp ∧ 23 ≤ (F.fracBits : ℤ) := by decide
  have hpow : (2 : ℕ) ^ k ≤ 2 ^ 23 := Nat.pow_le_pow_right (by norm_num) hk
  have hpow1 : 1 ≤ (2 : ℕ) ^ k := Nat.one_le_two_pow
  have hi : (i : ℕ) ≤ 2 ^ k := by have := i.isLt; omega
  have hiR : ((i : ℕ) : ℝ) ≤ 2 ^ k := by exact_mod_cast hi
  have hi0 : (0 : ℝ) ≤ ((i : ℕ) : ℝ) := Nat.cast_nonneg _
  have h2k : (0 : ℝ) < 2 ^ k := by positivity
  have hz : (2 : ℝ) / 2 ^ k = 2 ^ (1 - (k : ℤ)) := by
    rw [zpow_sub₀ (by norm_num), zpow_one, zpow_natCast]
  have rh : ∀ F ∈ [binary32, binary64], Flt.round F false ((2 : ℝ) / 2 ^ k) = Flt.ofReal (2 / 2 ^ k) := by
    intro F hF
    obtain ⟨f1, f2, f3⟩ := hf F hF
    refine round_of_onGrid (g := 1 - k) (M := 1 - k) (by rw [hz]; exact OnGrid.zpow le_rfl) ?_ (by omega) (by omega) (by omega)
    rw [hz, abs_of_pos (by positivity)]
    exact zpow_lt_zpow_right₀ (by norm_num) (by omega)
  have rt : ∀ F ∈ [binary32, binary64], Flt.round F false (((i : ℕ) : ℝ) * (2 / 2 ^ k)) = Flt.ofReal (2 * (i : ℕ) / 2 ^ k) := by
    intro F hF
    obtain ⟨f1, f2, f3⟩ := hf F hF
    have e : (2 : ℝ) * (i : ℕ) / 2 ^ k = (i : ℕ) * (2 / 2 ^ k) := by ring
    rw [e]
    refine round_of_onGrid (g := 1 - k) (M := 1) ⟨(i : ℕ), by rw [hz]; push_cast; rfl⟩ ?_ (by omega) (by omega) (by omega)
    rw [abs_of_nonneg (by positivity), ← e, div_lt_iff₀ h2k]
    norm_num
    linarith
  have rs : ∀ F ∈ [binary32, binary64], Flt.round F false (-1 + 2 * ((i : ℕ) : ℝ) / 2 ^ k) = Flt.ofReal (-1 + 2 * (i : ℕ) / 2 ^ k) := by
    intro F hF
    obtain ⟨f1, f2, f3⟩ := hf F hF
    refine round_of_onGrid (g := -k) (M := 0) ⟨-2 ^ k + 2 * (i : ℕ), ?_⟩ ?_ (by omega) (by omega) (by omega)
    · push_cast
      rw [zpow_neg, zpow_natCast]
      field_simp
    · have h1 : 2 * ((i : ℕ) : ℝ) / 2 ^ k ≤ 2 := by rw [div_le_iff₀ h2k]; linarith
      have h0 : 0 ≤ 2 * ((i : ℕ) : ℝ) / 2 ^ k := by positivity
      norm_num
      rw [abs_lt]
      constructor <;> linarith
  have hint : Mixed.EqualSpacing.interval T.arith ((2 ^ k + 1 : ℕ) : Int) = .ok (Flt.ofReal (2 / 2 ^ k)) := by
    refine interval_exact T (by omega) (by omega) ?_ (rh _ (format_mem T))
    rw [show (((2 ^ k + 1 : ℕ) : Int) - 1 : ℤ) = ((2 ^ k : ℕ) : Int) by push_cast; ring]
    push_cast
    exact rh _ (by simp)
  refine equal_of_product T hint (t := 2 * (i : ℕ) / 2 ^ k) ?_ (rs _ (by simp)) (rs _ (format_mem T))
  have hl : (floatArith T.format).lit (((i : ℕ) : Int) : ℚ) = Flt.ofReal ((i : ℕ) : ℝ) := by
    cases T with
    | float =>
      have := float_int (m := ((i : ℕ) : Int)) (by omega) (by omega)
      rw [Int.cast_natCast] at this
      exact this
    | double =>
      have := double_int (m := ((i : ℕ) : Int)) (by omega) (by omega)
      rw [Int.cast_natCast] at this
      exact this
  rw [hl]
  exact rt _ (format_mem T)

/-- Up to `2^24 + 1` points equal spacing in `float` is what it would be without `double` literals. -/
theorem float_equal_pure {n i : Int} (h2 : 2 ≤ n) (hn : n ≤ 16777217) (h0 : 0 ≤ i) (hi : i < n) :
    (floatMixed.equalSpacing n).coordCT i = (equalSpacing (floatArith binary32) n).coordCT i := by
  obtain ⟨f, hr, hc⟩ := float_equal_agree h2 (by omega) h0 hi
  rw [hc, ← hr]
  have hint : Mixed.EqualSpacing.interval floatMixed n = EqualSpacing.interval (floatArith binary32) n := by
    have hsub : isub n 1 = .ok (n - 1) :=
      tnorm_ok ⟨by show (-2147483648 : Int) ≤ _; omega, by show _ ≤ (2147483647 : Int); omega⟩
    unfold Mixed.EqualSpacing.interval EqualSpacing.interval
    rw [hsub]
    have hf := float_int (m := n - 1) (by omega) (by omega)
    have hd := double_int (m := n - 1) (by omega) (by omega)
    have hq := narrow_quotient (s := 1) le_rfl (d := Flt.ofReal ((n - 1 : ℤ) : ℝ)) (by
      intro y hy
      rw [← hf] at hy
      exact round_datum_represents hy)
    rw [pow_one, ← hf] at hq
    rw [hf, ← hd] at hq
    rw [← hf] at hd
    show (floatMixed.wide.div (floatMixed.wide.lit 2) ((floatArith binary64).lit ((n - 1 : ℤ) : ℚ)) >>= _) =
      (floatArith binary32).div ((floatArith binary32).lit 2) ((floatArith binary32).lit ((n - 1 : ℤ) : ℚ))
    rw [hq, hd]
  show Mixed.EqualSpacing.coordRT floatMixed n i = EqualSpacing.coordCT (floatArith binary32) n i
  unfold Mixed.EqualSpacing.coordRT EqualSpacing.coordCT
  rw [hint]
  have h1 := lit_pow (F := binary32) (by simp) (s := 0) (by omega)
  rw [pow_zero, pow_zero] at h1
  have e : (floatArith binary32).neg ((floatArith binary32).lit 1) = (floatArith binary32).lit (-1) := by
    rw [h1, lit_neg_one (by simp)]
    rfl
  rw [e]
  rfl

end Verif.Lemmas
