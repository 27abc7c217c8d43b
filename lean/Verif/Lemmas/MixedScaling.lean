import Verif.Lemmas.MixedFloat
import Verif.Lemmas.Scaling
import Verif.Lemmas.FloatInverse

/-! # Scalings in `float` and `double` -/

namespace Verif.Lemmas

open Verif.Spec

variable {R W : Type}

/-! ### The kernels entry by entry -/

theorem mixed_scaling_jacobian (cfg : Config) (M : Mixed R W) (s : Scaling R) (h : Fin 3 → R)
    (hs : s.getData = List.ofFn h) {J : List R} (hJ : J.length = 3) :
    Mixed.Scaling.jacobian cfg M s J
      = .ok (List.ofFn fun k => M.narrow (M.wide.mul (M.wide.lit (1 / 2)) (M.widen (h k)))) := by
  obtain ⟨g, rfl⟩ := ofFn_length_eq hJ
  rw [Mixed.Scaling.jacobian, hs]
  exact write_three cfg g fun k => M.narrow (M.wide.mul (M.wide.lit (1 / 2)) (M.widen (h k)))

/-- `2.0 / h`, converted. -/
def mixedQuotient (M : Mixed R W) (h : R) : Res R :=
  M.wide.div (M.wide.lit 2) (M.widen h) >>= fun q => .ok (M.narrow q)

theorem mixed_scaling_inverse (cfg : Config) (M : Mixed R W) (s : Scaling R) (h : Fin 3 → R)
    (hs : s.getData = List.ofFn h) {J : List R} (hJ : J.length = 3) :
    ∃ r, Mixed.Scaling.inverseJacobian cfg M s J
        = .ok (M.narrow (M.wide.mul (M.wide.mul (M.wide.mul (M.wide.lit (1 / 8)) (M.widen (h 0))) (M.widen (h 1)))
          (M.widen (h 2))), r) ∧
      (∀ q : Fin 3 → R, (∀ k, mixedQuotient M (h k) = .ok (q k)) → r = .ok (List.ofFn q)) ∧
      ((∃ k, mixedQuotient M (h k) = .nonfinite) →
        (∀ k, mixedQuotient M (h k) = .nonfinite ∨ ∃ q, mixedQuotient M (h k) = .ok q) → r = .nonfinite) := by
  obtain ⟨g, rfl⟩ := ofFn_length_eq hJ
  have e : Mixed.Scaling.inverseEntries cfg M (h 0) (h 1) (h 2) (List.ofFn g)
      = (mixedQuotient M (h 0) >>= fun q0 =>
        CArray.write cfg (List.ofFn g) (CArray.whole [3]) [0] q0 >>= fun J =>
          mixedQuotient M (h 1) >>= fun q1 => CArray.write cfg J (CArray.whole [3]) [1] q1 >>= fun J =>
            mixedQuotient M (h 2) >>= fun q2 => CArray.write cfg J (CArray.whole [3]) [2] q2) := by
    unfold Mixed.Scaling.inverseEntries mixedQuotient
    simp only [bind_assoc, Res.ok_bind]
  refine ⟨Mixed.Scaling.inverseEntries cfg M (h 0) (h 1) (h 2) (List.ofFn g), ?_, ?_, ?_⟩
  · rw [Mixed.Scaling.inverseJacobian, hs]; rfl
  · intro q hq
    rw [e]
    simp only [hq, Res.ok_bind]
    exact write_three cfg g q
  · rintro ⟨k, hk⟩ hall
    have h0 := fun x => write_vec cfg (d := 3) (by norm_num) g 0 x
    have h1 := fun x y => write_vec cfg (d := 3) (by norm_num) (Function.update g 0 x) 1 y
    change ∀ x, CArray.write cfg (List.ofFn g) (CArray.whole [3]) [0] x = _ at h0
    change ∀ x y, CArray.write cfg (List.ofFn (Function.update g 0 x)) (CArray.whole [3]) [1] y = _ at h1
    rw [e]
    rcases hall 0 with e0 | ⟨q0, e0⟩
    · rw [e0]; rfl
    · rw [e0, Res.ok_bind, h0, Res.ok_bind]
      rcases hall 1 with e1 | ⟨q1, e1⟩
      · rw [e1]; rfl
      · rw [e1, Res.ok_bind, h1, Res.ok_bind]
        rcases hall 2 with e2 | ⟨q2, e2⟩
        · rw [e2]; rfl
        · fin_cases k
          · exact absurd (hk.symm.trans e0) (by simp)
          · exact absurd (hk.symm.trans e1) (by simp)
          · exact absurd (hk.symm.trans e2) (by simp)

/-! ### The operations -/

/-- A number of a format as a multiple of a power of two. -/
theorem represents_grid {F : FloatFormat} {x : ℝ} (hx : Represents F x) (h0 : x ≠ 0) :
    ∃ g : ℤ, OnGrid g x ∧ |x| < 2 ^ (g + F.fracBits + 1) ∧ F.minExp - F.fracBits ≤ g ∧ g + F.fracBits ≤ F.maxExp := by
  refine ⟨F.unitExp x, ?_, abs_lt_zpow_unit F x, unitExp_min F x, ?_⟩
  · have := onGrid_unit (F := F) x
    rwa [hx.1] at this
  · have h1 : Int.log 2 |x| < F.maxExp + 1 :=
      (Int.lt_zpow_iff_log_lt (by norm_num) (abs_pos.2 h0)).1 (by exact_mod_cast hx.2)
    have := F.ordered
    unfold FloatFormat.unitExp
    omega

theorem represents_rat {F : FloatFormat} {q : ℚ} (h : evalRound F q = some q) : Represents F (q : ℝ) :=
  round_represents F (evalRound_sound F h)

theorem double_lit {q : ℚ} (h : evalRound binary64 q = some q) : (floatArith binary64).lit q = Flt.ofReal q :=
  evalRound_sound binary64 h

theorem lit_half : (floatArith binary64).lit (1 / 2) = Flt.ofReal (1 / 2) := by
  have := double_lit (q := 1 / 2) (by decide +kernel)
  push_cast at this
  exact this

theorem lit_eighth : (floatArith binary64).lit (1 / 8) = Flt.ofReal (1 / 8) := by
  have := double_lit (q := 1 / 8) (by decide +kernel)
  push_cast at this
  exact this

/-- Every product of a few `float` numbers and a power of two is a `double`, or in the range of `double`. -/
theorem double_exact {g : ℤ} {x : ℝ} {r : Bool} (hx : OnGrid g x) (hb : |x| < 2 ^ (g + 53)) (h1 : -1074 ≤ g)
    (h2 : g + 52 ≤ 1023) : Flt.round binary64 r x = ⟨.finite x, r⟩ :=
  round_of_onGrid (M := g + 52) hx (by rw [show g + 52 + 1 = g + 53 by ring]; exact hb)
    (by simp only [binary64]; omega) (by simp only [binary64]; omega) h2

theorem onGrid_inv_pow (n : ℕ) : OnGrid (-n) ((1 : ℝ) / 2 ^ n) := by
  have := OnGrid.zpow (le_refl (-(n : ℤ)))
  rwa [zpow_neg, zpow_natCast, ← one_div] at this

theorem narrow_half (T : RealType) {x : ℝ} (hx : Represents T.format x) :
    T.arith.narrow (T.arith.wide.mul (T.arith.wide.lit (1 / 2)) (T.arith.widen (Flt.ofReal x)))
      = Flt.round T.format false (x / 2) := by
  have e : (1 / 2 : ℝ) * x = x / 2 := by ring
  cases T with
  | double =>
    show Flt.mul binary64 ((floatArith binary64).lit (1 / 2)) (Flt.ofReal x) = _
    rw [lit_half]
    show Flt.round binary64 false (1 / 2 * x) = _
    rw [e]; rfl
  | float =>
    show Flt.convert binary32 (Flt.mul binary64 ((floatArith binary64).lit (1 / 2)) (Flt.ofReal x)) = _
    rw [lit_half]
    show Flt.convert binary32 (Flt.round binary64 false (1 / 2 * x)) = _
    rw [e]
    by_cases h0 : x = 0
    · subst h0
      rw [zero_div, round_zero]; rfl
    obtain ⟨g, h1, h2, h3, h4⟩ := represents_grid hx h0
    simp only [RealType.format, binary32] at h2 h3 h4
    rw [double_exact (g := g - 1) (x := x / 2)]
    · rfl
    · have := h1.mul (onGrid_inv_pow 1)
      rw [show g + -((1 : ℕ) : ℤ) = g - 1 by push_cast; ring] at this
      convert this using 1; ring
    · rw [abs_div, abs_two]
      have : (2 : ℝ) ^ (g + 23 + 1) ≤ 2 ^ (g - 1 + 53) := zpow_le_zpow_right₀ (by norm_num) (by omega)
      have := abs_nonneg x
      push_cast at h2
      linarith
    · push_cast at h3; omega
    · push_cast at h4; omega

theorem half_exact {F : FloatFormat} {x : ℝ} (hx : Represents F x) (h : x = 0 ∨ 2 ^ (F.minExp + 1) ≤ |x|) :
    Flt.round F false (x / 2) = Flt.ofReal (x / 2) := by
  by_cases h0 : x = 0
  · subst h0
    rw [zero_div, round_zero]; rfl
  have h := h.resolve_left h0
  obtain ⟨g, h1, h2, h3, h4⟩ := represents_grid hx h0
  have hg : F.minExp + 1 < g + F.fracBits + 1 :=
    (zpow_lt_zpow_iff_right₀ (by norm_num : (1 : ℝ) < 2)).1 (h.trans_lt h2)
  refine round_of_onGrid (g := g - 1) (M := g - 1 + F.fracBits) ?_ ?_ (by omega) (by omega) (by omega)
  · have := h1.mul (onGrid_inv_pow 1)
    rw [show g + -((1 : ℕ) : ℤ) = g - 1 by push_cast; ring] at this
    convert this using 1; ring
  · rw [abs_div, abs_two, div_lt_iff₀ (by norm_num), ← zpow_add_one₀ (by norm_num)]
    rwa [show g - 1 + (F.fracBits : ℤ) + 1 + 1 = g + F.fracBits + 1 by ring]

theorem double_quotient {d : Flt} :
    mixedQuotient doubleMixed d = (floatArith binary64).div ((floatArith binary64).lit 2) d := by
  show (Flt.div binary64 ((floatArith binary64).lit 2) d >>= fun q => Res.ok q) = _
  exact bind_ok_right _

theorem float_quotient {d : Flt} (hd : ∀ y, d.datum = .finite y → Represents binary32 y) :
    mixedQuotient floatMixed d = (floatArith binary32).div ((floatArith binary32).lit 2) d := by
  have := narrow_quotient (s := 1) (by norm_num) hd
  rw [pow_one] at this
  exact this

/-- `2.0 / h` is what `2 / h` is. -/
theorem quotient_eq (T : RealType) {d : Flt} (hd : ∀ y, d.datum = .finite y → Represents T.format y) :
    mixedQuotient T.arith d = (floatArith T.format).div ((floatArith T.format).lit 2) d := by
  cases T with
  | float => exact float_quotient hd
  | double => exact double_quotient

theorem div_two {F : FloatFormat} (hF : F ∈ [binary32, binary64]) (x : ℝ) :
    (floatArith F).div ((floatArith F).lit 2) (Flt.ofReal x)
      = if x = 0 then .nonfinite else .ok (Flt.round F false (2 / x)) := by
  have h := lit_pow hF (s := 1) le_rfl
  rw [pow_one, pow_one] at h
  rw [h]
  rfl

/-! ### The determinant -/

theorem sim_finite {a : ℝ} {b : Flt} (h : Sim a b) (hr : b.raised = false) : b = Flt.ofReal a := by
  have h2 := h hr
  obtain ⟨d, r⟩ := b
  simp only at hr h2
  rw [hr, h2]; rfl

/-- `0.125 * x * y * z` in `double`. -/
noncomputable def eighthProduct (x y z : ℝ) : Flt :=
  Flt.mul binary64 (Flt.mul binary64 (Flt.mul binary64 (Flt.ofReal (1 / 8)) (Flt.ofReal x)) (Flt.ofReal y)) (Flt.ofReal z)

theorem eighth_approx (x y z : ℝ) :
    Accurate (eighthProduct x y z) (x / 2 * (y / 2) * (z / 2))
      (errBound (unitRoundoff binary64) 3 * |x / 2 * (y / 2) * (z / 2)|) := by
  have hr := cleanRound_rounds binary64 
  have hs := sim_mul binary64 (sim_mul binary64 (sim_mul binary64 (sim_ofReal (1 / 8)) (sim_ofReal x)) (sim_ofReal y))
    (sim_ofReal z)
  by_cases hb : (eighthProduct x y z).raised = true
  · exact .inl hb
  · refine .inr ⟨_, sim_finite hs (by simpa using hb), ?_⟩
    have h1 := approx_fl hr (1 / 8 * x)
    have h2 := Approx.round hr (h1.mul hr.nonneg (Approx.refl y))
    have h3 := Approx.round hr (h2.mul hr.nonneg (Approx.refl z))
    rw [show 1 / 8 * x * y * z = x / 2 * (y / 2) * (z / 2) by ring] at h3
    exact h3

theorem round_normal {F : FloatFormat} {r : Bool} {x : ℝ} {a b : ℤ} (ha : F.minExp ≤ a) (hb : b ≤ F.maxExp)
    (h1 : 2 ^ a ≤ |x|) (h2 : |x| ≤ 2 ^ b) :
    ∃ y, Flt.round F r x = ⟨.finite y, r⟩ ∧ 2 ^ a ≤ |y| ∧ |y| ≤ 2 ^ b := by
  have hab : a ≤ b := (zpow_le_zpow_iff_right₀ (by norm_num : (1 : ℝ) < 2)).1 (h1.trans h2)
  refine ⟨F.nearest x, ?_, zpow_le_nearest ha h1, nearest_le_zpow F (by omega) h2⟩
  have ho : ¬ F.Overflows x :=
    not_overflows F (h2.trans (zpow_le_zpow_right₀ (by norm_num) hb)) (by have := F.ordered; omega)
  have hu : ¬ F.Underflows x :=
    not_underflows_of_le F ((zpow_le_zpow_right₀ (by norm_num) ha).trans h1)
  simp [Flt.round, ho, hu]

theorem eighth_normal {x y z : ℝ} {m : ℕ} (hm : m ≤ 339) (hx : 1 / 2 ^ m ≤ |x| ∧ |x| ≤ 2 ^ m)
    (hy : 1 / 2 ^ m ≤ |y| ∧ |y| ≤ 2 ^ m) (hz : 1 / 2 ^ m ≤ |z| ∧ |z| ≤ 2 ^ m) :
    (eighthProduct x y z).raised = false := by
  have key : ∀ {u v : ℝ} {a b : ℤ}, 2 ^ a ≤ |u| → |u| ≤ 2 ^ b → 1 / 2 ^ m ≤ |v| ∧ |v| ≤ 2 ^ m →
      2 ^ (a - m) ≤ |u * v| ∧ |u * v| ≤ 2 ^ (b + m) := by
    intro u v a b h1 h2 ⟨h3, h4⟩
    rw [abs_mul, zpow_sub₀ (by norm_num), zpow_add₀ (by norm_num), zpow_natCast, div_eq_mul_one_div]
    exact ⟨mul_le_mul h1 h3 (by positivity) (abs_nonneg _), mul_le_mul h2 h4 (abs_nonneg _) (by positivity)⟩
  have e8 : |(1 / 8 : ℝ)| = 2 ^ (-3 : ℤ) := by rw [abs_of_pos (by norm_num)]; norm_num
  obtain ⟨k1, k2⟩ := key (a := -3) (b := -3) e8.ge e8.le hx
  obtain ⟨u, e1, k1, k2⟩ := round_normal (F := binary64) (r := false) (by simp only [binary64]; omega)
    (by simp only [binary64]; omega) k1 k2
  obtain ⟨k1, k2⟩ := key k1 k2 hy
  obtain ⟨v, e2, k1, k2⟩ := round_normal (F := binary64) (r := false) (by simp only [binary64]; omega)
    (by simp only [binary64]; omega) k1 k2
  obtain ⟨k1, k2⟩ := key k1 k2 hz
  obtain ⟨w, e3, k1, k2⟩ := round_normal (F := binary64) (r := false) (by simp only [binary64]; omega)
    (by simp only [binary64]; omega) k1 k2
  have f1 : Flt.mul binary64 (Flt.ofReal (1 / 8)) (Flt.ofReal x) = Flt.ofReal u := e1
  have f2 : Flt.mul binary64 (Flt.ofReal u) (Flt.ofReal y) = Flt.ofReal v := e2
  have f3 : Flt.mul binary64 (Flt.ofReal v) (Flt.ofReal z) = Flt.ofReal w := e3
  rw [eighthProduct, f1, f2, f3]
  rfl

/-- For `float` factors only the last product is rounded. -/
theorem eighth_float {x y z : ℝ} (hx : Represents binary32 x) (hy : Represents binary32 y) (hz : Represents binary32 z) :
    eighthProduct x y z = Flt.ofReal (binary64.nearest (x / 2 * (y / 2) * (z / 2))) ∧
    |binary64.nearest (x / 2 * (y / 2) * (z / 2)) - x / 2 * (y / 2) * (z / 2)|
      ≤ 1 / 2 ^ 53 * |x / 2 * (y / 2) * (z / 2)| := by
  have e : x / 2 * (y / 2) * (z / 2) = 1 / 8 * x * y * z := by ring
  rw [e]
  have zero : ∀ w : ℝ, Flt.mul binary64 (Flt.ofReal 0) (Flt.ofReal w) = Flt.ofReal 0 := by
    intro w
    show Flt.round binary64 false (0 * w) = _
    rw [zero_mul, round_zero]; rfl
  have zero' : ∀ w : ℝ, Flt.mul binary64 (Flt.ofReal w) (Flt.ofReal 0) = Flt.ofReal 0 := by
    intro w
    show Flt.round binary64 false (w * 0) = _
    rw [mul_zero, round_zero]; rfl
  by_cases hx0 : x = 0
  · subst hx0
    simp only [eighthProduct, zero, zero', mul_zero, zero_mul, nearest_zero, sub_zero, abs_zero, le_refl, and_self]
  obtain ⟨g, a1, a2, a3, a4⟩ := represents_grid hx hx0
  have b1 : OnGrid (g - 3) (1 / 8 * x) := by
    have := (onGrid_inv_pow 3).mul a1
    norm_num at this
    convert this using 1
    ring
  have b2 : |1 / 8 * x| < 2 ^ (g - 3 + 24) := by
    rw [abs_mul, abs_of_pos (by norm_num : (0 : ℝ) < 1 / 8), show g - 3 + 24 = -3 + (g + 23 + 1) by ring,
      zpow_add₀ (by norm_num)]
    have : (2 : ℝ) ^ (-3 : ℤ) = 1 / 8 := by norm_num
    rw [this]
    exact mul_lt_mul_of_pos_left a2 (by norm_num)
  simp only [binary32] at a3 a4
  push_cast at a3 a4
  have f1 : Flt.mul binary64 (Flt.ofReal (1 / 8)) (Flt.ofReal x) = Flt.ofReal (1 / 8 * x) :=
    double_exact b1 (b2.trans (zpow_lt_zpow_right₀ (by norm_num) (by omega))) (by omega) (by omega)
  by_cases hy0 : y = 0
  · subst hy0
    simp only [eighthProduct, f1, zero, zero', mul_zero, zero_mul, nearest_zero, sub_zero, abs_zero, le_refl, and_self]
  obtain ⟨g', a1', a2', a3', a4'⟩ := represents_grid hy hy0
  have c1 := b1.mul a1'
  have c2 : |1 / 8 * x * y| < 2 ^ (g - 3 + g' + 48) := by
    rw [abs_mul, show g - 3 + g' + 48 = (g - 3 + 24) + (g' + 23 + 1) by ring, zpow_add₀ (by norm_num)]
    exact mul_lt_mul'' b2 a2' (abs_nonneg _) (abs_nonneg _)
  simp only [binary32] at a3' a4'
  push_cast at a3' a4'
  have f2 : Flt.mul binary64 (Flt.ofReal (1 / 8 * x)) (Flt.ofReal y) = Flt.ofReal (1 / 8 * x * y) :=
    double_exact c1 (c2.trans (zpow_lt_zpow_right₀ (by norm_num) (by omega))) (by omega) (by omega)
  by_cases hz0 : z = 0
  · subst hz0
    simp only [eighthProduct, f1, f2, zero', mul_zero, nearest_zero, sub_zero, abs_zero, le_refl, and_self]
  obtain ⟨g'', a1'', a2'', a3'', a4''⟩ := represents_grid hz hz0
  have d1 := c1.mul a1''
  have d2 : |1 / 8 * x * y * z| ≤ 2 ^ (g - 3 + g' + g'' + 72) := by
    rw [abs_mul, show g - 3 + g' + g'' + 72 = (g - 3 + g' + 48) + (g'' + 23 + 1) by ring, zpow_add₀ (by norm_num)]
    exact (mul_lt_mul'' c2 a2'' (abs_nonneg _) (abs_nonneg _)).le
  simp only [binary32] at a3'' a4''
  push_cast at a3'' a4''
  have d3 : (2 : ℝ) ^ (g - 3 + g' + g'') ≤ |1 / 8 * x * y * z| := d1.le_abs (by positivity)
  have d4 : (2 : ℝ) ^ binary64.minExp ≤ |1 / 8 * x * y * z| :=
    (zpow_le_zpow_right₀ (by norm_num) (by simp only [binary64]; omega)).trans d3
  constructor
  · rw [eighthProduct, f1, f2]
    show Flt.round binary64 false (1 / 8 * x * y * z) = _
    have ho : ¬ binary64.Overflows (1 / 8 * x * y * z) :=
      not_overflows _ (d2.trans (zpow_le_zpow_right₀ (by norm_num) (by simp only [binary64]; omega)))
        (by simp only [binary64]; omega)
    have hu := not_underflows_of_le _ d4
    simp only [Flt.round, ho, hu, if_false, decide_false, Bool.or_false, Flt.ofReal]
  · have := nearest_err_normal _ d4
    rwa [show unitRoundoff binary64 = 1 / 2 ^ 53 by simp [unitRoundoff, binary64]] at this

theorem narrow_det (T : RealType) (x y z : ℝ) :
    T.arith.narrow (T.arith.wide.mul (T.arith.wide.mul (T.arith.wide.mul (T.arith.wide.lit (1 / 8))
      (T.arith.widen (Flt.ofReal x))) (T.arith.widen (Flt.ofReal y))) (T.arith.widen (Flt.ofReal z)))
      = match T with
        | .double => eighthProduct x y z
        | .float => Flt.convert binary32 (eighthProduct x y z) := by
  cases T with
  | double =>
    show Flt.mul binary64 (Flt.mul binary64 (Flt.mul binary64 ((floatArith binary64).lit (1 / 8)) _) _) _ = _
    rw [lit_eighth]; rfl
  | float =>
    show Flt.convert binary32 (Flt.mul binary64 (Flt.mul binary64 (Flt.mul binary64 ((floatArith binary64).lit (1 / 8)) _) _) _) = _
    rw [lit_eighth]; rfl

/-- Rounding to `double` and then to `float`. -/
theorem round_twice {p d : ℝ} (hd : d = binary64.nearest p) (h : |d - p| ≤ 1 / 2 ^ 53 * |p|) :
    Accurate (Flt.round binary32 false d) p ((1 / 2 ^ 24 + 1 / 2 ^ 52) * |p|) ∧
    (2 ^ (-126 : ℤ) ≤ |p| → |p| ≤ 2 ^ (127 : ℤ) → (Flt.round binary32 false d).raised = false) := by
  constructor
  · by_cases hb : (Flt.round binary32 false d).raised = true
    · exact .inl hb
    · have hb : (Flt.round binary32 false d).raised = false := by simpa using hb
      refine .inr ⟨cleanRound binary32 d, sim_finite (fun _ => (sim_round binary32 hb).2) hb, ?_⟩
      have h1 := (cleanRound_rounds binary32).err d
      rw [show unitRoundoff binary32 = 1 / 2 ^ 24 by simp [unitRoundoff, binary32]] at h1
      have h2 := abs_sub_le (cleanRound binary32 d) d p
      have h3 : |d| ≤ |d - p| + |p| := by simpa using abs_add_le (d - p) p
      have := abs_nonneg p
      norm_num at h h1 ⊢
      linarith
  · intro h1 h2
    rw [hd]
    have k1 := zpow_le_nearest (F := binary64) (by simp only [binary64]; norm_num) h1
    have k2 := nearest_le_zpow binary64 (by simp only [binary64]; norm_num) h2
    obtain ⟨y, e, -, -⟩ := round_normal (F := binary32) (r := false) (by simp only [binary32]; norm_num)
      (by simp only [binary32]; norm_num) k1 k2
    rw [e]

end Verif.Lemmas
