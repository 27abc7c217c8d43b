import Verif.Lemmas.ConstantFloat

/-! Order and scaling of rounded results, and interpolation of order one in `float` and `double`. -/

namespace Verif.Lemmas

open Verif.Spec

section
variable {F : FloatFormat}

/-! ### rounding keeps the order -/

theorem le_nearest_zpow {L : ℤ} {x : ℝ} (hx : 2 ^ L ≤ x) (hL : L = Int.log 2 x) (hm : F.minExp ≤ L) : 2 ^ L ≤ F.nearest x := by
  have hu : F.unitExp x = L - F.fracBits := by
    unfold FloatFormat.unitExp
    rw [abs_of_pos (lt_of_lt_of_le (by positivity) hx), ← hL, max_eq_left hm]
  have hp : (0 : ℝ) < 2 ^ F.unitExp x := by positivity
  obtain ⟨n, hn⟩ := OnGrid.zpow (g := F.unitExp x) (M := L) (by omega)
  have h1 : n ≤ roundEven (x / 2 ^ F.unitExp x) := by
    rw [← roundEven_int n]
    apply roundEven_mono
    rw [le_div_iff₀ hp, ← hn]
    exact hx
  unfold FloatFormat.nearest
  rw [hn]
  exact mul_le_mul_of_nonneg_right (by exact_mod_cast h1) hp.le

private theorem nearest_mono_pos {x y : ℝ} (h0 : 0 < x) (h : x ≤ y) : F.nearest x ≤ F.nearest y := by
  have hy : 0 < y := h0.trans_le h
  have hu := unitExp_mono F h0.ne' (y := y) (by rwa [abs_of_pos h0, abs_of_pos hy])
  rcases hu.eq_or_lt with e | hlt
  · unfold FloatFormat.nearest
    rw [e]
    refine mul_le_mul_of_nonneg_right ?_ (by positivity)
    exact_mod_cast roundEven_mono (div_le_div_of_nonneg_right h (c := (2 : ℝ) ^ F.unitExp y) (by positivity))
  · unfold FloatFormat.unitExp at hlt
    rw [abs_of_pos h0, abs_of_pos hy] at hlt
    have hm : F.minExp ≤ Int.log 2 y := by omega
    have hlog : Int.log 2 x < Int.log 2 y := by omega
    have h1 : x < 2 ^ Int.log 2 y := by
      have := (Int.lt_zpow_iff_log_lt (b := 2) (r := x) (x := Int.log 2 y) (by norm_num) h0).2 hlog
      exact_mod_cast this
    have h2 : (2 : ℝ) ^ Int.log 2 y ≤ y := by
      have := Int.zpow_log_le_self (b := 2) (r := y) (by norm_num) hy
      exact_mod_cast this
    refine le_trans ?_ (le_nearest_zpow h2 rfl hm)
    refine (le_abs_self _).trans (nearest_le_zpow F (by have := Int.natCast_nonneg F.fracBits; omega) ?_)
    rw [abs_of_pos h0]; exact h1.le

/-- Rounding keeps the order. -/
theorem nearest_mono {x y : ℝ} (h : x ≤ y) : F.nearest x ≤ F.nearest y := by
  rcases lt_trichotomy x 0 with hx | rfl | hx
  · rcases lt_or_ge y 0 with hy | hy
    · have := nearest_mono_pos (F := F) (x := -y) (y := -x) (by linarith) (by linarith)
      rw [nearest_neg, nearest_neg] at this
      linarith
    · have := nearest_nonneg F (x := -x) (by linarith)
      rw [nearest_neg] at this
      have := nearest_nonneg F hy
      linarith
  · rw [nearest_zero]; exact nearest_nonneg F h
  · exact nearest_mono_pos hx h

/-! ### multiplying by a power of two -/

theorem log_mul_zpow {x : ℝ} (h : 0 < x) (k : ℤ) : Int.log 2 (x * 2 ^ k) = Int.log 2 x + k := by
  have h1 : (2 : ℝ) ^ Int.log 2 x ≤ x := by
    have := Int.zpow_log_le_self (b := 2) (r := x) (by norm_num) h
    exact_mod_cast this
  have h2 : x < 2 ^ (Int.log 2 x + 1) := by
    have := Int.lt_zpow_succ_log_self (b := 2) (by norm_num) x
    exact_mod_cast this
  have hk : (0 : ℝ) < 2 ^ k := by positivity
  refine le_antisymm (Int.lt_add_one_iff.1 ?_) ?_
  · refine (Int.lt_zpow_iff_log_lt (b := 2) (by norm_num) (by positivity)).1 ?_
    have : x * 2 ^ k < 2 ^ (Int.log 2 x + 1) * 2 ^ k := mul_lt_mul_of_pos_right h2 hk
    rw [← zpow_add₀ (by norm_num)] at this
    rw [show Int.log 2 x + 1 + k = Int.log 2 x + k + 1 by ring] at this
    exact_mod_cast this
  · refine (Int.zpow_le_iff_le_log (b := 2) (by norm_num) (by positivity)).1 ?_
    have : (2 : ℝ) ^ Int.log 2 x * 2 ^ k ≤ x * 2 ^ k := mul_le_mul_of_nonneg_right h1 hk.le
    rw [← zpow_add₀ (by norm_num)] at this
    exact_mod_cast this

theorem unitExp_scale {x : ℝ} {k : ℤ} (h : 2 ^ F.minExp ≤ |x|) (hk : 2 ^ F.minExp ≤ |x * 2 ^ k|) : F.unitExp (x * 2 ^ k) = F.unitExp x + k := by
  have hp : 0 < |x| := lt_of_lt_of_le (by positivity) h
  have ha : |x * 2 ^ k| = |x| * 2 ^ k := by rw [abs_mul, abs_of_pos (a := (2 : ℝ) ^ k) (by positivity)]
  have h1 : F.minExp ≤ Int.log 2 |x| := (Int.zpow_le_iff_le_log (b := 2) (by norm_num) hp).1 (by exact_mod_cast h)
  have h2 : F.minExp ≤ Int.log 2 |x| + k := by
    rw [← log_mul_zpow hp, ← ha]
    exact (Int.zpow_le_iff_le_log (b := 2) (by norm_num) (by rw [ha]; positivity)).1 (by exact_mod_cast hk)
  unfold FloatFormat.unitExp
  rw [ha, log_mul_zpow hp, max_eq_left h1, max_eq_left h2]
  omega

/-- Rounding commutes with the multiplication by powers of two as long as the numbers are normal. -/
theorem nearest_scale {x : ℝ} {k : ℤ} (h : 2 ^ F.minExp ≤ |x|) (hk : 2 ^ F.minExp ≤ |x * 2 ^ k|) : F.nearest (x * 2 ^ k) = F.nearest x * 2 ^ k := by
  unfold FloatFormat.nearest
  rw [unitExp_scale h hk, zpow_add₀ (by norm_num)]
  have : x * 2 ^ k / (2 ^ F.unitExp x * 2 ^ k) = x / 2 ^ F.unitExp x := by
    field_simp
  rw [this, mul_assoc]

/-! ### sums and products of numbers in order -/

/-- Two finite data in order. -/
def Below (a b : Flt) : Prop := ∃ x y, a.datum = .finite x ∧ b.datum = .finite y ∧ x ≤ y

theorem round_value {r : Bool} {x y : ℝ} (h : (Flt.round F r x).datum = .finite y) : y = F.nearest x := by
  unfold Flt.round at h
  split_ifs at h
  exact (Datum.finite.inj h).symm

theorem mul_value {a b : Flt} {u v z : ℝ} (ha : a.datum = .finite u) (hb : b.datum = .finite v) (h : (Flt.mul F a b).datum = .finite z) :
    z = F.nearest (u * v) := by
  simp only [Flt.mul, ha, hb] at h
  exact round_value h

theorem add_value {a b : Flt} {u v z : ℝ} (ha : a.datum = .finite u) (hb : b.datum = .finite v) (h : (Flt.add F a b).datum = .finite z) :
    z = F.nearest (u + v) := by
  simp only [Flt.add, ha, hb] at h
  exact round_value h

theorem round_below {r s : Bool} {x y : ℝ} (h : x ≤ y) (hx : FiniteFlt (Flt.round F r x)) (hy : FiniteFlt (Flt.round F s y)) :
    Below (Flt.round F r x) (Flt.round F s y) := by
  obtain ⟨u, hu⟩ := hx
  obtain ⟨v, hv⟩ := hy
  refine ⟨u, v, hu, hv, ?_⟩
  rw [round_value hu, round_value hv]
  exact nearest_mono h

theorem add_below {a a' b b' : Flt} (ha : Below a a') (hb : Below b b') (h : FiniteFlt (Flt.add F a b)) (h' : FiniteFlt (Flt.add F a' b')) :
    Below (Flt.add F a b) (Flt.add F a' b') := by
  obtain ⟨x, x', hx, hx', hle⟩ := ha
  obtain ⟨y, y', hy, hy', hle'⟩ := hb
  simp only [Flt.add, hx, hy, hx', hy'] at h h' ⊢
  exact round_below (add_le_add hle hle') h h'

/-- Finite and not negative, if finite. -/
def Nonneg (f : Flt) : Prop := ∀ x, f.datum = .finite x → 0 ≤ x

theorem mul_below {n a b : Flt} (hn : Nonneg n) (hab : Below a b) (h : FiniteFlt (Flt.mul F n a)) (h' : FiniteFlt (Flt.mul F n b)) :
    Below (Flt.mul F n a) (Flt.mul F n b) := by
  obtain ⟨⟨u, hu⟩, -⟩ := mul_finite h
  obtain ⟨x, y, hx, hy, hle⟩ := hab
  simp only [Flt.mul, hu, hx, hy] at h h' ⊢
  exact round_below (mul_le_mul_of_nonneg_left hle (hn u hu)) h h'

theorem mul_nonneg_flt {a b : Flt} (ha : Nonneg a) (hb : Nonneg b) : Nonneg (Flt.mul F a b) := by
  intro x hx
  obtain ⟨⟨u, hu⟩, v, hv⟩ := mul_finite (F := F) ⟨x, hx⟩
  simp only [Flt.mul, hu, hv] at hx
  rw [round_value hx]
  exact nearest_nonneg F (mul_nonneg (ha u hu) (hb v hv))

theorem foldRight_nonneg {l : List Flt} (hl : ∀ a ∈ l, Nonneg a) {y : Flt} (h : foldRight (Flt.mul F) (l.map .ok) = .ok y) : Nonneg y := by
  induction l generalizing y with
  | nil => cases h
  | cons a l ih =>
    cases l with
    | nil => cases h; exact hl a (List.mem_singleton.2 rfl)
    | cons b l =>
      simp only [List.map_cons, foldRight, Res.ok_bind] at h
      obtain ⟨z, hz, hy⟩ := Res.bind_eq_ok.1 h
      cases hy
      exact mul_nonneg_flt (hl a (List.mem_cons_self ..)) (ih (fun c hc => hl c (List.mem_cons_of_mem _ hc)) hz)

/-! ### sums over loops -/

theorem runCalls_finite {ι : Type} {L : List ι} {body : ι → Flt → Res Flt} {g : ι → Flt}
    (hb : ∀ i r, body i r = .ok (Flt.add F r (g i))) {r s : Flt} (h : runCalls L body r = .ok s) (hs : FiniteFlt s) :
    FiniteFlt r ∧ ∀ i ∈ L, FiniteFlt (g i) := by
  induction L generalizing r with
  | nil =>
    obtain rfl := Res.ok.inj h
    exact ⟨hs, fun i hi => by cases hi⟩
  | cons i L ih =>
    rw [runCalls_cons, hb, Res.ok_bind] at h
    obtain ⟨h1, h2⟩ := ih h
    obtain ⟨hr, hg⟩ := add_finite h1
    refine ⟨hr, fun j hj => ?_⟩
    rcases List.mem_cons.1 hj with rfl | hj
    · exact hg
    · exact h2 j hj

theorem runCalls_below {ι : Type} {L : List ι} {body body' : ι → Flt → Res Flt} {g g' : ι → Flt}
    (hb : ∀ i r, body i r = .ok (Flt.add F r (g i))) (hb' : ∀ i r, body' i r = .ok (Flt.add F r (g' i)))
    (hg : ∀ i, FiniteFlt (g i) → FiniteFlt (g' i) → Below (g i) (g' i)) {r r' s s' : Flt} (hr : Below r r')
    (h : runCalls L body r = .ok s) (h' : runCalls L body' r' = .ok s') (hs : FiniteFlt s) (hs' : FiniteFlt s') : Below s s' := by
  induction L generalizing r r' with
  | nil =>
    obtain rfl := Res.ok.inj h
    obtain rfl := Res.ok.inj h'
    exact hr
  | cons i L ih =>
    rw [runCalls_cons, hb, Res.ok_bind] at h
    rw [runCalls_cons, hb', Res.ok_bind] at h'
    have h1 := (runCalls_finite hb h hs).1
    have h2 := (runCalls_finite hb' h' hs').1
    exact ih (add_below hr (hg i (add_finite h1).2 (add_finite h2).2) h1 h2) h h'

theorem runCalls_keeps {ι : Type} {L : List ι} {body : ι → Flt → Res Flt} {g : ι → Flt} (P : Flt → Prop)
    (hb : ∀ i r, body i r = .ok (Flt.add F r (g i))) (hP : ∀ i r, P r → P (Flt.add F r (g i))) {r s : Flt} (hr : P r)
    (h : runCalls L body r = .ok s) : P s := by
  induction L generalizing r with
  | nil =>
    obtain rfl := Res.ok.inj h
    exact hr
  | cons i L ih =>
    rw [runCalls_cons, hb, Res.ok_bind] at h
    exact ih (hP i r hr) h

/-! ### the two functions of order one with points -1 and 1 -/

theorem represents_zpow {k : ℤ} (h1 : F.minExp - F.fracBits ≤ k) (h2 : k ≤ F.maxExp) : Represents F ((2 : ℝ) ^ k) := by
  refine ⟨nearest_of_onGrid F (OnGrid.zpow ?_), ?_⟩
  · unfold FloatFormat.unitExp
    have : Int.log 2 |(2 : ℝ) ^ k| = k := by
      rw [abs_of_pos (by positivity)]
      have := Int.log_zpow (R := ℝ) (b := 2) (by norm_num) k
      exact_mod_cast this
    rw [this]
    omega
  · rw [abs_of_pos (by positivity)]
    exact zpow_lt_zpow_right₀ (by norm_num) (by omega)

/-- A format with at least the exponents of `float`. -/
structure Wide (F : FloatFormat) : Prop where
  low : F.minExp + F.fracBits + 2 ≤ -100
  high : 58 ≤ F.maxExp

theorem wide_format (T : RealType) : Wide T.format := by
  cases T <;> constructor <;> simp only [RealType.format, binary32, binary64] <;> norm_num

theorem Wide.pow (hF : Wide F) {k : ℤ} (h1 : -100 ≤ k) (h2 : k ≤ 58) : Represents F ((2 : ℝ) ^ k) :=
  represents_zpow (by have := hF.low; omega) (by have := hF.high; omega)

/-- Spacings of two points, at -1 and 1. -/
structure EndPoints (S : Spacing Flt) : Prop where
  left : S.coordCT 0 = .ok (Flt.ofReal (-1))
  right : S.coordCT 1 = .ok (Flt.ofReal 1)

theorem linear_values (hF : Wide F) {S : Spacing Flt} (hS : EndPoints S) (X : Flt) :
    LagrangeBasis.value (floatArith F) S 2 0 X = .ok (Flt.mul F (Flt.sub F X (Flt.ofReal 1)) (Flt.ofReal (-1 / 2))) ∧
    LagrangeBasis.value (floatArith F) S 2 1 X = .ok (Flt.mul F (Flt.sub F X (Flt.ofReal (-1))) (Flt.ofReal (1 / 2))) := by
  have r1 : Represents F 1 := by have := hF.pow (k := 0) (by norm_num) (by norm_num); rwa [zpow_zero] at this
  have r2 : Represents F 2 := by have := hF.pow (k := 1) (by norm_num) (by norm_num); rwa [zpow_one] at this
  have rh : Represents F (1 / 2) := by have := hF.pow (k := -1) (by norm_num) (by norm_num); rwa [zpow_neg_one, inv_eq_one_div] at this
  have h1 : (floatArith F).lit 1 = Flt.ofReal 1 := by
    show Flt.round F false ((1 : ℚ) : ℝ) = _
    rw [Rat.cast_one]; exact round_held r1 false
  have d1 : Flt.div F (Flt.ofReal 1) (Flt.sub F (Flt.ofReal (-1)) (Flt.ofReal 1)) = .ok (Flt.ofReal (-1 / 2)) := by
    have : Flt.sub F (Flt.ofReal (-1)) (Flt.ofReal 1) = Flt.ofReal (-2) := by
      simp only [Flt.sub, Flt.neg, Flt.add, Flt.ofReal, Bool.or_self]
      rw [show (-1 : ℝ) + -1 = -2 by norm_num]
      exact round_held (represents_neg r2) false
    rw [this]
    simp only [Flt.div, Flt.ofReal, Bool.or_self]
    rw [if_neg (by norm_num), show (1 : ℝ) / -2 = -1 / 2 by norm_num]
    congr 1
    refine round_held ?_ false
    have := represents_neg rh
    rwa [show -(1 / 2 : ℝ) = -1 / 2 by norm_num] at this
  have d2 : Flt.div F (Flt.ofReal 1) (Flt.sub F (Flt.ofReal 1) (Flt.ofReal (-1))) = .ok (Flt.ofReal (1 / 2)) := by
    have : Flt.sub F (Flt.ofReal 1) (Flt.ofReal (-1)) = Flt.ofReal 2 := by
      simp only [Flt.sub, Flt.neg, Flt.add, Flt.ofReal, Bool.or_self]
      rw [show (1 : ℝ) + - -1 = 2 by norm_num]
      exact round_held r2 false
    rw [this]
    simp only [Flt.div, Flt.ofReal, Bool.or_self]
    rw [if_neg (by norm_num)]
    congr 1
    exact round_held rh false
  have e00 : LagrangeBasis.valueProductTerm (floatArith F) S 0 0 X = .ok (Flt.ofReal 1) := by
    rw [LagrangeBasis.valueProductTerm, if_pos rfl, h1]
  have e11 : LagrangeBasis.valueProductTerm (floatArith F) S 1 1 X = .ok (Flt.ofReal 1) := by
    rw [LagrangeBasis.valueProductTerm, if_pos rfl, h1]
  have e01 : LagrangeBasis.valueProductTerm (floatArith F) S 0 1 X = .ok (Flt.mul F (Flt.sub F X (Flt.ofReal 1)) (Flt.ofReal (-1 / 2))) := by
    rw [LagrangeBasis.valueProductTerm, if_neg (by decide), hS.left, hS.right, h1]
    show (do
      let denom ← (Flt.div F (Flt.ofReal 1) (Flt.sub F (Flt.ofReal (-1)) (Flt.ofReal 1))).constexpr
      .ok (Flt.mul F (Flt.sub F X (Flt.ofReal 1)) denom)) = _
    rw [d1]; rfl
  have e10 : LagrangeBasis.valueProductTerm (floatArith F) S 1 0 X = .ok (Flt.mul F (Flt.sub F X (Flt.ofReal (-1))) (Flt.ofReal (1 / 2))) := by
    rw [LagrangeBasis.valueProductTerm, if_neg (by decide), hS.left, hS.right, h1]
    show (do
      let denom ← (Flt.div F (Flt.ofReal 1) (Flt.sub F (Flt.ofReal 1) (Flt.ofReal (-1)))).constexpr
      .ok (Flt.mul F (Flt.sub F X (Flt.ofReal (-1))) denom)) = _
    rw [d2]; rfl
  refine ⟨(value_eq_fold (n := 2) (v := ![Flt.ofReal 1, _]) (i := 0) (X := X) (F := F) fun a => ?_).trans
      (congrArg Res.ok (one_mul_flt (mul_held _ _))),
    (value_eq_fold (n := 2) (v := ![_, Flt.ofReal 1]) (i := 1) (X := X) (F := F) fun a => ?_).trans
      (congrArg Res.ok (mul_one_flt (mul_held _ _)))⟩
  · match a with
    | 0 => exact e00
    | 1 => exact e01
  · match a with
    | 0 => exact e10
    | 1 => exact e11

/-- Both functions are not negative between their points. -/
theorem linear_nonneg (hF : Wide F) {S : Spacing Flt} (hS : EndPoints S) {X : Flt} (hX : ∀ x, X.datum = .finite x → |x| ≤ 1) {i : Int}
    (hi : i = 0 ∨ i = 1) {f : Flt} (hf : LagrangeBasis.value (floatArith F) S 2 i X = .ok f) : Nonneg f := by
  obtain ⟨h0, h1⟩ := linear_values hF hS X
  intro z hz
  rcases hi with rfl | rfl
  · obtain rfl := Res.ok.inj (hf.symm.trans h0)
    obtain ⟨⟨u, hu⟩, -⟩ := mul_finite (F := F) ⟨z, hz⟩
    obtain ⟨⟨x, hx⟩, -⟩ := add_finite (F := F) ⟨u, hu⟩
    have hb := abs_le.1 (hX x hx)
    have hle : u ≤ 0 := by
      simp only [Flt.sub, Flt.add, Flt.neg, hx, Flt.ofReal] at hu
      rw [round_value hu, ← nearest_zero F]
      exact nearest_mono (by linarith)
    rw [mul_value hu rfl hz]
    exact nearest_nonneg F (by linarith)
  · obtain rfl := Res.ok.inj (hf.symm.trans h1)
    obtain ⟨⟨u, hu⟩, -⟩ := mul_finite (F := F) ⟨z, hz⟩
    obtain ⟨⟨x, hx⟩, -⟩ := add_finite (F := F) ⟨u, hu⟩
    have hb := abs_le.1 (hX x hx)
    have hle : 0 ≤ u := by
      simp only [Flt.sub, Flt.add, Flt.neg, hx, Flt.ofReal] at hu
      rw [round_value hu]
      exact nearest_nonneg F (by linarith)
    rw [mul_value hu rfl hz]
    exact nearest_nonneg F (by linarith)

/-! ### their sum -/

private theorem grid_of (hF : Wide F) {x : ℝ} (hx : F.nearest x = x) : OnGrid (-F.fracBits - 1) (F.nearest (1 - x)) := by
  have hlow := hF.low
  by_cases h : -(F.fracBits : ℤ) - 1 ≤ F.unitExp (1 - x)
  · exact (onGrid_unit F _).mono h
  · have hne : 1 - x ≠ 0 := by
      intro h0
      rw [h0] at h
      unfold FloatFormat.unitExp at h
      rw [abs_zero, Int.log_zero_right] at h
      omega
    unfold FloatFormat.unitExp at h
    have h1 : |1 - x| < 2 ^ (-1 : ℤ) := by
      have := (Int.lt_zpow_iff_log_lt (b := 2) (r := |1 - x|) (x := -1) (by norm_num) (abs_pos.2 hne)).2 (by omega)
      exact_mod_cast this
    have h2 : 1 / 2 < x := by
      have := (abs_lt.1 h1).2
      norm_num at this
      linarith
    have hu : -(F.fracBits : ℤ) - 1 ≤ F.unitExp x := by
      unfold FloatFormat.unitExp
      have : -1 ≤ Int.log 2 |x| := by
        refine (Int.zpow_le_iff_le_log (b := 2) (by norm_num) (by rw [abs_pos]; linarith)).1 ?_
        rw [abs_of_pos (by linarith)]
        norm_num
        linarith
      omega
    have hg : OnGrid (-F.fracBits - 1) x := by
      have := (onGrid_unit F x).mono hu
      rwa [hx] at this
    refine onGrid_nearest F ?_
    rw [sub_eq_add_neg]
    refine OnGrid.add ?_ hg.neg
    have := OnGrid.zpow (g := -F.fracBits - 1) (M := 0) (by omega)
    rwa [zpow_zero] at this

private theorem sum_near (hF : Wide F) {x : ℝ} (h0 : 0 ≤ x) (h1 : x ≤ 1) :
    |F.nearest (1 - x) + F.nearest (1 + x) - 2| < 2 * 2 ^ (-(F.fracBits : ℤ) - 1) := by
  have hlow := hF.low
  have r1 : F.nearest 1 = 1 := by have := (hF.pow (k := 0) (by norm_num) (by norm_num)).1; rwa [zpow_zero] at this
  have r2 : F.nearest 2 = 2 := by have := (hF.pow (k := 1) (by norm_num) (by norm_num)).1; rwa [zpow_one] at this
  have hp : (0 : ℝ) < 2 ^ (-(F.fracBits : ℤ) - 1) := by positivity
  rcases h0.eq_or_lt with rfl | h0
  · rw [sub_zero, add_zero, r1]; norm_num; exact hp
  rcases h1.eq_or_lt with rfl | h1
  · rw [sub_self, nearest_zero, one_add_one_eq_two, r2]; norm_num; exact hp
  have ha := nearest_err_unit F (1 - x)
  have hb := nearest_err_unit F (1 + x)
  have ua : F.unitExp (1 - x) ≤ -(F.fracBits : ℤ) - 1 := by
    unfold FloatFormat.unitExp
    have : Int.log 2 |1 - x| < 0 := by
      refine (Int.lt_zpow_iff_log_lt (b := 2) (by norm_num) (by rw [abs_pos]; linarith)).1 ?_
      rw [abs_of_pos (by linarith), zpow_zero]; linarith
    omega
  have ub : F.unitExp (1 + x) ≤ -(F.fracBits : ℤ) := by
    unfold FloatFormat.unitExp
    have : Int.log 2 |1 + x| < 1 := by
      refine (Int.lt_zpow_iff_log_lt (b := 2) (by norm_num) (by rw [abs_pos]; linarith)).1 ?_
      rw [abs_of_pos (by linarith), zpow_one]; norm_num; linarith
    omega
  have pa : (2 : ℝ) ^ F.unitExp (1 - x) ≤ 2 ^ (-(F.fracBits : ℤ) - 1) := zpow_le_zpow_right₀ (by norm_num) ua
  have pb : (2 : ℝ) ^ F.unitExp (1 + x) ≤ 2 ^ (-(F.fracBits : ℤ) - 1) * 2 := by
    rw [← zpow_add_one₀ (by norm_num)]
    exact zpow_le_zpow_right₀ (by norm_num) (by omega)
  have e : F.nearest (1 - x) + F.nearest (1 + x) - 2 = (F.nearest (1 - x) - (1 - x)) + (F.nearest (1 + x) - (1 + x)) := by ring
  rw [e]
  refine lt_of_le_of_lt (abs_add_le _ _) ?_
  linarith

private theorem nearest_about_one (hF : Wide F) {m : ℤ} (hm : |m| ≤ 1) : F.nearest (1 + m * 2 ^ (-(F.fracBits : ℤ) - 2)) = 1 := by
  have hlow := hF.low
  have r1 : F.nearest 1 = 1 := by have := (hF.pow (k := 0) (by norm_num) (by norm_num)).1; rwa [zpow_zero] at this
  have hp : (0 : ℝ) < 2 ^ (-(F.fracBits : ℤ) - 2) := by positivity
  have hq : (2 : ℝ) ^ (-(F.fracBits : ℤ) - 2) ≤ 1 / 4 := by
    have := zpow_le_zpow_right₀ (a := (2 : ℝ)) (by norm_num) (show -(F.fracBits : ℤ) - 2 ≤ -2 by omega)
    norm_num at this ⊢
    exact this
  have hm' : m = -1 ∨ m = 0 ∨ m = 1 := by
    have := abs_le.1 hm
    omega
  rcases hm' with rfl | rfl | rfl
  · have hpos : 0 < 1 + ((-1 : ℤ) : ℝ) * 2 ^ (-(F.fracBits : ℤ) - 2) := by push_cast; linarith
    have hlog : Int.log 2 |1 + ((-1 : ℤ) : ℝ) * 2 ^ (-(F.fracBits : ℤ) - 2)| = -1 := by
      rw [abs_of_pos hpos]
      refine le_antisymm (Int.lt_add_one_iff.1 ?_) ?_
      · refine (Int.lt_zpow_iff_log_lt (b := 2) (by norm_num) hpos).1 ?_
        push_cast; norm_num; exact hp
      · refine (Int.zpow_le_iff_le_log (b := 2) (by norm_num) hpos).1 ?_
        push_cast; norm_num; linarith
    have hu : F.unitExp (1 + ((-1 : ℤ) : ℝ) * 2 ^ (-(F.fracBits : ℤ) - 2)) = -(F.fracBits : ℤ) - 1 := by
      unfold FloatFormat.unitExp
      rw [hlog]; omega
    unfold FloatFormat.nearest
    rw [hu]
    have e : (1 + ((-1 : ℤ) : ℝ) * 2 ^ (-(F.fracBits : ℤ) - 2)) / 2 ^ (-(F.fracBits : ℤ) - 1) = ((2 ^ (F.fracBits + 1) - 1 : ℤ) : ℝ) + 1 / 2 := by
      rw [div_eq_iff (by positivity)]
      rw [show -(F.fracBits : ℤ) - 2 = -((F.fracBits + 2 : ℕ) : ℤ) by push_cast; ring,
        show -(F.fracBits : ℤ) - 1 = -((F.fracBits + 1 : ℕ) : ℤ) by push_cast; ring, zpow_neg, zpow_neg, zpow_natCast, zpow_natCast]
      push_cast
      field_simp
      ring
    have hfloor : ⌊((2 ^ (F.fracBits + 1) - 1 : ℤ) : ℝ) + 1 / 2⌋ = 2 ^ (F.fracBits + 1) - 1 := by
      rw [Int.floor_eq_iff]; constructor <;> linarith
    have hfract : Int.fract (((2 ^ (F.fracBits + 1) - 1 : ℤ) : ℝ) + 1 / 2) = 1 / 2 := by
      rw [Int.fract, hfloor]; ring
    have hodd : ¬ Even ((2 : ℤ) ^ (F.fracBits + 1) - 1) := by
      rw [Int.not_even_iff_odd]
      exact Even.sub_odd ⟨2 ^ F.fracBits, by rw [pow_succ]; ring⟩ odd_one
    rw [e]
    unfold roundEven
    rw [hfract, hfloor, if_neg (lt_irrefl _), if_neg (lt_irrefl _), if_neg hodd]
    rw [show -(F.fracBits : ℤ) - 1 = -((F.fracBits + 1 : ℕ) : ℤ) by push_cast; ring, zpow_neg, zpow_natCast]
    push_cast
    field_simp
    ring
  · simpa using r1
  · have hpos : 0 < 1 + ((1 : ℤ) : ℝ) * 2 ^ (-(F.fracBits : ℤ) - 2) := by push_cast; linarith
    have hlog : Int.log 2 |1 + ((1 : ℤ) : ℝ) * 2 ^ (-(F.fracBits : ℤ) - 2)| = 0 := by
      rw [abs_of_pos hpos]
      refine le_antisymm (Int.lt_add_one_iff.1 ?_) ?_
      · refine (Int.lt_zpow_iff_log_lt (b := 2) (by norm_num) hpos).1 ?_
        push_cast; norm_num; linarith
      · refine (Int.zpow_le_iff_le_log (b := 2) (by norm_num) hpos).1 ?_
        push_cast; norm_num; exact hp.le
    have hu : F.unitExp (1 + ((1 : ℤ) : ℝ) * 2 ^ (-(F.fracBits : ℤ) - 2)) = -(F.fracBits : ℤ) := by
      unfold FloatFormat.unitExp
      rw [hlog]; omega
    unfold FloatFormat.nearest
    rw [hu]
    have e : (1 + ((1 : ℤ) : ℝ) * 2 ^ (-(F.fracBits : ℤ) - 2)) / 2 ^ (-(F.fracBits : ℤ)) = ((2 ^ F.fracBits : ℤ) : ℝ) + 1 / 4 := by
      rw [div_eq_iff (by positivity)]
      rw [show -(F.fracBits : ℤ) - 2 = -((F.fracBits + 2 : ℕ) : ℤ) by push_cast; ring, zpow_neg, zpow_neg, zpow_natCast, zpow_natCast]
      push_cast
      field_simp
      ring
    have hfloor : ⌊((2 ^ F.fracBits : ℤ) : ℝ) + 1 / 4⌋ = 2 ^ F.fracBits := by
      rw [Int.floor_eq_iff]; constructor <;> linarith
    have hfract : Int.fract (((2 ^ F.fracBits : ℤ) : ℝ) + 1 / 4) = 1 / 4 := by
      rw [Int.fract, hfloor]; ring
    rw [e]
    unfold roundEven
    rw [hfract, hfloor, if_pos (by norm_num), zpow_neg, zpow_natCast]
    push_cast
    field_simp

/-- The values of the two functions, before halving, are multiples of a power of two whose sum differs from 2 by at most that power. -/
theorem linear_sum (hF : Wide F) {x : ℝ} (hx : F.nearest x = x) (hb : |x| ≤ 1) :
    OnGrid (-F.fracBits - 1) (F.nearest (1 - x)) ∧ OnGrid (-F.fracBits - 1) (F.nearest (1 + x)) ∧
    F.nearest ((F.nearest (1 - x) + F.nearest (1 + x)) / 2) = 1 ∧ |F.nearest (1 - x) + F.nearest (1 + x) - 2| ≤ 1 := by
  have ga := grid_of hF hx
  have gb : OnGrid (-F.fracBits - 1) (F.nearest (1 + x)) := by
    have := grid_of hF (x := -x) (by rw [nearest_neg, hx])
    rwa [sub_neg_eq_add] at this
  have hs : |F.nearest (1 - x) + F.nearest (1 + x) - 2| < 2 * 2 ^ (-(F.fracBits : ℤ) - 1) := by
    rcases le_total 0 x with h | h
    · exact sum_near hF h (abs_le.1 hb).2
    · have := sum_near hF (x := -x) (by linarith) (by linarith [(abs_le.1 hb).1])
      rw [sub_neg_eq_add, ← sub_eq_add_neg, add_comm (F.nearest _)] at this
      exact this
  obtain ⟨m, hm⟩ : OnGrid (-F.fracBits - 1) (F.nearest (1 - x) + F.nearest (1 + x) - 2) := by
    rw [sub_eq_add_neg]
    refine (ga.add gb).add (OnGrid.neg ?_)
    have := OnGrid.zpow (g := -F.fracBits - 1) (M := 1) (by omega)
    rwa [zpow_one] at this
  have hp : (0 : ℝ) < 2 ^ (-(F.fracBits : ℤ) - 1) := by positivity
  have hm1 : |m| ≤ 1 := by
    rw [hm, abs_mul, abs_of_pos hp, mul_lt_mul_iff_left₀ hp] at hs
    have : |m| < 2 := by exact_mod_cast hs
    omega
  refine ⟨ga, gb, ?_, ?_⟩
  · have := nearest_about_one hF hm1
    convert this using 2
    rw [show -(F.fracBits : ℤ) - 2 = -(F.fracBits : ℤ) - 1 - 1 by ring, zpow_sub_one₀ (by norm_num)]
    linarith
  · have : (2 : ℝ) ^ (-(F.fracBits : ℤ) - 1) ≤ 2 ^ (-1 : ℤ) := zpow_le_zpow_right₀ (by norm_num) (by omega)
    norm_num at this
    linarith

/-! ### constants that are powers of two -/

theorem round_small {r : Bool} {x : ℝ} (hF : Wide F) (h : |x| ≤ 2 ^ (58 : ℤ)) : (Flt.round F r x).datum = .finite (F.nearest x) := by
  have := hF.low
  have := hF.high
  unfold Flt.round
  rw [if_neg (not_overflows F (h.trans (zpow_le_zpow_right₀ (by norm_num) hF.high)) (by omega))]

private theorem scaled {A : ℝ} (hA : F.nearest A = A) (hg : OnGrid (-F.fracBits - 1) A) (hF : Wide F) {k : ℤ} (hk : -101 ≤ k) :
    F.nearest (A * 2 ^ k) = A * 2 ^ k := by
  have hlow := hF.low
  rcases eq_or_ne A 0 with rfl | h0
  · rw [zero_mul, nearest_zero]
  have h1 := hg.le_abs h0
  rw [nearest_scale, hA]
  · exact le_trans (zpow_le_zpow_right₀ (by norm_num) (by omega)) h1
  · rw [abs_mul, abs_of_pos (a := (2 : ℝ) ^ k) (by positivity)]
    refine le_trans ?_ (mul_le_mul_of_nonneg_right h1 (by positivity))
    rw [← zpow_add₀ (by norm_num)]
    exact zpow_le_zpow_right₀ (by norm_num) (by omega)

private theorem nearest_sign {s : ℝ} (hs : s = 1 ∨ s = -1) (x : ℝ) : F.nearest (s * x) = s * F.nearest x := by
  rcases hs with rfl | rfl
  · rw [one_mul, one_mul]
  · rw [neg_one_mul, neg_one_mul, nearest_neg]

/-- Plus or minus a power of two. -/
def SignedPower (v : ℝ) : Prop := ∃ (s : ℝ) (k : ℤ), (s = 1 ∨ s = -1) ∧ -100 ≤ k ∧ k ≤ 56 ∧ v = s * 2 ^ k

/-- The sum of the two functions, multiplied by a constant that is a power of two, is exact. -/
theorem line_constant (hF : Wide F) {S : Spacing Flt} (hS : EndPoints S) {x : ℝ} (hx : F.nearest x = x) (hb : |x| ≤ 1) {v : ℝ} (hv : SignedPower v) :
    ∃ f₀ f₁, LagrangeBasis.value (floatArith F) S 2 0 (Flt.ofReal x) = .ok f₀ ∧ LagrangeBasis.value (floatArith F) S 2 1 (Flt.ofReal x) = .ok f₁ ∧
      ∀ z : Flt, z.datum = .finite 0 →
        (Flt.add F (Flt.add F z (Flt.mul F f₀ (Flt.ofReal v))) (Flt.mul F f₁ (Flt.ofReal v))).datum = .finite v := by
  obtain ⟨e0, e1⟩ := linear_values hF hS (Flt.ofReal x)
  obtain ⟨ga, gb, hsum, hnear⟩ := linear_sum hF hx hb
  obtain ⟨s, k, hs, hk1, hk2, rfl⟩ := hv
  obtain ⟨hb1, hb2⟩ := abs_le.1 hb
  obtain ⟨A, hA⟩ : ∃ A, A = F.nearest (1 - x) := ⟨_, rfl⟩
  obtain ⟨B, hB⟩ : ∃ B, B = F.nearest (1 + x) := ⟨_, rfl⟩
  have hAA : F.nearest A = A := by rw [hA, nearest_nearest]
  have hBB : F.nearest B = B := by rw [hB, nearest_nearest]
  have hA0 : 0 ≤ A := by rw [hA]; exact nearest_nonneg F (by linarith)
  have hB0 : 0 ≤ B := by rw [hB]; exact nearest_nonneg F (by linarith)
  rw [← hA, ← hB] at hsum hnear
  rw [← hA] at ga
  rw [← hB] at gb
  have hAB := (abs_le.1 hnear).2
  have hlow := hF.low
  have big : ∀ {y : ℝ} {j : ℤ}, |y| ≤ 3 → j ≤ 56 → |y * 2 ^ j| ≤ 2 ^ (58 : ℤ) := fun {y j} hy hj => by
    rw [abs_mul, abs_of_pos (a := (2 : ℝ) ^ j) (by positivity)]
    have : (2 : ℝ) ^ j ≤ 2 ^ (56 : ℤ) := zpow_le_zpow_right₀ (by norm_num) hj
    calc |y| * 2 ^ j ≤ 3 * 2 ^ (56 : ℤ) := mul_le_mul hy this (by positivity) (by norm_num)
      _ ≤ _ := by norm_num
  have small : ∀ {y : ℝ}, |y| ≤ 3 → |y| ≤ 2 ^ (58 : ℤ) := fun {y} hy => hy.trans (by norm_num)
  have d0 : (Flt.sub F (Flt.ofReal x) (Flt.ofReal 1)).datum = .finite (-A) := by
    show (Flt.round F _ (x + -1)).datum = _
    rw [round_small hF (small (by rw [abs_le]; constructor <;> linarith)), hA, ← nearest_neg]
    congr 2; ring
  have d1 : (Flt.sub F (Flt.ofReal x) (Flt.ofReal (-1))).datum = .finite B := by
    show (Flt.round F _ (x + - -1)).datum = _
    rw [round_small hF (small (by rw [abs_le]; constructor <;> linarith)), hB]
    congr 2; ring
  have half : ∀ {C : ℝ}, F.nearest C = C → OnGrid (-F.fracBits - 1) C → F.nearest (C / 2) = C / 2 := fun {C} h1 h2 => by
    have := scaled h1 h2 hF (k := -1) (by norm_num)
    rwa [zpow_neg_one, ← div_eq_mul_inv] at this
  have n0 : (Flt.mul F (Flt.sub F (Flt.ofReal x) (Flt.ofReal 1)) (Flt.ofReal (-1 / 2))).datum = .finite (A / 2) := by
    simp only [Flt.mul, d0]
    show (Flt.round F _ (-A * (-1 / 2))).datum = _
    rw [show -A * (-1 / 2) = A / 2 by ring, round_small hF (small (by rw [abs_le]; constructor <;> linarith)), half hAA ga]
  have n1 : (Flt.mul F (Flt.sub F (Flt.ofReal x) (Flt.ofReal (-1))) (Flt.ofReal (1 / 2))).datum = .finite (B / 2) := by
    simp only [Flt.mul, d1]
    show (Flt.round F _ (B * (1 / 2))).datum = _
    rw [show B * (1 / 2) = B / 2 by ring, round_small hF (small (by rw [abs_le]; constructor <;> linarith)), half hBB gb]
  have sign : |s| = 1 := by rcases hs with rfl | rfl <;> simp
  have prod : ∀ {f : Flt} {C : ℝ}, f.datum = .finite (C / 2) → F.nearest C = C → OnGrid (-F.fracBits - 1) C → |C| ≤ 3 →
      (Flt.mul F f (Flt.ofReal (s * 2 ^ k))).datum = .finite (s * (C / 2 * 2 ^ k)) := fun {f C} hf h1 h2 h3 => by
    have e : C / 2 * (s * 2 ^ k) = s * (C * 2 ^ (k - 1)) := by
      rw [zpow_sub_one₀ (by norm_num)]; ring
    simp only [Flt.mul, hf]
    show (Flt.round F _ (C / 2 * (s * 2 ^ k))).datum = _
    rw [e, round_small hF, nearest_sign hs, scaled h1 h2 hF (by omega)]
    · rw [zpow_sub_one₀ (by norm_num)]; congr 1; ring
    · rw [abs_mul, sign, one_mul]
      exact big h3 (by omega)
  have p0 := prod n0 hAA ga (by rw [abs_le]; constructor <;> linarith)
  have p1 := prod n1 hBB gb (by rw [abs_le]; constructor <;> linarith)
  refine ⟨_, _, e0, e1, fun z hz => ?_⟩
  have ha : (Flt.add F z (Flt.mul F (Flt.mul F (Flt.sub F (Flt.ofReal x) (Flt.ofReal 1)) (Flt.ofReal (-1 / 2))) (Flt.ofReal (s * 2 ^ k)))).datum
      = .finite (s * (A / 2 * 2 ^ k)) := by
    have hrep := mul_held (F := F) _ _ _ p0
    have := add_data (F := F) hz p0 (by rwa [zero_add])
    rwa [zero_add] at this
  simp only [Flt.add] at ha ⊢
  simp only [ha, p1]
  rw [show s * (A / 2 * 2 ^ k) + s * (B / 2 * 2 ^ k) = s * ((A + B) / 2 * 2 ^ k) by ring, round_small hF, nearest_sign hs, nearest_scale, hsum, one_mul]
  · rw [abs_of_nonneg (by linarith)]
    have h1 : 1 / 2 ≤ (A + B) / 2 := by linarith [(abs_le.1 hnear).1]
    refine le_trans ?_ h1
    have : (2 : ℝ) ^ F.minExp ≤ 2 ^ (-1 : ℤ) := zpow_le_zpow_right₀ (by norm_num) (by omega)
    norm_num at this ⊢
    exact this
  · have h1 : 1 / 2 ≤ (A + B) / 2 := by linarith [(abs_le.1 hnear).1]
    rw [abs_of_nonneg (by positivity)]
    refine le_trans ?_ (mul_le_mul_of_nonneg_right h1 (by positivity))
    rw [show (1 / 2 : ℝ) = 2 ^ (-1 : ℤ) by norm_num, ← zpow_add₀ (by norm_num)]
    exact zpow_le_zpow_right₀ (by norm_num) (by omega)
  · rw [abs_mul, sign, one_mul]
    exact big (by rw [abs_le]; constructor <;> linarith) hk2

/-! ### interpolation -/

section element
variable {d : ℕ} {b : Fin d → Basis Flt} {n : Fin d → ℕ} {X : Fin d → Flt}

/-- Larger nodal values do not give smaller interpolated values, if the shape functions are not negative. -/
theorem value_below (hd : 0 < d) (hc : ∀ k, (b k).numSupportPoints = n k)
    (hN : ∀ idx : (k : Fin d) → Fin (n k), ∃ f, BasisProduct.value (floatArith F) (List.ofFn b) (tup idx) (List.ofFn X) = .ok f ∧ Nonneg f)
    {u v : List Int → Res Flt} {y z : ((k : Fin d) → Fin (n k)) → Flt}
    (hu : ∀ idx, u (tup idx) = .ok (y idx)) (hv : ∀ idx, v (tup idx) = .ok (z idx)) (hyz : ∀ idx, Below (y idx) (z idx)) {r s : Flt}
    (hr : ParentElement.value (floatArith F) (elementOf b) (List.ofFn X) u = .ok r)
    (hs : ParentElement.value (floatArith F) (elementOf b) (List.ofFn X) v = .ok s) (fr : FiniteFlt r) (fs : FiniteFlt s) : Below r s := by
  obtain ⟨L, hL, -, -⟩ := box_list n
  choose f hf hpos using hN
  rw [ParentElement.value, elementOf_instantiate, Res.ok_bind, show (elementOf b).bases = List.ofFn b from rfl, forNested_box hd hc hL] at hr hs
  have h0 : ((floatArith F).lit 0).datum = .finite 0 := by
    show (Flt.round F false ((0 : ℚ) : ℝ)).datum = _
    rw [Rat.cast_zero, round_zero]
  exact runCalls_below (F := F) (g := fun idx => Flt.mul F (f idx) (y idx)) (g' := fun idx => Flt.mul F (f idx) (z idx))
    (fun idx r => valueBody_eq u (hf idx) (hu idx) r) (fun idx r => valueBody_eq v (hf idx) (hv idx) r)
    (fun idx h1 h2 => mul_below (hpos idx) (hyz idx) h1 h2) ⟨0, 0, h0, h0, le_refl _⟩ hr hs fr fs

/-- Nodal values that are not negative give interpolated values that are not negative. -/
theorem value_nonneg (hd : 0 < d) (hc : ∀ k, (b k).numSupportPoints = n k)
    (hN : ∀ idx : (k : Fin d) → Fin (n k), ∃ f, BasisProduct.value (floatArith F) (List.ofFn b) (tup idx) (List.ofFn X) = .ok f ∧ Nonneg f)
    {u : List Int → Res Flt} {y : ((k : Fin d) → Fin (n k)) → Flt} (hu : ∀ idx, u (tup idx) = .ok (y idx)) (hy : ∀ idx, Nonneg (y idx)) {r : Flt}
    (hr : ParentElement.value (floatArith F) (elementOf b) (List.ofFn X) u = .ok r) : Nonneg r := by
  obtain ⟨L, hL, -, -⟩ := box_list n
  choose f hf hpos using hN
  rw [ParentElement.value, elementOf_instantiate, Res.ok_bind, show (elementOf b).bases = List.ofFn b from rfl, forNested_box hd hc hL] at hr
  refine runCalls_keeps (F := F) (g := fun idx => Flt.mul F (f idx) (y idx)) Nonneg
    (fun idx r => valueBody_eq u (hf idx) (hu idx) r) (fun idx r hr x hx => ?_) ?_ hr
  · obtain ⟨⟨p, hp⟩, q, hq⟩ := add_finite (F := F) ⟨x, hx⟩
    rw [add_value hp hq hx]
    exact nearest_nonneg F (add_nonneg (hr p hp) (mul_nonneg_flt (hpos idx) (hy idx) q hq))
  · intro x hx
    have h0 : ((floatArith F).lit 0).datum = .finite 0 := by
      show (Flt.round F false ((0 : ℚ) : ℝ)).datum = _
      rw [Rat.cast_zero, round_zero]
    rw [h0] at hx
    exact le_of_eq (Datum.finite.inj hx)

/-- Nodal values that are not positive give interpolated values that are not positive. -/
theorem value_nonpos (hd : 0 < d) (hc : ∀ k, (b k).numSupportPoints = n k)
    (hN : ∀ idx : (k : Fin d) → Fin (n k), ∃ f, BasisProduct.value (floatArith F) (List.ofFn b) (tup idx) (List.ofFn X) = .ok f ∧ Nonneg f)
    {u : List Int → Res Flt} {y : ((k : Fin d) → Fin (n k)) → Flt} (hu : ∀ idx, u (tup idx) = .ok (y idx))
    (hy : ∀ idx x, (y idx).datum = .finite x → x ≤ 0) {r : Flt}
    (hr : ParentElement.value (floatArith F) (elementOf b) (List.ofFn X) u = .ok r) : ∀ x, r.datum = .finite x → x ≤ 0 := by
  obtain ⟨L, hL, -, -⟩ := box_list n
  choose f hf hpos using hN
  rw [ParentElement.value, elementOf_instantiate, Res.ok_bind, show (elementOf b).bases = List.ofFn b from rfl, forNested_box hd hc hL] at hr
  refine runCalls_keeps (F := F) (g := fun idx => Flt.mul F (f idx) (y idx)) (fun r => ∀ x, r.datum = .finite x → x ≤ 0)
    (fun idx r => valueBody_eq u (hf idx) (hu idx) r) (fun idx r hr x hx => ?_) ?_ hr
  · obtain ⟨⟨p, hp⟩, q, hq⟩ := add_finite (F := F) ⟨x, hx⟩
    obtain ⟨⟨i, hi⟩, j, hj⟩ := mul_finite (F := F) ⟨q, hq⟩
    have hq' : q ≤ 0 := by
      rw [mul_value hi hj hq, ← nearest_zero F]
      exact nearest_mono (mul_nonpos_of_nonneg_of_nonpos (hpos idx i hi) (hy idx j hj))
    rw [add_value hp hq hx, ← nearest_zero F]
    exact nearest_mono (add_nonpos (hr p hp) hq')
  · intro x hx
    have h0 : ((floatArith F).lit 0).datum = .finite 0 := by
      show (Flt.round F false ((0 : ℚ) : ℝ)).datum = _
      rw [Rat.cast_zero, round_zero]
    rw [h0] at hx
    exact le_of_eq (Datum.finite.inj hx).symm

end element

/-- Interpolation on a line of order one. -/
theorem line_value {b : Basis Flt} (hc : b.numSupportPoints = 2) {X f₀ f₁ y₀ y₁ : Flt} (h0 : b.value 0 X = .ok f₀) (h1 : b.value 1 X = .ok f₁)
    {var : List Int → Res Flt} (hv0 : var [0] = .ok y₀) (hv1 : var [1] = .ok y₁) :
    ParentElement.value (floatArith F) ⟨.ok 1, [b]⟩ [X] var
      = .ok (Flt.add F (Flt.add F ((floatArith F).lit 0) (Flt.mul F f₀ y₀)) (Flt.mul F f₁ y₁)) := by
  have e : ∀ i : Int, BasisProduct.value (floatArith F) [b] [i] [X] = b.value i X := fun i => by
    rfl
  have body : ∀ (i : Int) (f y r : Flt), b.value i X = .ok f → var [i] = .ok y →
      ParentElement.valueBody (floatArith F) ⟨.ok 1, [b]⟩ [X] var [i] r = .ok (Flt.add F r (Flt.mul F f y)) := fun i f y r hf hy => by
    have hb : ParentElement.basisValue (floatArith F) ⟨.ok 1, [b]⟩ [i] [X] = .ok f := by
      rw [← hf, ← e i]; rfl
    rw [ParentElement.valueBody, hb, hy]; rfl
  have hin : (⟨.ok 1, [b]⟩ : Element Flt).instantiate = .ok () := rfl
  rw [ParentElement.value, hin, Res.ok_bind]
  show Sequence.forNestedSequence [b.numSupportPoints] _ _ = _
  rw [hc, Sequence.forNestedSequence, staticForNested_eq (by simp) (by simp)]
  show runCalls [[0], [1]] _ _ = _
  rw [runCalls_cons]
  simp only [List.nil_append]
  rw [body 0 f₀ y₀ _ h0 hv0, Res.ok_bind, runCalls_cons, body 1 f₁ y₁ _ h1 hv1]
  rfl

/-- Shape functions of order one with points -1 and 1 are not negative. -/
theorem linear_products {d : ℕ} (hd : 0 < d) (hF : Wide F) {S : Fin d → Spacing Flt} (hS : ∀ k, EndPoints (S k)) {b : Fin d → Basis Flt}
    (hb : ∀ k i x, (b k).value i x = LagrangeBasis.value (floatArith F) (S k) 2 i x) {X : Fin d → Flt}
    (hX : ∀ k x, (X k).datum = .finite x → |x| ≤ 1) (idx : Fin d → Fin 2) :
    ∃ f, BasisProduct.value (floatArith F) (List.ofFn b) (tup (n := fun _ : Fin d => 2) idx) (List.ofFn X) = .ok f ∧ Nonneg f := by
  have hv : ∀ k, ∃ f, (b k).value ((idx k : ℕ) : Int) (X k) = .ok f ∧ Nonneg f := fun k => by
    have hi : ((idx k : ℕ) : Int) = 0 ∨ ((idx k : ℕ) : Int) = 1 := by omega
    obtain ⟨h0, h1⟩ := linear_values hF (hS k) (X k)
    rw [hb]
    rcases hi with e | e <;> rw [e]
    · exact ⟨_, h0, linear_nonneg hF (hS k) (hX k) (.inl rfl) h0⟩
    · exact ⟨_, h1, linear_nonneg hF (hS k) (hX k) (.inr rfl) h1⟩
  choose f hf hpos using hv
  have e : (List.ofFn fun k => (b k).value ((idx k : ℕ) : Int) (X k)) = (List.ofFn f).map .ok := by
    rw [List.map_ofFn]; congr 1; funext k; exact hf k
  obtain ⟨y, hy⟩ := foldRight_exists (F := F) (l := List.ofFn f) (by
    intro h0
    have := congrArg List.length h0
    simp at this; omega)
  refine ⟨y, ?_, foldRight_nonneg (fun a ha => ?_) hy⟩
  · rw [productValue_fold (m := fun _ => 2), e, hy]
  · obtain ⟨k, rfl⟩ := List.mem_ofFn.1 ha
    exact hpos k

/-! ### witnesses -/

/-- Interpolation of a constant. -/
def knownInterpolation (T : RealType) (fam : Family) (order : ℕ) (d : ℕ) (x : List ℚ) (c : ℚ) : Res (Option ℚ) :=
  ParentElement.value (evalArith T.format) ⟨.ok d, List.replicate d (knownBasis T fam order)⟩ (x.map some) fun _ => .ok (some c)

theorem knownInterpolation_sound {T : RealType} {fam : Family} {order d : ℕ} {x : List ℚ} {c q : ℚ}
    (h : knownInterpolation T fam order d x c = .ok (some q)) {b : Basis Flt}
    (hb : b = ⟨((order + 1 : ℕ) : Int),
      LagrangeBasis.value (floatArith T.format) (fam.spacingIn T.arith ((order + 1 : ℕ) : Int)) ((order + 1 : ℕ) : Int),
      LagrangeBasis.gradient (floatArith T.format) (fam.spacingIn T.arith ((order + 1 : ℕ) : Int)) ((order + 1 : ℕ) : Int)⟩) :
    ParentElement.value (floatArith T.format) ⟨.ok d, List.replicate d b⟩ (x.map fun q : ℚ => Flt.ofReal q) (fun _ => .ok (Flt.ofReal c))
      = .ok (Flt.ofReal q) := by
  have hrel : ResRel False Knows (knownInterpolation T fam order d x c)
      (ParentElement.value (floatArith T.format) ⟨.ok d, List.replicate d b⟩ (x.map fun q : ℚ => Flt.ofReal q) (fun _ => .ok (Flt.ofReal c))) := by
    refine parentValue_rel (eval_rel T.format).toOpsRel ⟨rfl, ?_⟩ ?_ fun _ => .ok (knows_some c)
    · subst hb
      clear h
      show List.Forall₂ _ (List.replicate d _) (List.replicate d _)
      generalize hn : d = n
      clear hn
      induction n with
      | zero => exact .nil
      | succ n ih => exact .cons (knownBasis_rel T fam order) ih
    · clear h
      induction x with
      | nil => exact .nil
      | cons q x ih => exact .cons (knows_some q) ih
  rcases hrel _ h with ⟨m, hm, hk⟩ | ⟨hf, -⟩
  · rw [hm, hk q rfl]
  · exact hf.elim

/-- The spacing of the numbers below 1. -/
def belowOne : RealType → ℚ
  | .float => 1 / 16777216
  | .double => 1 / 9007199254740992

/-- The interpolated constant `c` is known, and greater than `c`. -/
def constantExceeded (T : RealType) (fam : Family) (d : ℕ) (x : List ℚ) (c : ℚ) : Bool :=
  match knownInterpolation T fam 1 d x c with
  | .ok (some q) => decide (c < q) && decide (evalRound T.format c = some c) && decide (|c| ≤ 2 ^ 56) && decide (x.length = d) &&
      x.all fun q => decide (|q| ≤ 1) && decide (evalRound T.format q = some q)
  | _ => false

theorem exceeded_line : ∀ T ∈ types, ∀ fam ∈ [Family.equal, .gaussLobatto],
    constantExceeded T fam 1 [1 - 13 * belowOne T] 3 = true := by decide +kernel

theorem exceeded_square : ∀ T ∈ types, ∀ fam ∈ [Family.equal, .gaussLobatto],
    constantExceeded T fam 2 [3 / 8, -1 + 5 * belowOne T] 1 = true := by decide +kernel

theorem exceeded_cube : ∀ T ∈ types, ∀ fam ∈ [Family.equal, .gaussLobatto],
    constantExceeded T fam 3 [3 / 8, -1 + 5 * belowOne T, 1] 1 = true := by decide +kernel

theorem constantExceeded_spec {T : RealType} {fam : Family} {d : ℕ} {x : List ℚ} {c : ℚ} (h : constantExceeded T fam d x c = true) :
    ∃ q : ℚ, c < q ∧ knownInterpolation T fam 1 d x c = .ok (some q) ∧ Represents T.format (c : ℝ) ∧ |c| ≤ 2 ^ 56 ∧ x.length = d ∧
      ∀ y ∈ x, |y| ≤ 1 ∧ Represents T.format (y : ℝ) := by
  unfold constantExceeded at h
  split at h
  · next q e =>
    simp only [Bool.and_eq_true, decide_eq_true_eq, List.all_eq_true] at h
    obtain ⟨⟨⟨⟨h1, h2⟩, h3⟩, h4⟩, h5⟩ := h
    exact ⟨q, h1, e, round_represents _ (evalRound_sound _ h2), h3, h4, fun y hy =>
      ⟨(h5 y hy).1, round_represents _ (evalRound_sound _ (h5 y hy).2)⟩⟩
  · cases h

end

end Verif.Lemmas
