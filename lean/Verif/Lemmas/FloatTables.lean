import Verif.Lemmas.FloatElement
import Verif.Spec.Families

/-! The tables of points and weights raise no exceptions in a binary format. -/

namespace Verif.Lemmas

open Verif.Spec

variable (F : FloatFormat)

/-- Rounding twice is rounding once. -/
theorem nearest_nearest (x : ℝ) : F.nearest (F.nearest x) = F.nearest x := by
  rcases eq_or_ne (F.nearest x) 0 with h0 | h0
  · rw [h0, nearest_zero]
  rcases eq_or_ne x 0 with rfl | hx0
  · rw [nearest_zero, nearest_zero]
  apply nearest_of_onGrid
  rcases le_or_gt (F.unitExp (F.nearest x)) (F.unitExp x) with h | h
  · exact (onGrid_unit F x).mono h
  · -- the result is a power of two
    have hlog : Int.log 2 |x| + 1 ≤ Int.log 2 |F.nearest x| ∧
        F.minExp < Int.log 2 |F.nearest x| := by
      unfold FloatFormat.unitExp at h
      omega
    obtain ⟨M, hM⟩ : ∃ M, M = max (Int.log 2 |x| + 1) F.minExp := ⟨_, rfl⟩
    have hle : |x| ≤ 2 ^ M := by
      have h1 := Int.lt_zpow_succ_log_self (b := 2) (by norm_num) |x|
      have h2 : (2 : ℝ) ^ (Int.log 2 |x| + 1) ≤ 2 ^ M := zpow_le_zpow_right₀ (by norm_num) (by omega)
      push_cast at h1
      exact h1.le.trans h2
    have h1 := nearest_le_zpow F (M := M) (by omega) hle
    have h2 : (2 : ℝ) ^ M ≤ |F.nearest x| := by
      have h3 := Int.zpow_log_le_self (b := 2) (r := |F.nearest x|) (by norm_num) (abs_pos.2 h0)
      have h4 : (2 : ℝ) ^ M ≤ 2 ^ Int.log 2 |F.nearest x| := zpow_le_zpow_right₀ (by norm_num) (by omega)
      push_cast at h3
      exact h4.trans h3
    have h5 := le_antisymm h1 h2
    have hu : F.unitExp (F.nearest x) ≤ M := by
      unfold FloatFormat.unitExp
      rw [h5]
      have : Int.log 2 ((2 : ℝ) ^ M) = M := by
        have := Int.log_zpow (R := ℝ) (b := 2) (by norm_num) M
        exact_mod_cast this
      omega
    rcases le_total 0 (F.nearest x) with hs | hs
    · rw [abs_of_nonneg hs] at h5
      nth_rw 2 [h5]
      exact OnGrid.zpow hu
    · rw [abs_of_nonpos hs] at h5
      rw [show F.nearest x = -(2 ^ M) by linarith] at hu ⊢
      exact (OnGrid.zpow hu).neg

theorem represents_nearest {x : ℝ} (h : ¬ F.Overflows x) : Represents F (F.nearest x) :=
  ⟨nearest_nearest F x, not_le.1 h⟩

theorem represents_neg {F : FloatFormat} {x : ℝ} (h : Represents F x) : Represents F (-x) :=
  ⟨by rw [nearest_neg, h.1], by rw [abs_neg]; exact h.2⟩

/-- Results without exceptions are numbers of the format. -/
theorem round_represents {r : Bool} {x y : ℝ} (h : Flt.round F r x = Flt.ofReal y) : Represents F y := by
  unfold Flt.round at h
  split_ifs at h with ho
  · simp [Flt.ofReal] at h
  · have h1 := Datum.finite.inj (congrArg Flt.datum h)
    exact h1 ▸ represents_nearest F ho

/-- A number of the format in the given range, obtained without exceptions; nothing is known of `none`. -/
def Ranged (s : Option Range) (f : Flt) : Prop :=
  ∀ r, s = some r → ∃ x, f = Flt.ofReal x ∧ OnGrid r.grid x ∧ |x| ≤ 2 ^ r.top ∧ Represents F x

/-- The range if the format covers it. -/
def checkRange (s : Range) : Option Range :=
  if F.minExp - F.fracBits ≤ s.grid ∧ s.top ≤ F.maxExp ∧ F.minExp - F.fracBits ≤ s.top then some s else none

/-- Arithmetic with ranges.  Constants are taken to be zero or of magnitude between `2^-6` and `2^4`. -/
def rangeArith : Arith (Option Range) where
  lit q := if (q = 0 ∨ 1 / 64 ≤ |q|) ∧ |q| ≤ 16 ∧ F.minExp ≤ -6 ∧ 4 ≤ F.maxExp then
    some ⟨-6 - F.fracBits, 4⟩ else none
  add a b := do checkRange F ⟨min (← a).grid (← b).grid, max (← a).top (← b).top + 1⟩
  sub a b := do checkRange F ⟨min (← a).grid (← b).grid, max (← a).top (← b).top + 1⟩
  mul a b := do checkRange F ⟨(← a).grid + (← b).grid, (← a).top + (← b).top⟩
  neg a := a
  div _ _ := .nonfinite

variable {F}

theorem checkRange_eq {s r : Range} (h : checkRange F s = some r) :
    s = r ∧ F.minExp - F.fracBits ≤ s.grid ∧ s.top ≤ F.maxExp ∧ F.minExp - F.fracBits ≤ s.top := by
  unfold checkRange at h
  split_ifs at h with h'
  exact ⟨Option.some.inj h, h'⟩

theorem ranged_ofInRange {r : Range} {q : Bool} {x : ℝ} (h : InRange r (Flt.round F q x)) :
    ∃ y, Flt.round F q x = Flt.ofReal y ∧ OnGrid r.grid y ∧ |y| ≤ 2 ^ r.top ∧ Represents F y := by
  obtain ⟨y, hy, h1, h2⟩ := h
  exact ⟨y, hy, h1, h2, round_represents F hy⟩

theorem ranged_add {s s' : Option Range} {a b : Flt} (ha : Ranged F s a) (hb : Ranged F s' b) :
    Ranged F ((rangeArith F).add s s') (Flt.add F a b) := by
  intro r hr
  cases s with
  | none => simp [rangeArith] at hr
  | some s => cases s' with
    | none => simp [rangeArith] at hr
    | some s' =>
      simp only [rangeArith, Option.bind_eq_bind, Option.bind_some] at hr
      obtain ⟨rfl, h1, h2, h3⟩ := checkRange_eq hr
      obtain ⟨x, rfl, hx1, hx2, -⟩ := ha s rfl
      obtain ⟨y, rfl, hy1, hy2, -⟩ := hb s' rfl
      exact ranged_ofInRange (inRange_add ⟨x, rfl, hx1, hx2⟩ ⟨y, rfl, hy1, hy2⟩ h1 h2 h3)

theorem ranged_neg {s : Option Range} {a : Flt} (ha : Ranged F s a) : Ranged F s a.neg := by
  intro r hr
  obtain ⟨x, rfl, hx1, hx2, h⟩ := ha r hr
  exact ⟨-x, rfl, hx1.neg, by rwa [abs_neg], represents_neg h⟩

theorem ranged_mul {s s' : Option Range} {a b : Flt} (ha : Ranged F s a) (hb : Ranged F s' b) :
    Ranged F ((rangeArith F).mul s s') (Flt.mul F a b) := by
  intro r hr
  cases s with
  | none => simp [rangeArith] at hr
  | some s => cases s' with
    | none => simp [rangeArith] at hr
    | some s' =>
      simp only [rangeArith, Option.bind_eq_bind, Option.bind_some] at hr
      obtain ⟨rfl, h1, h2, h3⟩ := checkRange_eq hr
      obtain ⟨x, rfl, hx1, hx2, -⟩ := ha s rfl
      obtain ⟨y, rfl, hy1, hy2, -⟩ := hb s' rfl
      exact ranged_ofInRange (inRange_mul ⟨x, rfl, hx1, hx2⟩ ⟨y, rfl, hy1, hy2⟩ h1 h2 h3)

/-- The ranges hold for the code run in the format. -/
theorem range_rel : ArithRel False (rangeArith F) (floatArith F) (Ranged F) where
  lit q := by
    intro r hr
    simp only [rangeArith] at hr
    split_ifs at hr with h
    obtain rfl := Option.some.inj hr
    obtain ⟨h1, h2, h3, h4⟩ := h
    refine ranged_ofInRange (round_inRange_of_le (F := F) (g := -6) (M := 4) h3 h4 (by omega) ?_ ?_)
    · rcases h1 with h1 | h1
      · left; exact_mod_cast h1
      · right
        have : ((1 / 64 : ℚ) : ℝ) ≤ |(q : ℝ)| := by exact_mod_cast h1
        have e : (2 : ℝ) ^ (-6 : ℤ) = ((1 / 64 : ℚ) : ℝ) := by norm_num [zpow_neg]
        rw [e]; exact this
    · have : |(q : ℝ)| ≤ ((16 : ℚ) : ℝ) := by exact_mod_cast h2
      have e : (2 : ℝ) ^ (4 : ℤ) = ((16 : ℚ) : ℝ) := by norm_num
      rw [e]; exact this
  add h h' := ranged_add h h'
  sub h h' := ranged_add h (ranged_neg h')
  mul h h' := ranged_mul h h'
  neg h := ranged_neg h
  div _ _ := .notOk (by simp [rangeArith])

/-- The table has an entry with a known range. -/
def known (x : Res (Option Range)) : Bool := match x with
  | .ok (some _) => true
  | _ => false

/-- An entry of a table: what the rounded code computes is what the format computes. -/
theorem known_entry {x : Res (Option Range)} {y : Res ℝ} {z : Res Flt} (hx : known x = true)
    (h1 : ResRel False (Ranged F) x z) {r : ℝ} (hr : y = .ok r) (h2 : ResRel True Sim y z) :
    z = .ok (Flt.ofReal r) ∧ Represents F r := by
  obtain ⟨s, rfl⟩ : ∃ s, x = .ok (some s) := by
    cases x with
    | ok s => cases s with
      | none => simp [known] at hx
      | some s => exact ⟨s, rfl⟩
    | _ => simp [known] at hx
  obtain ⟨f, rfl, hf⟩ := h1.total rfl
  obtain ⟨v, rfl, -, -, hv⟩ := hf s rfl
  rcases h2 r hr with ⟨g, hg, hs⟩ | ⟨-, hn⟩
  swap
  · exact absurd rfl (hn _)
  obtain rfl := Res.ok.inj hg
  have e : v = r := Datum.finite.inj (hs rfl)
  subst e
  exact ⟨rfl, hv⟩

/-- All entries of the tables have known ranges. -/
theorem legendre_known : ∀ F ∈ [binary32, binary64], ∀ N ∈ [2, 3, 4], ∀ i : Fin N,
    known (GaussLegendre.coordCT (rangeArith F) N (i : ℕ)) = true ∧
    known (GaussLegendre.coordRT (rangeArith F) N (i : ℕ)) = true ∧
    known (QuadratureGaussLegendre.weightCT (rangeArith F) N (i : ℕ)) = true ∧
    known (QuadratureGaussLegendre.weightRT (rangeArith F) N (i : ℕ)) = true := by decide +kernel

theorem lobatto_known : ∀ F ∈ [binary32, binary64], ∀ N ∈ [2, 3, 4, 5, 6, 7, 8, 9], ∀ i : Fin N,
    known (GaussLobatto.coordCT (rangeArith F) N (i : ℕ)) = true ∧
    known (QuadratureGaussLobatto.weightCT (rangeArith F) N (i : ℕ)) = true := by decide +kernel

theorem lobatto_known_rt : ∀ F ∈ [binary32, binary64], ∀ N ∈ [2, 3, 4, 5], ∀ i : Fin N,
    known (GaussLobatto.coordRT (rangeArith F) N (i : ℕ)) = true ∧
    known (QuadratureGaussLobatto.weightRT (rangeArith F) N (i : ℕ)) = true := by decide +kernel

/-! ### equal spacing -/

theorem round_ne_zero {x y : ℝ} (hx : x ≠ 0) (h : Flt.round F false x = Flt.ofReal y) : y ≠ 0 := by
  have hr : (Flt.round F false x).raised = false := by rw [h]; rfl
  have h1 := (sim_round F hr).2
  rw [h] at h1
  rw [Datum.finite.inj h1]
  exact fl_ne_zero (cleanRound_rounds F) hx

theorem int_inRange (hl : F.minExp ≤ 0) (hM : 31 ≤ F.maxExp) {k : Int} (h0 : 0 ≤ k) (hk : k ≤ 2147483648) :
    InRange ⟨0, 31⟩ ((floatArith F).lit (k : ℚ)) := by
  refine round_inRange (s := ⟨0, 31⟩) (by simp only; omega) hM (by simp only; omega)
    ⟨k, by push_cast; simp⟩ ?_
  have h1 : (0 : ℝ) ≤ k := by exact_mod_cast h0
  have h2 : (k : ℝ) ≤ 2147483648 := by exact_mod_cast hk
  simp only [Rat.cast_intCast]
  rw [abs_of_nonneg h1]
  calc (k : ℝ) ≤ 2147483648 := h2
    _ = (2 : ℝ) ^ (31 : ℤ) := by norm_num

theorem equal_entry (hl : F.minExp ≤ -64) (hM : 64 ≤ F.maxExp) {n i : Int} (hn : 2 ≤ n) (hn' : n ≤ 2147483647)
    (hi : 0 ≤ i) (hi' : i < n) :
    (∃ f, (equalSpacing (floatArith F) n).coordCT i = .ok f ∧ ∃ y, f = Flt.ofReal y ∧ Represents F y) ∧
    (∃ f, (equalSpacing (floatArith F) n).coordRT i = .ok f ∧ ∃ y, f = Flt.ofReal y ∧ Represents F y) := by
  have hsub : isub n 1 = .ok (n - 1) :=
    tnorm_ok ⟨by show (-2147483648 : Int) ≤ _; omega, by show _ ≤ (2147483647 : Int); omega⟩
  obtain ⟨a, ha, ha1, ha2⟩ := int_inRange (F := F) (by omega) (by omega) (k := 2) (by norm_num) (by norm_num)
  obtain ⟨b, hb, hb1, hb2⟩ := int_inRange (F := F) (by omega) (by omega) (k := n - 1) (by omega) (by omega)
  obtain ⟨v, hv, hv1, hv2⟩ := int_inRange (F := F) (by omega) (by omega) (k := i) (by omega) (by omega)
  obtain ⟨w, hw, hw1, hw2⟩ := int_inRange (F := F) (by omega) (by omega) (k := 1) (by norm_num) (by norm_num)
  have ha0 : a ≠ 0 := round_ne_zero (by norm_num) ha
  have hb0 : b ≠ 0 := by
    refine round_ne_zero (F := F) ?_ hb
    have : (0 : ℝ) < ((n - 1 : Int) : ℝ) := by exact_mod_cast (by omega : 0 < n - 1)
    push_cast at this ⊢
    exact this.ne'
  have hq : InRange ⟨-31 - F.fracBits, 31⟩ (Flt.round F false (a / b)) := by
    refine round_inRange_of_le (by omega) (by omega) (by omega) (.inr ?_) ?_
    · rw [abs_div, le_div_iff₀ (abs_pos.2 hb0)]
      have h1 := ha1.le_abs ha0
      simp only [zpow_zero] at h1
      have h2 : |b| ≤ (2 : ℝ) ^ (31 : ℤ) := hb2
      calc (2 : ℝ) ^ (-31 : ℤ) * |b| ≤ (2 : ℝ) ^ (-31 : ℤ) * (2 : ℝ) ^ (31 : ℤ) := by gcongr
        _ = 1 := by norm_num [zpow_neg]
        _ ≤ |a| := h1
    · rw [abs_div, div_le_iff₀ (abs_pos.2 hb0)]
      have h1 := hb1.le_abs hb0
      simp only [zpow_zero] at h1
      have h2 : |a| ≤ (2 : ℝ) ^ (31 : ℤ) := ha2
      have h3 : (0 : ℝ) < (2 : ℝ) ^ (31 : ℤ) := by positivity
      nlinarith
  have hint : EqualSpacing.interval (floatArith F) n = .ok (Flt.round F false (a / b)) := by
    rw [EqualSpacing.interval, hsub, Res.ok_bind]
    rw [show ((2 : Int) : ℚ) = 2 by norm_num] at ha
    rw [ha, hb]
    simp [floatArith, Flt.div, Flt.ofReal, hb0]
  have hprod := inRange_mul (F := F) (⟨v, hv, hv1, hv2⟩ : InRange ⟨0, 31⟩ ((floatArith F).lit (i : ℚ))) hq
    (by simp only; omega) (by simp only; omega) (by simp only; omega)
  have hone : InRange ⟨0, 31⟩ ((floatArith F).lit ((1 : Int) : ℚ)) := ⟨w, hw, hw1, hw2⟩
  have hsum : ∀ {m : Flt}, InRange ⟨0, 31⟩ m → ∃ y, Flt.add F m (Flt.mul F ((floatArith F).lit (i : ℚ))
      (Flt.round F false (a / b))) = Flt.ofReal y ∧ Represents F y := by
    intro m hm
    obtain ⟨y, hy, -, -⟩ := inRange_add (F := F) hm hprod (by simp only; omega) (by simp only; omega)
      (by simp only; omega)
    refine ⟨y, hy, ?_⟩
    obtain ⟨x, rfl, -, -⟩ := hm
    obtain ⟨z, hz, -, -⟩ := hprod
    rw [hz] at hy
    exact round_represents F hy
  constructor
  · refine ⟨_, ?_, hsum (inRange_neg hone)⟩
    simp only [equalSpacing, EqualSpacing.coordCT, hint, Res.ok_bind]
    rw [show ((1 : Int) : ℚ) = 1 by norm_num]
    rfl
  · refine ⟨_, ?_, hsum (m := (floatArith F).lit (-1)) ?_⟩
    · simp only [equalSpacing, EqualSpacing.coordRT, hint, Res.ok_bind]
      rfl
    · refine round_inRange (s := ⟨0, 31⟩) (by simp only; omega) (by simp only; omega) (by simp only; omega)
        ⟨-1, by push_cast; simp⟩ ?_
      norm_num

end Verif.Lemmas
