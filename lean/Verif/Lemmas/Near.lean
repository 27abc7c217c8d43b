import Verif.Lemmas.FloatElement

/-!
Errors of computations in a binary format in which results may underflow: a relative error, and an absolute one that
is a small multiple of the smallest positive number.
-/

namespace Verif.Lemmas

open Verif.Spec

/-- The largest error of rounding a number below the normal range. -/
noncomputable def tiny (F : FloatFormat) : ℝ := 2 ^ (F.minExp - F.fracBits) / 2

/-- `f` is a finite number that approximates `x` up to `k` roundings of quantities of total magnitude `M`, and up to
`m` underflows that were multiplied by at most `C`. -/
structure Near (F : FloatFormat) (k m : ℕ) (M C x : ℝ) (f : Flt) : Prop where
  le : |x| ≤ M
  cap : M ≤ C
  one : 1 ≤ C
  ex : ∃ y, f.datum = .finite y ∧ |y - x| ≤ (1 + unitRoundoff F) ^ k * (M + m * tiny F * C) - M

/-- The numbers of roundings and underflows and the magnitudes are small enough to exclude overflow. -/
structure Room (F : FloatFormat) (k m : ℕ) (C : ℝ) : Prop where
  exps : F.minExp - F.fracBits ≤ F.maxExp
  rel : (1 + unitRoundoff F) ^ k ≤ 2
  count : m * tiny F ≤ 1
  top : 4 * C ≤ 2 ^ F.maxExp

variable {F : FloatFormat}

theorem roundoff_nonneg (F : FloatFormat) : 0 ≤ unitRoundoff F := by unfold unitRoundoff; positivity
theorem tiny_pos (F : FloatFormat) : 0 < tiny F := by unfold tiny; positivity
theorem one_le_pow_roundoff (F : FloatFormat) (k : ℕ) : 1 ≤ (1 + unitRoundoff F) ^ k :=
  one_le_pow₀ (by linarith [roundoff_nonneg F])

theorem Room.mono {k m k' m' : ℕ} {C C' : ℝ} (h : Room F k m C) (hk : k' ≤ k) (hm : m' ≤ m) (hC : C' ≤ C) :
    Room F k' m' C' := by
  refine ⟨h.exps, (pow_le_pow_right₀ (by linarith [roundoff_nonneg F]) hk).trans h.rel, le_trans ?_ h.count, by
    linarith [h.top]⟩
  exact mul_le_mul_of_nonneg_right (by exact_mod_cast hm) (tiny_pos F).le

theorem Near.mag_nonneg {k m : ℕ} {M C x : ℝ} {f : Flt} (h : Near F k m M C x f) : 0 ≤ M := (abs_nonneg _).trans h.le

theorem near_ofReal {x M C : ℝ} (hx : |x| ≤ M) (hM : M ≤ C) (hC : 1 ≤ C) : Near F 0 0 M C x (Flt.ofReal x) :=
  ⟨hx, hM, hC, x, rfl, by simp⟩

theorem slack_mono {k m k' m' : ℕ} {M C C' : ℝ} (hM : 0 ≤ M) (hC : 0 ≤ C) (hk : k ≤ k') (hm : m ≤ m') (hCC : C ≤ C') :
    (1 + unitRoundoff F) ^ k * (M + m * tiny F * C) ≤ (1 + unitRoundoff F) ^ k' * (M + m' * tiny F * C') := by
  have hu := roundoff_nonneg F
  have ht := (tiny_pos F).le
  have h1 : (1 + unitRoundoff F) ^ k ≤ (1 + unitRoundoff F) ^ k' := pow_le_pow_right₀ (by linarith) hk
  have h2 : (m : ℝ) * tiny F ≤ m' * tiny F := mul_le_mul_of_nonneg_right (by exact_mod_cast hm) ht
  have h3 : (m : ℝ) * tiny F * C ≤ m' * tiny F * C' := mul_le_mul h2 hCC hC (by positivity)
  exact mul_le_mul h1 (by linarith) (by positivity) (by positivity)

theorem Near.mono {k m k' m' : ℕ} {M C C' x : ℝ} {f : Flt} (h : Near F k m M C x f) (hk : k ≤ k') (hm : m ≤ m')
    (hC : C ≤ C') : Near F k' m' M C' x f := by
  obtain ⟨y, hy, hb⟩ := h.ex
  refine ⟨h.le, h.cap.trans hC, h.one.trans hC, y, hy, hb.trans ?_⟩
  have := slack_mono (F := F) h.mag_nonneg (by linarith [h.one]) hk hm hC
  linarith

theorem Near.mono_mag {k m : ℕ} {M M' C x : ℝ} {f : Flt} (h : Near F k m M C x f) (hM : M ≤ M') (hC : M' ≤ C) :
    Near F k m M' C x f := by
  obtain ⟨y, hy, hb⟩ := h.ex
  refine ⟨h.le.trans hM, hC, h.one, y, hy, hb.trans ?_⟩
  have := one_le_pow_roundoff F k
  nlinarith

/-- Rounding, from the bound before rounding. -/
theorem near_round {k m : ℕ} {M C x z : ℝ} (hx : |x| ≤ M) (hM : M ≤ C) (hC : 1 ≤ C)
    (hz : |z - x| ≤ (1 + unitRoundoff F) ^ k * (M + m * tiny F * C) - M) (hr : Room F (k + 1) (m + 1) C) (r : Bool) :
    Near F (k + 1) (m + 1) M C x (Flt.round F r z) := by
  have hu := roundoff_nonneg F
  have ht := tiny_pos F
  have hM0 : 0 ≤ M := (abs_nonneg _).trans hx
  have h0 : 0 ≤ (m : ℝ) * tiny F := by positivity
  have hzabs : |z| ≤ (1 + unitRoundoff F) ^ k * (M + m * tiny F * C) := by
    have : |z| ≤ |z - x| + |x| := by simpa using abs_add_le (z - x) x
    linarith
  have h1 : (m : ℝ) * tiny F ≤ 1 := (hr.mono (Nat.le_succ k) (Nat.le_succ m) le_rfl).count
  have h2 := (hr.mono (Nat.le_succ k) (Nat.le_succ m) le_rfl).rel
  have h3 : (m : ℝ) * tiny F * C ≤ C := by nlinarith
  have hle : |z| ≤ 2 ^ F.maxExp := by
    refine hzabs.trans (le_trans ?_ hr.top)
    calc _ ≤ 2 * (M + m * tiny F * C) := mul_le_mul_of_nonneg_right h2 (by positivity)
      _ ≤ _ := by linarith
  have hno := not_overflows F hle hr.exps
  have hd : (Flt.round F r z).datum = .finite (F.nearest z) := by
    unfold Flt.round; rw [if_neg hno]
  refine ⟨hx, hM, hC, _, hd, ?_⟩
  have h4 := nearest_err F z
  change _ ≤ _ + tiny F at h4
  have h5 : |F.nearest z - x| ≤ |F.nearest z - z| + |z - x| := by simpa using abs_add_le (F.nearest z - z) (z - x)
  have h6 := mul_le_mul_of_nonneg_left hzabs hu
  have h7 : 1 ≤ (1 + unitRoundoff F) ^ (k + 1) := one_le_pow_roundoff F _
  have h8 : tiny F ≤ (1 + unitRoundoff F) ^ (k + 1) * (tiny F * C) := by nlinarith [mul_pos ht (show 0 < C by linarith)]
  push_cast
  rw [pow_succ] at h8 ⊢
  nlinarith

theorem Near.mul {k m k' m' : ℕ} {M C x M' C' x' : ℝ} {f f' : Flt} (h : Near F k m M C x f)
    (h' : Near F k' m' M' C' x' f') (hr : Room F (k + k' + 1) (2 * m + m' + 1) (C * C')) :
    Near F (k + k' + 1) (2 * m + m' + 1) (M * M') (C * C') (x * x') (Flt.mul F f f') := by
  obtain ⟨y, hy, hb⟩ := h.ex
  obtain ⟨y', hy', hb'⟩ := h'.ex
  have hM := h.mag_nonneg
  have hM' := h'.mag_nonneg
  have hC := h.one
  have hC' := h'.one
  have ht := tiny_pos F
  have e : Flt.mul F f f' = Flt.round F (f.raised || f'.raised) (y * y') := by
    obtain ⟨d, q⟩ := f
    obtain ⟨d', q'⟩ := f'
    simp only at hy hy'
    subst hy; subst hy'
    rfl
  rw [e]
  have hm1 : (m' : ℝ) * tiny F ≤ 1 := (hr.mono le_rfl (show m' ≤ 2 * m + m' + 1 by omega) le_rfl).count
  have hprod : (1 + unitRoundoff F) ^ k * (M + m * tiny F * C) * ((1 + unitRoundoff F) ^ k' * (M' + m' * tiny F * C'))
      ≤ (1 + unitRoundoff F) ^ (k + k') * (M * M' + ((2 * m + m' : ℕ) : ℝ) * tiny F * (C * C')) := by
    rw [pow_add, mul_mul_mul_comm]
    refine mul_le_mul_of_nonneg_left ?_ (by have := roundoff_nonneg F; positivity)
    have hmn : (0 : ℝ) ≤ m := Nat.cast_nonneg m
    have hmn' : (0 : ℝ) ≤ m' := Nat.cast_nonneg m'
    have h1 : M * (m' * tiny F * C') ≤ C * (m' * tiny F * C') := mul_le_mul_of_nonneg_right h.cap (by positivity)
    have h2 : m * tiny F * C * M' ≤ m * tiny F * C * C' := mul_le_mul_of_nonneg_left h'.cap (by positivity)
    have h3 : m * tiny F * (C * C') * (m' * tiny F) ≤ m * tiny F * (C * C') * 1 :=
      mul_le_mul_of_nonneg_left hm1 (by positivity)
    push_cast
    nlinarith
  refine near_round ?_ ?_ ?_ ?_ hr _
  · rw [abs_mul]; exact mul_le_mul h.le h'.le (abs_nonneg _) hM
  · exact mul_le_mul h.cap h'.cap hM' (by linarith)
  · nlinarith
  · refine le_trans ?_ (sub_le_sub_right hprod _)
    obtain ⟨P, hP⟩ : ∃ P, P = (1 + unitRoundoff F) ^ k * (M + m * tiny F * C) := ⟨_, rfl⟩
    obtain ⟨P', hP'⟩ : ∃ P', P' = (1 + unitRoundoff F) ^ k' * (M' + m' * tiny F * C') := ⟨_, rfl⟩
    rw [← hP] at hb ⊢
    rw [← hP'] at hb' ⊢
    have e2 : y * y' - x * x' = (y - x) * (y' - x') + (y - x) * x' + x * (y' - x') := by ring
    rw [e2]
    refine (abs_add_three _ _ _).trans ?_
    simp only [abs_mul]
    have a1 := mul_le_mul hb hb' (abs_nonneg _) ((abs_nonneg _).trans hb)
    have a2 := mul_le_mul hb h'.le (abs_nonneg _) ((abs_nonneg _).trans hb)
    have a3 := mul_le_mul h.le hb' (abs_nonneg _) hM
    nlinarith

theorem Near.neg {k m : ℕ} {M C x : ℝ} {f : Flt} (h : Near F k m M C x f) : Near F k m M C (-x) f.neg := by
  obtain ⟨y, hy, hb⟩ := h.ex
  refine ⟨by rw [abs_neg]; exact h.le, h.cap, h.one, -y, ?_, ?_⟩
  · obtain ⟨d, q⟩ := f
    simp only at hy
    subst hy; rfl
  · rw [show -y - -x = -(y - x) by ring, abs_neg]; exact hb

theorem Near.add {k m : ℕ} {M C x M' C' x' : ℝ} {f f' : Flt} (h : Near F k m M C x f)
    (h' : Near F k m M' C' x' f') (hr : Room F (k + 1) (m + 1) (C + C')) :
    Near F (k + 1) (m + 1) (M + M') (C + C') (x + x') (Flt.add F f f') := by
  obtain ⟨y, hy, hb⟩ := h.ex
  obtain ⟨y', hy', hb'⟩ := h'.ex
  have e : Flt.add F f f' = Flt.round F (f.raised || f'.raised) (y + y') := by
    obtain ⟨d, q⟩ := f
    obtain ⟨d', q'⟩ := f'
    simp only at hy hy'
    subst hy; subst hy'
    rfl
  rw [e]
  refine near_round ((abs_add_le _ _).trans (add_le_add h.le h'.le)) (add_le_add h.cap h'.cap)
    (by linarith [h.one, h'.one]) ?_ hr _
  have e2 : y + y' - (x + x') = (y - x) + (y' - x') := by ring
  rw [e2]
  refine (abs_add_le _ _).trans ((add_le_add hb hb').trans (le_of_eq ?_))
  ring

theorem Near.sub {k m : ℕ} {M C x M' C' x' : ℝ} {f f' : Flt} (h : Near F k m M C x f)
    (h' : Near F k m M' C' x' f') (hr : Room F (k + 1) (m + 1) (C + C')) :
    Near F (k + 1) (m + 1) (M + M') (C + C') (x - x') (Flt.sub F f f') := by
  rw [sub_eq_add_neg]
  exact h.add h'.neg hr

end Verif.Lemmas
