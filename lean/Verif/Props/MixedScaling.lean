import Verif.Lemmas.MixedScaling
import Verif.Props.Scaling

/-!
# Property C89: scalings in `float` and `double`

`Scaling` and `UniformScaling` have `double` literals, so that in the `float` instantiation their formulas are
evaluated in `double`.  `h k` are the lengths.
-/

namespace Verif.Props

open Verif.Spec Verif.Lemmas

variable (cfg : Config) (T : RealType) {s : Scaling Flt} {h : Fin 3 → ℝ}

/-- **C89, Jacobian.** The entries are the numbers nearest to `h k / 2`.  They are exactly `h k / 2` unless
`h k` is smaller than twice the smallest normal number. -/
theorem C89_jacobian (hs : s.getData = List.ofFn fun k => Flt.ofReal (h k)) (hr : ∀ k, Represents T.format (h k))
    (J : List Flt) (hJ : J.length = 3) :
    ∃ j : Fin 3 → Flt, Mixed.Scaling.jacobian cfg T.arith s J = .ok (List.ofFn j) ∧
      (∀ k, j k = Flt.round T.format false (h k / 2)) ∧
      ∀ k, h k = 0 ∨ 2 ^ (T.format.minExp + 1) ≤ |h k| → j k = Flt.ofReal (h k / 2) := by
  refine ⟨_, mixed_scaling_jacobian cfg T.arith s _ hs hJ, fun k => narrow_half T (hr k), fun k hk => ?_⟩
  exact (narrow_half T (hr k)).trans (half_exact (hr k) hk)

/-- **C89, inverse Jacobian.** If no length is 0, the entries of `invJ` are the numbers nearest to `2 / h k`. -/
theorem C89_inverse (hs : s.getData = List.ofFn fun k => Flt.ofReal (h k)) (hr : ∀ k, Represents T.format (h k))
    (J : List Flt) (hJ : J.length = 3) :
    ∃ (det : Flt) (after : Res (List Flt)), Mixed.Scaling.inverseJacobian cfg T.arith s J = .ok (det, after) ∧
      ((∀ k, h k ≠ 0) → ∃ j : Fin 3 → Flt, after = .ok (List.ofFn j) ∧
        (∀ k, j k = Flt.round T.format false (2 / h k)) ∧
        ∀ k, 2 ^ (1 - T.format.maxExp) ≤ |h k| → |h k| ≤ 2 ^ (1 - T.format.minExp) →
          ∃ y, j k = Flt.ofReal y ∧ |y - 2 / h k| ≤ unitRoundoff T.format * |2 / h k|) ∧
      ((∃ k, h k = 0) → after = .nonfinite) := by
  obtain ⟨r, h1, h2, h3⟩ := mixed_scaling_inverse cfg T.arith s _ hs hJ
  have hq : ∀ k, mixedQuotient T.arith (Flt.ofReal (h k))
      = if h k = 0 then .nonfinite else .ok (Flt.round T.format false (2 / h k)) := by
    intro k
    rw [quotient_eq T (by rintro y ⟨rfl⟩; exact hr k), div_two (format_mem T)]
  refine ⟨_, r, h1, fun h0 => ?_, fun ⟨k, hk⟩ => ?_⟩
  · refine ⟨fun k => Flt.round T.format false (2 / h k), h2 _ fun k => by rw [hq, if_neg (h0 k)], fun _ => rfl,
      fun k ha hb => ?_⟩
    have hk := abs_pos.2 (h0 k)
    have k1 : (2 : ℝ) ^ T.format.minExp ≤ |2 / h k| := by
      rw [abs_div, abs_two, le_div_iff₀ hk]
      calc (2 : ℝ) ^ T.format.minExp * |h k| ≤ 2 ^ T.format.minExp * 2 ^ (1 - T.format.minExp) :=
            mul_le_mul_of_nonneg_left hb (by positivity)
        _ = 2 := by rw [← zpow_add₀ (by norm_num)]; norm_num
    have k2 : |2 / h k| ≤ (2 : ℝ) ^ T.format.maxExp := by
      rw [abs_div, abs_two, div_le_iff₀ hk]
      calc (2 : ℝ) = 2 ^ T.format.maxExp * 2 ^ (1 - T.format.maxExp) := by
            rw [← zpow_add₀ (by norm_num)]; norm_num
        _ ≤ _ := mul_le_mul_of_nonneg_left ha (by positivity)
    obtain ⟨y, e, -, -⟩ := round_normal (F := T.format) (r := false) le_rfl le_rfl k1 k2
    refine ⟨y, e, ?_⟩
    have hc := sim_round T.format (r := false) (x := 2 / h k) (by rw [e])
    rw [e] at hc
    rw [Datum.finite.inj hc.2]
    exact (cleanRound_rounds T.format).err _
  · refine h3 ⟨k, by rw [hq, if_pos hk]⟩ fun k => ?_
    rw [hq]
    split_ifs
    · exact .inl rfl
    · exact .inr ⟨_, rfl⟩

/-- **C89, determinant.** The determinant either raises an exception or is as accurate as three roundings in
`double` allow, and one rounding in `float` (to a relative error of `2^-24 + 2^-52`).  No exception is raised in
`float` if the exact determinant is between `2^-126` and `2^127` in magnitude, nor in `double` if all lengths are
between `2^-339` and `2^339`. -/
theorem C89_determinant (hs : s.getData = List.ofFn fun k => Flt.ofReal (h k)) (hr : ∀ k, Represents T.format (h k))
    (J : List Flt) (hJ : J.length = 3) :
    ∃ (det : Flt) (after : Res (List Flt)), Mixed.Scaling.inverseJacobian cfg T.arith s J = .ok (det, after) ∧
      Accurate det (∏ k, h k / 2) ((match T with
        | .float => 1 / 2 ^ 24 + 1 / 2 ^ 52
        | .double => errBound (1 / 2 ^ 53) 3) * |∏ k, h k / 2|) ∧
      ((match T with
        | .float => 2 ^ (-126 : ℤ) ≤ |∏ k, h k / 2| ∧ |∏ k, h k / 2| ≤ 2 ^ (127 : ℤ)
        | .double => ∀ k, 1 / 2 ^ 339 ≤ |h k| ∧ |h k| ≤ 2 ^ 339) → det.raised = false) := by
  obtain ⟨r, h1, -, -⟩ := mixed_scaling_inverse cfg T.arith s _ hs hJ
  have e := narrow_det T (h 0) (h 1) (h 2)
  refine ⟨_, r, h1, ?_, ?_⟩
  all_goals simp only [e, Fin.prod_univ_three]
  · cases T with
    | double =>
      have := eighth_approx (h 0) (h 1) (h 2)
      rwa [show unitRoundoff binary64 = 1 / 2 ^ 53 by simp [unitRoundoff, binary64]] at this
    | float =>
      obtain ⟨k1, k2⟩ := eighth_float (hr 0) (hr 1) (hr 2)
      simp only [k1]
      exact (round_twice rfl k2).1
  · cases T with
    | double => exact fun hm => eighth_normal (m := 339) le_rfl (hm 0) (hm 1) (hm 2)
    | float =>
      obtain ⟨k1, k2⟩ := eighth_float (hr 0) (hr 1) (hr 2)
      simp only [k1]
      exact fun hm => (round_twice rfl k2).2 hm.1 hm.2

/-- **C89, uniform scaling.** In `float` and in `double`, whatever the length (infinities and NaN included),
`UniformScaling` gives the same numbers as `Scaling` with three equal lengths. -/
theorem C89_uniform (u : UniformScaling Flt) (hs : s.getData = [u.getData, u.getData, u.getData])
    (hu : ∀ y, u.getData.datum = .finite y → Represents T.format y)
    (J1 J3 : List Flt) (h1 : J1.length = 1) (h3 : J3.length = 3) :
    ∃ (j det : Flt) (after1 after3 : Res (List Flt)),
      Mixed.UniformScaling.jacobian cfg T.arith u J1 = .ok [j] ∧
      Mixed.Scaling.jacobian cfg T.arith s J3 = .ok [j, j, j] ∧
      Mixed.UniformScaling.inverseJacobian cfg T.arith u J1 = (det, after1) ∧
      Mixed.Scaling.inverseJacobian cfg T.arith s J3 = .ok (det, after3) ∧
      ((after1 = .nonfinite ∧ after3 = .nonfinite) ∨ ∃ q, after1 = .ok [q] ∧ after3 = .ok [q, q, q]) := by
  have hs' : s.getData = List.ofFn fun _ : Fin 3 => u.getData := hs
  obtain ⟨r, e1, e2, e3⟩ := mixed_scaling_inverse cfg T.arith s _ hs' h3
  have hw : ∀ x : Flt, CArray.write cfg J1 (CArray.whole [1]) [0] x = .ok [x] := by
    intro x
    obtain ⟨g, rfl⟩ := ofFn_length_eq h1
    have := write_vec cfg (d := 1) (by norm_num) g 0 x
    refine this.trans ?_
    simp
  refine ⟨_, _, _, r, hw _, mixed_scaling_jacobian cfg T.arith s _ hs' h3, rfl, e1, ?_⟩
  have hq := quotient_eq T hu
  have ha : Mixed.UniformScaling.inverseEntry cfg T.arith u.getData J1
      = ((floatArith T.format).div ((floatArith T.format).lit 2) u.getData >>= fun q => .ok [q]) := by
    have hreal : T.arith.real = floatArith T.format := by cases T <;> rfl
    unfold Mixed.UniformScaling.inverseEntry
    rw [hreal]
    simp only [hw]
  rw [ha]
  have hcases : (floatArith T.format).div ((floatArith T.format).lit 2) u.getData = .nonfinite ∨
      ∃ q, (floatArith T.format).div ((floatArith T.format).lit 2) u.getData = .ok q := by
    have h2 := lit_pow (format_mem T) (s := 1) le_rfl
    rw [pow_one, pow_one] at h2
    rw [h2]
    obtain ⟨d, b⟩ := u.getData
    cases d with
    | finite y =>
      by_cases h0 : y = 0
      · exact .inl (if_pos h0)
      · exact .inr ⟨_, if_neg h0⟩
    | inf t => exact .inr ⟨_, rfl⟩
    | nan => exact .inr ⟨_, rfl⟩
  rcases hcases with hc | ⟨q, hc⟩
  · exact .inl ⟨by rw [hc]; rfl, e3 ⟨0, hq.trans hc⟩ fun _ => .inl (hq.trans hc)⟩
  · exact .inr ⟨q, by rw [hc]; rfl, e2 (fun _ => q) fun _ => hq.trans hc⟩

/-- Non-vacuity of C89: lengths 1, 2 and 3 in `float`. -/
example : ∃ (det : Flt) (after : Res (List Flt)) (y : ℝ),
    Mixed.Scaling.inverseJacobian ⟨true, false, false⟩ floatMixed ⟨[Flt.ofReal 1, Flt.ofReal 2, Flt.ofReal 3]⟩
      [Flt.ofReal 0, Flt.ofReal 0, Flt.ofReal 0] = .ok (det, after) ∧ det = Flt.ofReal y ∧ |y - 3 / 4| ≤ 1 / 2 ^ 23 := by
  have hrep : ∀ k, Represents binary32 ((![1, 2, 3] : Fin 3 → ℝ) k) := by
    have h : ∀ k : Fin 3, evalRound binary32 ((![1, 2, 3] : Fin 3 → ℚ) k) = some ((![1, 2, 3] : Fin 3 → ℚ) k) := by
      decide +kernel
    intro k
    have := represents_rat (h k)
    fin_cases k <;> simpa using this
  obtain ⟨det, after, h1, h3, h2⟩ := C89_determinant (h := ![1, 2, 3]) ⟨true, false, false⟩ .float
    (s := ⟨[Flt.ofReal 1, Flt.ofReal 2, Flt.ofReal 3]⟩) (by simp [Scaling.getData]) hrep
    [Flt.ofReal 0, Flt.ofReal 0, Flt.ofReal 0] rfl
  have h2 := h2 (by simp [Fin.prod_univ_three]; norm_num)
  rcases h3 with h3 | ⟨y, h3, h4⟩
  · rw [h2] at h3; cases h3
  · have e : ∏ k, (![1, 2, 3] : Fin 3 → ℝ) k / 2 = 3 / 4 := by simp [Fin.prod_univ_three]; norm_num
    rw [e] at h4
    refine ⟨det, after, y, h1, h3, h4.trans ?_⟩
    rw [abs_of_pos (by norm_num : (0 : ℝ) < 3 / 4)]
    norm_num

end Verif.Props
