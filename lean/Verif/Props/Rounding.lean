import Verif.Lemmas.Rounding
import Verif.Props.Lagrange

/-! # Properties C60–C62: rounding errors

Code runs in `roundedArith fl`, for any rounding function with relative error at most `u ≤ 1/2`; overflow
and underflow are not modelled.  The nodes are whatever distinct numbers the spacing class returns in that
arithmetic, and the point is any real number. -/

namespace Verif.Props

open Verif.Spec Verif.Lemmas

variable {fl : ℝ → ℝ} {u : ℝ}

/-- The error bound is at most twice its first-order part. -/
theorem C60_bound_first_order (hu : 0 ≤ u) (k : ℕ) (h : k * u ≤ 1) : errBound u k ≤ 2 * k * u := by
  have key : ∀ k : ℕ, k * u ≤ 1 → (1 + u) ^ k ≤ 1 + k * u + (k * u) ^ 2 := by
    intro k
    induction k with
    | zero => intro _; simp
    | succ k ih =>
      intro h
      push_cast at h ⊢
      have hk : (0 : ℝ) ≤ k := Nat.cast_nonneg k
      have h1 := ih (by nlinarith)
      have h2 := mul_le_mul_of_nonneg_right h1 (show 0 ≤ 1 + u by linarith)
      have h3 : (k : ℝ) * (k * u) ≤ k * 1 := mul_le_mul_of_nonneg_left (by nlinarith) hk
      have h4 : (k : ℝ) * (k * u) * (u * u) ≤ k * 1 * (u * u) := mul_le_mul_of_nonneg_right h3 (by positivity)
      rw [pow_succ]
      nlinarith [mul_nonneg hk (mul_nonneg hu hu), mul_nonneg hu hu]
  have h1 := key k h
  have h0 : 0 ≤ k * u := mul_nonneg (Nat.cast_nonneg k) hu
  unfold errBound
  nlinarith

theorem basis_ok' {S : Int → Spacing ℝ} {order : ℕ} (horder : order < 2147483647) :
    lagrangeBasis (roundedArith fl) S order = .ok ⟨((order + 1 : ℕ) : Int),
      LagrangeBasis.value (roundedArith fl) (S ((order + 1 : ℕ) : Int)) ((order + 1 : ℕ) : Int),
      LagrangeBasis.gradient (roundedArith fl) (S ((order + 1 : ℕ) : Int)) ((order + 1 : ℕ) : Int)⟩ := by
  have h : iadd (order : Int) 1 = .ok ((order + 1 : ℕ) : Int) := by
    push_cast
    exact tnorm_ok ⟨by show (-2147483648 : Int) ≤ _; omega, by show _ ≤ (2147483647 : Int); omega⟩
  rw [lagrangeBasis, h]; rfl

theorem lagrange_quotients {n : ℕ} (c : Fin n → ℝ) (j : Fin n) (x : ℝ) :
    (Lagrange.basis Finset.univ c j).eval x = ∏ t ∈ Finset.univ.erase j, (x - c t) / (c j - c t) := by
  rw [Lagrange.basis, Polynomial.eval_prod]
  exact Finset.prod_congr rfl fun t _ => by simp [Lagrange.basisDivisor]; ring

theorem sum_succ {d : ℕ} {f g : Fin d → ℕ} (h : ∀ k, f k = g k + 1) : ∑ k, f k = (∑ k, g k) + d := by
  simp [h, Finset.sum_add_distrib]

theorem lit_one (hr : Rounds fl u) : Approx u 1 1 (fl 1) := approx_fl hr 1

/-- **C60.** The computed value of a basis function has a relative error of at most `7 * order + 1`
roundings, and of at most `6 * order` if 1 is representable, at every coordinate. -/
theorem C60_value_error (hr : Rounds fl u) {S : Int → Spacing ℝ} {order : ℕ} {c : Fin (order + 1) → ℝ}
    (horder : order < 2147483647) (hc : Nodes (S ((order + 1 : ℕ) : Int)) (order + 1) c) :
    ∃ b, lagrangeBasis (roundedArith fl) S order = .ok b ∧
      ∀ (j : Fin (order + 1)) (x : ℝ), ∃ y, b.value (j : ℕ) x = .ok y ∧
        let exact := ∏ t ∈ Finset.univ.erase j, (x - c t) / (c j - c t)
        |y - exact| ≤ errBound u (7 * order + 1) * |exact| ∧
        (fl 1 = 1 → |y - exact| ≤ errBound u (6 * order) * |exact|) := by
  refine ⟨_, basis_ok' horder, fun j x => ?_⟩
  obtain ⟨y, hy, ha⟩ := value_approx hr (lit_one hr) hc j x
  refine ⟨y, hy, ?_, fun h1 => ?_⟩
  · rw [lagrange_quotients] at ha
    have := ha.mono hr.nonneg (show _ ≤ 7 * order + 1 by omega)
    exact this
  · obtain ⟨y', hy', ha'⟩ := value_approx hr (e1 := 0) (by rw [h1]; exact Approx.refl 1) hc j x
    have e : y' = y := Res.ok.inj (hy'.symm.trans hy)
    rw [lagrange_quotients, e] at ha'
    have := ha'.mono hr.nonneg (show _ ≤ 6 * order by omega)
    exact this

/-- **C60, nodes.** At every other node the computed value is exactly 0, and at its own node it is 1 up to
the same bound. -/
theorem C60_nodes (hr : Rounds fl u) {S : Int → Spacing ℝ} {order : ℕ} {c : Fin (order + 1) → ℝ}
    (horder : order < 2147483647) (hc : Nodes (S ((order + 1 : ℕ) : Int)) (order + 1) c) :
    ∃ b, lagrangeBasis (roundedArith fl) S order = .ok b ∧
      ∀ i j : Fin (order + 1), ∃ y, b.value (j : ℕ) (c i) = .ok y ∧
        (i ≠ j → y = 0) ∧ (i = j → |y - 1| ≤ errBound u (7 * order + 1)) := by
  obtain ⟨b, hb, h⟩ := C60_value_error hr horder hc
  refine ⟨b, hb, fun i j => ?_⟩
  obtain ⟨y, hy, ha, -⟩ := h j (c i)
  refine ⟨y, hy, fun hij => ?_, fun hij => ?_⟩
  · have : ∏ t ∈ Finset.univ.erase j, (c i - c t) / (c j - c t) = 0 :=
      Finset.prod_eq_zero (Finset.mem_erase.2 ⟨hij, Finset.mem_univ i⟩) (by simp)
    simp only [this, abs_zero, mul_zero, sub_zero] at ha
    exact abs_eq_zero.1 (le_antisymm ha (abs_nonneg y))
  · subst hij
    have : ∏ t ∈ Finset.univ.erase i, (c i - c t) / (c i - c t) = 1 :=
      Finset.prod_eq_one fun t ht => div_self (sub_ne_zero.2 fun h =>
        Finset.ne_of_mem_erase ht (hc.distinct h).symm)
    simpa only [this, abs_one, mul_one] using ha

/-- **C61.** The computed interpolation differs from the exact one by at most an explicit factor times the
sum of the absolute values of its terms. -/
theorem C61_interpolation_error (hr : Rounds fl u) {d : ℕ} {order : Fin d → ℕ}
    {c : (k : Fin d) → Fin (order k + 1) → ℝ} {e : Element ℝ}
    (h : IsLagrangeIn (roundedArith fl) order c e) (var : List Int → Res ℝ)
    (y : ((k : Fin d) → Fin (order k + 1)) → ℝ) (hy : ∀ idx, var (tup idx) = .ok (y idx)) (x : Fin d → ℝ) :
    ∃ r, ParentElement.value (roundedArith fl) e (List.ofFn x) var = .ok r ∧
      let N := fun idx : (k : Fin d) → Fin (order k + 1) =>
        ∏ k, ∏ t ∈ Finset.univ.erase (idx k), (x k - c k t) / (c k (idx k) - c k t)
      |r - ∑ idx, N idx * y idx| ≤ errBound u (interpolationRoundings order) * ∑ idx, |N idx| * |y idx| := by
  obtain ⟨b, rfl, hk⟩ := isLagrangeIn_realises hr (lit_one hr) h
  obtain ⟨r, hrr, hw⟩ := parent_value_within hr h.dims hk x var y hy
  refine ⟨r, hrr, ?_⟩
  simp only [lagrange_quotients] at hw
  refine (hw.mono hr.nonneg (k := interpolationRoundings order) ?_).2
  have e1 : ∑ k, (7 * order k + 2) = (∑ k, (order k * (6 + 1) + 1)) + d := by
    exact sum_succ fun k => by ring
  rw [interpolationRoundings, e1]

/-- **C61, basis functions.** Each tensor-product basis function is computed with a small relative error. -/
theorem C61_basis_error (hr : Rounds fl u) {d : ℕ} {order : Fin d → ℕ}
    {c : (k : Fin d) → Fin (order k + 1) → ℝ} {e : Element ℝ}
    (h : IsLagrangeIn (roundedArith fl) order c e) (idx : (k : Fin d) → Fin (order k + 1))
    (x : Fin d → ℝ) :
    ∃ r, ParentElement.basisValue (roundedArith fl) e (tup idx) (List.ofFn x) = .ok r ∧
      let N := ∏ k, ∏ t ∈ Finset.univ.erase (idx k), (x k - c k t) / (c k (idx k) - c k t)
      |r - N| ≤ errBound u (∑ k, (7 * order k + 2)) * |N| := by
  obtain ⟨b, rfl, hk⟩ := isLagrangeIn_realises hr (lit_one hr) h
  obtain ⟨r, hrr, hw⟩ := product_value_approx hr h.dims hk idx x
  refine ⟨r, ((basisValue_eq _ (elementOf_instantiate b) (by simp [tup_length, elementOf]) _).1).trans hrr, ?_⟩
  simp only [lagrange_quotients] at hw
  refine hw.mono hr.nonneg ?_
  have e1 : ∑ k, (7 * order k + 2) = (∑ k, (order k * (6 + 1) + 1)) + d := by
    exact sum_succ fun k => by ring
  omega

theorem derivMagnitude_eq {n : ℕ} (c : Fin n → ℝ) (j : Fin n) (x : ℝ) :
    ∑ a, |factorDeriv c j a| * (∏ t, if t = a then 1 else |factor c j x t|) = derivMagnitude c j x := by
  unfold derivMagnitude
  rw [← Finset.add_sum_erase _ _ (Finset.mem_univ j)]
  have h0 : factorDeriv c j j = 0 := by simp [factorDeriv]
  rw [h0, abs_zero, zero_mul, zero_add]
  refine Finset.sum_congr rfl fun a ha => ?_
  have hja : j ≠ a := (Finset.ne_of_mem_erase ha).symm
  rw [factorDeriv, if_neg hja]
  congr 1
  rw [← Finset.mul_prod_erase _ _ (Finset.mem_univ j), if_neg hja,
    show |factor c j x j| = 1 by simp [factor], one_mul, ← Finset.mul_prod_erase _ _ ha, if_pos rfl, one_mul]
  refine Finset.prod_congr rfl fun t ht => ?_
  have h1 : t ≠ a := Finset.ne_of_mem_erase ht
  have h2 : j ≠ t := (Finset.ne_of_mem_erase (Finset.mem_of_mem_erase ht)).symm
  rw [if_neg h1, factor, if_neg h2, mul_one_div]

/-- **C62, one dimension.** The computed gradient of a basis function differs from the derivative by at most
an explicit factor times the sum of the absolute values of its terms. -/
theorem C62_gradient_error (hr : Rounds fl u) {S : Int → Spacing ℝ} {order : ℕ} {c : Fin (order + 1) → ℝ}
    (horder : order < 2147483647) (hc : Nodes (S ((order + 1 : ℕ) : Int)) (order + 1) c) :
    ∃ b, lagrangeBasis (roundedArith fl) S order = .ok b ∧
      ∀ (j : Fin (order + 1)) (x : ℝ), ∃ y, b.gradient (j : ℕ) x = .ok y ∧
        |y - deriv (fun x => ∏ t ∈ Finset.univ.erase j, (x - c t) / (c j - c t)) x|
          ≤ errBound u (8 * order + 11) * derivMagnitude c j x := by
  refine ⟨_, basis_ok' horder, fun j x => ?_⟩
  obtain ⟨y, hy, hw⟩ := gradient_within hr (lit_one hr) hc j x
  refine ⟨y, hy, ?_⟩
  have e : deriv (fun x => ∏ t ∈ Finset.univ.erase j, (x - c t) / (c j - c t)) x
      = (Polynomial.derivative (Lagrange.basis Finset.univ c j)).eval x := by
    simp only [← lagrange_quotients]
    exact Polynomial.deriv _
  rw [e, ← derivMagnitude_eq]
  exact (hw.mono hr.nonneg (k := 8 * order + 11) (by omega)).2

/-- **C62, elements.** Component `a` of the computed gradient of an interpolation differs from the partial
derivative of the exact interpolation by at most an explicit factor times the sum of the absolute values of
its terms. -/
theorem C62_interpolation_gradient_error (hr : Rounds fl u) {d : ℕ} {order : Fin d → ℕ}
    {c : (k : Fin d) → Fin (order k + 1) → ℝ} {e : Element ℝ}
    (h : IsLagrangeIn (roundedArith fl) order c e) (var : List Int → Res ℝ)
    (y : ((k : Fin d) → Fin (order k + 1)) → ℝ) (hy : ∀ idx, var (tup idx) = .ok (y idx)) (x : Fin d → ℝ) :
    ∃ r : Fin d → ℝ, ParentElement.gradient (roundedArith fl) e (List.ofFn x) var = .ok (List.ofFn r) ∧
      let ℓ := fun (k : Fin d) (j : Fin (order k + 1)) (s : ℝ) =>
        ∏ t ∈ Finset.univ.erase j, (s - c k t) / (c k j - c k t)
      ∀ a, |r a - ∑ idx, (∏ k, if a = k then deriv (ℓ k (idx k)) (x k) else ℓ k (idx k) (x k)) * y idx|
        ≤ errBound u (gradientRoundings order) * ∑ idx,
          (∏ k, if a = k then derivMagnitude (c k) (idx k) (x k) else |ℓ k (idx k) (x k)|) * |y idx| := by
  obtain ⟨b, rfl, hk⟩ := isLagrangeIn_realises hr (lit_one hr) h
  obtain ⟨r, hrr, hw⟩ := parent_gradient_within hr h.dims hk x var y hy
  refine ⟨r, hrr, fun a => ?_⟩
  have hw := hw a
  have e : ∀ (k : Fin d) (j : Fin (order k + 1)) (s : ℝ),
      (Polynomial.derivative (Lagrange.basis Finset.univ (c k) j)).eval s
        = deriv (fun s => ∏ t ∈ Finset.univ.erase j, (s - c k t) / (c k j - c k t)) s := by
    intro k j s
    simp only [← lagrange_quotients]
    exact (Polynomial.deriv _).symm
  simp only [e, derivMagnitude_eq, lagrange_quotients] at hw
  refine (hw.mono hr.nonneg (k := gradientRoundings order) ?_).2
  have e1 : ∑ k, (8 * order k + 12)
      = (∑ k, max (order k * (6 + 1) + 1) ((order k + 1) * (7 + 1) + 1 + 2)) + d := by
    exact sum_succ fun k => by rw [max_eq_right (by omega)]; ring
  rw [gradientRoundings, e1]

/-! ### the hypotheses can be met -/

/-- Rounding to nearest in binary with `p + 1` significant bits satisfies the rounding hypothesis with
`u = 2 ^ -(p + 1)`, and represents 1.  With `p = 52` this is `double` without overflow and underflow. -/
theorem C60_binaryRound (p : ℕ) : Rounds (binaryRound p) (1 / 2 ^ (p + 1)) ∧ binaryRound p 1 = 1 := by
  constructor
  · refine ⟨by positivity, ?_, fun x => ?_⟩
    · have : (1 : ℝ) ≤ 2 ^ p := one_le_pow₀ (by norm_num)
      rw [pow_succ]
      rw [div_le_div_iff₀ (by positivity) (by norm_num)]
      linarith
    · by_cases hx : x = 0
      · subst hx; simp [binaryRound]
      · have hpos : 0 < |x| := abs_pos.2 hx
        have hlog := Int.zpow_log_le_self (b := 2) (r := |x|) (by norm_num) hpos
        push_cast at hlog
        obtain ⟨m, hm⟩ : ∃ m, m = Int.log 2 |x| := ⟨_, rfl⟩
        unfold binaryRound
        rw [← hm] at hlog ⊢
        obtain ⟨s, hs⟩ : ∃ s : ℝ, s = 2 ^ ((p : ℤ) - m) := ⟨_, rfl⟩
        have hs0 : 0 < s := by rw [hs]; positivity
        rw [← hs]
        have h1 := abs_sub_round (x * s)
        have e1 : (round (x * s) : ℝ) / s - x = -((x * s - round (x * s)) / s) := by
          field_simp; ring
        rw [e1, abs_neg, abs_div, abs_of_pos hs0, div_le_iff₀ hs0]
        have e2 : s * 2 ^ m = 2 ^ p := by
          rw [hs, ← zpow_add₀ (by norm_num), sub_add_cancel, zpow_natCast]
        have h2 : (2 : ℝ) ^ p ≤ |x| * s := by
          rw [← e2, mul_comm]; exact mul_le_mul_of_nonneg_right hlog hs0.le
        have h3 : (1 : ℝ) / 2 = 1 / 2 ^ (p + 1) * 2 ^ p := by rw [pow_succ]; field_simp
        calc _ ≤ (1 : ℝ) / 2 := h1
          _ = 1 / 2 ^ (p + 1) * 2 ^ p := h3
          _ ≤ 1 / 2 ^ (p + 1) * (|x| * s) := mul_le_mul_of_nonneg_left h2 (by positivity)
          _ = _ := by ring
  · have h0 : Int.log 2 (1 : ℝ) = 0 := Int.log_one_right 2
    simp only [binaryRound, abs_one, h0, sub_zero, one_mul, zpow_natCast]
    rw [show ((2 : ℝ) ^ p) = (((2 ^ p : ℤ)) : ℝ) by push_cast; rfl, round_intCast]
    exact div_self (by positivity)

end Verif.Props
