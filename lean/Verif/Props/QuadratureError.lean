import Verif.Lemmas.QuadratureError
import Verif.Props.Quadrature
import Mathlib.Analysis.SpecialFunctions.ExpDeriv

/-! # Property C104: the error of the quadrature rules for smooth functions -/

namespace Verif.Props

open Verif.Spec Verif.Lemmas Polynomial MeasureTheory

private theorem tolerance_nonneg (F : RuleFamily) (N : ℕ) : 0 ≤ F.tolerance N := by
  cases F with
  | gaussLegendre => norm_num [RuleFamily.tolerance]
  | gaussLobatto => simp only [RuleFamily.tolerance]; split <;> norm_num

/-- A rule, its points inside [-1,1], its positive weights, and its exactness. -/
private theorem rule_facts (F : RuleFamily) (N : ℕ) (hS : F.Supports N) :
    ∃ c w : Fin N → ℝ,
      (∀ i : Fin N, (F.rule (exactArith ℝ) N).coordCT (i : ℕ) = .ok (c i)) ∧
      (∀ i : Fin N, (F.rule (exactArith ℝ) N).weightCT (i : ℕ) = .ok (w i)) ∧
      (∀ i, c i ∈ Set.Icc (-1 : ℝ) 1) ∧ (∀ i, 0 ≤ w i) ∧
      ∀ p : ℝ[X], p.natDegree ≤ F.degree N → |∑ i, w i * p.eval (c i) - ∫ x in (-1 : ℝ)..1, p.eval x|
        ≤ F.tolerance N * ∑ k ∈ Finset.range (F.degree N + 1), |p.coeff k| := by
  have hN : 2 ≤ N := by cases F <;> exact hS.1
  cases F with
  | gaussLegendre =>
    obtain ⟨c, w, h1, h2, h3⟩ := C29_gaussLegendre_exact N hS.1 hS.2
    obtain ⟨c', h1', -, -, hin⟩ := C24_gaussLegendre_coordinates N hS.1 hS.2
    obtain ⟨w', h2', hpos, -⟩ := C28_partial.1 N hS.1 hS.2
    have ec : ∀ i, c i = c' i := fun i => Res.ok.inj ((h1 i).symm.trans (h1' i))
    have ew : ∀ i, w i = w' i := fun i => Res.ok.inj ((h2 i).symm.trans (h2' i))
    refine ⟨c, w, h1, h2, fun i => ?_, fun i => by rw [ew]; exact (hpos i).le, fun p hp => ?_⟩
    · rw [ec]; exact ⟨(hin i).1.le, (hin i).2.le⟩
    · have := h3 p hp
      rwa [show 2 * N = 2 * N - 1 + 1 by omega] at this
  | gaussLobatto =>
    obtain ⟨c, w, h1, h2, h3⟩ := C30_gaussLobatto_exact N hS.1 hS.2
    obtain ⟨c', h1', -, -, hin, -⟩ := C24_gaussLobatto_coordinates N hS.1 hS.2
    obtain ⟨w', h2', hpos, -⟩ := C28_partial.2 N hS.1 hS.2
    have ec : ∀ i, c i = c' i := fun i => Res.ok.inj ((h1 i).symm.trans (h1' i))
    have ew : ∀ i, w i = w' i := fun i => Res.ok.inj ((h2 i).symm.trans (h2' i))
    refine ⟨c, w, h1, h2, fun i => ?_, fun i => by rw [ew]; exact (hpos i).le, fun p hp => ?_⟩
    · rw [ec]; exact hin i
    · have := h3 p hp
      rwa [show 2 * N - 2 = 2 * N - 3 + 1 by omega] at this

/-- **C104, one direction.** A rule exact to degree `m` is off, for an integrand whose derivative of order `m + 1` is at most
`M`, by at most `4 * M / (m + 1)!`, up to the accuracy of its decimals. -/
theorem C104_line (F : RuleFamily) (N : ℕ) (hS : F.Supports N) :
    ∃ c w : Fin N → ℝ,
      (∀ i : Fin N, (F.rule (exactArith ℝ) N).coordCT (i : ℕ) = .ok (c i)) ∧
      (∀ i : Fin N, (F.rule (exactArith ℝ) N).weightCT (i : ℕ) = .ok (w i)) ∧
      ∀ (f : ℝ → ℝ) (M A : ℝ), TaylorBounded (F.degree N + 1) f M A →
        |∑ i, w i * f (c i) - ∫ x in (-1 : ℝ)..1, f x|
          ≤ (4 + F.tolerance N) * (M / (F.degree N + 1).factorial) + F.tolerance N * A := by
  obtain ⟨c, w, h1, h2, hc, hw, hex⟩ := rule_facts F N hS
  exact ⟨c, w, h1, h2, fun f M A hf => rule_error (tolerance_nonneg F N) hc hw hex hf⟩

/-- **C104, several directions.** The product of rules in `d` directions, for an integrand continuous on the cube and
smooth along each direction: the errors of the directions add up, times the largest possible sum of weights of the other
directions. -/
theorem C104_tensor {d : ℕ} (F : Fin d → RuleFamily) (N : Fin d → ℕ) (hS : ∀ k, (F k).Supports (N k))
    (τ : ℝ) (htol : ∀ k, (F k).tolerance (N k) ≤ τ) (hτ : 0 ≤ τ) :
    ∃ c w : (k : Fin d) → Fin (N k) → ℝ,
      (∀ k (i : Fin (N k)), ((F k).rule (exactArith ℝ) (N k)).coordCT (i : ℕ) = .ok (c k i)) ∧
      (∀ k (i : Fin (N k)), ((F k).rule (exactArith ℝ) (N k)).weightCT (i : ℕ) = .ok (w k i)) ∧
      ∀ (f : (Fin d → ℝ) → ℝ) (M A : Fin d → ℝ), ContinuousOn f (cube d) →
        (∀ k, ∀ y ∈ cube d, TaylorBounded ((F k).degree (N k) + 1) (fun t => f (Function.update y k t)) (M k) (A k)) →
        |∑ q : (k : Fin d) → Fin (N k), (∏ k, w k (q k)) * f (fun k => c k (q k)) - ∫ ξ in cube d, f ξ|
          ≤ (2 + τ) ^ (d - 1) * ∑ k, ((4 + τ) * (M k / ((F k).degree (N k) + 1).factorial) + τ * A k) := by
  choose c w h1 h2 hc hw hex using fun k => rule_facts (F k) (N k) (hS k)
  refine ⟨c, w, h1, h2, fun f M A hf hT => ?_⟩
  have h0 : (0 : Fin d → ℝ) ∈ cube d := fun k => ⟨by simp, by simp⟩
  have hM : ∀ k, 0 ≤ M k ∧ 0 ≤ A k := fun k => by
    obtain ⟨D, -, hM, hA⟩ := hT k 0 h0
    exact ⟨(abs_nonneg _).trans (hM 0 ⟨by norm_num, by norm_num⟩), (Finset.sum_nonneg fun _ _ => by positivity).trans hA⟩
  refine tensor_quadrature_error (by linarith) w c _ f hc hf (fun k => ?_) (fun k => ?_) fun k y hy => ?_
  · have h := hex k 1 (by simp)
    simp only [eval_one, mul_one, coeff_one] at h
    have h2 : ∑ j ∈ Finset.range ((F k).degree (N k) + 1), |(if j = 0 then (1 : ℝ) else 0)| = 1 := by
      rw [Finset.sum_eq_single 0] <;> simp +contextual
    rw [h2, mul_one, intervalIntegral.integral_const, smul_eq_mul, mul_one] at h
    rw [Finset.sum_congr rfl fun i _ => abs_of_nonneg (hw k i)]
    have := (abs_le.1 h).2
    linarith [htol k]
  · have := hM k
    have h1 := this.1
    have h2 := this.2
    positivity
  · refine (rule_error (tolerance_nonneg _ _) (hc k) (hw k) (hex k) (hT k y hy)).trans ?_
    have := hM k
    have h1 := this.1
    have h2 := this.2
    have h3 := htol k
    gcongr

/-- Non-vacuity of C104: the exponential function and the three-point Gauss-Legendre rule. -/
example : RuleFamily.gaussLegendre.Supports 3 ∧ TaylorBounded (RuleFamily.gaussLegendre.degree 3 + 1) Real.exp (Real.exp 1) 3 := by
  refine ⟨by simp [RuleFamily.Supports], fun _ => Real.exp, ⟨fun _ _ => rfl, fun k _ x _ => (Real.hasDerivAt_exp x).hasDerivWithinAt⟩,
    fun x hx => ?_, ?_⟩
  · rw [Real.abs_exp]; exact Real.exp_le_exp.2 hx.2
  · simp only [RuleFamily.degree, Real.exp_zero, abs_one]
    norm_num [Finset.sum_range_succ, Nat.factorial]

/-- The order cannot be raised: for `x ^ 4` the two-point Gauss-Legendre rule is off by more than 8/45 - 1/100, the bound
being 4 up to the decimals. -/
example : ∃ c w : Fin 2 → ℝ,
    (∀ i : Fin 2, (quadratureGaussLegendre (exactArith ℝ) 2).coordCT (i : ℕ) = .ok (c i)) ∧
    (∀ i : Fin 2, (quadratureGaussLegendre (exactArith ℝ) 2).weightCT (i : ℕ) = .ok (w i)) ∧
    8 / 45 - 1 / 100 < |∑ i, w i * c i ^ 4 - ∫ x in (-1 : ℝ)..1, x ^ 4| := by
  refine ⟨![-0.57735026918962576450914878050195745565, 0.57735026918962576450914878050195745565], ![1, 1], fun i => ?_, fun i => ?_, ?_⟩
  · fin_cases i
    · show Res.ok _ = _
      simp [exactArith, GaussLegendre.invSqrt3]
    · show Res.ok _ = _
      simp [exactArith, GaussLegendre.invSqrt3]
      norm_num
  · fin_cases i
    · show Res.ok _ = _
      simp [exactArith]
    · show Res.ok _ = _
      simp [exactArith]
  · rw [integral_pow]
    simp only [Fin.sum_univ_two, Matrix.cons_val_zero, Matrix.cons_val_one]
    norm_num [abs_of_neg]

end Verif.Props
