import Verif.Lemmas.Smooth
import Verif.Lemmas.TensorQuadrature
import Verif.Lemmas.InterpolationError
import Mathlib.Analysis.Calculus.Deriv.MeanValue
import Mathlib.MeasureTheory.Integral.Prod

/-! # Taylor's theorem, and the error of quadrature rules for smooth functions -/

namespace Verif.Lemmas

open Verif.Spec Polynomial MeasureTheory

local notation "I" => Set.Icc (-1 : ℝ) 1

/-- From a bound on the derivative to a bound on the function. -/
theorem growth {f : ℝ → ℝ} {D : ℕ → ℝ → ℝ} (h : HasDerivatives 1 f D) {M : ℝ} {n : ℕ} (h0 : D 0 0 = 0)
    (hM : ∀ x ∈ I, |D 1 x| ≤ M / n.factorial * |x| ^ n) {x : ℝ} (hx : x ∈ I) :
    |D 0 x| ≤ M / (n + 1).factorial * |x| ^ (n + 1) := by
  have hfac : ((n + 1).factorial : ℝ) = (n + 1) * n.factorial := by rw [Nat.factorial_succ]; push_cast; ring
  have hf0 : (0 : ℝ) < n.factorial := by exact_mod_cast n.factorial_pos
  have hn : (0 : ℝ) < (n : ℝ) + 1 := by positivity
  -- Cauchy's mean value theorem between 0 and `x`
  have key : ∃ t ∈ I, t ≠ 0 ∧ |x| ^ (n + 1) * |D 1 t| = |D 0 x| * ((n + 1) * |t| ^ n) ∨ x = 0 := by
    have aux : ∀ a b : ℝ, a < b → a ∈ I → b ∈ I → ∃ t ∈ Set.Ioo a b,
        (b ^ (n + 1) - a ^ (n + 1)) * D 1 t = (D 0 b - D 0 a) * ((n + 1) * t ^ n) := by
      intro a b hab ha hb
      have hsub : Set.Icc a b ⊆ I := Set.Icc_subset_Icc ha.1 hb.2
      refine exists_ratio_hasDerivAt_eq_ratio_slope (D 0) (D 1) hab
        (fun t ht => ((h.succ 0 (by omega) t (hsub ht)).continuousWithinAt).mono hsub)
        (fun t ht => (h.succ 0 (by omega) t (hsub (Set.Ioo_subset_Icc_self ht))).hasDerivAt
          (Filter.mem_of_superset (Icc_mem_nhds ht.1 ht.2) hsub)) (fun t => t ^ (n + 1)) (fun t => (n + 1) * t ^ n)
        (by fun_prop) (fun t _ => ?_)
      have := hasDerivAt_pow (n + 1) t
      simpa using this
    rcases lt_trichotomy x 0 with hlt | rfl | hgt
    · obtain ⟨t, ht, e⟩ := aux x 0 hlt hx ⟨by norm_num, by norm_num⟩
      refine ⟨t, ⟨hx.1.trans ht.1.le, by linarith [ht.2]⟩, .inl ⟨ht.2.ne, ?_⟩⟩
      rw [h0, zero_pow (by omega), zero_sub, zero_sub] at e
      have := congrArg abs e
      rw [abs_mul, abs_mul, abs_mul, abs_neg, abs_neg, abs_pow, abs_pow, abs_of_pos hn] at this
      exact this
    · exact ⟨0, hx, .inr rfl⟩
    · obtain ⟨t, ht, e⟩ := aux 0 x hgt ⟨by norm_num, by norm_num⟩ hx
      refine ⟨t, ⟨by linarith [ht.1], ht.2.le.trans hx.2⟩, .inl ⟨ht.1.ne', ?_⟩⟩
      rw [h0, zero_pow (by omega), sub_zero, sub_zero] at e
      have := congrArg abs e
      rw [abs_mul, abs_mul, abs_mul, abs_pow, abs_pow, abs_of_pos hn] at this
      exact this
  obtain ⟨t, ht, ⟨ht0, e⟩ | rfl⟩ := key
  · have htp : 0 < |t| ^ n := pow_pos (abs_pos.2 ht0) n
    have h1 : |D 0 x| * ((n + 1) * |t| ^ n) ≤ |x| ^ (n + 1) * (M / n.factorial * |t| ^ n) := by
      rw [← e]; exact mul_le_mul_of_nonneg_left (hM t ht) (by positivity)
    have h2 : |D 0 x| * (n + 1) ≤ |x| ^ (n + 1) * (M / n.factorial) := by
      refine le_of_mul_le_mul_right ?_ htp
      linarith [h1]
    rw [hfac]
    calc |D 0 x| = |D 0 x| * (n + 1) / (n + 1) := by field_simp
      _ ≤ |x| ^ (n + 1) * (M / n.factorial) / (n + 1) := by gcongr
      _ = _ := by field_simp
  · rw [h0]; simp

/-- The Taylor polynomial at 0. -/
noncomputable def taylorPoly (D : ℕ → ℝ → ℝ) (m : ℕ) : ℝ[X] := ∑ k ∈ Finset.range m, C (D k 0 / k.factorial) * X ^ k

theorem taylorPoly_eval_zero (D : ℕ → ℝ → ℝ) (m : ℕ) : (taylorPoly D (m + 1)).eval 0 = D 0 0 := by
  rw [taylorPoly, eval_finsetSum, Finset.sum_range_succ', Finset.sum_eq_zero fun k _ => by simp]
  simp

theorem taylorPoly_derivative (D : ℕ → ℝ → ℝ) (m : ℕ) :
    derivative (taylorPoly D (m + 1)) = taylorPoly (fun k => D (k + 1)) m := by
  rw [taylorPoly, derivative_sum, Finset.sum_range_succ']
  simp only [pow_zero, mul_one, derivative_C, add_zero]
  refine Finset.sum_congr rfl fun k _ => ?_
  rw [derivative_C_mul_X_pow, Nat.add_sub_cancel, Nat.factorial_succ]
  congr 2
  have : (k.factorial : ℝ) ≠ 0 := by exact_mod_cast k.factorial_ne_zero
  push_cast
  field_simp

theorem taylorPoly_coeff (D : ℕ → ℝ → ℝ) (m k : ℕ) :
    (taylorPoly D m).coeff k = if k < m then D k 0 / k.factorial else 0 := by
  rw [taylorPoly, finsetSum_coeff]
  simp only [coeff_C_mul, coeff_X_pow, mul_ite, mul_one, mul_zero]
  rw [Finset.sum_ite_eq]
  simp

theorem taylorPoly_natDegree (D : ℕ → ℝ → ℝ) (m : ℕ) : (taylorPoly D (m + 1)).natDegree ≤ m := by
  rw [natDegree_le_iff_coeff_eq_zero]
  intro k hk
  rw [taylorPoly_coeff, if_neg (by omega)]

/-- Taylor's theorem with a bound on the remainder. -/
theorem taylor_bound : ∀ {m : ℕ} {f : ℝ → ℝ} {D : ℕ → ℝ → ℝ}, HasDerivatives m f D → ∀ {M : ℝ}, (∀ x ∈ I, |D m x| ≤ M) →
    ∀ {x : ℝ}, x ∈ I → |D 0 x - (taylorPoly D m).eval x| ≤ M / m.factorial * |x| ^ m := by
  intro m
  induction m with
  | zero => intro f D h M hM x hx; simpa [taylorPoly] using hM x hx
  | succ m ih =>
    intro f D h M hM x hx
    have hs := HasDerivatives.sub_poly h (taylorPoly D (m + 1))
    have := growth (f := fun x => f x - (taylorPoly D (m + 1)).eval x) (M := M) (n := m)
      (D := fun k x => D k x - (derivative^[k] (taylorPoly D (m + 1))).eval x)
      ⟨hs.zero, fun k hk => hs.succ k (by omega)⟩
      (by rw [Function.iterate_zero_apply, taylorPoly_eval_zero, sub_self])
      (fun t ht => by
        rw [Function.iterate_one, taylorPoly_derivative]
        exact ih (HasDerivatives.shift h) hM ht) hx
    simpa using this

theorem continuousOn_of_derivatives {m : ℕ} {f : ℝ → ℝ} {D : ℕ → ℝ → ℝ} (h : HasDerivatives (m + 1) f D) : ContinuousOn f I :=
  ContinuousOn.congr (fun x hx => (h.succ 0 (by omega) x hx).continuousWithinAt) fun x hx => (h.zero x hx).symm

/-- The error of a rule with nonnegative weights that is exact, up to `τ`, for polynomials of degree `m`. -/
theorem rule_error {N m : ℕ} {c w : Fin N → ℝ} {τ : ℝ} (hτ : 0 ≤ τ) (hc : ∀ i, c i ∈ I) (hw : ∀ i, 0 ≤ w i)
    (hex : ∀ p : ℝ[X], p.natDegree ≤ m → |∑ i, w i * p.eval (c i) - ∫ x in (-1 : ℝ)..1, p.eval x|
      ≤ τ * ∑ k ∈ Finset.range (m + 1), |p.coeff k|)
    {f : ℝ → ℝ} {M A : ℝ} (hf : TaylorBounded (m + 1) f M A) :
    |∑ i, w i * f (c i) - ∫ x in (-1 : ℝ)..1, f x| ≤ (4 + τ) * (M / (m + 1).factorial) + τ * A := by
  obtain ⟨D, h, hM, hA⟩ := hf
  have hM0 : 0 ≤ M := (abs_nonneg _).trans (hM 0 ⟨by norm_num, by norm_num⟩)
  set p := taylorPoly D (m + 1) with hp
  set B := M / (m + 1).factorial with hB
  have hB0 : 0 ≤ B := by positivity
  have hdiff : ∀ x ∈ I, |f x - p.eval x| ≤ B := fun x hx => by
    have h1 := taylor_bound h hM hx
    rw [h.zero x hx] at h1
    refine h1.trans ?_
    have : |x| ^ (m + 1) ≤ 1 := pow_le_one₀ (abs_nonneg _) (abs_le.2 hx)
    nlinarith
  have hsum : ∑ i, w i ≤ 2 + τ := by
    have h1 := hex 1 (by simp)
    simp only [eval_one, mul_one, coeff_one] at h1
    have h2 : ∑ k ∈ Finset.range (m + 1), |(if k = 0 then (1 : ℝ) else 0)| = 1 := by
      rw [Finset.sum_eq_single 0] <;> simp +contextual
    rw [h2, mul_one, intervalIntegral.integral_const, smul_eq_mul, mul_one] at h1
    have := (abs_le.1 h1).2
    linarith
  have hpoly := hex p (taylorPoly_natDegree D m)
  have hcoef : ∑ k ∈ Finset.range (m + 1), |p.coeff k| ≤ A := by
    refine le_trans (le_of_eq (Finset.sum_congr rfl fun k hk => ?_)) hA
    rw [hp, taylorPoly_coeff, if_pos (Finset.mem_range.1 hk), abs_div, Nat.abs_cast]
  have hfi : IntervalIntegrable f volume (-1) 1 :=
    (continuousOn_of_derivatives h).intervalIntegrable_of_Icc (by norm_num)
  have hpi : IntervalIntegrable (fun x => p.eval x) volume (-1) 1 := p.continuous.intervalIntegrable _ _
  have hint : |∫ x in (-1 : ℝ)..1, (f x - p.eval x)| ≤ B * 2 := by
    have := intervalIntegral.norm_integral_le_of_norm_le_const (a := (-1 : ℝ)) (b := 1) (f := fun x => f x - p.eval x) (C := B)
      (fun x hx => by
        rw [Set.uIoc_of_le (by norm_num)] at hx
        exact hdiff x ⟨hx.1.le, hx.2⟩)
    rw [Real.norm_eq_abs] at this
    refine this.trans (le_of_eq ?_)
    norm_num
  rw [intervalIntegral.integral_sub hfi hpi] at hint
  have hq : |∑ i, w i * (f (c i) - p.eval (c i))| ≤ (2 + τ) * B := by
    refine (Finset.abs_sum_le_sum_abs _ _).trans ?_
    calc ∑ i, |w i * (f (c i) - p.eval (c i))| ≤ ∑ i, w i * B := Finset.sum_le_sum fun i _ => by
          rw [abs_mul, abs_of_nonneg (hw i)]
          exact mul_le_mul_of_nonneg_left (hdiff _ (hc i)) (hw i)
      _ = (∑ i, w i) * B := by rw [Finset.sum_mul]
      _ ≤ _ := by gcongr
  simp only [mul_sub, Finset.sum_sub_distrib] at hq
  have htot : τ * ∑ k ∈ Finset.range (m + 1), |p.coeff k| ≤ τ * A := mul_le_mul_of_nonneg_left hcoef hτ
  have e : ∑ i, w i * f (c i) - ∫ x in (-1 : ℝ)..1, f x
      = (∑ i, w i * f (c i) - ∑ i, w i * p.eval (c i)) + (∑ i, w i * p.eval (c i) - ∫ x in (-1 : ℝ)..1, p.eval x)
        + -((∫ x in (-1 : ℝ)..1, f x) - ∫ x in (-1 : ℝ)..1, p.eval x) := by ring
  rw [e]
  refine (abs_add_three _ _ _).trans ?_
  rw [abs_neg]
  linarith

/-! ### several directions -/

theorem insertNth_continuous {d : ℕ} (a : Fin (d + 1)) : Continuous fun z : ℝ × (Fin d → ℝ) => a.insertNth (α := fun _ => ℝ) z.1 z.2 := by
  refine continuous_pi fun k => ?_
  revert k
  rw [Fin.forall_iff_succAbove a]
  refine ⟨?_, fun k => ?_⟩
  · simp only [Fin.insertNth_apply_same]; exact continuous_fst
  · simp only [Fin.insertNth_apply_succAbove]; exact (continuous_apply k).comp continuous_snd

theorem preimage_cube {d : ℕ} : (fun z : ℝ × (Fin d → ℝ) => (0 : Fin (d + 1)).insertNth (α := fun _ => ℝ) z.1 z.2) ⁻¹' cube (d + 1) = I ×ˢ cube d := by
  ext z
  constructor
  · intro h
    have h0 := h 0
    beta_reduce at h0
    rw [Fin.insertNth_apply_same] at h0
    refine ⟨h0, fun k => ?_⟩
    have := h (Fin.succAbove 0 k)
    beta_reduce at this
    rwa [Fin.insertNth_apply_succAbove] at this
  · rintro ⟨h1, h2⟩
    exact insertNth_cube h1 h2

section fubini
variable {d : ℕ} {f : (Fin (d + 1) → ℝ) → ℝ}

theorem integrableOn_insert (hf : ContinuousOn f (cube (d + 1))) :
    IntegrableOn (fun z : ℝ × (Fin d → ℝ) => f ((0 : Fin (d + 1)).insertNth (α := fun _ => ℝ) z.1 z.2)) (I ×ˢ cube d)
      ((volume : Measure ℝ).prod volume) := by
  refine ContinuousOn.integrableOn_compact (isCompact_Icc.prod cube_compact) ?_
  refine hf.comp (insertNth_continuous 0).continuousOn fun z hz => ?_
  rw [← preimage_cube] at hz
  exact hz

theorem integral_cube_succ (hf : ContinuousOn f (cube (d + 1))) :
    ∫ ξ in cube (d + 1), f ξ
      = ∫ y in cube d, ∫ t in (-1 : ℝ)..1, f ((0 : Fin (d + 1)).insertNth (α := fun _ => ℝ) t y) := by
  set e := MeasurableEquiv.piFinSuccAbove (fun _ : Fin (d + 1) => ℝ) 0 with he
  have hem : MeasurePreserving e.symm := (volume_preserving_piFinSuccAbove (fun _ : Fin (d + 1) => ℝ) 0).symm _
  have hsymm : ∀ z, e.symm z = (0 : Fin (d + 1)).insertNth (α := fun _ => ℝ) z.1 z.2 := fun z => rfl
  have h1 := hem.setIntegral_preimage_emb e.symm.measurableEmbedding f (cube (d + 1))
  have h2 : e.symm ⁻¹' cube (d + 1) = I ×ˢ cube d := preimage_cube
  rw [h2] at h1
  rw [← h1]
  have hi := integrableOn_insert hf
  rw [IntegrableOn, ← Measure.prod_restrict] at hi
  calc _ = ∫ z in I ×ˢ cube d, f ((0 : Fin (d + 1)).insertNth (α := fun _ => ℝ) z.1 z.2) ∂((volume : Measure ℝ).prod volume) := rfl
    _ = ∫ y in cube d, ∫ t in I, f ((0 : Fin (d + 1)).insertNth (α := fun _ => ℝ) t y) := by
        rw [← Measure.prod_restrict]
        exact integral_prod_symm _ hi
    _ = _ := by
        refine setIntegral_congr_fun cube_compact.measurableSet fun y _ => ?_

        rw [intervalIntegral.integral_of_le (by norm_num), integral_Icc_eq_integral_Ioc]

theorem integrableOn_inner (hf : ContinuousOn f (cube (d + 1))) :
    IntegrableOn (fun y => ∫ t in (-1 : ℝ)..1, f ((0 : Fin (d + 1)).insertNth (α := fun _ => ℝ) t y)) (cube d) := by
  have hi := integrableOn_insert hf
  rw [IntegrableOn, ← Measure.prod_restrict] at hi
  have := hi.integral_prod_right
  refine this.congr (Filter.Eventually.of_forall fun y => ?_)
  beta_reduce
  rw [intervalIntegral.integral_of_le (by norm_num), integral_Icc_eq_integral_Ioc]

end fubini

theorem cube_volume (d : ℕ) : (volume : Measure (Fin d → ℝ)).real (cube d) = 2 ^ d := by
  have h := integral_monomial_cube (fun _ : Fin d => 0)
  simp only [pow_zero, Finset.prod_const_one] at h
  rw [setIntegral_const, smul_eq_mul, mul_one] at h
  rw [h, intervalIntegral.integral_const]
  norm_num

theorem tensor_quadrature_error {W : ℝ} (hW : 2 ≤ W) : ∀ {d : ℕ} {n : Fin d → ℕ} (w c : (k : Fin d) → Fin (n k) → ℝ) (ε : Fin d → ℝ)
    (f : (Fin d → ℝ) → ℝ), (∀ k j, c k j ∈ I) → ContinuousOn f (cube d) → (∀ k, ∑ i, |w k i| ≤ W) → (∀ k, 0 ≤ ε k) →
    (∀ k, ∀ y ∈ cube d, |∑ j, w k j * f (Function.update y k (c k j)) - ∫ t in (-1 : ℝ)..1, f (Function.update y k t)| ≤ ε k) →
    |∑ idx : (k : Fin d) → Fin (n k), (∏ k, w k (idx k)) * f (fun k => c k (idx k)) - ∫ ξ in cube d, f ξ|
      ≤ W ^ (d - 1) * ∑ k, ε k := by
  intro d
  induction d with
  | zero =>
    intro n w c ε f _ _ _ _ _
    rw [Fintype.sum_unique]
    have hc : cube 0 = Set.univ := Set.eq_univ_of_forall fun ξ k => k.elim0
    have h1 := cube_volume 0
    rw [hc] at h1
    rw [hc, setIntegral_univ, integral_unique, h1]
    simp only [Finset.univ_eq_empty, Finset.prod_empty, Finset.sum_empty, one_mul, pow_zero, one_smul, mul_zero]
    rw [show (fun k => c k ((default : (k : Fin 0) → Fin (n k)) k)) = default from funext fun k => k.elim0]
    exact le_of_eq (by rw [abs_eq_zero, sub_eq_zero]; exact congrArg f (Subsingleton.elim _ _))
  | succ d ih =>
    intro n w c ε f hc hf hw hε0 hε
    rw [sum_insertNth 0]
    simp only [insertNth_points c 0]
    have hcont : ∀ t ∈ I, ContinuousOn (fun y => f ((0 : Fin (d + 1)).insertNth (α := fun _ => ℝ) t y)) (cube d) := fun t ht =>
      hf.comp ((insertNth_continuous 0).comp (continuous_const.prodMk continuous_id)).continuousOn fun y hy => insertNth_cube ht hy
    have hrest := fun j : Fin (n 0) => ih (n := fun k => n (Fin.succAbove 0 k)) (fun k => w (Fin.succAbove 0 k)) (fun k => c (Fin.succAbove 0 k))
      (fun k => ε (Fin.succAbove 0 k)) (fun y => f ((0 : Fin (d + 1)).insertNth (α := fun _ => ℝ) (c 0 j) y))
      (fun k i => hc _ i) (hcont _ (hc 0 j)) (fun k => hw _) (fun k => hε0 _) (fun k y hy => by
        have := hε (Fin.succAbove 0 k) ((0 : Fin (d + 1)).insertNth (α := fun _ => ℝ) (c 0 j) y) (insertNth_cube (hc 0 j) hy)
        simpa only [Fin.insertNth_update] using this)
    rw [integral_cube_succ hf, Fin.sum_univ_succAbove _ 0]
    set E := ∑ k : Fin d, ε (Fin.succAbove 0 k) with hE
    have hE0 : 0 ≤ E := Finset.sum_nonneg fun k _ => hε0 _
    -- the first direction, integrated over the others
    have hfirst : |(∑ j, w 0 j * ∫ y in cube d, f ((0 : Fin (d + 1)).insertNth (α := fun _ => ℝ) (c 0 j) y))
        - ∫ y in cube d, ∫ t in (-1 : ℝ)..1, f ((0 : Fin (d + 1)).insertNth (α := fun _ => ℝ) t y)| ≤ ε 0 * 2 ^ d := by
      have hj : ∀ j : Fin (n 0), IntegrableOn (fun y => w 0 j * f ((0 : Fin (d + 1)).insertNth (α := fun _ => ℝ) (c 0 j) y)) (cube d) := fun j =>
        ((hcont _ (hc 0 j)).integrableOn_compact cube_compact).const_mul _
      have e : (∑ j, w 0 j * ∫ y in cube d, f ((0 : Fin (d + 1)).insertNth (α := fun _ => ℝ) (c 0 j) y))
          - ∫ y in cube d, ∫ t in (-1 : ℝ)..1, f ((0 : Fin (d + 1)).insertNth (α := fun _ => ℝ) t y)
          = ∫ y in cube d, (∑ j, w 0 j * f ((0 : Fin (d + 1)).insertNth (α := fun _ => ℝ) (c 0 j) y)
            - ∫ t in (-1 : ℝ)..1, f ((0 : Fin (d + 1)).insertNth (α := fun _ => ℝ) t y)) := by
        rw [integral_sub (integrable_finsetSum _ fun j _ => hj j) (integrableOn_inner hf), integral_finsetSum _ fun j _ => hj j]
        simp only [integral_const_mul]
      rw [e, ← Real.norm_eq_abs, ← cube_volume d]
      refine norm_setIntegral_le_of_norm_le_const cube_compact.measure_lt_top fun y hy => ?_
      have := hε 0 ((0 : Fin (d + 1)).insertNth (α := fun _ => ℝ) 0 y) (insertNth_cube ⟨by norm_num, by norm_num⟩ hy)
      simp only [Fin.update_insertNth] at this
      exact this
    have hWp : (2 : ℝ) ^ d ≤ W ^ d := pow_le_pow_left₀ (by norm_num) hW d
    have hstep : W * (W ^ (d - 1) * E) ≤ W ^ d * E := by
      cases d with
      | zero => simp [hE]
      | succ d => rw [Nat.add_sub_cancel, pow_succ]; exact le_of_eq (by ring)
    calc _ = |∑ j, w 0 j * (∑ r : (k : Fin d) → Fin (n (Fin.succAbove 0 k)), (∏ k, w (Fin.succAbove 0 k) (r k)) *
              f ((0 : Fin (d + 1)).insertNth (α := fun _ => ℝ) (c 0 j) fun k => c (Fin.succAbove 0 k) (r k))
              - ∫ y in cube d, f ((0 : Fin (d + 1)).insertNth (α := fun _ => ℝ) (c 0 j) y))
            + ((∑ j, w 0 j * ∫ y in cube d, f ((0 : Fin (d + 1)).insertNth (α := fun _ => ℝ) (c 0 j) y))
              - ∫ y in cube d, ∫ t in (-1 : ℝ)..1, f ((0 : Fin (d + 1)).insertNth (α := fun _ => ℝ) t y))| := by
          congr 1
          simp only [mul_sub, Finset.sum_sub_distrib]
          ring
      _ ≤ W * (W ^ (d - 1) * E) + ε 0 * 2 ^ d := by
          refine (abs_add_le _ _).trans (add_le_add ?_ hfirst)
          refine (Finset.abs_sum_le_sum_abs _ _).trans ?_
          calc _ ≤ ∑ j, |w 0 j| * (W ^ (d - 1) * E) := Finset.sum_le_sum fun j _ => by
                rw [abs_mul]
                exact mul_le_mul_of_nonneg_left (hrest j) (abs_nonneg _)
            _ = (∑ j, |w 0 j|) * (W ^ (d - 1) * E) := by rw [Finset.sum_mul]
            _ ≤ _ := mul_le_mul_of_nonneg_right (hw 0) (by positivity)
      _ ≤ W ^ d * E + W ^ d * ε 0 := by
          refine add_le_add hstep ?_
          rw [mul_comm]
          exact mul_le_mul_of_nonneg_right hWp (hε0 0)
      _ = _ := by rw [Nat.add_sub_cancel]; ring

end Verif.Lemmas
