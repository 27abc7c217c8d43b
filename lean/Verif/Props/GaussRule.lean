import Verif.Lemmas.GaussTables

/-!
# Property C90: the tables against the exact Gauss rules

The exact rule has irrational points and weights; the tables are decimals, then rounded to `REAL_TYPE`.
-/

namespace Verif.Props

open Verif.Spec Verif.Lemmas Polynomial

/-- **C90, the exact rule.** For every number of points of the tables there is exactly one rule with the defining points
that integrates all polynomials of degree `2 n - 1` (Gauss-Legendre) or `2 n - 3` (Gauss-Lobatto). -/
theorem C90_exact_rule (r : Rule) (n : ℕ) (h : r.Points n) :
    ∃ x w : Fin n → ℝ, ExactRule r n x w ∧ ∀ y v, ExactRule r n y v → y = x ∧ v = w := by
  obtain ⟨x, hx, -, -⟩ := exactRule_near h
  exact ⟨x, _, hx, fun y v hy => exactRule_unique (points_le h).1 hy hx⟩

private theorem close_of {a b : ℚ} {x d e : ℝ} {d' e' : ℚ} (h : |a - b| + d' ≤ e') (hx : |(b : ℝ) - x| ≤ d)
    (hd : (d' : ℝ) = d) (he : (e' : ℝ) = e) : |(a : ℝ) - x| ≤ e := by
  have h1 : (((|a - b| + d' : ℚ)) : ℝ) ≤ (e' : ℚ) := Rat.cast_le.2 h
  push_cast at h1
  rw [hd, he] at h1
  have h2 := abs_add_le ((a : ℝ) - b) ((b : ℝ) - x)
  rw [sub_add_sub_cancel] at h2
  linarith

private theorem toReal {n : ℕ} {f : Int → Res ℚ} {g : Int → Res ℝ}
    (hom : ∀ i, g i = (fun q : ℚ => (q : ℝ)) <$> f i) (h : AllOk n f) (i : Fin n) :
    g (i : ℕ) = .ok ((val (f (i : ℕ)) : ℚ) : ℝ) := by
  rw [hom, h i]; rfl

/-- **C90, the literals.** The literals are the points and weights of the exact rule: with two to five points to
`5 * 10^-39` (points) and `5 * 10^-35` (weights), with six to nine points to `1.5 * 10^-14` and `10^-14`. -/
theorem C90_literals (r : Rule) (n : ℕ) (h : r.Points n) (x w : Fin n → ℝ) (hx : ExactRule r n x w) (i : Fin n) :
    ∃ c v : ℝ, (r.quadrature (exactArith ℝ) n).coordCT (i : ℕ) = .ok c ∧
      (r.quadrature (exactArith ℝ) n).weightCT (i : ℕ) = .ok v ∧
      |c - x i| ≤ (if n ≤ 5 then 5 / 10 ^ 39 else 15 / 10 ^ 15) ∧
      |v - w i| ≤ (if n ≤ 5 then 5 / 10 ^ 35 else 1 / 10 ^ 14) := by
  have hm := mem_tableSizes h
  have hr := mem_rules r
  obtain ⟨y, hy, h1, h2⟩ := exactRule_near h
  obtain ⟨rfl, rfl⟩ := exactRule_unique (points_le h).1 hx hy
  refine ⟨_, _, ?_, ?_, close_of (source_coordinates r hr n hm i) (h1 i) (by norm_num) ?_,
    close_of (source_weights r hr n hm i) (h2 i) (by norm_num) ?_⟩
  · cases r
    · exact toReal (legendre_coordCT_hom ratCast_hom n) (source_known _ hr n hm) i
    · exact toReal (lobatto_coordCT_hom ratCast_hom n) (source_known _ hr n hm) i
  · cases r
    · exact toReal (legendre_weightCT_hom ratCast_hom n) (sourceWeight_known _ hr n hm) i
    · exact toReal (lobatto_weightCT_hom ratCast_hom n) (sourceWeight_known _ hr n hm) i
  · split_ifs <;> norm_num
  · split_ifs <;> norm_num

private theorem coordCT_eq {T : RealType} {r : Rule} {n : ℕ} (h : r.Points n) (i : Fin n) :
    (r.quadratureIn T.arith n).coordCT (i : ℕ) = .ok (Flt.ofReal (val (knownCT T r n (i : ℕ)) : ℚ)) := by
  rw [(rule_coord T.arith r n).2]
  exact knownCT_sound ((tables_known T (mem_types T) r (mem_rules r) n (mem_tableSizes h)).1 i)

private theorem weightCT_eq {T : RealType} {r : Rule} {n : ℕ} (h : r.Points n) (i : Fin n) :
    (r.quadratureIn T.arith n).weightCT (i : ℕ) = .ok (Flt.ofReal (val (knownWeightCT T r n (i : ℕ)) : ℚ)) :=
  knownWeightCT_sound ((tables_known T (mem_types T) r (mem_rules r) n (mem_tableSizes h)).2 i)

/-- **C90, partial.** In `float` all points and weights are within one unit roundoff of the exact rule; in `double` those of the
rules with two to five points. -/
theorem C90_accurate_partial (T : RealType) (r : Rule) (n : ℕ) (h : r.Points n) (hn : T = .double → n ≤ 5) :
    T.AccurateRule r n := by
  intro x w hx i
  obtain ⟨y, hy, h1, h2⟩ := exactRule_near h
  obtain ⟨rfl, rfl⟩ := exactRule_unique (points_le h).1 hx hy
  have hk := near_known T (mem_types T) r (mem_rules r) n (mem_tableSizes h) (by
    rintro ⟨hT, h6⟩; have := hn hT; omega) i
  refine ⟨_, _, coordCT_eq h i, weightCT_eq h i, ?_, ?_⟩
  · simpa [RealType.Accurate] using within_of (by norm_num) hk.1 (by simpa using h1 i) (exactRule_zero h hx h1 i)
  · simpa [RealType.Accurate] using within_of (by norm_num) hk.2 (by simpa using h2 i)
      fun h0 => absurd h0 (nearWeight_ne_zero r (mem_rules r) n (mem_tableSizes h) i)

/-- **C90, run time.** The run-time accessors give the points to one and a half units roundoff and the weights to one, for all
numbers of points they support. -/
theorem C90_runtime (T : RealType) (r : Rule) (n : ℕ) (h : r.RuntimePoints n) (x w : Fin n → ℝ)
    (hx : ExactRule r n x w) (i : Fin n) : ∃ c v : ℝ,
    (r.quadratureIn T.arith n).coordRT (i : ℕ) = .ok (Flt.ofReal c) ∧
    (r.quadratureIn T.arith n).weightRT (i : ℕ) = .ok (Flt.ofReal v) ∧ T.Within (3 / 2) c (x i) ∧ T.Accurate v (w i) := by
  have hP : r.Points n := by cases r <;> obtain ⟨ha, hb⟩ := h <;> exact ⟨by omega, by omega⟩
  obtain ⟨y, hy, h1, h2⟩ := exactRule_near hP
  obtain ⟨rfl, rfl⟩ := exactRule_unique (points_le hP).1 hx hy
  have hm := mem_runtimeSizes h
  have hk := near_runtime T (mem_types T) r (mem_rules r) n hm i
  have hok := runtime_known T (mem_types T) r (mem_rules r) n hm
  refine ⟨_, _, by rw [(rule_coord T.arith r n).1]; exact knownRT_sound (hok.1 i), knownWeightRT_sound (hok.2 i), ?_, ?_⟩
  · simpa using within_of (by norm_num) hk.1 (by simpa using h1 i) (exactRule_zero hP hx h1 i)
  · simpa [RealType.Accurate] using within_of (by norm_num) hk.2 (by simpa using h2 i)
      fun h0 => absurd h0 (nearWeight_ne_zero r (mem_rules r) n (mem_tableSizes hP) i)

/-- **C90 fails in `double` with six points or more.** In each of the four rules some point and its weight are not the
numbers of the exact rule to the accuracy of `double`. -/
theorem C90_violated (n : ℕ) (h : 6 ≤ n) (h' : n ≤ 9) :
    ∃ x w : Fin n → ℝ, ExactRule .gaussLobatto n x w ∧ ∃ (i : Fin n) (c v : ℝ),
      (Rule.gaussLobatto.quadratureIn RealType.double.arith n).coordCT (i : ℕ) = .ok (Flt.ofReal c) ∧
      (Rule.gaussLobatto.quadratureIn RealType.double.arith n).weightCT (i : ℕ) = .ok (Flt.ofReal v) ∧
      ¬ RealType.double.Accurate c (x i) ∧ ¬ RealType.double.Accurate v (w i) := by
  have hP : Rule.gaussLobatto.Points n := ⟨by omega, h'⟩
  obtain ⟨x, hx, h1, h2⟩ := exactRule_near hP
  obtain ⟨i, hc, hv⟩ := far_known n (by simp only [List.mem_cons, List.not_mem_nil, or_false]; omega)
  exact ⟨x, _, hx, i, _, _, coordCT_eq hP i, weightCT_eq hP i, not_accurate_of hc (by simpa using h1 i),
    not_accurate_of hv (by simpa using h2 i)⟩

/-- The claim of C90 is false. -/
theorem C90_accurate_violated : ¬ ∀ (T : RealType) (r : Rule) (n : ℕ), r.Points n → T.AccurateRule r n := by
  intro hall
  obtain ⟨x, w, hx, i, c, v, hc, -, hna, -⟩ := C90_violated 7 (by norm_num) (by norm_num)
  obtain ⟨c', v', hc', -, ha, -⟩ := hall .double .gaussLobatto 7 ⟨by norm_num, by norm_num⟩ x w hx i
  rw [hc] at hc'
  have e := Res.ok.inj hc'
  have : c = c' := by simpa [Flt.ofReal] using e
  exact hna (this ▸ ha)

/-- Non-vacuity: the exact two-point Lobatto rule is the trapezoidal rule. -/
example : ExactRule .gaussLobatto 2 ![-1, 1] ![1, 1] := by
  have hroot : ∀ t : ℝ, (Rule.gaussLobatto.nodePoly 2).eval t = 0 ↔ t = -1 ∨ t = 1 := by
    intro t
    simp only [Rule.nodePoly, lobattoPoly, show 2 - 1 = 1 from rfl, legendre, derivative_X, eval_sub, eval_one, eval_pow, eval_X, mul_one]
    constructor
    · intro h
      have : (t + 1) * (t - 1) = 0 := by linarith
      rcases mul_eq_zero.1 this with h | h
      · left; linarith
      · right; linarith
    · rintro (rfl | rfl) <;> norm_num
  refine ⟨?_, fun t => ?_, fun p hp => ?_⟩
  · intro i j hij
    fin_cases i <;> fin_cases j <;> simp_all
  · rw [hroot, Fin.exists_fin_two]; simp
  · simp only [Rule.degree] at hp
    rw [Fin.sum_univ_two]
    have e : p = C (p.coeff 0) + C (p.coeff 1) * X := by
      rw [add_comm]; exact eq_X_add_C_of_natDegree_le_one (by omega)
    rw [e]
    simp only [eval_add, eval_mul, eval_C, eval_X]
    rw [intervalIntegral.integral_add (by simp) (Continuous.intervalIntegrable (by fun_prop) _ _),
      intervalIntegral.integral_const_mul]
    simp
    ring

end Verif.Props
