import Verif.Props.FloatVolume
import Verif.Props.QuadratureError
import Verif.Props.TotalError
import Verif.Spec.QuadratureTruncation

/-!
# Property C139: the whole error of integrating a smooth function in `float` and `double`

The points and weights are those of the shipped rules in `float` or `double`, as are the determinants and the interpolated values; the sum over the
quadrature points belongs to the user and is taken exactly.
-/

namespace Verif.Props

open Verif.Spec Verif.Lemmas MeasureTheory

private theorem ofReal_inj {x y : ℝ} (h : (Res.ok (Flt.ofReal x) : Res Flt) = .ok (Flt.ofReal y)) : x = y :=
  Datum.finite.inj (congrArg Flt.datum (Res.ok.inj h))

/-- The points and weights of a rule in `T`, and its exactness. -/
private theorem float_rule (T : RealType) (r : Rule) (n : ℕ) (h : r.Points n) :
    ∃ q w : Fin n → ℝ,
      (∀ i : Fin n, (r.quadratureIn T.arith n).coordCT (i : ℕ) = .ok (Flt.ofReal (q i))) ∧
      (∀ i : Fin n, (r.quadratureIn T.arith n).weightCT (i : ℕ) = .ok (Flt.ofReal (w i))) ∧
      (∀ i, q i ∈ Set.Icc (-1 : ℝ) 1) ∧ (∀ i, 0 ≤ w i) ∧
      ∀ p : Polynomial ℝ, p.natDegree ≤ r.degree n → |∑ i, w i * p.eval (q i) - ∫ x in (-1 : ℝ)..1, p.eval x|
          ≤ (2 * unitRoundoff T.format + literalError n) * ∑ k ∈ Finset.range (r.degree n + 1), |p.coeff k| := by
  obtain ⟨q, w, h1, h2, h3, -, -, h4⟩ := C87_rules T r n h
  refine ⟨q, w, h1, h2, fun i => ?_, fun i => (h3 i).2.2.le, h4⟩
  obtain ⟨m, rfl⟩ : ∃ m, n = m + 1 := ⟨n - 1, by cases r <;> (have := h.1; omega)⟩
  obtain ⟨p, hp, -, hc⟩ := C100_points T r.family m (by cases r <;> (have := h.1; omega))
    (by cases r <;> (have := h.2; omega)) (by
      cases r
      · exact ⟨by have := h.1; omega, by have := h.2; omega⟩
      · exact ⟨by have := h.1; omega, by have := h.2; omega⟩)
  have e : q i = p i := ofReal_inj ((h1 i).symm.trans ((congrFun (rule_coord T.arith r ((m + 1 : ℕ) : Int)).2 _).trans (hc i)))
  rw [e]
  exact abs_le.1 (hp i)

private theorem accuracy_nonneg (T : RealType) (n : ℕ) : 0 ≤ 2 * unitRoundoff T.format + literalError n := by
  have := roundoff_nonneg T.format
  unfold literalError
  split <;> positivity

section
variable {d : ℕ} {T : RealType} (r : Fin d → Rule) (n : Fin d → ℕ) (hn : ∀ k, (r k).Points (n k)) {τ : ℝ} (hτ0 : 0 ≤ τ)
  (hτ : ∀ k, 2 * unitRoundoff T.format + literalError (n k) ≤ τ)
include hn hτ0 hτ

/-- The rules, for exact values and for values with an error. -/
private theorem rules :
    ∃ q w : (k : Fin d) → Fin (n k) → ℝ,
      (∀ k (i : Fin (n k)), ((r k).quadratureIn T.arith (n k)).coordCT (i : ℕ) = .ok (Flt.ofReal (q k i))) ∧
      (∀ k (i : Fin (n k)), ((r k).quadratureIn T.arith (n k)).weightCT (i : ℕ) = .ok (Flt.ofReal (w k i))) ∧
      (∀ p : (k : Fin d) → Fin (n k), (fun k => q k (p k)) ∈ cube d) ∧
      ∀ (f : (Fin d → ℝ) → ℝ) (M A : Fin d → ℝ), ContinuousOn f (cube d) →
        (∀ k, ∀ y ∈ cube d, TaylorBounded ((r k).degree (n k) + 1) (fun t => f (Function.update y k t)) (M k) (A k)) →
        ∀ (v : ((k : Fin d) → Fin (n k)) → ℝ) (η : ℝ), 0 ≤ η → (∀ p, |v p - f (fun k => q k (p k))| ≤ η) →
        |∑ p : (k : Fin d) → Fin (n k), (∏ k, w k (p k)) * v p - ∫ ξ in cube d, f ξ|
          ≤ quadratureTruncation r n τ M A + (2 + τ) ^ d * η := by
  choose q w h1 h2 h3 h4 h5 using fun k => float_rule T (r k) (n k) (hn k)
  refine ⟨q, w, h1, h2, fun p k => h3 k (p k), fun f M A hf hT v η hη hv => ?_⟩
  have h0 : (0 : Fin d → ℝ) ∈ cube d := fun k => ⟨by simp, by simp⟩
  have hM : ∀ k, 0 ≤ M k ∧ 0 ≤ A k := fun k => by
    obtain ⟨D, -, hM, hA⟩ := hT k 0 h0
    exact ⟨(abs_nonneg _).trans (hM 0 ⟨by norm_num, by norm_num⟩), (Finset.sum_nonneg fun _ _ => by positivity).trans hA⟩
  have hW : ∀ k, ∑ i, w k i ≤ 2 + τ := fun k => by
    have h := h5 k 1 (by simp)
    simp only [Polynomial.eval_one, mul_one, Polynomial.coeff_one] at h
    have h2 : ∑ j ∈ Finset.range ((r k).degree (n k) + 1), |(if j = 0 then (1 : ℝ) else 0)| = 1 := by
      rw [Finset.sum_eq_single 0] <;> simp +contextual
    rw [h2, mul_one, intervalIntegral.integral_const, smul_eq_mul, mul_one] at h
    have := (abs_le.1 h).2
    linarith [hτ k]
  have hexact : |∑ p : (k : Fin d) → Fin (n k), (∏ k, w k (p k)) * f (fun k => q k (p k)) - ∫ ξ in cube d, f ξ|
      ≤ quadratureTruncation r n τ M A := by
    refine tensor_quadrature_error (by linarith) w q _ f h3 hf (fun k => ?_) (fun k => ?_) fun k y hy => ?_
    · rw [Finset.sum_congr rfl fun i _ => abs_of_nonneg (h4 k i)]
      exact hW k
    · have h1 := (hM k).1
      have h2 := (hM k).2
      positivity
    · refine (rule_error (accuracy_nonneg _ _) (h3 k) (h4 k) (h5 k) (hT k y hy)).trans ?_
      have h1 := (hM k).1
      have h2 := (hM k).2
      have h3 := hτ k
      gcongr
  have hw : ∑ p : (k : Fin d) → Fin (n k), ∏ k, w k (p k) ≤ (2 + τ) ^ d := by
    have e : ∑ p : (k : Fin d) → Fin (n k), ∏ k, w k (p k) = ∏ k, ∑ j, w k j := by
      rw [Finset.prod_univ_sum, Fintype.piFinset_univ]
    rw [e]
    calc ∏ k, ∑ j, w k j ≤ ∏ _k : Fin d, (2 + τ) :=
          Finset.prod_le_prod (fun k _ => Finset.sum_nonneg fun j _ => h4 k j) fun k _ => hW k
      _ = (2 + τ) ^ d := by simp
  have hsum : |∑ p : (k : Fin d) → Fin (n k), (∏ k, w k (p k)) * v p
      - ∑ p : (k : Fin d) → Fin (n k), (∏ k, w k (p k)) * f (fun k => q k (p k))| ≤ (2 + τ) ^ d * η := by
    rw [← Finset.sum_sub_distrib]
    refine (Finset.abs_sum_le_sum_abs _ _).trans ?_
    calc _ ≤ ∑ p : (k : Fin d) → Fin (n k), (∏ k, w k (p k)) * η := by
          refine Finset.sum_le_sum fun p _ => ?_
          have hp : 0 ≤ ∏ k, w k (p k) := Finset.prod_nonneg fun k _ => h4 k (p k)
          rw [← mul_sub, abs_mul, abs_of_nonneg hp]
          exact mul_le_mul_of_nonneg_left (hv p) hp
      _ = (∑ p : (k : Fin d) → Fin (n k), ∏ k, w k (p k)) * η := (Finset.sum_mul _ _ _).symm
      _ ≤ _ := mul_le_mul_of_nonneg_right hw hη
  have := abs_sub_le (∑ p : (k : Fin d) → Fin (n k), (∏ k, w k (p k)) * v p)
    (∑ p : (k : Fin d) → Fin (n k), (∏ k, w k (p k)) * f (fun k => q k (p k))) (∫ ξ in cube d, f ξ)
  linarith

/-- **C139, parent cell.** With the points and weights of shipped rules in `float` or `double`, and values `v` that are off by at most `η`: the weighted sum is
the integral of `f` over the parent cell up to the truncation error of the rules, the accuracy `τ` of points and weights, and `η` times the sum of the weights. -/
theorem C139_parent :
    ∃ q w : (k : Fin d) → Fin (n k) → ℝ,
      (∀ k (i : Fin (n k)), ((r k).quadratureIn T.arith (n k)).coordCT (i : ℕ) = .ok (Flt.ofReal (q k i))) ∧
      (∀ k (i : Fin (n k)), ((r k).quadratureIn T.arith (n k)).weightCT (i : ℕ) = .ok (Flt.ofReal (w k i))) ∧
      ∀ (f : (Fin d → ℝ) → ℝ) (M A : Fin d → ℝ), ContinuousOn f (cube d) →
        (∀ k, ∀ y ∈ cube d, TaylorBounded ((r k).degree (n k) + 1) (fun t => f (Function.update y k t)) (M k) (A k)) →
        ∀ (v : ((k : Fin d) → Fin (n k)) → ℝ) (η : ℝ), 0 ≤ η → (∀ p, |v p - f (fun k => q k (p k))| ≤ η) →
        |∑ p : (k : Fin d) → Fin (n k), (∏ k, w k (p k)) * v p - ∫ ξ in cube d, f ξ|
          ≤ quadratureTruncation r n τ M A + (2 + τ) ^ d * η := by
  obtain ⟨q, w, h1, h2, -, h3⟩ := rules r n hn hτ0 hτ
  exact ⟨q, w, h1, h2, h3⟩

/-- **C139, interpolated functions.** If the values at the quadrature points are interpolated from nodal values of `f`, which are off by at most `δ`, the error
`η` is that of C135: truncation, at most `E` in the cell, amplified error of the nodal values, and rounding. -/
theorem C139_interpolated (hd : d ≤ 3) {fam : Fin d → Family} {order : Fin d → ℕ} {e : Element Flt} (h : IsShippedAs T fam order e)
    {c : (k : Fin d) → Fin (order k + 1) → ℝ}
    (hc : ∀ k (i : Fin (order k + 1)), ((fam k).spacingIn T.arith ((order k + 1 : ℕ) : Int)).coordCT (i : ℕ) = .ok (Flt.ofReal (c k i)))
    (f : (Fin d → ℝ) → ℝ) (hcont : ContinuousOn f (cube d)) (M A L : Fin d → ℝ)
    (hT : ∀ k, ∀ y ∈ cube d, TaylorBounded ((r k).degree (n k) + 1) (fun t => f (Function.update y k t)) (M k) (A k))
    (hL : ∀ k, ∀ y ∈ cube d, DerivativeBounded (order k + 1) (fun t => f (Function.update y k t)) (L k))
    {E : ℝ} (hE : ∀ x ∈ cube d, truncation fam order c L x ≤ E)
    (var : List Int → Res Flt) (y : ((k : Fin d) → Fin (order k + 1)) → ℝ) (hy : ∀ idx, var (tup idx) = .ok (Flt.ofReal (y idx)))
    {Y δ : ℝ} (hY1 : 1 ≤ Y) (hY2 : Y ≤ 2 ^ 56) (hY : ∀ idx, |y idx| ≤ Y)
    (hδ : ∀ idx : (k : Fin d) → Fin (order k + 1), |y idx - f (fun k => c k (idx k))| ≤ δ) :
    ∃ (q w : (k : Fin d) → Fin (n k) → ℝ) (v : ((k : Fin d) → Fin (n k)) → ℝ),
      (∀ k (i : Fin (n k)), ((r k).quadratureIn T.arith (n k)).coordCT (i : ℕ) = .ok (Flt.ofReal (q k i))) ∧
      (∀ k (i : Fin (n k)), ((r k).quadratureIn T.arith (n k)).weightCT (i : ℕ) = .ok (Flt.ofReal (w k i))) ∧
      (∀ p, ∃ x, ParentElement.value (floatArith T.format) e (List.ofFn fun k => Flt.ofReal (q k (p k))) var = .ok x ∧ x.datum = .finite (v p)) ∧
      |∑ p : (k : Fin d) → Fin (n k), (∏ k, w k (p k)) * v p - ∫ ξ in cube d, f ξ|
        ≤ quadratureTruncation r n τ M A + (2 + τ) ^ d * (E + valueFactor fam order * δ
          + (errBound (unitRoundoff T.format) (interpolationRoundings order) * (valueFactor fam order * Y) + 2 ^ 66 * Y * smallestPositive T.format)) := by
  obtain ⟨q, w, h1, h2, h3, h4⟩ := rules r n hn hτ0 hτ
  have point := fun p : (k : Fin d) → Fin (n k) =>
    C135_value h hd hc f L hL var y hy hY1 hY2 hY hδ (fun k => q k (p k)) (fun k => abs_le.2 (h3 p k))
  choose x v e1 e2 e3 using point
  have e4 := fun p => (e3 p).trans (add_le_add_left (add_le_add_left (hE _ (h3 p)) _) _)
  refine ⟨q, w, v, h1, h2, fun p => ⟨x p, e1 p, e2 p⟩, h4 f M A hcont hT v _ ?_ e4⟩
  have h0 : (0 : Fin d → ℝ) ∈ cube d := fun k => ⟨by simp, by simp⟩
  obtain ⟨-, v0, -, -, g⟩ := C135_value h hd hc f L hL var y hy hY1 hY2 hY hδ 0 (fun k => by simp)
  exact (abs_nonneg _).trans (g.trans (add_le_add_left (add_le_add_left (hE _ h0) _) _))

end

section cell
variable {T : RealType} {order : Fin 3 → ℕ} {c : (k : Fin 3) → Fin (order k + 1) → ℝ}
  {t : LinearTransform Flt} {X : ((k : Fin 3) → Fin (order k + 1)) → Fin 3 → ℝ}

/-- **C139, cells.** For a three-dimensional cell as in C125 whose determinant is between zero and `K`, and values `v`, at most `V`, that are off from `f` at the
images of the quadrature points by at most `η`: the sum of weights, values and computed determinants is the integral of `f` over the cell up to the
truncation error for `f` times the determinant in parent coordinates, the error of the determinants and the error of the values. -/
theorem C139_cell (h : IsShippedIn T order c t.shape) (hX : HoldsPoints t.data fun idx i => Flt.ofReal (X idx i))
    (cfg : Config) {C : ℝ} (hC1 : 1 ≤ C) (hC : C ^ 3 ≤ 2 ^ 120) (hXC : ∀ idx i, |X idx i| ≤ C)
    (hB : ∀ ξ ∈ cube 3, ∀ i j, cellMagnitude c X ξ i j ≤ C)
    (hinj : Set.InjOn (cellMap c X) (cube 3)) {K : ℝ} (hK : ∀ ξ ∈ cube 3, ∀ D, IsDerivative (cellMap c X) D ξ → 0 ≤ D.det ∧ D.det ≤ K)
    (r : Fin 3 → Rule) (n : Fin 3 → ℕ) (hn : ∀ k, (r k).Points (n k))
    {τ : ℝ} (hτ0 : 0 ≤ τ) (hτ : ∀ k, 2 * unitRoundoff T.format + literalError (n k) ≤ τ)
    (f g : (Fin 3 → ℝ) → ℝ) (hg : ∀ ξ D, IsDerivative (cellMap c X) D ξ → g ξ = f (cellMap c X ξ) * D.det) (hcont : ContinuousOn g (cube 3))
    (M A : Fin 3 → ℝ) (hT : ∀ k, ∀ y ∈ cube 3, TaylorBounded ((r k).degree (n k) + 1) (fun t => g (Function.update y k t)) (M k) (A k)) :
    ∃ (q w : (k : Fin 3) → Fin (n k) → ℝ) (det : ((k : Fin 3) → Fin (n k)) → ℝ),
      (∀ k (i : Fin (n k)), ((r k).quadratureIn T.arith (n k)).coordCT (i : ℕ) = .ok (Flt.ofReal (q k i))) ∧
      (∀ k (i : Fin (n k)), ((r k).quadratureIn T.arith (n k)).weightCT (i : ℕ) = .ok (Flt.ofReal (w k i))) ∧
      (∀ p, ∃ x after, LinearTransform.inverseJacobianValue cfg (floatArith T.format) t
          (List.ofFn fun k => Flt.ofReal (q k (p k))) = .ok (x, after) ∧ x.datum = .finite (det p)) ∧
      ∀ (v : ((k : Fin 3) → Fin (n k)) → ℝ) (V η : ℝ), (∀ p, |v p| ≤ V) → (∀ p, |v p - f (cellMap c X fun k => q k (p k))| ≤ η) →
        |∑ p : (k : Fin 3) → Fin (n k), (∏ k, w k (p k)) * (v p * det p) - ∫ y in cellMap c X '' cube 3, f y|
          ≤ quadratureTruncation r n τ M A + (2 + τ) ^ 3 * (V * (errBound (unitRoundoff T.format) (3 * gradientRoundings order + 5) * (6 * C ^ 3)
              + 2 ^ 84 * C ^ 3 * smallestPositive T.format) + η * K) := by
  have hu0 : 0 ≤ unitRoundoff T.format := roundoff_nonneg T.format
  obtain ⟨q, w, h1, h2, h3, h4⟩ := rules r n hn hτ0 hτ
  have hC2 : C ^ 2 * 1 ≤ 2 ^ 120 := by
    refine le_trans ?_ hC
    rw [mul_one]
    exact pow_le_pow_right₀ hC1 (by norm_num)
  obtain ⟨E, hE⟩ : ∃ E, E = errBound (unitRoundoff T.format) (3 * gradientRoundings order + 5) * (6 * C ^ 3)
              + 2 ^ 84 * C ^ 3 * smallestPositive T.format := ⟨_, rfl⟩
  have point : ∀ p : (k : Fin 3) → Fin (n k), ∃ y x after D, IsDerivative (cellMap c X) D (fun k => q k (p k)) ∧
      LinearTransform.inverseJacobianValue cfg (floatArith T.format) t
          (List.ofFn fun k => Flt.ofReal (q k (p k))) = .ok (x, after) ∧ x.datum = .finite y ∧ |y - D.det| ≤ E := by
    intro p
    obtain ⟨D, x, after, hD, e1, ⟨y, e2, e3⟩, -⟩ := C101_inverseJacobian h hX cfg (fun k => q k (p k))
      (fun k => abs_le.2 (h3 p k)) hC1 hC hXC (hB _ (h3 p)) (le_refl (1 : ℝ)) hC2
    refine ⟨y, x, after, D, hD, e1, e2, ?_⟩
    rw [hE]
    refine e3.trans (add_le_add_left (mul_le_mul_of_nonneg_left ?_ (errBound_nonneg hu0 _)) _)
    exact detMagnitude_le (fun i j => cellMagnitude_nonneg i j) (hB _ (h3 p))
  choose det x after D hD e1 e2 e3 using point
  refine ⟨q, w, det, h1, h2, fun p => ⟨x p, after p, e1 p, e2 p⟩, fun v V η hV hη => ?_⟩
  rw [← hE]
  have hdet : ∀ ξ, IsDerivative (cellMap c X) (Matrix.of fun i j => MvPolynomial.eval ξ (MvPolynomial.pderiv j (mapPoly c X i))) ξ ∧
      (Matrix.of fun i j => MvPolynomial.eval ξ (MvPolynomial.pderiv j (mapPoly c X i))).det = MvPolynomial.eval ξ (jacobianPoly (mapPoly c X)).det := by
    intro ξ
    refine ⟨fun i => ?_, (eval_det _ _).symm⟩
    simp only [cellMap_eval]
    exact hasFDerivAt_eval (mapPoly c X i) ξ
  have e : cellMap c X = fun ξ i => MvPolynomial.eval ξ (mapPoly c X i) := by
    funext ξ i; exact cellMap_eval ξ i
  have hint : ∫ ξ in cube 3, g ξ = ∫ y in cellMap c X '' cube 3, f y := by
    have k1 := integral_image (mapPoly c X) (e ▸ hinj) (fun ξ hξ => by
      rw [← (hdet ξ).2]
      exact (hK ξ hξ _ (hdet ξ).1).1) f
    rw [e, ← k1]
    refine congrArg (fun F : (Fin 3 → ℝ) → ℝ => ∫ ξ in cube 3, F ξ) (funext fun ξ => ?_)
    rw [hg ξ _ (hdet ξ).1, (hdet ξ).2, e]
  rw [← hint]
  obtain ⟨p0⟩ : Nonempty ((k : Fin 3) → Fin (n k)) := ⟨fun k => ⟨0, by
    have := hn k
    rcases hr : r k with _ | _ <;> rw [hr] at this <;> (have := this.1; omega)⟩⟩
  have hV0 := (abs_nonneg _).trans (hV p0)
  have hη0 := (abs_nonneg _).trans (hη p0)
  have hE0 := (abs_nonneg _).trans (e3 p0)
  have hK0 : 0 ≤ K := (hK _ (h3 p0) _ (hD p0)).1.trans (hK _ (h3 p0) _ (hD p0)).2
  refine h4 g M A hcont hT _ _ (by positivity) fun p => ?_
  rw [hg _ _ (hD p), show v p * det p - f (cellMap c X fun k => q k (p k)) * (D p).det
    = v p * (det p - (D p).det) + (v p - f (cellMap c X fun k => q k (p k))) * (D p).det by ring]
  refine (abs_add_le _ _).trans ?_
  rw [abs_mul, abs_mul]
  have k2 := hK _ (h3 p) _ (hD p)
  exact add_le_add (mul_le_mul (hV p) (e3 p) (abs_nonneg _) hV0)
    (mul_le_mul (hη p) (by rw [abs_of_nonneg k2.1]; exact k2.2) (abs_nonneg _) hη0)

end cell

/-! ### non-vacuity -/

/-- The Taylor coefficients of the cosine of the sum of the coordinates, along one of them. -/
private theorem cos_taylor {d : ℕ} (k : Fin d) (z : Fin d → ℝ) : TaylorBounded 6 (fun t => Real.cos (∑ j, Function.update z k t j)) 1 3 := by
  have hs : ∀ t, ∑ j, Function.update z k t j = t + ∑ j ∈ Finset.univ \ {k}, z j := fun t => Finset.sum_update_of_mem (Finset.mem_univ k) z t
  simp only [hs]
  refine ⟨fun i t => Real.cos (t + ∑ j ∈ Finset.univ \ {k}, z j + i * (Real.pi / 2)), ⟨fun t _ => by simp, fun i _ t _ => ?_⟩,
    fun t _ => Real.abs_cos_le_one _, ?_⟩
  · have h1 : HasDerivAt (fun t : ℝ => t + ∑ j ∈ Finset.univ \ {k}, z j + i * (Real.pi / 2)) 1 t :=
      ((hasDerivAt_id t).add_const _).add_const _
    refine (h1.cos.congr_deriv ?_).hasDerivWithinAt
    push_cast
    rw [show t + ∑ j ∈ Finset.univ \ {k}, z j + ((i : ℝ) + 1) * (Real.pi / 2) = t + ∑ j ∈ Finset.univ \ {k}, z j + i * (Real.pi / 2) + Real.pi / 2 by ring,
      Real.cos_add_pi_div_two, mul_one]
  · refine (Finset.sum_le_sum fun i _ => div_le_div_of_nonneg_right (Real.abs_cos_le_one _) (by positivity)).trans ?_
    norm_num [Finset.sum_range_succ, Nat.factorial]

private theorem cos_second {d : ℕ} (k : Fin d) (z : Fin d → ℝ) : DerivativeBounded 2 (fun t => Real.cos (∑ j, Function.update z k t j)) 1 := by
  have hs : ∀ t, ∑ j, Function.update z k t j = t + ∑ j ∈ Finset.univ \ {k}, z j := fun t => Finset.sum_update_of_mem (Finset.mem_univ k) z t
  simp only [hs]
  refine ⟨fun i t => Real.cos (t + ∑ j ∈ Finset.univ \ {k}, z j + i * (Real.pi / 2)), ⟨fun t _ => by simp, fun i _ t _ => ?_⟩,
    fun t _ => Real.abs_cos_le_one _⟩
  have h1 : HasDerivAt (fun t : ℝ => t + ∑ j ∈ Finset.univ \ {k}, z j + i * (Real.pi / 2)) 1 t :=
    ((hasDerivAt_id t).add_const _).add_const _
  refine (h1.cos.congr_deriv ?_).hasDerivWithinAt
  push_cast
  rw [show t + ∑ j ∈ Finset.univ \ {k}, z j + ((i : ℝ) + 1) * (Real.pi / 2) = t + ∑ j ∈ Finset.univ \ {k}, z j + i * (Real.pi / 2) + Real.pi / 2 by ring,
    Real.cos_add_pi_div_two, mul_one]

private theorem cos_continuous {d : ℕ} : Continuous fun ξ : Fin d → ℝ => Real.cos (∑ j, ξ j) := by fun_prop

private theorem three_points (T : RealType) : (∀ _k : Fin 3, Rule.gaussLegendre.Points 3) ∧
    (∀ _k : Fin 3, 2 * unitRoundoff T.format + literalError 3 ≤ 2 * unitRoundoff T.format) ∧
    quadratureTruncation (fun _ : Fin 3 => .gaussLegendre) (fun _ => 3) (2 * unitRoundoff T.format) (fun _ => 1) (fun _ => 3) ≤ 7 / 100 ∧
    (2 + 2 * unitRoundoff T.format) ^ 3 ≤ 9 := by
  have h0 := roundoff_nonneg T.format
  have h1 := formats_unit T
  have h2 : unitRoundoff T.format ≤ 1 / 10 ^ 6 := by norm_num at h1 ⊢; linarith
  refine ⟨fun _ => ⟨by norm_num, by norm_num⟩, fun _ => by simp [literalError], ?_, ?_⟩
  · rw [quadratureTruncation]
    simp only [Rule.degree, Fin.sum_univ_three, Nat.factorial]
    have h3 : (2 + 2 * unitRoundoff T.format) ^ 2 ≤ (2 + 2 / 10 ^ 6) ^ 2 := by gcongr; linarith
    refine (mul_le_mul h3 (d := 3 * ((4 + 2 / 10 ^ 6) / 720 + 6 / 10 ^ 6)) ?_ (by positivity) (by positivity)).trans (by norm_num)
    norm_num at h2 ⊢
    linarith
  · calc (2 + 2 * unitRoundoff T.format) ^ 3 ≤ (2 + 2 / 10 ^ 6) ^ 3 := by gcongr; linarith
      _ ≤ 9 := by norm_num

/-- Non-vacuity of `C139_parent`: the cosine of the sum of the coordinates and three Gauss-Legendre points in each of three directions. -/
example (T : RealType) : ∃ q w : Fin 3 → Fin 3 → ℝ,
    (∀ k (i : Fin 3), (Rule.gaussLegendre.quadratureIn T.arith 3).coordCT (i : ℕ) = .ok (Flt.ofReal (q k i))) ∧
    (∀ k (i : Fin 3), (Rule.gaussLegendre.quadratureIn T.arith 3).weightCT (i : ℕ) = .ok (Flt.ofReal (w k i))) ∧
    ∀ v : (Fin 3 → Fin 3) → ℝ, (∀ p, |v p - Real.cos (∑ k, q k (p k))| ≤ 1 / 1000) →
      |∑ p : Fin 3 → Fin 3, (∏ k, w k (p k)) * v p - ∫ ξ in cube 3, Real.cos (∑ k, ξ k)| ≤ 8 / 100 := by
  obtain ⟨t1, t2, t3, t4⟩ := three_points T
  obtain ⟨q, w, h1, h2, h3⟩ := C139_parent (T := T) (fun _ : Fin 3 => .gaussLegendre) (fun _ => 3) t1
    (by have := roundoff_nonneg T.format; positivity) t2
  refine ⟨q, w, h1, h2, fun v hv => ?_⟩
  have := h3 (fun ξ => Real.cos (∑ j, ξ j)) (fun _ => 1) (fun _ => 3) cos_continuous.continuousOn (fun k y _ => cos_taylor k y) v (1 / 1000) (by norm_num) hv
  refine this.trans ?_
  linarith

/-- The two Gauss-Lobatto points, and an element of order one. -/
private theorem linear_element (T : RealType) :
    (∀ i : Fin (1 + 1), (Family.gaussLobatto.spacingIn T.arith ((1 + 1 : ℕ) : Int)).coordCT (i : ℕ) = .ok (Flt.ofReal ((![-1, 1] : Fin 2 → ℝ) i))) ∧
    ∃ e : Element Flt, IsShippedAs T (fun _ : Fin 3 => .gaussLobatto) (fun _ => 1) e := by
  have hc : ∀ i : Fin (1 + 1), (Family.gaussLobatto.spacingIn T.arith ((1 + 1 : ℕ) : Int)).coordCT (i : ℕ)
      = .ok (Flt.ofReal ((![-1, 1] : Fin 2 → ℝ) i)) := by
    intro i
    fin_cases i
    · have := knownFamily_sound (T := T) (fam := .gaussLobatto) (n := 2) (i := 0) (q := -1) (by cases T <;> decide +kernel)
      simpa using this
    · have := knownFamily_sound (T := T) (fam := .gaussLobatto) (n := 2) (i := 1) (q := 1) (by cases T <;> decide +kernel)
      simpa using this
  obtain ⟨b, hb, -⟩ := C100_basis T .gaussLobatto (order := 1) le_rfl (by norm_num) ⟨by norm_num, by norm_num⟩ hc
  exact ⟨hc, ⟨.ok (3 : ℕ), List.ofFn fun _ : Fin 3 => b⟩, by norm_num, rfl, fun _ => ⟨⟨by norm_num, by norm_num⟩, le_rfl, by norm_num⟩, fun _ => b, rfl,
    fun _ => hb⟩

private theorem middle_truncation {x : Fin 3 → ℝ} (hx : x ∈ cube 3) :
    truncation (fun _ : Fin 3 => .gaussLobatto) (fun _ => 1) (fun _ => ![-1, 1]) (fun _ => 1) x ≤ 2 := by
  have h : ∀ k : Fin 3, lineTruncation (fun _ => 1) (fun _ => ![-1, 1]) (fun _ => 1) x k ≤ 1 / 2 := by
    intro k
    have h1 : (-1 : ℝ) ≤ x k := (hx k).1
    have h2 : x k ≤ 1 := (hx k).2
    have : ∏ i : Fin 2, |x k - (![-1, 1] : Fin 2 → ℝ) i| ≤ 1 := by
      rw [Fin.prod_univ_two]
      simp only [Matrix.cons_val_zero, Matrix.cons_val_one]
      rw [abs_of_nonneg (by linarith), abs_of_nonpos (by linarith)]
      nlinarith [sq_nonneg (x k)]
    rw [lineTruncation]
    calc (1 : ℝ) / ((1 + 1).factorial : ℕ) * ∏ i : Fin 2, |x k - (![-1, 1] : Fin 2 → ℝ) i| ≤ 1 / ((1 + 1).factorial : ℕ) * 1 :=
          mul_le_mul_of_nonneg_left this (by positivity)
      _ ≤ 1 / 2 := by norm_num [Nat.factorial]
  unfold truncation
  rw [Fin.sum_univ_three]
  rw [show (Finset.univ.filter fun j : Fin 3 => j < 0) = ∅ by decide, show (Finset.univ.filter fun j : Fin 3 => j < 1) = {0} by decide,
    show (Finset.univ.filter fun j : Fin 3 => j < 2) = {0, 1} by decide]
  simp only [Finset.prod_empty, Finset.prod_singleton, Finset.prod_pair (show (0 : Fin 3) ≠ 1 by decide), Family.amplification]
  norm_num
  linarith [h 0, h 1, h 2]

/-- Non-vacuity of `C139_interpolated`: the same function, interpolated from the vertices, where its values are given as zero with an error of 1. -/
example (T : RealType) : ∃ (e : Element Flt) (q w : Fin 3 → Fin 3 → ℝ) (v : (Fin 3 → Fin 3) → ℝ),
    IsShippedAs T (fun _ : Fin 3 => .gaussLobatto) (fun _ => 1) e ∧
    (∀ k (i : Fin 3), (Rule.gaussLegendre.quadratureIn T.arith 3).coordCT (i : ℕ) = .ok (Flt.ofReal (q k i))) ∧
    (∀ p, ∃ x, ParentElement.value (floatArith T.format) e (List.ofFn fun k => Flt.ofReal (q k (p k))) (fun _ => .ok (Flt.ofReal 0)) = .ok x ∧
      x.datum = .finite (v p)) ∧
    |∑ p : Fin 3 → Fin 3, (∏ k, w k (p k)) * v p - ∫ ξ in cube 3, Real.cos (∑ k, ξ k)| ≤ quadratureTruncation (fun _ : Fin 3 => .gaussLegendre) (fun _ => 3)
        (2 * unitRoundoff T.format) (fun _ => 1) (fun _ => 3) + (2 + 2 * unitRoundoff T.format) ^ 3 *
      (2 + valueFactor (fun _ : Fin 3 => .gaussLobatto) (fun _ => 1) * 1
        + (errBound (unitRoundoff T.format) (interpolationRoundings fun _ : Fin 3 => 1) * (valueFactor (fun _ : Fin 3 => .gaussLobatto) (fun _ => 1) * 1)
          + 2 ^ 66 * 1 * smallestPositive T.format)) := by
  obtain ⟨t1, t2, -, -⟩ := three_points T
  obtain ⟨hc, e, he⟩ := linear_element T
  obtain ⟨q, w, v, h1, -, h3, h4⟩ := C139_interpolated (T := T) (fun _ : Fin 3 => .gaussLegendre) (fun _ => 3) t1
    (by have := roundoff_nonneg T.format; positivity) t2 le_rfl he (c := fun _ => ![-1, 1]) (fun _ => hc) (fun ξ => Real.cos (∑ j, ξ j))
    cos_continuous.continuousOn (fun _ => 1) (fun _ => 3) (fun _ => 1) (fun k y _ => cos_taylor k y)
    (fun k y _ => cos_second k y)
    (fun x hx => middle_truncation hx) (fun _ => .ok (Flt.ofReal 0)) (fun _ => 0) (fun _ => rfl) le_rfl (by norm_num) (fun _ => by simp)
    (δ := 1) (fun idx => by rw [zero_sub, abs_neg]; exact Real.abs_cos_le_one _)
  exact ⟨e, q, w, v, he, h1, h3, h4⟩

/-- Non-vacuity of `C139_cell`: the same function on the parent cube. -/
example (T : RealType) (cfg : Config) : ∃ (t : LinearTransform Flt) (q w : Fin 3 → Fin 3 → ℝ) (det : (Fin 3 → Fin 3) → ℝ),
    (∀ k (i : Fin 3), (Rule.gaussLegendre.quadratureIn T.arith 3).coordCT (i : ℕ) = .ok (Flt.ofReal (q k i))) ∧
    (∀ k (i : Fin 3), (Rule.gaussLegendre.quadratureIn T.arith 3).weightCT (i : ℕ) = .ok (Flt.ofReal (w k i))) ∧
    (∀ p, ∃ x after, LinearTransform.inverseJacobianValue cfg (floatArith T.format) t
        (List.ofFn fun k => Flt.ofReal (q k (p k))) = .ok (x, after) ∧ x.datum = .finite (det p)) ∧
    ∀ v : (Fin 3 → Fin 3) → ℝ, (∀ p, |v p| ≤ 1) → (∀ p, |v p - Real.cos (∑ k, q k (p k))| ≤ 1 / 1000) →
      |∑ p : Fin 3 → Fin 3, (∏ k, w k (p k)) * (v p * det p) - ∫ y in cube 3, Real.cos (∑ k, y k)| ≤ 1 / 10 := by
  obtain ⟨t1, t2, t3, t4⟩ := three_points T
  obtain ⟨t, h, hX⟩ := sample_cell_in T
  have hid : cellMap (order := fun _ : Fin 3 => 1) (fun _ => ![-1, 1]) (fun (idx : Fin 3 → Fin 2) i => (![-1, 1] : Fin 2 → ℝ) (idx i)) = id :=
    funext fun ξ => funext fun i => identity_cell_map i ξ
  have h1 : ∀ (idx : Fin 3 → Fin 2) (i : Fin 3), |(![-1, 1] : Fin 2 → ℝ) (idx i)| ≤ 1 := by
    intro idx i
    have a : ∀ a : Fin 2, a = 0 ∨ a = 1 := by decide
    rcases a (idx i) with e | e <;> simp [e]
  have hdet : ∀ ξ D, IsDerivative (cellMap (order := fun _ : Fin 3 => 1) (fun _ => ![-1, 1])
      fun (idx : Fin 3 → Fin 2) i => (![-1, 1] : Fin 2 → ℝ) (idx i)) D ξ → D.det = 1 := by
    intro ξ D hD
    have : D = 1 := by
      ext i j
      rw [derivative_entry hD, ← derivative_entry (identity_cell_derivative ξ)]
    rw [this, Matrix.det_one]
  obtain ⟨q, w, det, e1, e2, e3, e4⟩ := C139_cell (C := 1) h hX cfg le_rfl (by norm_num) h1 (fun ξ hξ => hexahedron_magnitude (fun k => ⟨rfl, rfl⟩) h1 hξ)
    (by rw [hid]; exact Function.injective_id.injOn) (K := 1) (fun ξ _ D hD => by rw [hdet ξ D hD]; norm_num)
    (fun _ : Fin 3 => .gaussLegendre) (fun _ => 3) t1 (by have := roundoff_nonneg T.format; positivity) t2
    (fun ξ => Real.cos (∑ j, ξ j)) (fun ξ => Real.cos (∑ j, ξ j)) (fun ξ D hD => by rw [hdet ξ D hD, hid, mul_one]; rfl)
    cos_continuous.continuousOn (fun _ => 1) (fun _ => 3) (fun k y _ => cos_taylor k y)
  refine ⟨t, q, w, det, e1, e2, e3, fun v hv1 hv2 => ?_⟩
  have e5 := e4 v 1 (1 / 1000) hv1 (fun p => by rw [hid]; exact hv2 p)
  rw [hid, Set.image_id] at e5
  refine e5.trans ?_
  have hu0 := roundoff_nonneg T.format
  have hu := formats_unit T
  have k1 : errBound (unitRoundoff T.format) (3 * gradientRoundings (fun _ : Fin 3 => 1) + 5) ≤ 418 * unitRoundoff T.format := by
    rw [show gradientRoundings (fun _ : Fin 3 => 1) = 68 by decide, errBound]
    have := pow_roundoff_le hu0 (3 * 68 + 5) (by norm_num at hu ⊢; linarith)
    norm_num at this ⊢
    linarith
  have k2 : 2 ^ 84 * smallestPositive T.format ≤ 1 / 10 ^ 6 := by
    have := formats_tiny T
    rw [← tiny_smallest]
    norm_num at this ⊢
    linarith
  have k3 : (2 + 2 * unitRoundoff T.format) ^ 3 * (1 * (errBound (unitRoundoff T.format) (3 * gradientRoundings (fun _ : Fin 3 => 1) + 5) * (6 * 1 ^ 3)
      + 2 ^ 84 * 1 ^ 3 * smallestPositive T.format) + 1 / 1000 * 1) ≤ 9 * (2 / 1000) := by
    refine mul_le_mul t4 ?_ ?_ (by norm_num)
    · norm_num at k1 k2 hu ⊢
      linarith
    · have := errBound_nonneg hu0 (3 * gradientRoundings (fun _ : Fin 3 => 1) + 5)
      have := smallest_pos T.format
      positivity
  linarith

end Verif.Props
