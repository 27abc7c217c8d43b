import Verif.Lemmas.Piola
import Verif.Props.PhysicalGradient
import Verif.Props.SummationByParts

/-!
# Property C120: the gradient theorem holds on curved cells
-/

namespace Verif.Props

open Verif.Spec Verif.Lemmas MvPolynomial

variable {F : Fin (2 + 1) → RuleFamily} {N : Fin (2 + 1) → ℕ} {p w : (k : Fin (2 + 1)) → Fin (N k) → ℝ}

theorem grid_points_le (h : IsGrid F N p w) (k : Fin (2 + 1)) (i : Fin (N k)) : |p k i| ≤ 1 := by
  have hs := h.supported k
  have hp := h.points k
  generalize F k = G at hs hp
  cases G with
  | gaussLegendre =>
    obtain ⟨c', h1, -, -, h2⟩ := C24_gaussLegendre_coordinates (N k) hs.1 hs.2
    have e1 : p k = c' := funext fun i => Res.ok.inj ((hp i).symm.trans (h1 i))
    rw [e1, abs_le]
    exact ⟨(h2 i).1.le, (h2 i).2.le⟩
  | gaussLobatto =>
    obtain ⟨c', h1, -, -, h2, -⟩ := C24_gaussLobatto_coordinates (N k) hs.1 hs.2
    have e1 : p k = c' := funext fun i => Res.ok.inj ((hp i).symm.trans (h1 i))
    rw [e1, abs_le]
    exact h2 i

private theorem tolerance_pos (F : RuleFamily) (N : ℕ) : 0 ≤ F.tolerance N := by
  cases F <;> simp only [RuleFamily.tolerance]
  · positivity
  · split <;> positivity

/-- The weights of the other directions, summed over a face. -/
private noncomputable def faceWeight (w : (k : Fin (2 + 1)) → Fin (N k) → ℝ) (a : Fin (2 + 1)) : ℝ :=
  ∑ r : (l : Fin 2) → Fin (N (a.succAbove l)), ∏ l, w (a.succAbove l) (r l)

/-- The divergence theorem for the quadrature rules on the parent cube. -/
private theorem divergence (hg : IsGrid F N p w) (f : Fin (2 + 1) → MvPolynomial (Fin (2 + 1)) ℝ)
    (hdeg : ∀ a, (pderiv a (f a)).degreeOf a ≤ (F a).degree (N a)) :
    |(∑ q : (k : Fin (2 + 1)) → Fin (N k), (∏ k, w k (q k)) * ∑ a, eval (fun k => p k (q k)) (pderiv a (f a)))
        - faceSum p w (fun a ξ => eval ξ (f a))|
      ≤ ∑ a, (F a).tolerance (N a) * faceWeight w a * coeffSum (pderiv a (f a)) := by
  unfold faceSum
  simp only [Finset.mul_sum]
  rw [Finset.sum_comm, ← Finset.sum_sub_distrib]
  refine (Finset.abs_sum_le_sum_abs _ _).trans (Finset.sum_le_sum fun a _ => ?_)
  rw [sum_insertNth a]
  simp only [Finset.mul_sum]
  rw [Finset.sum_comm, ← Finset.sum_sub_distrib]
  refine (Finset.abs_sum_le_sum_abs _ _).trans ?_
  unfold faceWeight
  rw [Finset.mul_sum, Finset.sum_mul]
  refine Finset.sum_le_sum fun r _ => ?_
  have hW : 0 ≤ ∏ l, w (a.succAbove l) (r l) := Finset.prod_nonneg fun l _ => ((grid_facts hg).2.2 _ _).le
  obtain ⟨z, hz⟩ : ∃ z : Fin 2 → ℝ, z = fun l => p (a.succAbove l) (r l) := ⟨_, rfl⟩
  have hz1 : ∀ l, |z l| ≤ 1 := fun l => by rw [hz]; exact grid_points_le hg _ _
  have hface : ∀ t, facePoint p a r t = a.insertNth (α := fun _ => ℝ) t z := fun t => by rw [hz]; rfl
  have e : (∑ i : Fin (N a), w a i * ((∏ l, w (a.succAbove l) (r l)) *
        eval (fun k => p k (a.insertNth (α := fun k => Fin (N k)) i r k)) (pderiv a (f a))))
      = (∏ l, w (a.succAbove l) (r l)) * ∑ i, w a i * (Polynomial.derivative (alongLine a z (f a))).eval (p a i) := by
    rw [Finset.mul_sum]
    refine Finset.sum_congr rfl fun i _ => ?_
    rw [insertNth_points, alongLine_derivative, alongLine_eval, hz]
    ring
  rw [e, ← mul_sub, abs_mul, abs_of_nonneg hW, hface, hface, ← alongLine_eval, ← alongLine_eval, ← integral_derivative,
    mul_assoc, mul_left_comm]
  refine mul_le_mul_of_nonneg_left ?_ hW
  have hd : (Polynomial.derivative (alongLine a z (f a))).natDegree ≤ (F a).degree (N a) := by
    rw [alongLine_derivative]
    exact alongLine_natDegree a z (hdeg a)
  refine (rule_exact (hg.supported a) (hg.points a) (hg.weights a) _ hd).trans (mul_le_mul_of_nonneg_left ?_ ?_)
  · rw [alongLine_derivative]
    exact alongLine_coeffs a z hz1 _ _
  · exact tolerance_pos _ _

private theorem weight_coeffs (n : ℕ) : ∑ m ∈ Finset.range (n + 1), |(1 : Polynomial ℝ).coeff m| = 1 := by
  rw [Finset.sum_eq_single 0]
  · simp
  · intro m _ hm; simp [Polynomial.coeff_one, hm]
  · simp

private theorem faceWeight_le (hg : IsGrid F N p w) {ε : ℝ} (htol : ∀ k, (F k).tolerance (N k) ≤ ε) (a : Fin (2 + 1)) :
    faceWeight w a ≤ (2 + ε) ^ 2 := by
  have h1 : ∀ k, ∑ i, w k i ≤ 2 + ε := fun k => by
    have := rule_exact (hg.supported k) (hg.points k) (hg.weights k) 1 (by simp)
    rw [weight_coeffs, mul_one] at this
    simp only [Polynomial.eval_one, mul_one, intervalIntegral.integral_const, smul_eq_mul] at this
    have := (abs_le.1 this).2
    have := htol k
    linarith
  have e : faceWeight w a = ∏ l : Fin 2, ∑ i, w (a.succAbove l) i := by
    unfold faceWeight
    rw [Fintype.prod_sum]
  rw [e]
  calc _ ≤ ∏ _l : Fin 2, (2 + ε) := Finset.prod_le_prod
        (fun l _ => Finset.sum_nonneg fun i _ => ((grid_facts hg).2.2 _ i).le) fun l _ => h1 _
    _ = _ := by simp

private theorem divergence_le (hg : IsGrid F N p w) {ε : ℝ} (htol : ∀ k, (F k).tolerance (N k) ≤ ε)
    (f : Fin (2 + 1) → MvPolynomial (Fin (2 + 1)) ℝ)
    (hdeg : ∀ a, (pderiv a (f a)).degreeOf a ≤ (F a).degree (N a)) :
    |(∑ q : (k : Fin (2 + 1)) → Fin (N k), (∏ k, w k (q k)) * ∑ a, eval (fun k => p k (q k)) (pderiv a (f a)))
        - faceSum p w (fun a ξ => eval ξ (f a))|
      ≤ ε * (2 + ε) ^ 2 * ∑ a, coeffSum (pderiv a (f a)) := by
  refine (divergence hg f hdeg).trans ?_
  rw [Finset.mul_sum]
  refine Finset.sum_le_sum fun a _ => mul_le_mul_of_nonneg_right ?_ (coeffSum_nonneg _)
  have h0 : 0 ≤ faceWeight w a := Finset.sum_nonneg fun r _ => Finset.prod_nonneg fun l _ =>
    ((grid_facts hg).2.2 _ _).le
  exact mul_le_mul (htol a) (faceWeight_le hg htol a) h0 ((tolerance_pos _ _).trans (htol a))

variable {order : Fin (2 + 1) → ℕ} {c : (k : Fin (2 + 1)) → Fin (order k + 1) → ℝ} {t : LinearTransform ℝ}
  {X : ((k : Fin (2 + 1)) → Fin (order k + 1)) → Fin (2 + 1) → ℝ}

/-- What `inverseJacobian` computes, in terms of the polynomials of the cell. -/
theorem inverse_facts (h : IsLagrange order c t.shape) (hX : HoldsPoints t.data X) (cfg : Config) :
    ∃ Inv : (Fin 3 → ℝ) → Matrix (Fin 3) (Fin 3) ℝ,
      ∀ ξ, eval ξ (jacobianPoly (mapPoly c X)).det ≠ 0 →
        (∃ m, LinearTransform.inverseJacobianValue cfg (exactArith ℝ) t (List.ofFn ξ)
          = .ok (eval ξ (jacobianPoly (mapPoly c X)).det, .ok m) ∧ HoldsMatrix m (Inv ξ)) ∧
        ∀ a i, eval ξ (jacobianPoly (mapPoly c X)).det * Inv ξ a i = eval ξ ((jacobianPoly (mapPoly c X)).adjugate a i) := by
  have key : ∀ ξ : Fin 3 → ℝ, ∃ I : Matrix (Fin 3) (Fin 3) ℝ, eval ξ (jacobianPoly (mapPoly c X)).det ≠ 0 →
      (∃ m, LinearTransform.inverseJacobianValue cfg (exactArith ℝ) t (List.ofFn ξ)
          = .ok (eval ξ (jacobianPoly (mapPoly c X)).det, .ok m) ∧ HoldsMatrix m I) ∧
        ∀ a i, eval ξ (jacobianPoly (mapPoly c X)).det * I a i = eval ξ ((jacobianPoly (mapPoly c X)).adjugate a i) := by
    intro ξ
    by_cases hd : eval ξ (jacobianPoly (mapPoly c X)).det = 0
    · exact ⟨0, fun hne => absurd hd hne⟩
    · obtain ⟨after, e1⟩ := detJ_polynomial h hX cfg ξ
      obtain ⟨m, D, I, rfl, h2, h3, h4, h5⟩ := inverseJacobian_mapPoly h hX cfg e1 hd
      have hD : D = Matrix.of fun i j => eval ξ (pderiv j (mapPoly c X i)) := by
        funext i j
        exact congrFun (proj_sum_inj ((h5 i).unique (hasFDerivAt_eval (mapPoly c X i) ξ))) j
      refine ⟨I, fun _ => ⟨⟨m, e1, h2⟩, fun a i => ?_⟩⟩
      rw [eval_adjugate, eval_det, ← hD]
      have : D.adjugate = D.det • I := by
        rw [← Matrix.mul_one D.adjugate, ← h4, ← Matrix.mul_assoc, Matrix.adjugate_mul, Matrix.smul_mul, Matrix.one_mul]
      rw [this, Matrix.smul_apply, smul_eq_mul]
  choose Inv hInv using key
  exact ⟨Inv, hInv⟩

/-- The gradient theorem for a polynomial. -/
private theorem gradient_core (hg : IsGrid F N p w) {ε : ℝ} (htol : ∀ k, (F k).tolerance (N k) ≤ ε)
    (x : Fin 3 → MvPolynomial (Fin 3) ℝ) (u : MvPolynomial (Fin 3) ℝ) (i : Fin 3)
    (hdeg : ∀ a, (pderiv a (u * (jacobianPoly x).adjugate a i)).degreeOf a ≤ (F a).degree (N a)) :
    |(∑ q : (k : Fin (2 + 1)) → Fin (N k), (∏ k, w k (q k)) *
          ∑ a, eval (fun k => p k (q k)) (pderiv a u) * eval (fun k => p k (q k)) ((jacobianPoly x).adjugate a i))
        - faceSum p w (fun a ξ => eval ξ u * eval ξ ((jacobianPoly x).adjugate a i))|
      ≤ ε * (2 + ε) ^ 2 * ∑ a, coeffSum (pderiv a (u * (jacobianPoly x).adjugate a i)) := by
  have := divergence_le hg htol (fun a => u * (jacobianPoly x).adjugate a i) hdeg
  simp only [map_mul] at this
  convert this using 5 with q
  have e : ∀ ξ : Fin 3 → ℝ, ∑ a, eval ξ (pderiv a (u * (jacobianPoly x).adjugate a i))
      = ∑ a, eval ξ (pderiv a u) * eval ξ ((jacobianPoly x).adjugate a i) := fun ξ => by
    have h1 := congrArg (eval ξ) (piola x i)
    rw [map_sum, map_zero] at h1
    simp only [pderiv_mul, map_add, map_mul, Finset.sum_add_distrib, ← Finset.mul_sum]
    rw [h1, mul_zero, add_zero]
  exact (e _).symm

private theorem degree_flux (hinj : ∀ k, Function.Injective (c k)) (u : MvPolynomial (Fin 3) ℝ) (o : Fin 3 → ℕ)
    (hu : ∀ a, u.degreeOf a ≤ o a) (i a : Fin 3) :
    (pderiv a (u * (jacobianPoly (mapPoly c X)).adjugate a i)).degreeOf a ≤ o a + 2 * order a - 1 := by
  have h1 : (u * (jacobianPoly (mapPoly c X)).adjugate a i).degreeOf a ≤ o a + 2 * order a :=
    (degreeOf_mul_le _ _ _).trans (Nat.add_le_add (hu a) (degreeOf_adjugate _ order (degreeOf_mapPoly hinj) a i))
  have := degreeOf_pderiv_le a a _ h1
  rwa [if_pos rfl] at this

/-- The theorem with the polynomials named. -/
private theorem gradient_poly (h : IsLagrange order c t.shape) (hX : HoldsPoints t.data X)
    {order' : Fin (2 + 1) → ℕ} {c' : (k : Fin (2 + 1)) → Fin (order' k + 1) → ℝ} {e : Element ℝ}
    (he : IsLagrange order' c' e) (hg : IsGrid F N p w) (ε : ℝ) (htol : ∀ k, (F k).tolerance (N k) ≤ ε)
    (hdeg : ∀ a, order' a + 2 * order a - 1 ≤ (F a).degree (N a)) (cfg : Config) (var : List Int → Res ℝ)
    (U : ((k : Fin (2 + 1)) → Fin (order' k + 1)) → ℝ) (hU : ∀ idx, var (tup idx) = .ok (U idx)) :
    ∃ (u detJ : (Fin 3 → ℝ) → ℝ) (Du : (Fin 3 → ℝ) → Fin 3 → ℝ) (Inv : (Fin 3 → ℝ) → Matrix (Fin 3) (Fin 3) ℝ)
      (P : Fin 3 → Fin 3 → MvPolynomial (Fin 3) ℝ),
      (∀ a i, P a i = mapPoly c' (fun idx (_ : Fin (2 + 1)) => U idx) 0 * (jacobianPoly (mapPoly c X)).adjugate a i) ∧
      (∀ ξ, ParentElement.value (exactArith ℝ) e (List.ofFn ξ) var = .ok (u ξ)) ∧
      (∀ ξ, ParentElement.gradient (exactArith ℝ) e (List.ofFn ξ) var = .ok (List.ofFn (Du ξ))) ∧
      (∀ ξ, ∃ after, LinearTransform.inverseJacobianValue cfg (exactArith ℝ) t (List.ofFn ξ) = .ok (detJ ξ, after) ∧
        (detJ ξ ≠ 0 → ∃ m, after = .ok m ∧ HoldsMatrix m (Inv ξ))) ∧
      (∀ ξ, detJ ξ ≠ 0 → ∀ a i, eval ξ (P a i) = u ξ * (detJ ξ * Inv ξ a i)) ∧
      ((∀ q : (k : Fin (2 + 1)) → Fin (N k), detJ (fun k => p k (q k)) ≠ 0) →
        (∀ a r, detJ (facePoint p a r 1) ≠ 0 ∧ detJ (facePoint p a r (-1)) ≠ 0) → ∀ i,
        |(∑ q : (k : Fin (2 + 1)) → Fin (N k), (∏ k, w k (q k)) * (detJ (fun k => p k (q k)) *
              ∑ a, Du (fun k => p k (q k)) a * Inv (fun k => p k (q k)) a i))
            - faceSum p w (fun a ξ => u ξ * (detJ ξ * Inv ξ a i))|
          ≤ ε * (2 + ε) ^ 2 * ∑ a, coeffSum (pderiv a (P a i))) := by
  obtain ⟨-, -, -, hinj⟩ := isLagrange_realises h
  obtain ⟨-, -, -, hinj'⟩ := isLagrange_realises he
  obtain ⟨Inv, hInv⟩ := inverse_facts h hX cfg
  obtain ⟨u', G, hu, hG, hd⟩ := C42_interpolation_gradient he var U hU
  obtain ⟨uP, huP⟩ : ∃ uP, uP = mapPoly c' (fun idx (_ : Fin (2 + 1)) => U idx) 0 := ⟨_, rfl⟩
  have hval : ∀ ξ, ParentElement.value (exactArith ℝ) e (List.ofFn ξ) var = .ok (eval ξ uP) := fun ξ => by
    rw [huP]; exact value_mapPoly he 0 var hU ξ
  have hu' : u' = fun ξ => eval ξ uP := funext fun ξ => Res.ok.inj ((hu ξ).symm.trans (hval ξ))
  have hGa : ∀ ξ a, G ξ a = eval ξ (pderiv a uP) := fun ξ a => by
    have h1 := hd ξ
    rw [hu'] at h1
    exact congrFun (proj_sum_inj (h1.unique (hasFDerivAt_eval uP ξ))) a
  refine ⟨fun ξ => eval ξ uP, fun ξ => eval ξ (jacobianPoly (mapPoly c X)).det, G, Inv,
    fun a i => uP * (jacobianPoly (mapPoly c X)).adjugate a i, fun a i => by rw [huP], hval, hG, fun ξ => ?_, fun ξ hne a i => ?_,
    fun hq hf i => ?_⟩
  · obtain ⟨after, e1⟩ := detJ_polynomial h hX cfg ξ
    refine ⟨after, e1, fun hne => ?_⟩
    obtain ⟨⟨m, e2, e3⟩, -⟩ := hInv ξ hne
    exact ⟨m, (Prod.mk.inj (Res.ok.inj (e1.symm.trans e2))).2, e3⟩
  · rw [map_mul, (hInv ξ hne).2 a i]
  · have key := gradient_core hg htol (mapPoly c X) uP i fun a => (degree_flux hinj uP order'
      (fun a => by rw [huP]; exact degreeOf_mapPoly hinj' _ _) i a).trans (hdeg a)
    convert key using 3
    · refine Finset.sum_congr rfl fun q _ => ?_
      rw [Finset.mul_sum]
      congr 1
      refine Finset.sum_congr rfl fun a _ => ?_
      rw [← (hInv _ (hq q)).2 a i, hGa]
      ring
    · unfold faceSum
      refine Finset.sum_congr rfl fun a _ => Finset.sum_congr rfl fun r _ => ?_
      beta_reduce
      rw [(hInv _ (hf a r).1).2 a i, (hInv _ (hf a r).2).2 a i]

/-- **C120.** Take a three-dimensional Lagrange cell of any shape, a variable interpolated on it by a Lagrange element, and
quadrature rules exact in each direction to the order of the variable plus twice the order of the cell minus one.  Where
the determinants do not vanish, the sum over the quadrature points of the weight times `detJ` times component `i` of the
gradient in physical coordinates (`gradient` times the matrix of `inverseJacobian`) is the sum over the quadrature points
of the faces of the weight times the variable times component `i` of the area vector, `detJ` times row `a` of the matrix
of `inverseJacobian`, up to the accuracy of the decimals of the rules.  `P a i` is the polynomial with this value. -/
theorem C120_gradient_theorem (h : IsLagrange order c t.shape) (hX : HoldsPoints t.data X)
    {order' : Fin (2 + 1) → ℕ} {c' : (k : Fin (2 + 1)) → Fin (order' k + 1) → ℝ} {e : Element ℝ}
    (he : IsLagrange order' c' e) (hg : IsGrid F N p w) (ε : ℝ) (htol : ∀ k, (F k).tolerance (N k) ≤ ε)
    (hdeg : ∀ a, order' a + 2 * order a - 1 ≤ (F a).degree (N a)) (cfg : Config) (var : List Int → Res ℝ)
    (U : ((k : Fin (2 + 1)) → Fin (order' k + 1)) → ℝ) (hU : ∀ idx, var (tup idx) = .ok (U idx)) :
    ∃ (u detJ : (Fin 3 → ℝ) → ℝ) (Du : (Fin 3 → ℝ) → Fin 3 → ℝ) (Inv : (Fin 3 → ℝ) → Matrix (Fin 3) (Fin 3) ℝ)
      (P : Fin 3 → Fin 3 → MvPolynomial (Fin 3) ℝ),
      (∀ ξ, ParentElement.value (exactArith ℝ) e (List.ofFn ξ) var = .ok (u ξ)) ∧
      (∀ ξ, ParentElement.gradient (exactArith ℝ) e (List.ofFn ξ) var = .ok (List.ofFn (Du ξ))) ∧
      (∀ ξ, ∃ after, LinearTransform.inverseJacobianValue cfg (exactArith ℝ) t (List.ofFn ξ) = .ok (detJ ξ, after) ∧
        (detJ ξ ≠ 0 → ∃ m, after = .ok m ∧ HoldsMatrix m (Inv ξ))) ∧
      (∀ ξ, detJ ξ ≠ 0 → ∀ a i, eval ξ (P a i) = u ξ * (detJ ξ * Inv ξ a i)) ∧
      ((∀ q : (k : Fin (2 + 1)) → Fin (N k), detJ (fun k => p k (q k)) ≠ 0) →
        (∀ a r, detJ (facePoint p a r 1) ≠ 0 ∧ detJ (facePoint p a r (-1)) ≠ 0) → ∀ i,
        |(∑ q : (k : Fin (2 + 1)) → Fin (N k), (∏ k, w k (q k)) * (detJ (fun k => p k (q k)) *
              ∑ a, Du (fun k => p k (q k)) a * Inv (fun k => p k (q k)) a i))
            - faceSum p w (fun a ξ => u ξ * (detJ ξ * Inv ξ a i))|
          ≤ ε * (2 + ε) ^ 2 * ∑ a, coeffSum (pderiv a (P a i))) := by
  obtain ⟨u, detJ, Du, Inv, P, -, h1⟩ := gradient_poly h hX he hg ε htol hdeg cfg var U hU
  exact ⟨u, detJ, Du, Inv, P, h1⟩

/-- **C120, area vectors.** `detJ` times row `a` of the matrix of `inverseJacobian` is the cross product of the tangent
vectors in the two other directions, the columns `a + 1` and `a + 2` (modulo 3) of the matrix of `jacobian`. -/
theorem C120_area_vector (h : IsLagrange order c t.shape) (hX : HoldsPoints t.data X) (cfg : Config) (ξ : Fin 3 → ℝ) :
    ∃ (J : List ℝ) (D : Matrix (Fin 3) (Fin 3) ℝ) (det : ℝ) (after : Res (List ℝ)),
      LinearTransform.jacobianValue cfg (exactArith ℝ) t (List.ofFn ξ) = .ok J ∧ HoldsMatrix J D ∧
      LinearTransform.inverseJacobianValue cfg (exactArith ℝ) t (List.ofFn ξ) = .ok (det, after) ∧
      (det ≠ 0 → ∃ m I, after = .ok m ∧ HoldsMatrix m I ∧ ∀ a i : Fin 3,
        det * I a i = D (i + 1) (a + 1) * D (i + 2) (a + 2) - D (i + 2) (a + 1) * D (i + 1) (a + 2)) := by
  obtain ⟨J, D, det, after, h1, h2, h3, rfl, -, h5⟩ := C52_inverseJacobian cfg h hX ξ
  refine ⟨J, D, _, after, h1, h2, h3, fun hne => ?_⟩
  obtain ⟨m, I, e1, e2, -, e4⟩ := h5 hne
  refine ⟨m, I, e1, e2, fun a i => ?_⟩
  have hadj : D.adjugate = D.det • I := by
    rw [← Matrix.mul_one D.adjugate, ← e4, ← Matrix.mul_assoc, Matrix.adjugate_mul, Matrix.smul_mul, Matrix.one_mul]
  have := congrFun (congrFun hadj a) i
  rw [Matrix.smul_apply, smul_eq_mul] at this
  rw [← this, Matrix.adjugate_fin_three]
  fin_cases a <;> fin_cases i <;> simp <;> ring

/-- **C120, closed surface.** With rules exact to twice the order of the cell minus one, the area vectors of the faces of a
cell of any shape add up to zero, up to the accuracy of the decimals. -/
theorem C120_closed (h : IsLagrange order c t.shape) (hX : HoldsPoints t.data X) (hg : IsGrid F N p w) (ε : ℝ)
    (htol : ∀ k, (F k).tolerance (N k) ≤ ε) (hdeg : ∀ a, 2 * order a - 1 ≤ (F a).degree (N a)) (cfg : Config) :
    ∃ (detJ : (Fin 3 → ℝ) → ℝ) (Inv : (Fin 3 → ℝ) → Matrix (Fin 3) (Fin 3) ℝ)
      (P : Fin 3 → Fin 3 → MvPolynomial (Fin 3) ℝ),
      (∀ ξ, ∃ after, LinearTransform.inverseJacobianValue cfg (exactArith ℝ) t (List.ofFn ξ) = .ok (detJ ξ, after) ∧
        (detJ ξ ≠ 0 → ∃ m, after = .ok m ∧ HoldsMatrix m (Inv ξ))) ∧
      (∀ ξ, detJ ξ ≠ 0 → ∀ a i, eval ξ (P a i) = detJ ξ * Inv ξ a i) ∧
      ((∀ a r, detJ (facePoint p a r 1) ≠ 0 ∧ detJ (facePoint p a r (-1)) ≠ 0) → ∀ i,
        |faceSum p w (fun a ξ => detJ ξ * Inv ξ a i)| ≤ ε * (2 + ε) ^ 2 * ∑ a, coeffSum (pderiv a (P a i))) := by
  obtain ⟨-, -, -, hinj⟩ := isLagrange_realises h
  obtain ⟨Inv, hInv⟩ := inverse_facts h hX cfg
  refine ⟨fun ξ => eval ξ (jacobianPoly (mapPoly c X)).det, Inv,
    fun a i => (jacobianPoly (mapPoly c X)).adjugate a i, fun ξ => ?_, fun ξ hne a i => ((hInv ξ hne).2 a i).symm,
    fun hf i => ?_⟩
  · obtain ⟨after, e1⟩ := detJ_polynomial h hX cfg ξ
    refine ⟨after, e1, fun hne => ?_⟩
    obtain ⟨⟨m, e2, e3⟩, -⟩ := hInv ξ hne
    exact ⟨m, (Prod.mk.inj (Res.ok.inj (e1.symm.trans e2))).2, e3⟩
  · have key := gradient_core hg htol (mapPoly c X) 1 i fun a => (degree_flux hinj 1 (fun _ => 0)
      (fun a => by rw [← MvPolynomial.C_1, degreeOf_C]) i a).trans (by have := hdeg a; omega)
    simp only [one_mul, map_one, Derivation.map_one_eq_zero, map_zero, zero_mul, Finset.sum_const_zero, mul_zero,
      zero_sub, abs_neg] at key
    convert key using 2
    unfold faceSum
    refine Finset.sum_congr rfl fun a _ => Finset.sum_congr rfl fun r _ => ?_
    beta_reduce
    rw [(hInv _ (hf a r).1).2 a i, (hInv _ (hf a r).2).2 a i]

/-- **C120, volume from the surface.** With rules exact to three times the order of the cell minus one, the sum over the
quadrature points of the weight times `detJ` (the volume of the cell, by C66) is for each component `i` the sum over the
quadrature points of the faces of the weight times component `i` of the position times component `i` of the area vector. -/
theorem C120_volume (h : IsLagrange order c t.shape) (hX : HoldsPoints t.data X) (hg : IsGrid F N p w) (ε : ℝ)
    (htol : ∀ k, (F k).tolerance (N k) ≤ ε) (hdeg : ∀ a, 3 * order a - 1 ≤ (F a).degree (N a)) (cfg : Config)
    (coord : Fin 3 → List Int → Res ℝ) (hc : ∀ i idx, coord i (tup idx) = .ok (X idx i)) :
    ∃ (x : (Fin 3 → ℝ) → Fin 3 → ℝ) (detJ : (Fin 3 → ℝ) → ℝ) (Inv : (Fin 3 → ℝ) → Matrix (Fin 3) (Fin 3) ℝ)
      (P : Fin 3 → Fin 3 → MvPolynomial (Fin 3) ℝ),
      (∀ ξ i, ParentElement.value (exactArith ℝ) t.shape (List.ofFn ξ) (coord i) = .ok (x ξ i)) ∧
      (∀ ξ, ∃ after, LinearTransform.inverseJacobianValue cfg (exactArith ℝ) t (List.ofFn ξ) = .ok (detJ ξ, after) ∧
        (detJ ξ ≠ 0 → ∃ m, after = .ok m ∧ HoldsMatrix m (Inv ξ))) ∧
      (∀ ξ, detJ ξ ≠ 0 → ∀ a i, eval ξ (P a i) = x ξ i * (detJ ξ * Inv ξ a i)) ∧
      ((∀ a r, detJ (facePoint p a r 1) ≠ 0 ∧ detJ (facePoint p a r (-1)) ≠ 0) → ∀ i,
        |(∑ q : (k : Fin (2 + 1)) → Fin (N k), (∏ k, w k (q k)) * detJ (fun k => p k (q k)))
            - faceSum p w (fun a ξ => x ξ i * (detJ ξ * Inv ξ a i))|
          ≤ ε * (2 + ε) ^ 2 * ∑ a, coeffSum (pderiv a (P a i))) := by
  obtain ⟨-, -, -, hinj⟩ := isLagrange_realises h
  obtain ⟨Inv, hInv⟩ := inverse_facts h hX cfg
  refine ⟨fun ξ i => eval ξ (mapPoly c X i), fun ξ => eval ξ (jacobianPoly (mapPoly c X)).det, Inv,
    fun a i => mapPoly c X i * (jacobianPoly (mapPoly c X)).adjugate a i, fun ξ i => value_mapPoly h i _ (hc i) ξ,
    fun ξ => ?_, fun ξ hne a i => ?_, fun hf i => ?_⟩
  · obtain ⟨after, e1⟩ := detJ_polynomial h hX cfg ξ
    refine ⟨after, e1, fun hne => ?_⟩
    obtain ⟨⟨m, e2, e3⟩, -⟩ := hInv ξ hne
    exact ⟨m, (Prod.mk.inj (Res.ok.inj (e1.symm.trans e2))).2, e3⟩
  · rw [map_mul, (hInv ξ hne).2 a i]
  · have key := gradient_core hg htol (mapPoly c X) (mapPoly c X i) i fun a => (degree_flux hinj _ order
      (fun a => degreeOf_mapPoly hinj _ _) i a).trans (by have := hdeg a; omega)
    convert key using 3
    · refine Finset.sum_congr rfl fun q _ => ?_
      congr 1
      have := congrFun (congrFun (Matrix.mul_adjugate (jacobianPoly (mapPoly c X))) i) i
      rw [Matrix.mul_apply, Matrix.smul_apply, Matrix.one_apply_eq, smul_eq_mul, mul_one] at this
      have := congrArg (eval fun k => p k (q k)) this
      rw [map_sum] at this
      simp only [map_mul] at this
      exact this.symm
    · unfold faceSum
      refine Finset.sum_congr rfl fun a _ => Finset.sum_congr rfl fun r _ => ?_
      beta_reduce
      rw [(hInv _ (hf a r).1).2 a i, (hInv _ (hf a r).2).2 a i]

/-- **C120, hexahedra.** For a hexahedron with vertex coordinates of absolute value at most `B`, a trilinear variable with
nodal values of absolute value at most `A`, and rules other than the two-point Gauss–Lobatto rule, with explicit bound. -/
theorem C120_hexahedron {c : (k : Fin (2 + 1)) → Fin 2 → ℝ} {t : LinearTransform ℝ}
    {X : (Fin (2 + 1) → Fin 2) → Fin (2 + 1) → ℝ}
    (h : IsLagrange (fun _ : Fin (2 + 1) => 1) c t.shape) (hn : ∀ k, c k 0 = -1 ∧ c k 1 = 1) (hX : HoldsPoints t.data X)
    (A B : ℝ) (hB : ∀ idx i, |X idx i| ≤ B) (hg : IsGrid F N p w) (ε : ℝ) (htol : ∀ k, (F k).tolerance (N k) ≤ ε)
    (hdeg : ∀ k, ¬ (F k = .gaussLobatto ∧ N k = 2)) (cfg : Config) (var : List Int → Res ℝ)
    (U : (Fin (2 + 1) → Fin 2) → ℝ) (hU : ∀ idx : Fin (2 + 1) → Fin 2, var (tup idx) = .ok (U idx)) (hA : ∀ idx, |U idx| ≤ A) :
    ∃ (u detJ : (Fin 3 → ℝ) → ℝ) (Du : (Fin 3 → ℝ) → Fin 3 → ℝ) (Inv : (Fin 3 → ℝ) → Matrix (Fin 3) (Fin 3) ℝ),
      (∀ ξ, ParentElement.value (exactArith ℝ) t.shape (List.ofFn ξ) var = .ok (u ξ)) ∧
      (∀ ξ, ParentElement.gradient (exactArith ℝ) t.shape (List.ofFn ξ) var = .ok (List.ofFn (Du ξ))) ∧
      (∀ ξ, ∃ after, LinearTransform.inverseJacobianValue cfg (exactArith ℝ) t (List.ofFn ξ) = .ok (detJ ξ, after) ∧
        (detJ ξ ≠ 0 → ∃ m, after = .ok m ∧ HoldsMatrix m (Inv ξ))) ∧
      ((∀ q : (k : Fin (2 + 1)) → Fin (N k), detJ (fun k => p k (q k)) ≠ 0) →
        (∀ a r, detJ (facePoint p a r 1) ≠ 0 ∧ detJ (facePoint p a r (-1)) ≠ 0) → ∀ i,
        |(∑ q : (k : Fin (2 + 1)) → Fin (N k), (∏ k, w k (q k)) * (detJ (fun k => p k (q k)) *
              ∑ a, Du (fun k => p k (q k)) a * Inv (fun k => p k (q k)) a i))
            - faceSum p w (fun a ξ => u ξ * (detJ ξ * Inv ξ a i))|
          ≤ ε * (2 + ε) ^ 2 * (9216 * A * B ^ 2)) := by
  obtain ⟨u, detJ, Du, Inv, P, hP, h1, h2, h3, -, h4⟩ := gradient_poly h hX h hg ε htol (fun a => by
    have a1 := hg.supported a
    have a2 := hdeg a
    generalize F a = G at a1 a2 ⊢
    cases G <;> simp only [RuleFamily.Supports, RuleFamily.degree, true_and] at a1 a2 ⊢ <;> omega) cfg var U hU
  refine ⟨u, detJ, Du, Inv, h1, h2, h3, fun hq hf i => (h4 hq hf i).trans ?_⟩
  have hε : 0 ≤ ε := (tolerance_pos _ _).trans (htol 0)
  refine mul_le_mul_of_nonneg_left ?_ (by positivity)
  obtain ⟨-, -, -, hinj⟩ := isLagrange_realises h
  have hdx := degreeOf_mapPoly (X := X) hinj
  have hA0 : 0 ≤ A := (abs_nonneg _).trans (hA 0)
  have key : ∀ a, coeffSum (pderiv a (P a i)) ≤ 3072 * A * B ^ 2 := fun a => by
    rw [hP]
    refine (coeffSum_pderiv_le a _ (D := 3) ?_).trans ?_
    · refine (degreeOf_mul_le _ _ _).trans ?_
      have e1 := degreeOf_mapPoly (X := fun idx (_ : Fin (2 + 1)) => U idx) hinj 0 a
      have e2 := degreeOf_adjugate _ _ hdx a i
      beta_reduce at e1 e2
      omega
    · have e1 : coeffSum (mapPoly (order := fun _ => 1) c (fun idx (_ : Fin (2 + 1)) => U idx) 0) ≤ 8 * A :=
        coeffSum_mapPoly hn 0 hA
      have e2 : coeffSum ((jacobianPoly (mapPoly (order := fun _ => 1) c X)).adjugate a i) ≤ 2 * (((1 : ℕ) : ℝ) * (8 * B)) ^ 2 :=
        coeffSum_adjugate _ hdx (fun i => coeffSum_mapPoly hn i fun idx => hB idx i) a i
      have e3 := (coeffSum_mul_le (mapPoly (order := fun _ => 1) c (fun idx (_ : Fin (2 + 1)) => U idx) 0)
        ((jacobianPoly (mapPoly (order := fun _ => 1) c X)).adjugate a i)).trans
        (mul_le_mul e1 e2 (coeffSum_nonneg _) (by positivity))
      calc _ ≤ ((3 : ℕ) : ℝ) * (8 * A * (2 * (((1 : ℕ) : ℝ) * (8 * B)) ^ 2)) :=
            mul_le_mul_of_nonneg_left e3 (Nat.cast_nonneg _)
        _ = _ := by push_cast; ring
  calc _ ≤ ∑ _a : Fin 3, 3072 * A * B ^ 2 := Finset.sum_le_sum fun a _ => key a
    _ = _ := by simp; ring

/-- Non-vacuity of C120: on the hexahedron of C66, which is not an affine image of the cube, with three-point rules,
the determinants do not vanish at the points of the cell and of the faces, and the sum of
weights times `detJ` is not zero. -/
example : ∃ (c : (k : Fin (2 + 1)) → Fin 2 → ℝ) (t : LinearTransform ℝ) (X : (Fin (2 + 1) → Fin 2) → Fin (2 + 1) → ℝ)
    (p w : (k : Fin (2 + 1)) → Fin 3 → ℝ) (detJ : (Fin 3 → ℝ) → ℝ),
    IsLagrange (fun _ : Fin (2 + 1) => 1) c t.shape ∧ HoldsPoints t.data X ∧
    IsGrid (fun _ : Fin (2 + 1) => .gaussLobatto) (fun _ => 3) p w ∧
    1 + 2 * 1 - 1 ≤ RuleFamily.gaussLobatto.degree 3 ∧
    (∀ ξ, ∃ after, LinearTransform.inverseJacobianValue checkedHost (exactArith ℝ) t (List.ofFn ξ)
      = .ok (detJ ξ, after)) ∧
    (∀ q : (k : Fin (2 + 1)) → Fin 3, detJ (fun k => p k (q k)) ≠ 0) ∧
    (∀ (a : Fin (2 + 1)) (r : (l : Fin 2) → Fin 3),
      detJ (facePoint p a r 1) ≠ 0 ∧ detJ (facePoint p a r (-1)) ≠ 0) ∧
    1 ≤ ∑ q : (k : Fin (2 + 1)) → Fin 3, (∏ k, w k (q k)) * detJ (fun k => p k (q k)) := by
  obtain ⟨c, t, X, N, detJ, h1, h2, -, h3, -, h4, -⟩ := sample_hexahedron
  obtain ⟨p, w, hg⟩ := C94_grids (fun _ : Fin 3 => RuleFamily.gaussLobatto) (fun _ => 3)
    fun _ => ⟨by norm_num, by norm_num⟩
  have hp : ∀ ξ : Fin 3 → ℝ, |ξ 1| ≤ 1 → 1 / 2 ≤ detJ ξ := fun ξ h => by
    rw [h4]; linarith [(abs_le.1 h).1]
  have hfp : ∀ (a : Fin (2 + 1)) (r : (l : Fin 2) → Fin 3) (s : ℝ), |s| ≤ 1 → ∀ k, |facePoint p a r s k| ≤ 1 := by
    intro a r s hs
    rw [Fin.forall_iff_succAbove a]
    refine ⟨?_, fun l => ?_⟩
    · unfold facePoint; rw [Fin.insertNth_apply_same]; exact hs
    · unfold facePoint; rw [Fin.insertNth_apply_succAbove]; exact grid_points_le hg _ _
  refine ⟨c, t, X, p, w, detJ, h1, h2, hg, by decide, h3, fun q => ?_, fun a r => ⟨?_, ?_⟩, ?_⟩
  · have := hp (fun k => p k (q k)) (grid_points_le hg 1 (q 1)); linarith
  · have := hp _ (hfp a r 1 (by simp) 1); linarith
  · have := hp _ (hfp a r (-1) (by simp) 1); linarith
  · have hsum : ∀ k, 3 / 2 ≤ ∑ i, w k i := fun k => by
      have := rule_exact (hg.supported k) (hg.points k) (hg.weights k) 1 (by simp)
      rw [weight_coeffs, mul_one] at this
      simp only [Polynomial.eval_one, mul_one, intervalIntegral.integral_const, smul_eq_mul, RuleFamily.tolerance] at this
      have := (abs_le.1 this).1
      norm_num at this
      linarith
    calc (1 : ℝ) ≤ 1 / 2 * ∏ _k : Fin 3, (3 / 2) := by simp; norm_num
      _ ≤ 1 / 2 * ∏ k : Fin 3, ∑ i, w k i := mul_le_mul_of_nonneg_left
          (Finset.prod_le_prod (fun _ _ => by norm_num) fun k _ => hsum k) (by norm_num)
      _ = ∑ q : (k : Fin 3) → Fin 3, (∏ k, w k (q k)) * (1 / 2) := by
          rw [Fintype.prod_sum, Finset.mul_sum]
          exact Finset.sum_congr rfl fun q _ => mul_comm _ _
      _ ≤ _ := Finset.sum_le_sum fun q _ => mul_le_mul_of_nonneg_left
          (hp (fun k => p k (q k)) (grid_points_le hg 1 (q 1)))
          (Finset.prod_nonneg fun k _ => ((grid_facts hg).2.2 _ _).le)

end Verif.Props
