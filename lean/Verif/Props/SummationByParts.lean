import Verif.Lemmas.TensorPoly
import Verif.Lemmas.InterpolationError
import Verif.Props.Matrices
import Verif.Props.Quadrature
import Mathlib.Analysis.SpecialFunctions.Integrals.Basic

/-!
# Property C117: integration by parts holds for the quadrature rules
-/

namespace Verif.Props

open Verif.Spec Verif.Lemmas Polynomial

/-- The values of an interpolation along a line in direction `a`, as a polynomial. -/
private noncomputable def linePoly {d : ℕ} {n : Fin (d + 1) → ℕ} (f : (k : Fin (d + 1)) → Fin (n k) → ℝ[X])
    (y : ((k : Fin (d + 1)) → Fin (n k)) → ℝ) (a : Fin (d + 1)) (z : Fin d → ℝ) : ℝ[X] :=
  ∑ idx, C ((∏ l, (f (a.succAbove l) (idx (a.succAbove l))).eval (z l)) * y idx) * f a (idx a)

private theorem linePoly_eval {d : ℕ} {n : Fin (d + 1) → ℕ} (f : (k : Fin (d + 1)) → Fin (n k) → ℝ[X])
    (y : ((k : Fin (d + 1)) → Fin (n k)) → ℝ) (a : Fin (d + 1)) (z : Fin d → ℝ) (t : ℝ) :
    (linePoly f y a z).eval t = tensorEval f y (a.insertNth (α := fun _ => ℝ) t z) := by
  unfold linePoly tensorEval
  rw [eval_finsetSum]
  refine Finset.sum_congr rfl fun idx _ => ?_
  rw [Fin.prod_univ_succAbove _ a]
  simp only [eval_mul, eval_C, Fin.insertNth_apply_same, Fin.insertNth_apply_succAbove]
  ring

private theorem linePoly_derivative {d : ℕ} {n : Fin (d + 1) → ℕ} (f : (k : Fin (d + 1)) → Fin (n k) → ℝ[X])
    (y : ((k : Fin (d + 1)) → Fin (n k)) → ℝ) (a : Fin (d + 1)) (z : Fin d → ℝ) (t : ℝ) :
    (derivative (linePoly f y a z)).eval t = tensorEval (partialOf a f) y (a.insertNth (α := fun _ => ℝ) t z) := by
  unfold linePoly tensorEval partialOf
  rw [derivative_sum, eval_finsetSum]
  refine Finset.sum_congr rfl fun idx _ => ?_
  rw [Fin.prod_univ_succAbove _ a]
  simp only [derivative_mul, derivative_C, zero_mul, zero_add, eval_mul, eval_C, Fin.insertNth_apply_same,
    Fin.insertNth_apply_succAbove, if_true, (Fin.succAbove_ne a _).symm, if_false]
  ring

private theorem linePoly_degree {d m : ℕ} {n : Fin (d + 1) → ℕ} (f : (k : Fin (d + 1)) → Fin (n k) → ℝ[X])
    (y : ((k : Fin (d + 1)) → Fin (n k)) → ℝ) (a : Fin (d + 1)) (z : Fin d → ℝ) (hf : ∀ j, (f a j).natDegree ≤ m) :
    (linePoly f y a z).natDegree ≤ m :=
  natDegree_sum_le_of_forall_le _ _ fun _ _ => (natDegree_C_mul_le _ _).trans (hf _)

theorem rule_exact {F : RuleFamily} {N : ℕ} (hS : F.Supports N) {p w : Fin N → ℝ}
    (hp : ∀ i : Fin N, (F.rule (exactArith ℝ) N).coordCT (i : ℕ) = .ok (p i))
    (hw : ∀ i : Fin N, (F.rule (exactArith ℝ) N).weightCT (i : ℕ) = .ok (w i)) (P : ℝ[X]) (hP : P.natDegree ≤ F.degree N) :
    |∑ i, w i * P.eval (p i) - ∫ x in (-1 : ℝ)..1, P.eval x|
      ≤ F.tolerance N * ∑ k ∈ Finset.range (F.degree N + 1), |P.coeff k| := by
  cases F with
  | gaussLegendre =>
    obtain ⟨c', w', h1, h2, h3⟩ := C29_gaussLegendre_exact N hS.1 hS.2
    have e1 : p = c' := funext fun i => Res.ok.inj ((hp i).symm.trans (h1 i))
    have e2 : w = w' := funext fun i => Res.ok.inj ((hw i).symm.trans (h2 i))
    have := h3 P hP
    rw [← e1, ← e2] at this
    have hN := hS.1
    rwa [show 2 * N = RuleFamily.gaussLegendre.degree N + 1 by simp only [RuleFamily.degree]; omega] at this
  | gaussLobatto =>
    obtain ⟨c', w', h1, h2, h3⟩ := C30_gaussLobatto_exact N hS.1 hS.2
    have e1 : p = c' := funext fun i => Res.ok.inj ((hp i).symm.trans (h1 i))
    have e2 : w = w' := funext fun i => Res.ok.inj ((hw i).symm.trans (h2 i))
    have := h3 P hP
    rw [← e1, ← e2] at this
    have hN := hS.1
    rwa [show 2 * N - 2 = RuleFamily.gaussLobatto.degree N + 1 by simp only [RuleFamily.degree]; omega] at this

theorem integral_derivative (P : ℝ[X]) :
    ∫ x in (-1 : ℝ)..1, (derivative P).eval x = P.eval 1 - P.eval (-1) :=
  intervalIntegral.integral_eq_sub_of_hasDerivAt (fun x _ => P.hasDerivAt x)
    ((derivative P).continuous.intervalIntegrable _ _)

/-- Value and gradient of an interpolated variable. -/
private theorem field {d : ℕ} {order : Fin d → ℕ} {c : (k : Fin d) → Fin (order k + 1) → ℝ} {e : Element ℝ}
    (h : IsLagrange order c e) (var : List Int → Res ℝ) (y : ((k : Fin d) → Fin (order k + 1)) → ℝ)
    (hy : ∀ idx, var (tup idx) = .ok (y idx)) :
    (∀ k j, (Lagrange.basis Finset.univ (c k) j).natDegree ≤ order k) ∧
    (∀ x, ParentElement.value (exactArith ℝ) e (List.ofFn x) var
      = .ok (tensorEval (fun k j => Lagrange.basis Finset.univ (c k) j) y x)) ∧
    ∀ x, ParentElement.gradient (exactArith ℝ) e (List.ofFn x) var
      = .ok (List.ofFn fun a => tensorEval (partialOf a fun k j => Lagrange.basis Finset.univ (c k) j) y x) := by
  obtain ⟨b, rfl, hr, hinj⟩ := isLagrange_realises h
  refine ⟨fun k j => ?_, fun x => parent_value h.dims hr x var y hy, fun x => ?_⟩
  · refine natDegree_le_of_degree_le ?_
    rw [Lagrange.degree_basis (hinj k).injOn (Finset.mem_univ j), Finset.card_univ, Fintype.card_fin]
    simp
  · rw [parent_gradient h.dims hr x var y hy]
    congr 2
    funext a
    unfold tensorEval partialOf
    refine Finset.sum_congr rfl fun idx _ => ?_
    congr 1
    refine Finset.prod_congr rfl fun k _ => ?_
    split_ifs <;> rfl

variable {d : ℕ} {order : Fin (d + 1) → ℕ} {c : (k : Fin (d + 1)) → Fin (order k + 1) → ℝ} {e : Element ℝ}
  {F : Fin (d + 1) → RuleFamily} {N : Fin (d + 1) → ℕ} {p w : (k : Fin (d + 1)) → Fin (N k) → ℝ}

/-- **C117.** Take two interpolated variables `u` and `v`, quadrature rules in all directions, and a direction `a` in which
the rule is exact to degree `2 * order - 1` at least (`order + 1` Gauss–Lobatto points, or `order` Gauss–Legendre points).
The sum over all quadrature points of the weights times `∂u/∂ξ_a * v + u * ∂v/∂ξ_a` is the sum, over the quadrature points
of the faces `ξ_a = 1` and `ξ_a = -1`, of the weights of the other directions times the difference of `u * v`, up to the
accuracy of the decimals of the rule.  `P r` is `u * v` as a polynomial along the line through point `r` of the faces. -/
theorem C117_by_parts (h : IsLagrange order c e) (hg : IsGrid F N p w) (a : Fin (d + 1))
    (hdeg : 2 * order a - 1 ≤ (F a).degree (N a)) (varU varV : List Int → Res ℝ)
    (U V : ((k : Fin (d + 1)) → Fin (order k + 1)) → ℝ)
    (hU : ∀ idx, varU (tup idx) = .ok (U idx)) (hV : ∀ idx, varV (tup idx) = .ok (V idx)) :
    ∃ (u v : (Fin (d + 1) → ℝ) → ℝ) (Du Dv : (Fin (d + 1) → ℝ) → Fin (d + 1) → ℝ)
      (P : ((l : Fin d) → Fin (N (a.succAbove l))) → ℝ[X]),
      (∀ ξ, ParentElement.value (exactArith ℝ) e (List.ofFn ξ) varU = .ok (u ξ)) ∧
      (∀ ξ, ParentElement.value (exactArith ℝ) e (List.ofFn ξ) varV = .ok (v ξ)) ∧
      (∀ ξ, ParentElement.gradient (exactArith ℝ) e (List.ofFn ξ) varU = .ok (List.ofFn (Du ξ))) ∧
      (∀ ξ, ParentElement.gradient (exactArith ℝ) e (List.ofFn ξ) varV = .ok (List.ofFn (Dv ξ))) ∧
      (∀ r t, (P r).eval t = u (facePoint p a r t) * v (facePoint p a r t)) ∧
      |(∑ q : (k : Fin (d + 1)) → Fin (N k), (∏ k, w k (q k)) *
            (Du (fun k => p k (q k)) a * v (fun k => p k (q k)) + u (fun k => p k (q k)) * Dv (fun k => p k (q k)) a))
          - ∑ r : (l : Fin d) → Fin (N (a.succAbove l)), (∏ l, w (a.succAbove l) (r l)) *
            (u (facePoint p a r 1) * v (facePoint p a r 1) - u (facePoint p a r (-1)) * v (facePoint p a r (-1)))|
        ≤ (F a).tolerance (N a) * ∑ r : (l : Fin d) → Fin (N (a.succAbove l)), (∏ l, w (a.succAbove l) (r l)) *
            ∑ m ∈ Finset.range ((F a).degree (N a) + 1), |(derivative (P r)).coeff m| := by
  obtain ⟨hbd, hu1, hu2⟩ := field h varU U hU
  obtain ⟨-, hv1, hv2⟩ := field h varV V hV
  obtain ⟨f, hf⟩ : ∃ f : (k : Fin (d + 1)) → Fin (order k + 1) → ℝ[X],
    f = fun k j => Lagrange.basis Finset.univ (c k) j := ⟨_, rfl⟩
  rw [← hf] at hu1 hv1 hu2 hv2
  obtain ⟨z, hz⟩ : ∃ z : ((l : Fin d) → Fin (N (a.succAbove l))) → Fin d → ℝ,
    z = fun r l => p (a.succAbove l) (r l) := ⟨_, rfl⟩
  have hface : ∀ r t, facePoint p a r t = a.insertNth (α := fun _ => ℝ) t (z r) := fun r t => by rw [hz]; rfl
  refine ⟨_, _, _, _, fun r => linePoly f U a (z r) * linePoly f V a (z r), hu1, hv1, hu2, hv2, fun r t => ?_, ?_⟩
  · rw [eval_mul, linePoly_eval, linePoly_eval, hface]
  · have hw0 : ∀ k i, 0 ≤ w k i := fun k i => ((grid_facts hg).2.2 k i).le
    have hline : ∀ r, |∑ i, w a i * (derivative (linePoly f U a (z r) * linePoly f V a (z r))).eval (p a i)
        - ((linePoly f U a (z r) * linePoly f V a (z r)).eval 1 - (linePoly f U a (z r) * linePoly f V a (z r)).eval (-1))|
        ≤ (F a).tolerance (N a) * ∑ m ∈ Finset.range ((F a).degree (N a) + 1),
          |(derivative (linePoly f U a (z r) * linePoly f V a (z r))).coeff m| := by
      intro r
      rw [← integral_derivative]
      refine rule_exact (hg.supported a) (hg.points a) (hg.weights a) _ (le_trans ?_ hdeg)
      refine (natDegree_derivative_le _).trans (Nat.sub_le_sub_right ?_ 1)
      refine natDegree_mul_le.trans ?_
      have h1 := linePoly_degree f U a (z r) (m := order a) (by rw [hf]; exact hbd a)
      have h2 := linePoly_degree f V a (z r) (m := order a) (by rw [hf]; exact hbd a)
      omega
    have hsum : (∑ q : (k : Fin (d + 1)) → Fin (N k), (∏ k, w k (q k)) *
            (tensorEval (partialOf a f) U (fun k => p k (q k)) * tensorEval f V (fun k => p k (q k))
              + tensorEval f U (fun k => p k (q k)) * tensorEval (partialOf a f) V (fun k => p k (q k))))
        = ∑ r : (l : Fin d) → Fin (N (a.succAbove l)), (∏ l, w (a.succAbove l) (r l)) *
          ∑ i, w a i * (derivative (linePoly f U a (z r) * linePoly f V a (z r))).eval (p a i) := by
      rw [sum_insertNth a]
      simp only [Finset.mul_sum]
      rw [Finset.sum_comm]
      refine Finset.sum_congr rfl fun r _ => Finset.sum_congr rfl fun i _ => ?_
      have hx : (fun k => p k (a.insertNth (α := fun k => Fin (N k)) i r k)) = a.insertNth (α := fun _ => ℝ) (p a i) (z r) := by
        rw [insertNth_points, hz]
      rw [hx, derivative_mul, eval_add, eval_mul, eval_mul, linePoly_derivative, linePoly_derivative, linePoly_eval,
        linePoly_eval]
      ring
    beta_reduce
    rw [hsum, ← Finset.sum_sub_distrib, Finset.mul_sum]
    refine (Finset.abs_sum_le_sum_abs _ _).trans (Finset.sum_le_sum fun r _ => ?_)
    have hW : 0 ≤ ∏ l, w (a.succAbove l) (r l) := Finset.prod_nonneg fun l _ => hw0 _ _
    rw [← mul_sub, abs_mul, abs_of_nonneg hW, mul_left_comm]
    refine mul_le_mul_of_nonneg_left ?_ hW
    have := hline r
    rwa [eval_mul, eval_mul, linePoly_eval, linePoly_eval, linePoly_eval, linePoly_eval, ← hface, ← hface] at this

/-! ### The operator of the spectral element method -/

private def val {R : Type} [Zero R] : Res R → R
  | .ok x => x
  | _ => 0

private def gradientAt {K : Type} [Field K] {n : ℕ} (c : Fin n → K) (j : Fin n) (x : K) : K :=
  ∑ a, (if j = a then 0 else 1 / (c j - c a)) * ∏ b, if b = a then 1 else if j = b then 1 else (x - c b) * (1 / (c j - c b))

private theorem gradientAt_cast {n : ℕ} (c : Fin n → ℚ) (j : Fin n) (x : ℚ) :
    ((gradientAt c j x : ℚ) : ℝ) = ∑ a, factorDeriv (fun i => ((c i : ℚ) : ℝ)) j a *
      ∏ b, if b = a then 1 else factor (fun i => ((c i : ℚ) : ℝ)) j (x : ℝ) b := by
  unfold gradientAt factor factorDeriv
  rw [Rat.cast_sum]
  refine Finset.sum_congr rfl fun a _ => ?_
  rw [Rat.cast_mul, Rat.cast_prod]
  congr 1
  · split_ifs <;> simp
  · refine Finset.prod_congr rfl fun b _ => ?_
    split_ifs <;> simp

private def lobattoPoint (n : ℕ) (i : Fin n) : ℚ := val (GaussLobatto.coordCT ratArith n (i : ℕ))
private def lobattoWeight (n : ℕ) (i : Fin n) : ℚ := val (QuadratureGaussLobatto.weightCT ratArith n (i : ℕ))

private def OperatorTable (n : ℕ) (ε : ℚ) : Prop :=
  (∀ i : Fin n, GaussLobatto.coordCT ratArith n (i : ℕ) = .ok (lobattoPoint n i)) ∧
  (∀ i : Fin n, QuadratureGaussLobatto.weightCT ratArith n (i : ℕ) = .ok (lobattoWeight n i)) ∧
  (∀ i j : Fin n, i ≠ j → lobattoPoint n i ≠ lobattoPoint n j) ∧
  ∀ i j : Fin n, |lobattoWeight n i * gradientAt (lobattoPoint n) j (lobattoPoint n i)
      + lobattoWeight n j * gradientAt (lobattoPoint n) i (lobattoPoint n j)
      - ((if i = j ∧ (i : ℕ) + 1 = n then 1 else 0) - if i = j ∧ (i : ℕ) = 0 then 1 else 0)| ≤ ε

private instance (n : ℕ) (ε : ℚ) : Decidable (OperatorTable n ε) := inferInstanceAs (Decidable (_ ∧ _ ∧ _ ∧ _))

private theorem operator_table_few : ∀ n ∈ [2, 3, 4, 5], OperatorTable n (1 / 10 ^ 33) := by decide +kernel

private theorem operator_table_many : ∀ n ∈ [6, 7, 8, 9], OperatorTable n (3 / 10 ^ 13) := by decide +kernel

private theorem lobatto_basis {order : ℕ} (h : order < 2147483647) {c : Fin (order + 1) → ℝ}
    (hc : Nodes (gaussLobattoSpacing (exactArith ℝ) ((order + 1 : ℕ) : Int)) (order + 1) c) :
    ∃ b, lagrangeBasis (exactArith ℝ) (gaussLobattoSpacing (exactArith ℝ)) order = .ok b ∧
      ∀ (j : Fin (order + 1)) x, b.gradient (j : ℕ) x
        = .ok (∑ a, factorDeriv c j a * ∏ b, if b = a then 1 else factor c j x b) := by
  have h1 : iadd (order : Int) 1 = .ok ((order + 1 : ℕ) : Int) := by
    push_cast
    exact tnorm_ok ⟨by show (-2147483648 : Int) ≤ _; omega, by show _ ≤ (2147483647 : Int); omega⟩
  refine ⟨_, by unfold lagrangeBasis; rw [h1]; rfl, fun j x => gradient_eq hc j x⟩

private theorem collocation_of {order : ℕ} {ε : ℚ} (h1 : 1 ≤ order) (h8 : order ≤ 8) (h : OperatorTable (order + 1) ε) :
    ∃ b, ∃ (c w : Fin (order + 1) → ℝ) (D : Fin (order + 1) → Fin (order + 1) → ℝ),
      lagrangeBasis (exactArith ℝ) (gaussLobattoSpacing (exactArith ℝ)) order = .ok b ∧
      (∀ i : Fin (order + 1), (quadratureGaussLobatto (exactArith ℝ) ((order + 1 : ℕ) : Int)).coordCT (i : ℕ) = .ok (c i)) ∧
      (∀ i : Fin (order + 1), (quadratureGaussLobatto (exactArith ℝ) ((order + 1 : ℕ) : Int)).weightCT (i : ℕ) = .ok (w i)) ∧
      (∀ i j : Fin (order + 1), b.gradient (j : ℕ) (c i) = .ok (D i j)) ∧
      ∀ i j : Fin (order + 1), |w i * D i j + w j * D j i
        - ((if i = j ∧ i = Fin.last order then 1 else 0) - if i = j ∧ i = 0 then 1 else 0)| ≤ (ε : ℝ) := by
  obtain ⟨t1, t2, t3, t4⟩ := h
  have hc : ∀ i : Fin (order + 1), GaussLobatto.coordCT (exactArith ℝ) ((order + 1 : ℕ) : Int) (i : ℕ)
      = .ok ((lobattoPoint (order + 1) i : ℚ) : ℝ) := fun i => by rw [lobatto_coordCT_hom ratCast_hom, t1]; rfl
  have hw : ∀ i : Fin (order + 1), QuadratureGaussLobatto.weightCT (exactArith ℝ) ((order + 1 : ℕ) : Int) (i : ℕ)
      = .ok ((lobattoWeight (order + 1) i : ℚ) : ℝ) := fun i => by rw [lobatto_weightCT_hom ratCast_hom, t2]; rfl
  have hn : Nodes (gaussLobattoSpacing (exactArith ℝ) ((order + 1 : ℕ) : Int)) (order + 1)
      (fun i => ((lobattoPoint (order + 1) i : ℚ) : ℝ)) :=
    ⟨fun _ i => hc i, fun i j hij => by_contra fun hne => t3 i j hne (Rat.cast_injective hij)⟩
  obtain ⟨b, hb, hg⟩ := lobatto_basis (by omega) hn
  refine ⟨b, _, _, fun i j => ((gradientAt (lobattoPoint (order + 1)) j (lobattoPoint (order + 1) i) : ℚ) : ℝ), hb, hc, hw,
    fun i j => ?_, fun i j => ?_⟩
  · beta_reduce; rw [hg, gradientAt_cast]
  · have := Rat.cast_le (K := ℝ).2 (t4 i j)
    have e1 : (i : ℕ) + 1 = order + 1 ↔ i = Fin.last order := by rw [Fin.ext_iff, Fin.val_last]; omega
    have e2 : (i : ℕ) = 0 ↔ i = 0 := by rw [Fin.ext_iff]; rfl
    simp only [e1, e2] at this
    rw [Rat.cast_abs, Rat.cast_sub, Rat.cast_add, Rat.cast_mul, Rat.cast_mul, Rat.cast_sub] at this
    have hite : ∀ (P : Prop) [Decidable P], (((if P then 1 else 0 : ℚ)) : ℝ) = if P then 1 else 0 := fun P _ => by
      split_ifs <;> simp
    rw [hite, hite] at this
    exact this

/-- **C117, collocation.** On the Gauss–Lobatto points, the nodes of the basis, differentiation `D` and the weights `w` form a
summation-by-parts operator: `W D + (W D)ᵀ` is `1` at the last node, `-1` at the first, and zero elsewhere, up to the
accuracy of the decimals. -/
theorem C117_collocation (order : ℕ) (h1 : 1 ≤ order) (h8 : order ≤ 8) :
    ∃ b, ∃ (c w : Fin (order + 1) → ℝ) (D : Fin (order + 1) → Fin (order + 1) → ℝ),
      lagrangeBasis (exactArith ℝ) (gaussLobattoSpacing (exactArith ℝ)) order = .ok b ∧
      (∀ i : Fin (order + 1), (quadratureGaussLobatto (exactArith ℝ) ((order + 1 : ℕ) : Int)).coordCT (i : ℕ) = .ok (c i)) ∧
      (∀ i : Fin (order + 1), (quadratureGaussLobatto (exactArith ℝ) ((order + 1 : ℕ) : Int)).weightCT (i : ℕ) = .ok (w i)) ∧
      (∀ i j : Fin (order + 1), b.gradient (j : ℕ) (c i) = .ok (D i j)) ∧
      ∀ i j : Fin (order + 1), |w i * D i j + w j * D j i
        - ((if i = j ∧ i = Fin.last order then 1 else 0) - if i = j ∧ i = 0 then 1 else 0)|
          ≤ if order ≤ 4 then 1 / 10 ^ 33 else 3 / 10 ^ 13 := by
  by_cases h4 : order ≤ 4
  · have := collocation_of h1 h8 (operator_table_few (order + 1)
      (by simp only [List.mem_cons, List.not_mem_nil, or_false]; omega))
    rw [if_pos h4]
    push_cast at this
    exact this
  · have := collocation_of h1 h8 (operator_table_many (order + 1)
      (by simp only [List.mem_cons, List.not_mem_nil, or_false]; omega))
    rw [if_neg h4]
    push_cast at this
    exact this

/-- Non-vacuity of C117: the basis of order 4 in three dimensions with five Gauss–Lobatto points in each direction, and the
basis of order 4 with four Gauss–Legendre points. -/
example : ∃ c e p w p' w', IsLagrange (fun _ : Fin (2 + 1) => 4) c e ∧
    IsGrid (fun _ : Fin (2 + 1) => .gaussLobatto) (fun _ => 5) p w ∧ 2 * 4 - 1 ≤ RuleFamily.gaussLobatto.degree 5 ∧
    IsGrid (fun _ : Fin (2 + 1) => .gaussLegendre) (fun _ => 4) p' w' ∧ 2 * 4 - 1 ≤ RuleFamily.gaussLegendre.degree 4 := by
  obtain ⟨p, w, hg⟩ := C94_grids (fun _ : Fin 3 => RuleFamily.gaussLobatto) (fun _ => 4 + 1)
    fun _ => ⟨by norm_num, by norm_num⟩
  obtain ⟨p', w', hg'⟩ := C94_grids (fun _ : Fin 3 => RuleFamily.gaussLegendre) (fun _ => 4)
    fun _ => ⟨by norm_num, by norm_num⟩
  obtain ⟨b, hb, -⟩ := (C36_compiles_iff_supported .gaussLobatto 4 ⟨by norm_num, by norm_num⟩).1
    ⟨by norm_num, by norm_num⟩
  exact ⟨p, ⟨.ok 3, List.ofFn fun _ : Fin 3 => b⟩, p, w, p', w', ⟨by norm_num, rfl, fun _ => b, rfl, fun k => ⟨by norm_num,
    gaussLobattoSpacing (exactArith ℝ), ⟨fun _ i => hg.points k i, (grid_facts hg).2.1 k⟩, hb⟩⟩, hg, by decide, hg',
    by decide⟩

/-- The tolerance of `C117_collocation` is small beside the weights: the smallest is `1/36`. -/
example : (∀ i : Fin 9, 1 / 36 - 1 / 10 ^ 12 ≤ lobattoWeight 9 i) ∧ lobattoWeight 9 0 < 1 / 36 + 1 / 10 ^ 12 := by
  decide +kernel

end Verif.Props
