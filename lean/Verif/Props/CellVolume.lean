import Verif.Lemmas.CellVolume
import Verif.Props.Mapping
import Mathlib.Algebra.MvPolynomial.Funext
import Verif.Props.TensorQuadrature

/-! # Property C66: quadrature of `detJ` gives the volume of a cell -/

namespace Verif.Props

open Verif.Spec Verif.Lemmas MeasureTheory

variable {d : ℕ} {order : Fin d → ℕ} {c : (k : Fin d) → Fin (order k + 1) → ℝ}
  {t : LinearTransform ℝ} {X : ((k : Fin d) → Fin (order k + 1)) → Fin d → ℝ}

/-! ### the isoparametric map as a polynomial -/

/-- A one-variable polynomial in variable `k`. -/
noncomputable def inVar (k : Fin d) (p : Polynomial ℝ) : MvPolynomial (Fin d) ℝ :=
  ∑ i ∈ Finset.range (p.natDegree + 1), MvPolynomial.C (p.coeff i) * MvPolynomial.X k ^ i

theorem eval_inVar (k : Fin d) (p : Polynomial ℝ) (ξ : Fin d → ℝ) :
    MvPolynomial.eval ξ (inVar k p) = p.eval (ξ k) := by
  simp [inVar, Polynomial.eval_eq_sum_range]

theorem degreeOf_inVar (k j : Fin d) (p : Polynomial ℝ) :
    (inVar k p).degreeOf j ≤ if j = k then p.natDegree else 0 := by
  classical
  refine (MvPolynomial.degreeOf_sum_le _ _ _).trans (Finset.sup_le fun i hi => ?_)
  refine (MvPolynomial.degreeOf_C_mul_le _ _ _).trans ((MvPolynomial.degreeOf_pow_le _ _ _).trans ?_)
  rw [MvPolynomial.degreeOf_X]
  have := Finset.mem_range.1 hi
  split <;> omega

/-- Component `i` of the isoparametric map. -/
noncomputable def mapPoly (c : (k : Fin d) → Fin (order k + 1) → ℝ)
    (X : ((k : Fin d) → Fin (order k + 1)) → Fin d → ℝ) (i : Fin d) : MvPolynomial (Fin d) ℝ :=
  ∑ idx, MvPolynomial.C (X idx i) * ∏ k, inVar k (Lagrange.basis Finset.univ (c k) (idx k))

theorem degreeOf_mapPoly (hinj : ∀ k, Function.Injective (c k)) (i k : Fin d) :
    (mapPoly c X i).degreeOf k ≤ order k := by
  classical
  refine (MvPolynomial.degreeOf_sum_le _ _ _).trans (Finset.sup_le fun idx _ => ?_)
  refine (MvPolynomial.degreeOf_C_mul_le _ _ _).trans ((MvPolynomial.degreeOf_prod_le _ _ _).trans ?_)
  refine (Finset.sum_le_sum fun j _ => degreeOf_inVar j k _).trans ?_
  rw [Finset.sum_ite_eq Finset.univ k, if_pos (Finset.mem_univ _),
    Lagrange.natDegree_basis (hinj k).injOn (Finset.mem_univ _)]
  simp

/-- The shape functions are values of polynomials, so the map is, and `jacobian` is made of their partial
derivatives. -/
theorem lagrange_polynomial (h : IsLagrange order c t.shape) (hs : d * d ≤ 2147483647)
    (hX : HoldsPoints t.data X) :
    ∃ N : ((k : Fin d) → Fin (order k + 1)) → (Fin d → ℝ) → ℝ,
      (∀ idx ξ, InterpolatedShape.value (exactArith ℝ) t.shape (tup idx) (List.ofFn ξ) = .ok (N idx ξ)) ∧
      (∀ ξ i, ∑ idx, N idx ξ * X idx i = MvPolynomial.eval ξ (mapPoly c X i)) ∧
      ∀ cfg ξ extra M, LinearTransform.jacobian cfg (exactArith ℝ) t (List.ofFn ξ ++ extra) (matMem M)
        = .ok (matMem (M + Matrix.of fun i j =>
            MvPolynomial.eval ξ (MvPolynomial.pderiv j (mapPoly c X i)))) := by
  obtain ⟨N, Jm, h1, h2, h3⟩ := lagrange_jacobian h hs hX
  obtain ⟨bs, hb, hr, -⟩ := isLagrange_realises h
  have h6 : ∀ idx ξ, N idx ξ = ∏ k, (Lagrange.basis Finset.univ (c k) (idx k)).eval (ξ k) := by
    intro idx ξ
    have h7 := h1 idx ξ
    rw [hb, (basisValue_eq (exactArith ℝ) (elementOf_instantiate bs) (idx := tup idx)
      (by simp [tup_length, elementOf]) (List.ofFn ξ)).2.1] at h7
    have h8 := product_value h.dims hr idx ξ
    rw [show (elementOf bs).bases = List.ofFn bs from rfl, h8] at h7
    exact (Res.ok.inj h7).symm
  have h9 : ∀ ξ i, ∑ idx, N idx ξ * X idx i = MvPolynomial.eval ξ (mapPoly c X i) := by
    intro ξ i
    simp only [mapPoly, map_sum, map_mul, map_prod, eval_inVar, MvPolynomial.eval_C, h6]
    exact Finset.sum_congr rfl fun idx _ => mul_comm _ _
  refine ⟨N, h1, h9, fun cfg ξ extra M => ?_⟩
  rw [h3]
  congr 3
  funext i j
  have h4 := h2 ξ i
  simp only [h9] at h4
  have h5 := congrArg (fun L : (Fin d → ℝ) →L[ℝ] ℝ => L (Pi.single j 1))
    (h4.unique (hasFDerivAt_eval (mapPoly c X i) ξ))
  simpa [Pi.single_apply] using h5

/-! ### C66 -/

section three
variable {order : Fin 3 → ℕ} {c : (k : Fin 3) → Fin (order k + 1) → ℝ} {t : LinearTransform ℝ}
  {X : ((k : Fin 3) → Fin (order k + 1)) → Fin 3 → ℝ}

theorem detJ_polynomial (h : IsLagrange order c t.shape) (hX : HoldsPoints t.data X) (cfg : Config)
    (ξ : Fin 3 → ℝ) :
    ∃ after, LinearTransform.inverseJacobianValue cfg (exactArith ℝ) t (List.ofFn ξ)
      = .ok (MvPolynomial.eval ξ (jacobianPoly (mapPoly c X)).det, after) := by
  obtain ⟨N, -, -, h3⟩ := lagrange_polynomial h (by norm_num) hX
  obtain ⟨J, D, det, after, e1, e2, e3, rfl, -⟩ := C52_inverseJacobian cfg h hX ξ
  obtain ⟨bs, hb, -, -⟩ := isLagrange_realises h
  have hn : t.numDims = 3 := by rw [LinearTransform.numDims, hb]; simp [elementOf]
  have hz := listInit_zero (d := 3) (by norm_num) (by norm_num)
  have e := h3 cfg ξ [] 0
  rw [List.append_nil, zero_add] at e
  rw [LinearTransform.jacobianValue, staticAssert_bind_true (by simp), hn] at e1
  have hJ := e1.symm.trans ((congrArg (· >>= _) hz).trans e)
  have hD : D = Matrix.of fun i j => MvPolynomial.eval ξ (MvPolynomial.pderiv j (mapPoly c X i)) := by
    funext i j
    have := e2.2 checkedHost i j
    rw [Res.ok.inj hJ, read_matMem checkedHost (by norm_num) (by norm_num)] at this
    exact (Res.ok.inj this).symm
  exact ⟨after, by rw [e3, eval_det, hD]⟩

/-- **C66.** For every three-dimensional Lagrange cell, and quadrature rules in the three directions exact
to degree `3 * order k - 1` in direction `k`: the sum over the quadrature points of the product of the
weights times the `detJ` returned by `inverseJacobian` at the point is the integral of `detJ` over the
parent cube, up to the accuracy of the decimals (`detJ` is a polynomial `P`).  If `x(ξ) = Σ_a N_a(ξ) X_a`
is one-to-one on the parent cube and `detJ` is nowhere negative there, this integral is the Lebesgue
measure of the cell, the image of the cube. -/
theorem C66_volume (h : IsLagrange order c t.shape) (hX : HoldsPoints t.data X)
    (F : Fin 3 → RuleFamily) (n : Fin 3 → ℕ) (hS : ∀ k, (F k).Supports (n k))
    (hdeg : ∀ k, 3 * order k ≤ (F k).degree (n k) + 1) (ε : ℝ) (htol : ∀ k, (F k).tolerance (n k) ≤ ε) :
    ∃ (q w : (k : Fin 3) → Fin (n k) → ℝ) (N : ((k : Fin 3) → Fin (order k + 1)) → (Fin 3 → ℝ) → ℝ)
      (detJ : (Fin 3 → ℝ) → ℝ) (P : MvPolynomial (Fin 3) ℝ),
      (∀ k (i : Fin (n k)), ((F k).rule (exactArith ℝ) (n k)).coordCT (i : ℕ) = .ok (q k i)) ∧
      (∀ k (i : Fin (n k)), ((F k).rule (exactArith ℝ) (n k)).weightCT (i : ℕ) = .ok (w k i)) ∧
      (∀ idx ξ, InterpolatedShape.value (exactArith ℝ) t.shape (tup idx) (List.ofFn ξ) = .ok (N idx ξ)) ∧
      (∀ cfg ξ, ∃ after, LinearTransform.inverseJacobianValue cfg (exactArith ℝ) t (List.ofFn ξ)
        = .ok (detJ ξ, after)) ∧
      (∀ ξ, detJ ξ = MvPolynomial.eval ξ P) ∧
      |∑ p : (k : Fin 3) → Fin (n k), (∏ k, w k (p k)) * detJ (fun k => q k (p k)) - ∫ ξ in cube 3, detJ ξ|
        ≤ ((2 + ε) ^ 3 - 2 ^ 3) * coeffSum P ∧
      (Set.InjOn (fun ξ i => ∑ idx, N idx ξ * X idx i) (cube 3) → (∀ ξ ∈ cube 3, 0 ≤ detJ ξ) →
        ∫ ξ in cube 3, detJ ξ = (volume ((fun ξ i => ∑ idx, N idx ξ * X idx i) '' cube 3)).toReal) := by
  have hε : 0 ≤ ε := by
    refine le_trans ?_ (htol 0)
    cases F 0 <;> simp only [RuleFamily.tolerance]
    · positivity
    · split <;> positivity
  obtain ⟨N, h1, h2, -⟩ := lagrange_polynomial h (by norm_num) hX
  obtain ⟨q, w, hq, hw, hP⟩ := C65_tensor_rule F n hS ε hε htol
  obtain ⟨-, -, -, hinj⟩ := isLagrange_realises h
  refine ⟨q, w, N, _, (jacobianPoly (mapPoly c X)).det, hq, hw, h1, fun cfg ξ => detJ_polynomial h hX cfg ξ,
    fun ξ => rfl, ?_, fun hi hpos => ?_⟩
  · refine hP _ fun k => (degreeOf_det_le _ order (degreeOf_mapPoly hinj) k).trans ?_
    have := hdeg k
    omega
  · simp only [h2] at hi ⊢
    exact volume_image _ hi hpos

end three

/-! ### trilinear cells -/

private theorem coeffSum_inVar (k : Fin d) (p : Polynomial ℝ) :
    coeffSum (inVar k p) ≤ ∑ i ∈ Finset.range (p.natDegree + 1), |p.coeff i| := by
  refine (coeffSum_sum_le _ _).trans (Finset.sum_le_sum fun i _ => ?_)
  refine (coeffSum_mul_le _ _).trans ?_
  rw [coeffSum_C]
  have h1 : coeffSum (MvPolynomial.X k ^ i : MvPolynomial (Fin d) ℝ) ≤ 1 := by
    have := coeffSum_prod_le (Finset.range i) (fun _ => (MvPolynomial.X k : MvPolynomial (Fin d) ℝ))
    simpa [coeffSum_X] using this
  calc |p.coeff i| * _ ≤ |p.coeff i| * 1 := mul_le_mul_of_nonneg_left h1 (abs_nonneg _)
    _ = _ := mul_one _

private theorem linear_basis {v : Fin 2 → ℝ} (h0 : v 0 = -1) (h1 : v 1 = 1) (k : Fin d) (j : Fin 2) :
    coeffSum (inVar k (Lagrange.basis Finset.univ v j)) ≤ 1 := by
  have hinj : Function.Injective v := by
    intro a b hab
    fin_cases a <;> fin_cases b <;> first | rfl | (simp [h0, h1] at hab; norm_num at hab)
  have hd : (Lagrange.basis Finset.univ v j).natDegree = 1 := by
    rw [Lagrange.natDegree_basis hinj.injOn (Finset.mem_univ _)]; simp
  refine (coeffSum_inVar k _).trans ?_
  rw [hd, Finset.sum_range_succ, Finset.sum_range_one]
  have e : Lagrange.basis Finset.univ v j = Lagrange.basisDivisor (v j) (v (1 - j)) := by
    rw [Lagrange.basis]
    fin_cases j
    · rw [show (Finset.univ.erase (⟨0, by norm_num⟩ : Fin 2)) = {1} from by decide]; simp
    · rw [show (Finset.univ.erase (⟨1, by norm_num⟩ : Fin 2)) = {0} from by decide]; simp
  rw [e, Lagrange.basisDivisor]
  simp only [Polynomial.coeff_C_mul, Polynomial.coeff_sub, Polynomial.coeff_X_zero, Polynomial.coeff_C_zero,
    Polynomial.coeff_X_one, Polynomial.coeff_C_succ]
  fin_cases j
  · norm_num [h0, h1, abs_of_nonneg, abs_of_neg]
  · norm_num [h0, h1, abs_of_nonneg, abs_of_neg]

/-- The coefficients of a component of a trilinear map. -/
theorem coeffSum_mapPoly {c : (k : Fin 3) → Fin 2 → ℝ} (hc : ∀ k, c k 0 = -1 ∧ c k 1 = 1)
    {X : (Fin 3 → Fin 2) → Fin 3 → ℝ} {B : ℝ} (i : Fin 3) (hB : ∀ idx, |X idx i| ≤ B) :
    coeffSum (mapPoly (order := fun _ => 1) c X i) ≤ 8 * B := by
  refine (coeffSum_sum_le _ _).trans ?_
  have : ∀ idx ∈ (Finset.univ : Finset (Fin 3 → Fin 2)),
      coeffSum (MvPolynomial.C (X idx i) * ∏ k, inVar k (Lagrange.basis Finset.univ (c k) (idx k))) ≤ B := by
    intro idx _
    refine (coeffSum_mul_le _ _).trans ?_
    rw [coeffSum_C]
    have g1 : coeffSum (∏ k, inVar k (Lagrange.basis Finset.univ (c k) (idx k))) ≤ 1 := by
      refine (coeffSum_prod_le _ _).trans ?_
      exact Finset.prod_le_one (fun _ _ => coeffSum_nonneg _)
        fun k _ => linear_basis (hc k).1 (hc k).2 k (idx k)
    calc |X idx i| * _ ≤ |X idx i| * 1 := mul_le_mul_of_nonneg_left g1 (abs_nonneg _)
      _ ≤ B := by rw [mul_one]; exact hB _
  refine (Finset.sum_le_sum this).trans ?_
  rw [Finset.sum_const, Finset.card_univ]
  simp

/-- **C66, trilinear cells.** End to end: for bases with the two nodes -1 and 1, after `setData` of eight
vertices with components of absolute value at most `B`, and quadrature rules exact to degree 2 in each
direction (all but the two-point Gauss-Lobatto rule), the weighted sum of the computed `detJ` is the volume
of the hexahedron up to `((2+ε)^3 - 8) * 3072 * B^3`, provided the trilinear map is one-to-one and `detJ`
is not negative. -/
theorem C66_trilinear {c : (k : Fin 3) → Fin 2 → ℝ} {t : LinearTransform ℝ}
    (h : IsLagrange (fun _ : Fin 3 => 1) c t.shape) (hc : ∀ k, c k 0 = -1 ∧ c k 1 = 1)
    (hl : t.data.length = 24) (V : Fin 8 → Fin 3 → ℝ) (coords : Int → Int → Res ℝ)
    (hV : ∀ (v : Fin 8) (i : Fin 3), coords ((v : ℕ) : Int) ((i : ℕ) : Int) = .ok (V v i))
    (B : ℝ) (hB : ∀ v i, |V v i| ≤ B)
    (F : Fin 3 → RuleFamily) (n : Fin 3 → ℕ) (hS : ∀ k, (F k).Supports (n k))
    (hdeg : ∀ k, ¬ (F k = .gaussLobatto ∧ n k = 2)) (ε : ℝ) (htol : ∀ k, (F k).tolerance (n k) ≤ ε)
    (cfg : Config) :
    ∃ (t' : LinearTransform ℝ) (q w : (k : Fin 3) → Fin (n k) → ℝ)
      (N : (Fin 3 → Fin 2) → (Fin 3 → ℝ) → ℝ) (detJ : (Fin 3 → ℝ) → ℝ),
      LinearTransform.setData cfg t coords = .ok t' ∧
      (∀ k (i : Fin (n k)), ((F k).rule (exactArith ℝ) (n k)).coordCT (i : ℕ) = .ok (q k i)) ∧
      (∀ k (i : Fin (n k)), ((F k).rule (exactArith ℝ) (n k)).weightCT (i : ℕ) = .ok (w k i)) ∧
      (∀ (idx : Fin 3 → Fin 2) ξ,
        InterpolatedShape.value (exactArith ℝ) t'.shape (tup idx) (List.ofFn ξ) = .ok (N idx ξ)) ∧
      (∀ ξ, ∃ after, LinearTransform.inverseJacobianValue cfg (exactArith ℝ) t' (List.ofFn ξ)
        = .ok (detJ ξ, after)) ∧
      (Set.InjOn (fun ξ i => ∑ idx, N idx ξ * V (vertexNumber idx) i) (cube 3) →
        (∀ ξ ∈ cube 3, 0 ≤ detJ ξ) →
        |∑ p : (k : Fin 3) → Fin (n k), (∏ k, w k (p k)) * detJ (fun k => q k (p k))
            - (volume ((fun ξ i => ∑ idx, N idx ξ * V (vertexNumber idx) i) '' cube 3)).toReal|
          ≤ ((2 + ε) ^ 3 - 2 ^ 3) * (3072 * B ^ 3)) := by
  obtain ⟨bs, hb, hr, hinj⟩ := isLagrange_realises h
  obtain ⟨t', h1, h2, -, h3, -⟩ := C48_setData cfg t bs (by rw [hb]; rfl)
    (by rw [hb]; exact elementOf_instantiate bs) (fun k => (hr k).count) hl V coords hV
  have h' : IsLagrange (fun _ : Fin 3 => 1) c t'.shape := by rw [h2]; exact h
  have hε : 0 ≤ ε := by
    refine le_trans ?_ (htol 0)
    cases F 0 <;> simp only [RuleFamily.tolerance]
    · positivity
    · split <;> positivity
  obtain ⟨q, w, N, detJ, P, e1, e2, e3, e4, e5, e6, e7⟩ := C66_volume
    (X := fun (idx : Fin 3 → Fin 2) i => V (vertexNumber idx) i) h' h3 F n hS (fun k => by
      have a1 := hS k
      have a2 := hdeg k
      generalize F k = G at a1 a2 ⊢
      cases G <;> simp only [RuleFamily.Supports, RuleFamily.degree, true_and] at a1 a2 ⊢ <;> omega) ε htol
  refine ⟨t', q, w, N, detJ, h1, e1, e2, e3, fun ξ => e4 cfg ξ, fun hi hpos => ?_⟩
  rw [← e7 hi hpos]
  refine e6.trans (mul_le_mul_of_nonneg_left ?_ ?_)
  · have hPeq : P = (jacobianPoly (mapPoly (order := fun _ => 1) c
        fun (idx : Fin 3 → Fin 2) i => V (vertexNumber idx) i)).det := by
      refine MvPolynomial.funext fun ξ => ?_
      obtain ⟨after, f1⟩ := e4 cfg ξ
      obtain ⟨after', f2⟩ := detJ_polynomial h' h3 cfg ξ
      rw [← e5]
      exact (Prod.mk.inj (Res.ok.inj (f1.symm.trans f2))).1
    rw [hPeq]
    refine (coeffSum_det_le _ (fun _ => 1) (degreeOf_mapPoly hinj) (B := 8 * B) fun i => ?_).trans ?_
    · exact coeffSum_mapPoly hc (X := fun idx i => V (vertexNumber idx) i) i fun idx => hB _ i
    · simp only [Finset.prod_const, Finset.card_univ, Fintype.card_fin, Nat.cast_one, one_mul]
      norm_num [Nat.factorial]
      ring_nf
      exact le_refl _
  · have : (2 : ℝ) ^ 3 ≤ (2 + ε) ^ 3 := pow_le_pow_left₀ (by norm_num) (by linarith) 3
    linarith

/-! ### the hypotheses -/

/-- A cell whose nodes are images of the parent nodes under a polynomial map of low enough degree is the
image of the parent element under that map. -/
theorem mapPoly_of_nodes (h : IsLagrange order c t.shape) (hX : HoldsPoints t.data X)
    (p : Fin d → MvPolynomial (Fin d) ℝ) (hp : ∀ i k, (p i).degreeOf k ≤ order k)
    (hXp : ∀ idx i, X idx i = MvPolynomial.eval (fun k => c k (idx k)) (p i)) : mapPoly c X = p := by
  funext i
  refine MvPolynomial.funext fun ξ => ?_
  have hv : ∀ idx : (k : Fin d) → Fin (order k + 1),
      CArray.read checkedHost t.data (CArray.whole ((List.ofFn fun k => ((order k + 1 : ℕ) : Int)) ++ [(d : Int)]))
        (tup idx ++ [((i : ℕ) : Int)]) = .ok (X idx i) := fun idx => hX checkedHost idx i
  have h4 := (C43_polynomial_reproduction h (p i) (hp i) (fun l => CArray.read checkedHost t.data
      (CArray.whole ((List.ofFn fun k => ((order k + 1 : ℕ) : Int)) ++ [(d : Int)])) (l ++ [((i : ℕ) : Int)]))
    (fun idx => by rw [hv, hXp]) ξ).1
  obtain ⟨bs, hb, hr, -⟩ := isLagrange_realises h
  rw [hb, parent_value h.dims hr ξ _ _ hv] at h4
  rw [← Res.ok.inj h4]
  simp only [mapPoly, map_sum, map_mul, map_prod, eval_inVar, MvPolynomial.eval_C]
  exact Finset.sum_congr rfl fun idx _ => mul_comm _ _

/-- The map `(ξ, η, ζ) ↦ (ξ + ξ η / 2, η, ζ)`. -/
private noncomputable def wedge : Fin 3 → MvPolynomial (Fin 3) ℝ :=
  ![MvPolynomial.X 0 + MvPolynomial.C (1 / 2) * (MvPolynomial.X 0 * MvPolynomial.X 1),
    MvPolynomial.X 1, MvPolynomial.X 2]

/-- A trilinear cell with nodes -1 and 1 and any eight vertices. -/
theorem trilinear_cell : ∃ e : Element ℝ, IsLagrange (fun _ : Fin 3 => 1) (fun _ => ![-1, 1]) e ∧
    ∀ X : (Fin 3 → Fin 2) → Fin 3 → ℝ, ∃ t : LinearTransform ℝ, t.shape = e ∧ HoldsPoints t.data X := by
  obtain ⟨b, hb, -⟩ := (C36_compiles_iff_supported .gaussLobatto 1 ⟨by norm_num, by norm_num⟩).1
    ⟨by norm_num, by norm_num⟩
  have h : IsLagrange (fun _ : Fin 3 => 1) (fun _ => ![-1, 1]) ⟨.ok 3, List.ofFn fun _ : Fin 3 => b⟩ := by
    refine ⟨by norm_num, rfl, fun _ => b, rfl, fun k => ⟨by norm_num, gaussLobattoSpacing (exactArith ℝ), ⟨?_, ?_⟩, hb⟩⟩
    · intro _ i
      fin_cases i
      · show Res.ok _ = _
        simp [exactArith]
      · show Res.ok _ = _
        norm_num [exactArith]
    · intro i j hij
      fin_cases i <;> fin_cases j <;> first | rfl | (simp at hij; norm_num at hij)
  obtain ⟨bs, hbs, hr, -⟩ := isLagrange_realises h
  have hsurj : Function.Surjective vertexNumber := by decide
  have hinj : Function.Injective vertexNumber := by decide
  choose inv hinv using hsurj
  refine ⟨_, h, fun X => ?_⟩
  obtain ⟨t', -, h2, -, h3, -⟩ := C48_setData checkedHost
    ⟨⟨.ok 3, List.ofFn fun _ : Fin 3 => b⟩, List.replicate 24 0⟩ bs (by rw [hbs]; rfl)
    (by rw [hbs]; exact elementOf_instantiate bs) (fun k => (hr k).count) (by simp)
    (fun v i => X (inv v) i)
    (fun r i => if hr : r.toNat < 8 ∧ i.toNat < 3 then .ok (X (inv ⟨r.toNat, hr.1⟩) ⟨i.toNat, hr.2⟩) else .ub)
    (fun v i => by
      have := v.2
      have := i.2
      simp)
  refine ⟨t', h2, fun cfg idx i => (h3 cfg idx i).trans ?_⟩
  have h4 : inv (vertexNumber idx) = idx := hinj (hinv _)
  simp only [h4]

/-- Non-vacuity of C66: a hexahedron that is not a parallelepiped, with the two-point Gauss-Legendre rule
in two directions and the three-point Gauss-Lobatto rule in the third. -/
theorem sample_hexahedron : ∃ (c : (k : Fin 3) → Fin 2 → ℝ) (t : LinearTransform ℝ) (X : (Fin 3 → Fin 2) → Fin 3 → ℝ)
    (N : (Fin 3 → Fin 2) → (Fin 3 → ℝ) → ℝ) (detJ : (Fin 3 → ℝ) → ℝ),
    IsLagrange (fun _ : Fin 3 => 1) c t.shape ∧ HoldsPoints t.data X ∧
    (∀ (idx : Fin 3 → Fin 2) ξ,
      InterpolatedShape.value (exactArith ℝ) t.shape (tup idx) (List.ofFn ξ) = .ok (N idx ξ)) ∧
    (∀ ξ, ∃ after, LinearTransform.inverseJacobianValue checkedHost (exactArith ℝ) t (List.ofFn ξ)
      = .ok (detJ ξ, after)) ∧
    Set.InjOn (fun ξ i => ∑ idx, N idx ξ * X idx i) (cube 3) ∧ (∀ ξ, detJ ξ = 1 + ξ 1 / 2) ∧
    (∀ ξ ∈ cube 3, 0 ≤ detJ ξ) ∧
    (∀ k, (![RuleFamily.gaussLegendre, .gaussLegendre, .gaussLobatto] k).Supports (![2, 2, 3] k)) ∧
    ∀ k, 3 * 1 ≤ (![RuleFamily.gaussLegendre, .gaussLegendre, .gaussLobatto] k).degree (![2, 2, 3] k) + 1 := by
  obtain ⟨e, he, hcell⟩ := trilinear_cell
  obtain ⟨X, hXdef⟩ : ∃ X : (Fin 3 → Fin 2) → Fin 3 → ℝ, ∀ idx i,
      X idx i = MvPolynomial.eval (fun k => (![-1, 1] : Fin 2 → ℝ) (idx k)) (wedge i) := ⟨_, fun _ _ => rfl⟩
  obtain ⟨t', h2, hX⟩ := hcell X
  have ht : IsLagrange (fun _ : Fin 3 => 1) (fun _ => ![-1, 1]) t'.shape := by rw [h2]; exact he
  obtain ⟨N, h1, h5, -⟩ := lagrange_polynomial ht (by norm_num) hX
  have hm : mapPoly (order := fun _ : Fin 3 => 1) (fun _ => ![-1, 1]) X = wedge := by
    refine mapPoly_of_nodes ht hX wedge (fun i k => ?_) hXdef
    classical
    fin_cases i
    · refine (MvPolynomial.degreeOf_add_le _ _ _).trans (max_le ?_ ?_)
      · rw [MvPolynomial.degreeOf_X]; split <;> norm_num
      · refine (MvPolynomial.degreeOf_C_mul_le _ _ _).trans ((MvPolynomial.degreeOf_mul_le _ _ _).trans ?_)
        rw [MvPolynomial.degreeOf_X, MvPolynomial.degreeOf_X]
        fin_cases k <;> simp
    · show MvPolynomial.degreeOf k (MvPolynomial.X 1) ≤ 1
      rw [MvPolynomial.degreeOf_X]; split <;> norm_num
    · show MvPolynomial.degreeOf k (MvPolynomial.X 2) ≤ 1
      rw [MvPolynomial.degreeOf_X]; split <;> norm_num
  have hdet : ∀ ξ : Fin 3 → ℝ, MvPolynomial.eval ξ (jacobianPoly wedge).det = 1 + ξ 1 / 2 := by
    intro ξ
    rw [eval_det, Matrix.det_fin_three]
    simp [wedge, MvPolynomial.pderiv_X]
    ring
  refine ⟨_, t', X, N, fun ξ => MvPolynomial.eval ξ (jacobianPoly wedge).det, ht, hX, h1, fun ξ => ?_, ?_, hdet,
    fun ξ hξ => ?_, fun k => ?_, fun k => ?_⟩
  · obtain ⟨after, e⟩ := detJ_polynomial ht hX checkedHost ξ
    exact ⟨after, by rw [e, hm]⟩
  · simp only [h5, hm]
    intro ξ hξ η hη e
    have e0 := congrFun e 0
    have e1 := congrFun e 1
    have e2 := congrFun e 2
    simp [wedge] at e0 e1 e2
    have b1 := (hη 1).1
    have : (ξ 0 - η 0) * (1 + η 1 / 2) = 0 := by rw [e1] at e0; linarith
    have h0 : ξ 0 - η 0 = 0 := (mul_eq_zero.1 this).resolve_right (by linarith)
    funext k
    fin_cases k
    · exact sub_eq_zero.1 h0
    · exact e1
    · exact e2
  · simp only [hdet]
    have := (hξ 1).1
    linarith
  · fin_cases k <;> simp [RuleFamily.Supports]
  · fin_cases k <;> simp [RuleFamily.degree]

end Verif.Props
