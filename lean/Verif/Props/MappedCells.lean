import Verif.Props.CellVolume

/-! # Properties C79–C80: affine changes of a cell and integrals over cells -/

namespace Verif.Props

open Verif.Spec Verif.Lemmas MeasureTheory

variable {d : ℕ} {order : Fin d → ℕ} {c : (k : Fin d) → Fin (order k + 1) → ℝ}
  {t t' : LinearTransform ℝ} {X : ((k : Fin d) → Fin (order k + 1)) → Fin d → ℝ}

/-! ### C79 -/

/-- The matrix of partial derivatives is unique. -/
theorem isDerivative_unique {F : (Fin d → ℝ) → Fin d → ℝ} {M M' : Matrix (Fin d) (Fin d) ℝ} {ξ : Fin d → ℝ}
    (h : IsDerivative F M ξ) (h' : IsDerivative F M' ξ) : M = M' := by
  funext i j
  have := congrArg (fun L : (Fin d → ℝ) →L[ℝ] ℝ => L (Pi.single j 1)) ((h i).unique (h' i))
  simpa [Pi.single_apply] using this

/-- What `jacobian` adds for a cell moved by an affine map. -/
theorem affine_change (h : IsLagrange order c t.shape) (hs : d * d ≤ 2147483647) (hX : HoldsPoints t.data X)
    (hsh : t'.shape = t.shape) (A : Matrix (Fin d) (Fin d) ℝ) (b : Fin d → ℝ)
    (hX' : HoldsPoints t'.data (fun (idx : (k : Fin d) → Fin (order k + 1)) i => ∑ j, A i j * X idx j + b i))
    (ξ : Fin d → ℝ) :
    ∃ D : Matrix (Fin d) (Fin d) ℝ,
      (∀ cfg extra M, LinearTransform.jacobian cfg (exactArith ℝ) t (List.ofFn ξ ++ extra) (matMem M)
        = .ok (matMem (M + D))) ∧
      ∀ cfg extra M, LinearTransform.jacobian cfg (exactArith ℝ) t' (List.ofFn ξ ++ extra) (matMem M)
        = .ok (matMem (M + A * D)) := by
  obtain ⟨N, Jm, h1, h2, h3⟩ := lagrange_jacobian h hs hX
  obtain ⟨N', Jm', h1', h2', h3'⟩ := lagrange_jacobian (t := t') (by rw [hsh]; exact h) hs hX'
  have hN : N' = N := by
    funext idx ξ
    have := h1' idx ξ
    rw [hsh, h1 idx ξ] at this
    exact (Res.ok.inj this).symm
  subst hN
  have hsum : ∀ ξ, ∑ idx, N' idx ξ = 1 := by
    intro ξ
    obtain ⟨v, -, hv, -, hv1, -⟩ := C38_partition_of_unity h ξ
    obtain ⟨bs, hb, -, -⟩ := isLagrange_realises h
    rw [← hv1]
    refine Finset.sum_congr rfl fun idx _ => ?_
    have e := basisValue_eq (exactArith ℝ) (elementOf_instantiate bs) (idx := tup idx)
      (by simp [tup_length, elementOf]) (List.ofFn ξ)
    rw [← hb] at e
    exact Res.ok.inj ((h1 idx ξ).symm.trans (e.2.1.trans (e.1.symm.trans (hv idx))))
  have hJ : Jm' ξ = A * Jm ξ := by
    refine isDerivative_unique (h2' ξ) fun i => ?_
    have hF : (fun ξ => ∑ idx, N' idx ξ * (∑ j, A i j * X idx j + b i))
        = fun ξ => ∑ j, A i j * (∑ idx, N' idx ξ * X idx j) + b i := by
      funext ξ
      simp only [mul_add, Finset.sum_add_distrib, ← Finset.sum_mul, hsum, one_mul, Finset.mul_sum]
      rw [Finset.sum_comm]
      congr 1
      exact Finset.sum_congr rfl fun j _ => Finset.sum_congr rfl fun idx _ => by ring
    rw [hF]
    refine (HasFDerivAt.add_const _ (HasFDerivAt.fun_sum fun j _ =>
      (h2 ξ j).const_mul (A i j))).congr_fderiv ?_
    simp only [Matrix.mul_apply, Finset.smul_sum, Finset.sum_smul, smul_smul]
    rw [Finset.sum_comm]
  exact ⟨Jm ξ, fun cfg extra M => h3 cfg ξ extra M, fun cfg extra M => by rw [h3', hJ]⟩

/-- **C79.** Moving all nodes of a cell by an affine map `x ↦ A x + b` multiplies the matrix returned by
`jacobian( t, ξ )` by `A` at every point, for Lagrange cells of any order.  In particular a translation
changes nothing. -/
theorem C79_jacobian (h : IsLagrange order c t.shape) (hd : d ≤ 3) (hX : HoldsPoints t.data X)
    (hsh : t'.shape = t.shape) (A : Matrix (Fin d) (Fin d) ℝ) (b : Fin d → ℝ)
    (hX' : HoldsPoints t'.data (fun (idx : (k : Fin d) → Fin (order k + 1)) i => ∑ j, A i j * X idx j + b i))
    (cfg : Config) (ξ : Fin d → ℝ) (extra : List ℝ) (he : d + extra.length = 3) :
    ∃ (D : Matrix (Fin d) (Fin d) ℝ) (J J' : List ℝ),
      LinearTransform.jacobianValue cfg (exactArith ℝ) t (List.ofFn ξ ++ extra) = .ok J ∧ HoldsMatrix J D ∧
      LinearTransform.jacobianValue cfg (exactArith ℝ) t' (List.ofFn ξ ++ extra) = .ok J' ∧
      HoldsMatrix J' (A * D) := by
  have hs : d * d ≤ 2147483647 := (Nat.mul_le_mul hd hd).trans (by norm_num)
  obtain ⟨D, h1, h2⟩ := affine_change h hs hX hsh A b hX' ξ
  obtain ⟨bs, hb, -, -⟩ := isLagrange_realises h
  have hn : t.numDims = d := by rw [LinearTransform.numDims, hb]; simp [elementOf]
  have hn' : t'.numDims = d := by rw [LinearTransform.numDims, hsh, hb]; simp [elementOf]
  refine ⟨D, matMem D, matMem (A * D), ?_, (holds_iff h.dims hs).2 rfl, ?_, (holds_iff h.dims hs).2 rfl⟩
  · rw [LinearTransform.jacobianValue, staticAssert_bind_true (by simp [he]), hn, listInit_zero h.dims hs,
      Res.ok_bind, h1, zero_add]
  · rw [LinearTransform.jacobianValue, staticAssert_bind_true (by simp [he]), hn', listInit_zero h.dims hs,
      Res.ok_bind, h2, zero_add]

/-- **C79, determinant.** The determinant returned by `inverseJacobian( t, ξ )` is multiplied by `det A`.
A rotation or translation leaves it alone, a reflection changes its sign, scaling by `s` multiplies it by
`s^3`. -/
theorem C79_determinant {order : Fin 3 → ℕ} {c : (k : Fin 3) → Fin (order k + 1) → ℝ}
    {X : ((k : Fin 3) → Fin (order k + 1)) → Fin 3 → ℝ}
    (h : IsLagrange order c t.shape) (hX : HoldsPoints t.data X)
    (hsh : t'.shape = t.shape) (A : Matrix (Fin 3) (Fin 3) ℝ) (b : Fin 3 → ℝ)
    (hX' : HoldsPoints t'.data (fun (idx : (k : Fin 3) → Fin (order k + 1)) i => ∑ j, A i j * X idx j + b i))
    (cfg : Config) (ξ : Fin 3 → ℝ) :
    ∃ (det : ℝ) (after after' : Res (List ℝ)),
      LinearTransform.inverseJacobianValue cfg (exactArith ℝ) t (List.ofFn ξ) = .ok (det, after) ∧
      LinearTransform.inverseJacobianValue cfg (exactArith ℝ) t' (List.ofFn ξ) = .ok (A.det * det, after') := by
  obtain ⟨D, J, J', e1, e2, e3, e4⟩ := C79_jacobian h le_rfl hX hsh A b hX' cfg ξ [] rfl
  rw [List.append_nil] at e1 e3
  obtain ⟨J1, D1, det1, after1, f1, f2, f3, f4, -⟩ := C52_inverseJacobian cfg h hX ξ
  obtain ⟨J2, D2, det2, after2, g1, g2, g3, g4, -⟩ := C52_inverseJacobian (t := t') cfg (by rw [hsh]; exact h) hX' ξ
  have hu : ∀ {J : List ℝ} {M M' : Matrix (Fin 3) (Fin 3) ℝ}, HoldsMatrix J M → HoldsMatrix J M' → M = M' := by
    intro J M M' hM hM'
    funext i j
    exact Res.ok.inj ((hM.2 cfg i j).symm.trans (hM'.2 cfg i j))
  obtain rfl := Res.ok.inj (e1.symm.trans f1)
  obtain rfl := Res.ok.inj (e3.symm.trans g1)
  obtain rfl := hu e2 f2
  obtain rfl := hu e4 g2
  refine ⟨det1, after1, after2, f3, ?_⟩
  rw [g3, g4, f4, Matrix.det_mul]

/-! ### C80 -/

section three
variable {order : Fin 3 → ℕ} {c : (k : Fin 3) → Fin (order k + 1) → ℝ} {t : LinearTransform ℝ}
  {X : ((k : Fin 3) → Fin (order k + 1)) → Fin 3 → ℝ}

theorem tolerance_nonneg {F : Fin 3 → RuleFamily} {n : Fin 3 → ℕ} {ε : ℝ}
    (htol : ∀ k, (F k).tolerance (n k) ≤ ε) : 0 ≤ ε := by
  refine le_trans ?_ (htol 0)
  cases F 0 <;> simp only [RuleFamily.tolerance]
  · positivity
  · split <;> positivity

/-- **C80, functions of the parent coordinates.** For every three-dimensional Lagrange cell, every polynomial
`g` in the parent coordinates and quadrature rules exact to the degree of `g` plus `3 * order k - 1` in
direction `k`: the sum over the quadrature points of the weights times `g` times `detJ` is the integral of
`g detJ` over the parent cube, up to the accuracy of the decimals.  If the map `x` of the cell is one-to-one
and `detJ` is not negative on the cube, then for a function `f` on the cell with `f (x ξ) = g ξ` this is
the integral of `f` over the cell. -/
theorem C80_integral (h : IsLagrange order c t.shape) (hX : HoldsPoints t.data X)
    (g : MvPolynomial (Fin 3) ℝ) (F : Fin 3 → RuleFamily) (n : Fin 3 → ℕ) (hS : ∀ k, (F k).Supports (n k))
    (hdeg : ∀ k, g.degreeOf k + (3 * order k - 1) ≤ (F k).degree (n k)) (ε : ℝ)
    (htol : ∀ k, (F k).tolerance (n k) ≤ ε) :
    ∃ (q w : (k : Fin 3) → Fin (n k) → ℝ) (N : ((k : Fin 3) → Fin (order k + 1)) → (Fin 3 → ℝ) → ℝ)
      (detJ : (Fin 3 → ℝ) → ℝ) (P : MvPolynomial (Fin 3) ℝ),
      (∀ k (i : Fin (n k)), ((F k).rule (exactArith ℝ) (n k)).coordCT (i : ℕ) = .ok (q k i)) ∧
      (∀ k (i : Fin (n k)), ((F k).rule (exactArith ℝ) (n k)).weightCT (i : ℕ) = .ok (w k i)) ∧
      (∀ idx ξ, InterpolatedShape.value (exactArith ℝ) t.shape (tup idx) (List.ofFn ξ) = .ok (N idx ξ)) ∧
      (∀ cfg ξ, ∃ after, LinearTransform.inverseJacobianValue cfg (exactArith ℝ) t (List.ofFn ξ)
        = .ok (detJ ξ, after)) ∧
      (∀ ξ, detJ ξ = MvPolynomial.eval ξ P) ∧
      |∑ p : (k : Fin 3) → Fin (n k), (∏ k, w k (p k))
          * (MvPolynomial.eval (fun k => q k (p k)) g * detJ (fun k => q k (p k)))
          - ∫ ξ in cube 3, MvPolynomial.eval ξ g * detJ ξ| ≤ ((2 + ε) ^ 3 - 2 ^ 3) * coeffSum (g * P) ∧
      (Set.InjOn (fun ξ i => ∑ idx, N idx ξ * X idx i) (cube 3) → (∀ ξ ∈ cube 3, 0 ≤ detJ ξ) →
        ∀ f : (Fin 3 → ℝ) → ℝ,
          (∀ ξ ∈ cube 3, f (fun i => ∑ idx, N idx ξ * X idx i) = MvPolynomial.eval ξ g) →
          ∫ ξ in cube 3, MvPolynomial.eval ξ g * detJ ξ
            = ∫ y in (fun ξ i => ∑ idx, N idx ξ * X idx i) '' cube 3, f y) := by
  have hε := tolerance_nonneg htol
  obtain ⟨N, h1, h2, -⟩ := lagrange_polynomial h (by norm_num) hX
  obtain ⟨q, w, hq, hw, hP⟩ := C65_tensor_rule F n hS ε hε htol
  obtain ⟨-, -, -, hinj⟩ := isLagrange_realises h
  refine ⟨q, w, N, _, (jacobianPoly (mapPoly c X)).det, hq, hw, h1, fun cfg ξ => detJ_polynomial h hX cfg ξ,
    fun ξ => rfl, ?_, fun hi hpos f hf => ?_⟩
  · have := hP (g * (jacobianPoly (mapPoly c X)).det) fun k => (MvPolynomial.degreeOf_mul_le _ _ _).trans
      ((Nat.add_le_add_left (degreeOf_det_le _ order (degreeOf_mapPoly hinj) k) _).trans (hdeg k))
    simpa only [map_mul] using this
  · simp only [h2] at hi hf ⊢
    rw [← integral_image _ hi hpos f]
    exact setIntegral_congr_fun measurable_cube fun ξ hξ => by simp only [hf ξ hξ]

/-- **C80, polynomials on the cell.** For a polynomial `f` of total degree at most `D` in the physical
coordinates and rules exact to degree `D * order k + 3 * order k - 1` in direction `k`, the weighted sum of
`f` at the images of the quadrature points times `detJ` is the integral of `f` over the cell, up to the
accuracy of the decimals.  With `f = 1` this is C66. -/
theorem C80_polynomial (h : IsLagrange order c t.shape) (hX : HoldsPoints t.data X)
    (f : MvPolynomial (Fin 3) ℝ) (D : ℕ) (hf : f.totalDegree ≤ D)
    (F : Fin 3 → RuleFamily) (n : Fin 3 → ℕ) (hS : ∀ k, (F k).Supports (n k))
    (hdeg : ∀ k, D * order k + (3 * order k - 1) ≤ (F k).degree (n k)) (ε : ℝ)
    (htol : ∀ k, (F k).tolerance (n k) ≤ ε) :
    ∃ (q w : (k : Fin 3) → Fin (n k) → ℝ) (x : (Fin 3 → ℝ) → Fin 3 → ℝ)
      (detJ : (Fin 3 → ℝ) → ℝ) (P : MvPolynomial (Fin 3) ℝ),
      (∀ k (i : Fin (n k)), ((F k).rule (exactArith ℝ) (n k)).coordCT (i : ℕ) = .ok (q k i)) ∧
      (∀ k (i : Fin (n k)), ((F k).rule (exactArith ℝ) (n k)).weightCT (i : ℕ) = .ok (w k i)) ∧
      (∀ ξ (i : Fin 3) var, (∀ idx, var (tup idx) = .ok (X idx i)) →
        ParentElement.value (exactArith ℝ) t.shape (List.ofFn ξ) var = .ok (x ξ i)) ∧
      (∀ cfg ξ, ∃ after, LinearTransform.inverseJacobianValue cfg (exactArith ℝ) t (List.ofFn ξ)
        = .ok (detJ ξ, after)) ∧
      (∀ ξ, MvPolynomial.eval (x ξ) f * detJ ξ = MvPolynomial.eval ξ P) ∧
      (Set.InjOn x (cube 3) → (∀ ξ ∈ cube 3, 0 ≤ detJ ξ) →
        |∑ p : (k : Fin 3) → Fin (n k), (∏ k, w k (p k))
            * (MvPolynomial.eval (x fun k => q k (p k)) f * detJ (fun k => q k (p k)))
            - ∫ y in x '' cube 3, MvPolynomial.eval y f| ≤ ((2 + ε) ^ 3 - 2 ^ 3) * coeffSum P) := by
  obtain ⟨bs, hb, hr, hinj⟩ := isLagrange_realises h
  have hcomp : ∀ ξ, MvPolynomial.eval ξ (MvPolynomial.bind₁ (mapPoly c X) f)
      = MvPolynomial.eval (fun i => MvPolynomial.eval ξ (mapPoly c X i)) f :=
    fun ξ => MvPolynomial.eval₂Hom_bind₁ (RingHom.id ℝ) ξ (mapPoly c X) f
  obtain ⟨q, w, N, detJ, P, e1, e2, e3, e4, e5, e6, e7⟩ := C80_integral h hX
    (MvPolynomial.bind₁ (mapPoly c X) f) F n hS (fun k => (Nat.add_le_add_right
      (degreeOf_bind_le _ order (degreeOf_mapPoly hinj) f hf k) _).trans (hdeg k)) ε htol
  obtain ⟨N', h1, h2, -⟩ := lagrange_polynomial h (by norm_num) hX
  have hN : N' = N := by
    funext idx ξ
    exact Res.ok.inj ((h1 idx ξ).symm.trans (e3 idx ξ))
  subst hN
  refine ⟨q, w, fun ξ i => ∑ idx, N' idx ξ * X idx i, detJ, MvPolynomial.bind₁ (mapPoly c X) f * P, e1, e2,
    fun ξ i var hvar => ?_, e4, fun ξ => ?_, fun hi hpos => ?_⟩
  · have := parent_value h.dims hr ξ var _ hvar
    rw [← hb] at this
    rw [this]
    show _ = Res.ok (∑ idx, N' idx ξ * X idx i)
    rw [h2]
    simp only [mapPoly, map_sum, map_mul, map_prod, eval_inVar, MvPolynomial.eval_C]
    congr 1
    exact Finset.sum_congr rfl fun idx _ => mul_comm _ _
  · simp only [h2]
    rw [map_mul, hcomp, e5]
  · rw [← e7 hi hpos (fun y => MvPolynomial.eval y f) fun ξ _ => by simp only [h2]; rw [hcomp]]
    simp only [h2]
    simpa only [hcomp] using e6

end three

/-! ### the hypotheses can be met -/

/-- Non-vacuity of C79: a cell and its image under a shear, reflection and translation. -/
example : ∃ (t t' : LinearTransform ℝ) (X : (Fin 3 → Fin 2) → Fin 3 → ℝ) (A : Matrix (Fin 3) (Fin 3) ℝ),
    IsLagrange (fun _ : Fin 3 => 1) (fun _ => ![-1, 1]) t.shape ∧ HoldsPoints t.data X ∧ t'.shape = t.shape ∧
    HoldsPoints t'.data (fun (idx : Fin 3 → Fin 2) i => ∑ j, A i j * X idx j + ![1, 2, 3] i) ∧
    A.det = -1 := by
  obtain ⟨e, he, hcell⟩ := trilinear_cell
  obtain ⟨t, h1, h2⟩ := hcell (fun idx i => (![-1, 1] : Fin 2 → ℝ) (idx i))
  obtain ⟨t', h3, h4⟩ := hcell (fun idx i => ∑ j, (!![1, 2, 0; 0, 1, 0; 0, 0, -1] : Matrix (Fin 3) (Fin 3) ℝ) i j
    * (![-1, 1] : Fin 2 → ℝ) (idx j) + ![1, 2, 3] i)
  refine ⟨t, t', _, _, by rw [h1]; exact he, h2, h3.trans h1.symm, h4, ?_⟩
  rw [Matrix.det_fin_three]
  simp

/-- Non-vacuity of C80: on the hexahedron of C66, `x_1` is integrated with 2, 2 and 3 points. -/
example : ∃ (c : (k : Fin 3) → Fin 2 → ℝ) (t : LinearTransform ℝ) (X : (Fin 3 → Fin 2) → Fin 3 → ℝ)
    (N : (Fin 3 → Fin 2) → (Fin 3 → ℝ) → ℝ),
    IsLagrange (fun _ : Fin 3 => 1) c t.shape ∧ HoldsPoints t.data X ∧
    Set.InjOn (fun ξ i => ∑ idx, N idx ξ * X idx i) (cube 3) ∧
    (MvPolynomial.X 1 : MvPolynomial (Fin 3) ℝ).totalDegree ≤ 1 ∧
    ∀ k, 1 * 1 + (3 * 1 - 1)
      ≤ (![RuleFamily.gaussLegendre, .gaussLegendre, .gaussLobatto] k).degree (![2, 2, 3] k) := by
  obtain ⟨c, t, X, N, -, h1, h2, -, -, h3, -⟩ := sample_hexahedron
  refine ⟨c, t, X, N, h1, h2, h3, by rw [MvPolynomial.totalDegree_X], fun k => ?_⟩
  fin_cases k <;> simp [RuleFamily.degree]

end Verif.Props
