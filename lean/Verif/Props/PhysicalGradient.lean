import Verif.Lemmas.PhysicalGradient
import Verif.Props.MappedCells

/-! # Property C109: gradients in physical space and the patch test -/

namespace Verif.Props

open Verif.Spec Verif.Lemmas Filter Topology

variable {order : Fin 3 → ℕ} {c : (k : Fin 3) → Fin (order k + 1) → ℝ} {t : LinearTransform ℝ}
  {X : ((k : Fin 3) → Fin (order k + 1)) → Fin 3 → ℝ}

/-- `value` of a nodal component is the component of the isoparametric map. -/
theorem value_mapPoly {d : ℕ} {order : Fin d → ℕ} {c : (k : Fin d) → Fin (order k + 1) → ℝ}
    {e : Element ℝ} {X : ((k : Fin d) → Fin (order k + 1)) → Fin d → ℝ} (h : IsLagrange order c e)
    (i : Fin d) (coord : List Int → Res ℝ) (hc : ∀ idx, coord (tup idx) = .ok (X idx i)) (ξ : Fin d → ℝ) :
    ParentElement.value (exactArith ℝ) e (List.ofFn ξ) coord
      = .ok (MvPolynomial.eval ξ (mapPoly c X i)) := by
  obtain ⟨b, rfl, hr, -⟩ := isLagrange_realises h
  rw [parent_value h.dims hr ξ coord _ hc]
  congr 1
  simp only [mapPoly, map_sum, map_mul, map_prod, eval_inVar, MvPolynomial.eval_C]
  exact Finset.sum_congr rfl fun idx _ => mul_comm _ _

/-- Every assignment of nodal values is held by some accessor. -/
theorem exists_nodal {d : ℕ} {order : Fin d → ℕ} (U : ((k : Fin d) → Fin (order k + 1)) → ℝ) :
    ∃ var : List Int → Res ℝ, ∀ idx, var (tup idx) = .ok (U idx) := by
  classical
  refine ⟨fun l => if hl : ∃ idx : (k : Fin d) → Fin (order k + 1), tup idx = l
    then .ok (U hl.choose) else .ub, fun idx => ?_⟩
  have hl : ∃ idx' : (k : Fin d) → Fin (order k + 1), tup idx' = tup idx := ⟨idx, rfl⟩
  beta_reduce
  rw [dif_pos hl, tup_injective hl.choose_spec]

/-- `inverseJacobian` returns the inverse of the matrix of partial derivatives of the isoparametric map. -/
theorem inverseJacobian_mapPoly (h : IsLagrange order c t.shape) (hX : HoldsPoints t.data X) (cfg : Config)
    {ξ : Fin 3 → ℝ} {det : ℝ} {after : Res (List ℝ)}
    (hi : LinearTransform.inverseJacobianValue cfg (exactArith ℝ) t (List.ofFn ξ) = .ok (det, after))
    (hdet : det ≠ 0) :
    ∃ (m : List ℝ) (D N : Matrix (Fin 3) (Fin 3) ℝ), after = .ok m ∧ HoldsMatrix m N ∧ N * D = 1 ∧ D * N = 1 ∧
      IsDerivative (fun ξ i => MvPolynomial.eval ξ (mapPoly c X i)) D ξ := by
  obtain ⟨N, Jm, h1, h2, h3⟩ := lagrange_jacobian h (by norm_num) hX
  obtain ⟨N', h1', h4, -⟩ := lagrange_polynomial h (by norm_num) hX
  have hN : N' = N := by
    funext idx ξ
    exact Res.ok.inj ((h1' idx ξ).symm.trans (h1 idx ξ))
  subst hN
  obtain ⟨J, D, det', after', e1, e2, e3, rfl, -, e6⟩ := C52_inverseJacobian cfg h hX ξ
  obtain ⟨rfl, rfl⟩ := Prod.mk.inj (Res.ok.inj (hi.symm.trans e3))
  obtain ⟨m, I, r1, r2, r3, r4⟩ := e6 hdet
  obtain ⟨bs, hb, -, -⟩ := isLagrange_realises h
  have hn : t.numDims = 3 := by rw [LinearTransform.numDims, hb]; simp [elementOf]
  have hz := listInit_zero (d := 3) (by norm_num) (by norm_num)
  have e := h3 cfg ξ [] 0
  rw [List.append_nil, zero_add] at e
  rw [LinearTransform.jacobianValue, staticAssert_bind_true (by simp), hn] at e1
  have hJ := e1.symm.trans ((congrArg (· >>= _) hz).trans e)
  have hD : D = Jm ξ := by
    funext i j
    have := e2.2 checkedHost i j
    rw [Res.ok.inj hJ, read_matMem checkedHost (by norm_num) (by norm_num)] at this
    exact (Res.ok.inj this).symm
  refine ⟨m, D, I, r1, r2, r3, r4, ?_⟩
  rw [hD]
  have := h2 ξ
  simpa only [h4] using this

/-- **C109.** For every three-dimensional Lagrange cell, nodal values and point `ξ` at which `inverseJacobian`
returns a nonzero determinant: let `x` be the map whose components `value` returns for the nodal
coordinates, and `u` what `value` returns for the nodal values.  Then the row vector returned by `gradient`
times the matrix left by `inverseJacobian` is the gradient with respect to the physical coordinates: near
`x(ξ)` there is a function whose composition with `x` is `u`, and every such function is differentiable at
`x(ξ)` with these partial derivatives. -/
theorem C109_physical_gradient (h : IsLagrange order c t.shape) (hX : HoldsPoints t.data X) (cfg : Config)
    (coord : Fin 3 → List Int → Res ℝ) (hc : ∀ i idx, coord i (tup idx) = .ok (X idx i))
    (var : List Int → Res ℝ) (U : ((k : Fin 3) → Fin (order k + 1)) → ℝ)
    (hU : ∀ idx, var (tup idx) = .ok (U idx)) :
    ∃ (x : (Fin 3 → ℝ) → Fin 3 → ℝ) (u : (Fin 3 → ℝ) → ℝ),
      (∀ ξ i, ParentElement.value (exactArith ℝ) t.shape (List.ofFn ξ) (coord i) = .ok (x ξ i)) ∧
      (∀ ξ, ParentElement.value (exactArith ℝ) t.shape (List.ofFn ξ) var = .ok (u ξ)) ∧
      ∀ (ξ : Fin 3 → ℝ) (det : ℝ) (after : Res (List ℝ)),
        LinearTransform.inverseJacobianValue cfg (exactArith ℝ) t (List.ofFn ξ) = .ok (det, after) → det ≠ 0 →
        ∃ (g : Fin 3 → ℝ) (m : List ℝ) (I : Matrix (Fin 3) (Fin 3) ℝ),
          ParentElement.gradient (exactArith ℝ) t.shape (List.ofFn ξ) var = .ok (List.ofFn g) ∧
          after = .ok m ∧ HoldsMatrix m I ∧
          (∃ F : (Fin 3 → ℝ) → ℝ, ∀ᶠ ζ in 𝓝 ξ, F (x ζ) = u ζ) ∧
          ∀ F : (Fin 3 → ℝ) → ℝ, (∀ᶠ ζ in 𝓝 ξ, F (x ζ) = u ζ) →
            HasFDerivAt F
              (∑ i, (∑ j, g j * I j i) • (ContinuousLinearMap.proj i : (Fin 3 → ℝ) →L[ℝ] ℝ)) (x ξ) := by
  obtain ⟨u, G, hu, hG, hd⟩ := C42_interpolation_gradient h var U hU
  refine ⟨fun ξ i => MvPolynomial.eval ξ (mapPoly c X i), u, fun ξ i => value_mapPoly h i _ (hc i) ξ, hu,
    fun ξ det after hi hdet => ?_⟩
  obtain ⟨m, D, I, r1, r2, r3, r4, r5⟩ := inverseJacobian_mapPoly h hX cfg hi hdet
  exact ⟨G ξ, m, I, hG ξ, r1, r2, pushforward (contDiff_pi.2 fun i => contDiff_eval _) r5 r3 r4 (hd ξ)⟩

/-- Coefficients of a linear form are unique. -/
theorem proj_sum_inj {d : ℕ} {a b : Fin d → ℝ}
    (h : ∑ i, a i • (ContinuousLinearMap.proj i : (Fin d → ℝ) →L[ℝ] ℝ) = ∑ i, b i • ContinuousLinearMap.proj i) :
    a = b := by
  funext j
  have := congrArg (fun L : (Fin d → ℝ) →L[ℝ] ℝ => L (Pi.single j 1)) h
  simpa [Pi.single_apply] using this

/-- The physical gradient of a field that is a function `f` of the physical coordinates. -/
theorem physical_gradient_of (h : IsLagrange order c t.shape) (hX : HoldsPoints t.data X) (cfg : Config)
    (var : List Int → Res ℝ) (U : ((k : Fin 3) → Fin (order k + 1)) → ℝ)
    (hU : ∀ idx, var (tup idx) = .ok (U idx)) (f : MvPolynomial (Fin 3) ℝ)
    (hv : ∀ ξ, ParentElement.value (exactArith ℝ) t.shape (List.ofFn ξ) var
      = .ok (MvPolynomial.eval (fun i => MvPolynomial.eval ξ (mapPoly c X i)) f))
    {ξ : Fin 3 → ℝ} {det : ℝ} {after : Res (List ℝ)}
    (hi : LinearTransform.inverseJacobianValue cfg (exactArith ℝ) t (List.ofFn ξ) = .ok (det, after))
    (hdet : det ≠ 0) :
    ∃ (g : Fin 3 → ℝ) (m : List ℝ) (I : Matrix (Fin 3) (Fin 3) ℝ),
      ParentElement.gradient (exactArith ℝ) t.shape (List.ofFn ξ) var = .ok (List.ofFn g) ∧
      after = .ok m ∧ HoldsMatrix m I ∧
      ∀ i, ∑ j, g j * I j i
        = MvPolynomial.eval (fun i => MvPolynomial.eval ξ (mapPoly c X i)) (MvPolynomial.pderiv i f) := by
  obtain ⟨u, G, hu, hG, hd⟩ := C42_interpolation_gradient h var U hU
  obtain ⟨m, D, I, r1, r2, r3, r4, r5⟩ := inverseJacobian_mapPoly h hX cfg hi hdet
  have h1 := (pushforward (contDiff_pi.2 fun i => contDiff_eval (mapPoly c X i)) r5 r3 r4 (hd ξ)).2
    (fun y => MvPolynomial.eval y f)
    (Eventually.of_forall fun ζ => Res.ok.inj ((hv ζ).symm.trans (hu ζ)))
  exact ⟨G ξ, m, I, hG ξ, r1, r2, fun i =>
    congrFun (proj_sum_inj (h1.unique (hasFDerivAt_eval f _))) i⟩

/-- **C109, patch test.** On every three-dimensional Lagrange cell, whatever its shape: if the nodal values
are those of an affine function `a + b · x` of the physical coordinates, then at every point `value` returns
that function at the mapped point, and wherever `inverseJacobian` returns a nonzero determinant, `gradient`
times the matrix it leaves is exactly `b`. -/
theorem C109_patch_test (h : IsLagrange order c t.shape) (hX : HoldsPoints t.data X) (cfg : Config)
    (coord : Fin 3 → List Int → Res ℝ) (hc : ∀ i idx, coord i (tup idx) = .ok (X idx i))
    (a : ℝ) (b : Fin 3 → ℝ) (var : List Int → Res ℝ)
    (hU : ∀ idx, var (tup idx) = .ok (a + ∑ i, b i * X idx i)) (ξ : Fin 3 → ℝ) :
    (∃ x : Fin 3 → ℝ,
      (∀ i, ParentElement.value (exactArith ℝ) t.shape (List.ofFn ξ) (coord i) = .ok (x i)) ∧
      ParentElement.value (exactArith ℝ) t.shape (List.ofFn ξ) var = .ok (a + ∑ i, b i * x i)) ∧
    ∀ (det : ℝ) (after : Res (List ℝ)),
      LinearTransform.inverseJacobianValue cfg (exactArith ℝ) t (List.ofFn ξ) = .ok (det, after) → det ≠ 0 →
      ∃ (g : Fin 3 → ℝ) (m : List ℝ) (I : Matrix (Fin 3) (Fin 3) ℝ),
        ParentElement.gradient (exactArith ℝ) t.shape (List.ofFn ξ) var = .ok (List.ofFn g) ∧
        after = .ok m ∧ HoldsMatrix m I ∧ ∀ i, ∑ j, g j * I j i = b i := by
  have hv : ∀ ξ, ParentElement.value (exactArith ℝ) t.shape (List.ofFn ξ) var
      = .ok (a + ∑ i, b i * MvPolynomial.eval ξ (mapPoly c X i)) := by
    intro ξ
    have hone := (C41_constant h a (fun _ => .ok a) (fun _ => rfl) ξ).1
    obtain ⟨bs, hb, hr, -⟩ := isLagrange_realises h
    rw [hb, parent_value h.dims hr ξ _ (fun _ => a) (fun _ => rfl)] at hone
    rw [hb, parent_value h.dims hr ξ var _ hU]
    congr 1
    simp only [mul_add, Finset.sum_add_distrib]
    congr 1
    · exact Res.ok.inj hone
    · simp only [mapPoly, map_sum, map_mul, map_prod, eval_inVar, MvPolynomial.eval_C, Finset.mul_sum]
      rw [Finset.sum_comm]
      exact Finset.sum_congr rfl fun i _ => Finset.sum_congr rfl fun idx _ => by ring
  refine ⟨⟨_, fun i => value_mapPoly h i _ (hc i) ξ, hv ξ⟩, fun det after hi hdet => ?_⟩
  obtain ⟨g, m, I, h1, h2, h3, h4⟩ := physical_gradient_of h hX cfg var _ hU
    (MvPolynomial.C a + ∑ i, MvPolynomial.C (b i) * MvPolynomial.X i)
    (fun ξ => by rw [hv ξ]; simp) hi hdet
  refine ⟨g, m, I, h1, h2, h3, fun i => (h4 i).trans ?_⟩
  simp [MvPolynomial.pderiv_X, Pi.single_apply]

/-- **C109, affine cells.** If the cell is an affine image of the parent cell and the nodal values are those
of a polynomial `f` of the physical coordinates, of total degree at most every order, then `value` returns
`f` at the mapped point and `gradient` times the inverse Jacobian is the gradient of `f` there. -/
theorem C109_affine_cell (h : IsLagrange order c t.shape) (ho : ∀ k, 1 ≤ order k)
    (A : Matrix (Fin 3) (Fin 3) ℝ) (b : Fin 3 → ℝ) (hA : A.det ≠ 0)
    (hX : HoldsPoints t.data (fun (idx : (k : Fin 3) → Fin (order k + 1)) i =>
      ∑ j, A i j * c j (idx j) + b i)) (cfg : Config)
    (f : MvPolynomial (Fin 3) ℝ) (hf : ∀ k, f.totalDegree ≤ order k) (var : List Int → Res ℝ)
    (hU : ∀ idx : (k : Fin 3) → Fin (order k + 1), var (tup idx)
      = .ok (MvPolynomial.eval (fun i => ∑ j, A i j * c j (idx j) + b i) f)) (ξ : Fin 3 → ℝ) :
    ParentElement.value (exactArith ℝ) t.shape (List.ofFn ξ) var
      = .ok (MvPolynomial.eval (fun i => ∑ j, A i j * ξ j + b i) f) ∧
    ∃ (g : Fin 3 → ℝ) (m : List ℝ) (I : Matrix (Fin 3) (Fin 3) ℝ),
      ParentElement.gradient (exactArith ℝ) t.shape (List.ofFn ξ) var = .ok (List.ofFn g) ∧
      LinearTransform.inverseJacobianValue cfg (exactArith ℝ) t (List.ofFn ξ) = .ok (A.det, .ok m) ∧
      HoldsMatrix m I ∧
      ∀ i, ∑ j, g j * I j i
        = MvPolynomial.eval (fun i => ∑ j, A i j * ξ j + b i) (MvPolynomial.pderiv i f) := by
  have hl : ∀ i k, (∑ j, MvPolynomial.C (A i j) * MvPolynomial.X j + MvPolynomial.C (b i) :
      MvPolynomial (Fin 3) ℝ).degreeOf k ≤ 1 := fun i k => degreeOf_affine _ _ k
  have hv : ∀ ξ : Fin 3 → ℝ, ParentElement.value (exactArith ℝ) t.shape (List.ofFn ξ) var
      = .ok (MvPolynomial.eval (fun i => ∑ j, A i j * ξ j + b i) f) := by
    intro ξ
    have e : ∀ ζ : Fin 3 → ℝ, MvPolynomial.eval ζ (MvPolynomial.bind₁ (fun i =>
        ∑ j, MvPolynomial.C (A i j) * MvPolynomial.X j + MvPolynomial.C (b i)) f)
        = MvPolynomial.eval (fun i => ∑ j, A i j * ζ j + b i) f := by
      intro ζ
      refine (MvPolynomial.eval₂Hom_bind₁ (RingHom.id ℝ) ζ (fun i : Fin 3 =>
        ∑ j, MvPolynomial.C (A i j) * MvPolynomial.X j + MvPolynomial.C (b i)) f).trans ?_
      have e' : ∀ i, MvPolynomial.eval ζ (∑ j, MvPolynomial.C (A i j) * MvPolynomial.X j + MvPolynomial.C (b i))
          = ∑ j, A i j * ζ j + b i := fun i => by simp
      exact congrArg (fun y : Fin 3 → ℝ => MvPolynomial.eval y f) (funext e')
    rw [← e]
    refine (C43_polynomial_reproduction h _ (fun k => ?_) var (fun idx => ?_) ξ).1
    · have := degreeOf_bind_le _ (fun _ => 1) hl f (hf k) k
      simpa using this
    · rw [e, hU]
  obtain ⟨-, after, h1, h2, -⟩ := C53_affine h ho A b hX cfg ξ
  have hx : ∀ ξ : Fin 3 → ℝ, (fun i => MvPolynomial.eval ξ (mapPoly c (fun idx i => ∑ j, A i j * c j (idx j) + b i) i))
      = fun i => ∑ j, A i j * ξ j + b i := by
    intro ξ
    funext i
    obtain ⟨var', hvar'⟩ := exists_nodal (order := order) fun idx => ∑ j, A i j * c j (idx j) + b i
    have e1 := value_mapPoly (X := fun idx i => ∑ j, A i j * c j (idx j) + b i) h i var' hvar' ξ
    have e2 := (C43_polynomial_reproduction h
      (∑ j, MvPolynomial.C (A i j) * MvPolynomial.X j + MvPolynomial.C (b i))
      (fun k => (hl i k).trans (ho k)) var' (fun idx => by rw [hvar']; simp) ξ).1
    have := Res.ok.inj (e1.symm.trans e2)
    rw [this]; simp
  refine ⟨hv ξ, ?_⟩
  obtain ⟨g, m, I, r1, rfl, r3, r4⟩ := physical_gradient_of h hX cfg var _ hU f
    (fun ξ => by rw [hv ξ, hx ξ]) h1 hA
  refine ⟨g, m, I, r1, h1, r3, fun i => ?_⟩
  rw [r4 i, hx ξ]

/-- Non-vacuity of C109: on the hexahedron of C66, which is not an affine image of the cube, the determinant
at the point (0, 1/2, 0) is 5/4, and for the nodal values of `7 + x_0 + 2 x_1 - 3 x_2` the product has the
entries 1, 2 and -3. -/
example : ∃ (t : LinearTransform ℝ) (var : List Int → Res ℝ) (g : Fin 3 → ℝ) (m : List ℝ)
    (I : Matrix (Fin 3) (Fin 3) ℝ),
    ParentElement.gradient (exactArith ℝ) t.shape (List.ofFn ![0, 1 / 2, 0]) var = .ok (List.ofFn g) ∧
    LinearTransform.inverseJacobianValue checkedHost (exactArith ℝ) t (List.ofFn ![0, 1 / 2, 0])
      = .ok (5 / 4, .ok m) ∧
    HoldsMatrix m I ∧ ∀ i, ∑ j, g j * I j i = (![1, 2, -3] : Fin 3 → ℝ) i := by
  obtain ⟨c, t, X, N, detJ, h1, h2, -, h3, -, h4, -⟩ := sample_hexahedron
  obtain ⟨var, hvar⟩ := exists_nodal (order := fun _ : Fin 3 => 1) fun idx => 7 + ∑ i, (![1, 2, -3] : Fin 3 → ℝ) i * X idx i
  choose coord hcoord using fun i : Fin 3 => exists_nodal (order := fun _ : Fin 3 => 1) fun idx => X idx i
  obtain ⟨after, e⟩ := h3 ![0, 1 / 2, 0]
  have hdet : detJ ![0, 1 / 2, 0] = 5 / 4 := by rw [h4]; norm_num
  rw [hdet] at e
  obtain ⟨g, m, I, r1, rfl, r3, r4⟩ := (C109_patch_test h1 h2 checkedHost coord hcoord 7 ![1, 2, -3] var hvar _).2
    _ _ e (by norm_num)
  exact ⟨t, var, g, m, I, r1, e, r3, r4⟩

/-- Non-vacuity of C109 on affine cells: a sheared and stretched cell with determinant -6, and the field
`x_1`. -/
example : ∃ (t : LinearTransform ℝ) (A : Matrix (Fin 3) (Fin 3) ℝ) (b : Fin 3 → ℝ),
    IsLagrange (fun _ : Fin 3 => 1) (fun _ => ![-1, 1]) t.shape ∧ A.det = -6 ∧
    HoldsPoints t.data (fun (idx : Fin 3 → Fin 2) i => ∑ j, A i j * (![-1, 1] : Fin 2 → ℝ) (idx j) + b i) ∧
    (MvPolynomial.X 1 : MvPolynomial (Fin 3) ℝ).totalDegree ≤ 1 := by
  obtain ⟨e, he, hcell⟩ := trilinear_cell
  obtain ⟨t, h1, h2⟩ := hcell (fun idx i => ∑ j, (!![2, 2, 0; 0, 3, 0; 0, 0, -1] : Matrix (Fin 3) (Fin 3) ℝ) i j
    * (![-1, 1] : Fin 2 → ℝ) (idx j) + ![1, 2, 3] i)
  refine ⟨t, _, _, by rw [h1]; exact he, ?_, h2, by rw [MvPolynomial.totalDegree_X]⟩
  rw [Matrix.det_fin_three]
  simp
  norm_num

end Verif.Props
