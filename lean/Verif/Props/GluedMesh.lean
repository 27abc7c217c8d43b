import Verif.Lemmas.TurnedFlux
import Verif.Props.Conformity
import Verif.Props.MeshGradient
import Verif.Props.VertexDet

/-!
# Property C161: volume and mean gradient of unstructured meshes depend only on the boundary
-/

namespace Verif.Props

open Verif.Spec Verif.Lemmas MeasureTheory MvPolynomial

section glued
variable {ι : Type} {m : ℕ} {v : Fin (m + 1) → ℝ} {glue : Gluing ι}

private theorem map_turned (hs : ∀ i, v i.rev = -v i) (s : CubeSymmetry 3) (X : (Fin 3 → Fin (m + 1)) → Fin 3 → ℝ) (i : Fin 3) :
    mapPoly (order := fun _ : Fin 3 => m) (fun _ => v) (fun idx => X (s.node idx)) i
      = turned s (mapPoly (order := fun _ : Fin 3 => m) (fun _ => v) X i) := by
  refine MvPolynomial.funext fun x => ?_
  rw [eval_turned, ← mesh_map_eval, ← mesh_map_eval]
  have e1 : ∀ (idx : Fin 3 → Fin (m + 1)) (k : Fin 3),
      (Lagrange.basis Finset.univ v (s.node idx k)).eval (s.point x k)
        = (Lagrange.basis Finset.univ v (idx (s.axis k))).eval (x (s.axis k)) := by
    intro idx k
    simp only [CubeSymmetry.node, CubeSymmetry.point]
    split
    · exact basis_mirror hs _ _
    · rfl
  refine Eq.trans ?_ (Function.Bijective.sum_comp (node_bijective s) fun idx =>
    (∏ k, (Lagrange.basis Finset.univ v (idx k)).eval (s.point x k)) * X idx i)
  refine Finset.sum_congr rfl fun idx _ => ?_
  congr 1
  rw [Finset.prod_congr rfl fun k _ => e1 idx k,
    Equiv.prod_comp s.axis (fun k => (Lagrange.basis Finset.univ v (idx k)).eval (x k))]

private def endValue (upper : Bool) : ℝ := if upper then 1 else -1

/-- What flows out of a cell through a face. -/
private noncomputable def outflow (v : Fin (m + 1) → ℝ) (X : ι → (Fin 3 → Fin (m + 1)) → Fin 3 → ℝ) (f : MeshFace ι) : ℝ :=
  endValue f.upper * faceFlux (mapPoly (order := fun _ : Fin 3 => m) (fun _ => v) (X f.cell)) f.dir (endValue f.upper)

private theorem end_value (h0 : v 0 = -1) (h1 : v (Fin.last m) = 1) (u : Bool) : v (endNode m u) = endValue u := by
  cases u
  · exact h0
  · exact h1

private theorem outflow_other (hinj : Function.Injective v) (hs : ∀ i, v i.rev = -v i) (h0 : v 0 = -1) (h1 : v (Fin.last m) = 1)
    (hg : IsGluing glue) {X : ι → (Fin 3 → Fin (m + 1)) → Fin 3 → ℝ} (hX : FitsGluing glue X) {f : MeshFace ι} {e : ι}
    {s : CubeSymmetry 3} (h : glue f = some (e, s)) : outflow v X f + outflow v X (f.other e s) = 0 := by
  have k1 := faceFlux_congr (x := mapPoly (order := fun _ : Fin 3 => m) (fun _ => v) (X f.cell))
    (y := mapPoly (order := fun _ : Fin 3 => m) (fun _ => v) fun idx => X e (s.node idx)) (a := f.dir)
    fun i ξ => mesh_face_congr (fun _ => hinj) (hX f e s h) i ξ
  rw [end_value h0 h1, end_value h0 h1] at k1
  have k2 : mapPoly (order := fun _ : Fin 3 => m) (fun _ => v) (fun idx => X e (s.node idx))
      = fun i => turned s (mapPoly (order := fun _ : Fin 3 => m) (fun _ => v) (X e) i) := funext fun i => map_turned hs s (X e) i
  rw [k2, faceFlux_turned s (hg.proper f e s h)] at k1
  have k3 : endValue (f.other e s).upper = flipSign s (s.axis.symm f.dir) * endValue (!f.upper) := by
    simp only [MeshFace.other, endValue, flipSign]
    by_cases h1 : s.flip (s.axis.symm f.dir) = true <;> by_cases h2 : f.upper = true <;> simp [h1, h2]
  have k4 : endValue (!f.upper) = -endValue f.upper := by
    cases f.upper <;> simp [endValue]
  simp only [outflow]
  rw [k3, k1]
  show _ + _ * faceFlux (mapPoly (order := fun _ : Fin 3 => m) (fun _ => v) (X e)) (s.axis.symm f.dir) _ = 0
  rw [k4]
  ring

private def faceEquiv : MeshFace ι ≃ ι × Fin 3 × Bool where
  toFun f := (f.cell, f.dir, f.upper)
  invFun p := ⟨p.1, p.2.1, p.2.2⟩
  left_inv _ := rfl
  right_inv _ := rfl

theorem glued_integral_sum [Fintype ι] (hinj : Function.Injective v) (hs : ∀ i, v i.rev = -v i) (h0 : v 0 = -1)
    (h1 : v (Fin.last m) = 1) (hg : IsGluing glue) {X X' : ι → (Fin 3 → Fin (m + 1)) → Fin 3 → ℝ} (hX : FitsGluing glue X)
    (hX' : FitsGluing glue X') (hb : SameOnBoundary glue X X') :
    ∑ e, ∫ ξ in cube 3, eval ξ (jacobianPoly (mapPoly (order := fun _ : Fin 3 => m) (fun _ => v) (X e))).det
      = ∑ e, ∫ ξ in cube 3, eval ξ (jacobianPoly (mapPoly (order := fun _ : Fin 3 => m) (fun _ => v) (X' e))).det := by
  classical
  let _ : Fintype (MeshFace ι) := Fintype.ofEquiv _ faceEquiv.symm
  have e1 : ∀ Y : ι → (Fin 3 → Fin (m + 1)) → Fin 3 → ℝ,
      ∑ e, ∫ ξ in cube 3, eval ξ (jacobianPoly (mapPoly (order := fun _ : Fin 3 => m) (fun _ => v) (Y e))).det
        = ∑ f : MeshFace ι, outflow v Y f := fun Y => by
    simp only [integral_det]
    rw [← Equiv.sum_comp faceEquiv.symm, Fintype.sum_prod_type]
    refine Finset.sum_congr rfl fun e _ => ?_
    rw [Fintype.sum_prod_type]
    refine Finset.sum_congr rfl fun a _ => ?_
    rw [Fintype.sum_bool]
    show _ = 1 * faceFlux (mapPoly (order := fun _ : Fin 3 => m) (fun _ => v) (Y e)) a 1
      + -1 * faceFlux (mapPoly (order := fun _ : Fin 3 => m) (fun _ => v) (Y e)) a (-1)
    ring
  rw [e1, e1, ← sub_eq_zero, ← Finset.sum_sub_distrib]
  let π : MeshFace ι → MeshFace ι := fun f => match glue f with
    | none => f
    | some (e, s) => f.other e s
  have hnone : ∀ f, glue f = none → outflow v X f - outflow v X' f = 0 := fun f hf => by
    have : faceFlux (mapPoly (order := fun _ : Fin 3 => m) (fun _ => v) (X f.cell)) f.dir (v (endNode m f.upper))
        = faceFlux (mapPoly (order := fun _ : Fin 3 => m) (fun _ => v) (X' f.cell)) f.dir (v (endNode m f.upper)) :=
      faceFlux_congr fun i ξ => mesh_face_congr (fun _ => hinj) (fun idx => hb f hf _ (by simp)) i ξ
    rw [end_value h0 h1] at this
    simp only [outflow, this, sub_self]
  have hπ : ∀ f, (glue f = none ∧ π f = f) ∨ ∃ e s, glue f = some (e, s) ∧ π f = f.other e s := fun f => by
    rcases hf : glue f with _ | ⟨e, s⟩
    · exact Or.inl ⟨rfl, by simp only [π, hf]⟩
    · exact Or.inr ⟨e, s, rfl, by simp only [π, hf]⟩
  have hsum : ∀ f, (outflow v X f - outflow v X' f) + (outflow v X (π f) - outflow v X' (π f)) = 0 := fun f => by
    rcases hπ f with ⟨hf, e⟩ | ⟨e, s, hf, e2⟩
    · rw [e, hnone f hf, add_zero]
    · rw [e2]
      linarith [outflow_other hinj hs h0 h1 hg hX hf, outflow_other hinj hs h0 h1 hg hX' hf]
  refine Finset.sum_involution (fun f _ => π f) (fun f _ => hsum f) (fun f _ hne heq => hne ?_) (fun _ _ => Finset.mem_univ _)
    fun f _ => ?_
  · have := hsum f
    rw [heq] at this
    linarith
  · rcases hπ f with ⟨hf, e⟩ | ⟨e, s, hf, e2⟩
    · rw [e, e]
    · obtain ⟨s', k1, k2⟩ := hg.back f e s hf
      rw [e2]
      simp only [π, k1, k2]

variable [Fintype ι] {X X' : ι → (Fin 3 → Fin (m + 1)) → Fin 3 → ℝ} {U U' : ι → (Fin 3 → Fin (m + 1)) → ℝ}

/-- **C161.** In exact arithmetic, for two meshes of cells glued in the same way along faces, in any orientation, with the
same mirror-symmetric nodes, among them -1 and 1, in all directions: if glued faces have their nodes in common, in both,
and the nodes on the boundary are the same in both, then the integrals over the parent cube of the `detJ` that
`inverseJacobian` returns have the same sum over the cells.  If in both `x(ξ) = Σ_a N_a(ξ) X_a` is one-to-one on the parent
cube and `detJ` is nowhere negative there, for every cell, the sums of the volumes of the cells are the same. -/
theorem C161_mesh (t t' : ι → LinearTransform ℝ) (hs : ∀ i, v i.rev = -v i) (hv : v 0 = -1 ∧ v (Fin.last m) = 1)
    (hL : ∀ e, IsLagrange (fun _ : Fin 3 => m) (fun _ => v) (t e).shape)
    (hL' : ∀ e, IsLagrange (fun _ : Fin 3 => m) (fun _ => v) (t' e).shape)
    (hP : ∀ e, HoldsPoints (t e).data (X e)) (hP' : ∀ e, HoldsPoints (t' e).data (X' e))
    (hg : IsGluing glue) (hX : FitsGluing glue X) (hX' : FitsGluing glue X') (hb : SameOnBoundary glue X X') (cfg : Config) :
    ∃ (N : (Fin 3 → Fin (m + 1)) → (Fin 3 → ℝ) → ℝ) (detJ detJ' : ι → (Fin 3 → ℝ) → ℝ),
      (∀ e idx ξ, InterpolatedShape.value (exactArith ℝ) (t e).shape (tup idx) (List.ofFn ξ) = .ok (N idx ξ) ∧
        InterpolatedShape.value (exactArith ℝ) (t' e).shape (tup idx) (List.ofFn ξ) = .ok (N idx ξ)) ∧
      (∀ e ξ, ∃ after, LinearTransform.inverseJacobianValue cfg (exactArith ℝ) (t e) (List.ofFn ξ) = .ok (detJ e ξ, after)) ∧
      (∀ e ξ, ∃ after, LinearTransform.inverseJacobianValue cfg (exactArith ℝ) (t' e) (List.ofFn ξ) = .ok (detJ' e ξ, after)) ∧
      ∑ e, ∫ ξ in cube 3, detJ e ξ = ∑ e, ∫ ξ in cube 3, detJ' e ξ ∧
      ((∀ e, Set.InjOn (fun ξ i => ∑ idx, N idx ξ * X e idx i) (cube 3) ∧ ∀ ξ ∈ cube 3, 0 ≤ detJ e ξ) →
        (∀ e, Set.InjOn (fun ξ i => ∑ idx, N idx ξ * X' e idx i) (cube 3) ∧ ∀ ξ ∈ cube 3, 0 ≤ detJ' e ξ) →
        ∑ e, (volume ((fun (ξ : Fin 3 → ℝ) i => ∑ idx, N idx ξ * X e idx i) '' cube 3)).toReal
          = ∑ e, (volume ((fun (ξ : Fin 3 → ℝ) i => ∑ idx, N idx ξ * X' e idx i) '' cube 3)).toReal) := by
  have key : ∑ e, ∫ ξ in cube 3, eval ξ (jacobianPoly (mapPoly (order := fun _ : Fin 3 => m) (fun _ => v) (X e))).det
      = ∑ e, ∫ ξ in cube 3, eval ξ (jacobianPoly (mapPoly (order := fun _ : Fin 3 => m) (fun _ => v) (X' e))).det := by
    rcases isEmpty_or_nonempty ι with h | ⟨⟨e⟩⟩
    · simp
    · obtain ⟨-, -, -, hinj⟩ := isLagrange_realises (hL e)
      exact glued_integral_sum (hinj 0) hs hv.1 hv.2 hg hX hX' hb
  refine ⟨fun idx ξ => ∏ k, (Lagrange.basis Finset.univ v (idx k)).eval (ξ k), _, _,
    fun e idx ξ => ⟨mesh_shape_values (hL e) idx ξ, mesh_shape_values (hL' e) idx ξ⟩,
    fun e ξ => detJ_polynomial (hL e) (hP e) cfg ξ, fun e ξ => detJ_polynomial (hL' e) (hP' e) cfg ξ, key,
    fun hp hp' => ?_⟩
  have em : ∀ (Y : (Fin 3 → Fin (m + 1)) → Fin 3 → ℝ), (fun (ξ : Fin 3 → ℝ) i =>
      ∑ idx, (∏ k, (Lagrange.basis Finset.univ v (idx k)).eval (ξ k)) * Y idx i)
      = fun (ξ : Fin 3 → ℝ) i => eval ξ (mapPoly (order := fun _ : Fin 3 => m) (fun _ => v) Y i) := fun Y =>
    funext fun ξ => funext fun i => mesh_map_eval (order := fun _ : Fin 3 => m) (c := fun _ => v) Y ξ i
  simp only [em] at hp hp' ⊢
  rw [← Finset.sum_congr rfl fun e _ => volume_image _ (hp e).1 (hp e).2,
    ← Finset.sum_congr rfl fun e _ => volume_image _ (hp' e).1 (hp' e).2, key]

omit [Fintype ι] in
theorem fits_lifted (h : FitsGluing glue X) (hU : FitsGluing glue U) (i : Fin 3) :
    FitsGluing glue fun e => lifted (order := fun _ : Fin 3 => m) (X e) (U e) i := fun f e s hf idx => by
  simp only [lifted]
  rw [h f e s hf idx, hU f e s hf idx]

/-- **C161, gradients.** For a variable on each mesh with values at the nodes, the same at the nodes of glued faces, and
the same in both meshes on the boundary: if no determinant vanishes on the cells, the integrals over the cells of the
gradient in physical coordinates have the same sum, component by component. -/
theorem C161_gradient (t t' : ι → LinearTransform ℝ) (hs : ∀ i, v i.rev = -v i) (hv : v 0 = -1 ∧ v (Fin.last m) = 1)
    (hL : ∀ e, IsLagrange (fun _ : Fin 3 => m) (fun _ => v) (t e).shape)
    (hL' : ∀ e, IsLagrange (fun _ : Fin 3 => m) (fun _ => v) (t' e).shape)
    (hP : ∀ e, HoldsPoints (t e).data (X e)) (hP' : ∀ e, HoldsPoints (t' e).data (X' e))
    (var var' : ι → List Int → Res ℝ) (hU : ∀ e (idx : Fin 3 → Fin (m + 1)), var e (tup idx) = .ok (U e idx))
    (hU' : ∀ e (idx : Fin 3 → Fin (m + 1)), var' e (tup idx) = .ok (U' e idx))
    (hg : IsGluing glue) (hX : FitsGluing glue X) (hX' : FitsGluing glue X') (hb : SameOnBoundary glue X X')
    (gU : FitsGluing glue U) (gU' : FitsGluing glue U') (hbU : SameOnBoundary glue U U') (cfg : Config)
    (detJ detJ' : ι → (Fin 3 → ℝ) → ℝ) (Du Du' : ι → (Fin 3 → ℝ) → Fin 3 → ℝ)
    (Inv Inv' : ι → (Fin 3 → ℝ) → Matrix (Fin 3) (Fin 3) ℝ)
    (hd : ∀ e, CellGradient cfg (t e) (var e) (detJ e) (Du e) (Inv e))
    (hd' : ∀ e, CellGradient cfg (t' e) (var' e) (detJ' e) (Du' e) (Inv' e))
    (hne : ∀ e, ∀ ξ ∈ cube 3, detJ e ξ ≠ 0 ∧ detJ' e ξ ≠ 0) (i : Fin 3) :
    ∑ e, ∫ ξ in cube 3, detJ e ξ * ∑ a, Du e ξ a * Inv e ξ a i
      = ∑ e, ∫ ξ in cube 3, detJ' e ξ * ∑ a, Du' e ξ a * Inv' e ξ a i := by
  rcases isEmpty_or_nonempty ι with h | ⟨⟨e₀⟩⟩
  · simp
  obtain ⟨-, -, -, hinj⟩ := isLagrange_realises (hL e₀)
  have key := glued_integral_sum (hinj 0) hs hv.1 hv.2 hg (fits_lifted hX gU i) (fits_lifted hX' gU' i) fun f hf idx hi => by
    simp only [lifted]
    rw [hb f hf idx hi, hbU f hf idx hi]
  rw [Finset.sum_congr rfl fun e _ => setIntegral_congr_fun measurable_cube fun ξ hξ =>
      mesh_cell_gradient (hL e) (hP e) (hU e) (hd e) (hne e ξ hξ).1 i, key,
    Finset.sum_congr rfl fun e _ => setIntegral_congr_fun measurable_cube fun ξ hξ =>
      mesh_cell_gradient (hL' e) (hP' e) (hU' e) (hd' e) (hne e ξ hξ).2 i]

end glued

section hexahedra
variable {ι : Type} [Fintype ι] {v : Fin 2 → ℝ} {glue : Gluing ι} {X X' : ι → (Fin 3 → Fin 2) → Fin 3 → ℝ}

theorem mirror_ends (hv : v 0 = -1 ∧ v 1 = 1) (i : Fin 2) : v i.rev = -v i := by
  rcases (show ∀ j : Fin 2, j = 0 ∨ j = 1 by decide) i with rfl | rfl
  · show v 1 = -v 0
    rw [hv.1, hv.2]; norm_num
  · show v 0 = -v 1
    rw [hv.1, hv.2]

/-- Quadrature of the gradient times the determinant over all cells. -/
theorem glued_lifted_sum {t : ι → LinearTransform ℝ} (hv : v 0 = -1 ∧ v 1 = 1)
    (hL : ∀ e, IsLagrange (fun _ : Fin 3 => 1) (fun _ => v) (t e).shape)
    {F : Fin 3 → RuleFamily} {M : Fin 3 → ℕ} {p w : (k : Fin 3) → Fin (M k) → ℝ} (hgrid : IsGrid F M p w)
    (hdeg : ∀ k, ¬ (F k = .gaussLobatto ∧ M k = 2)) {ε : ℝ} (htol : ∀ k, (F k).tolerance (M k) ≤ ε) {A B : ℝ}
    {U : ι → (Fin 3 → Fin 2) → ℝ} (hB : ∀ e idx i, |X e idx i| ≤ B) (hA : ∀ e idx, |U e idx| ≤ A) (i : Fin 3) :
    |∑ e, ∑ q : (k : Fin 3) → Fin (M k), (∏ k, w k (q k)) * eval (fun k => p k (q k))
          (jacobianPoly (mapPoly (order := fun _ : Fin 3 => 1) (fun _ => v) (lifted (order := fun _ => 1) (X e) (U e) i))).det
        - ∑ e, ∫ ξ in cube 3, eval ξ
          (jacobianPoly (mapPoly (order := fun _ : Fin 3 => 1) (fun _ => v) (lifted (order := fun _ => 1) (X e) (U e) i))).det|
      ≤ Fintype.card ι * (((2 + ε) ^ 3 - 2 ^ 3) * (3072 * (A * B ^ 2))) := by
  have hprod : ∏ j, Function.update (fun _ : Fin 3 => B) i A j = A * B ^ 2 := by
    rw [Fin.prod_univ_three]
    fin_cases i <;> simp <;> ring
  have s1 := (Finset.abs_sum_le_sum_abs _ _).trans (Finset.sum_le_sum fun e (_ : e ∈ Finset.univ) =>
    mesh_cell_sum (X := lifted (order := fun _ => 1) (X e) (U e) i) (B := Function.update (fun _ : Fin 3 => B) i A)
      (hL e) (fun _ => hv) hgrid hdeg htol fun idx j => by
        by_cases hj : j = i
        · subst hj; simp only [lifted, Function.update_self]; exact hA _ _
        · simp only [lifted, Function.update_of_ne hj]; exact hB _ _ _)
  rw [Finset.sum_sub_distrib, Finset.sum_const, nsmul_eq_mul, Finset.card_univ, hprod] at s1
  exact s1

/-- **C161, hexahedra.** For hexahedra with vertex coordinates of absolute value at most `B`, and rules other than the
two-point Gauss-Lobatto rule, the sums over all cells and quadrature points of weights times `detJ` differ by at most
`2 * (number of cells) * ((2 + ε)^3 - 8) * 3072 * B^3`. -/
theorem C161_hexahedra (t t' : ι → LinearTransform ℝ) (hv : v 0 = -1 ∧ v 1 = 1)
    (hL : ∀ e, IsLagrange (fun _ : Fin 3 => 1) (fun _ => v) (t e).shape)
    (hL' : ∀ e, IsLagrange (fun _ : Fin 3 => 1) (fun _ => v) (t' e).shape)
    (hP : ∀ e, HoldsPoints (t e).data (X e)) (hP' : ∀ e, HoldsPoints (t' e).data (X' e))
    (hg : IsGluing glue) (hX : FitsGluing (m := 1) glue X) (hX' : FitsGluing (m := 1) glue X')
    (hb : SameOnBoundary (m := 1) glue X X') (B : ℝ) (hB : ∀ e idx i, |X e idx i| ≤ B) (hB' : ∀ e idx i, |X' e idx i| ≤ B)
    {F : Fin 3 → RuleFamily} {M : Fin 3 → ℕ} {p w : (k : Fin 3) → Fin (M k) → ℝ} (hgrid : IsGrid F M p w)
    (hdeg : ∀ k, ¬ (F k = .gaussLobatto ∧ M k = 2)) (ε : ℝ) (htol : ∀ k, (F k).tolerance (M k) ≤ ε) (cfg : Config) :
    ∃ detJ detJ' : ι → (Fin 3 → ℝ) → ℝ,
      (∀ e ξ, ∃ after, LinearTransform.inverseJacobianValue cfg (exactArith ℝ) (t e) (List.ofFn ξ) = .ok (detJ e ξ, after)) ∧
      (∀ e ξ, ∃ after, LinearTransform.inverseJacobianValue cfg (exactArith ℝ) (t' e) (List.ofFn ξ) = .ok (detJ' e ξ, after)) ∧
      |∑ e, ∑ q : (k : Fin 3) → Fin (M k), (∏ k, w k (q k)) * detJ e (fun k => p k (q k))
          - ∑ e, ∑ q : (k : Fin 3) → Fin (M k), (∏ k, w k (q k)) * detJ' e (fun k => p k (q k))|
        ≤ 2 * Fintype.card ι * (((2 + ε) ^ 3 - 2 ^ 3) * (3072 * B ^ 3)) := by
  refine ⟨_, _, fun e ξ => detJ_polynomial (hL e) (hP e) cfg ξ, fun e ξ => detJ_polynomial (hL' e) (hP' e) cfg ξ, ?_⟩
  rcases isEmpty_or_nonempty ι with h | ⟨⟨e₀⟩⟩
  · simp
  obtain ⟨-, -, -, hinj⟩ := isLagrange_realises (hL e₀)
  have key := glued_integral_sum (m := 1) (hinj 0) (mirror_ends hv) hv.1 hv.2 hg hX hX' hb
  have s1 := (Finset.abs_sum_le_sum_abs _ _).trans (Finset.sum_le_sum fun e (_ : e ∈ Finset.univ) =>
    mesh_cell_sum (B := fun _ => B) (hL e) (fun _ => hv) hgrid hdeg htol (hB e))
  have s2 := (Finset.abs_sum_le_sum_abs _ _).trans (Finset.sum_le_sum fun e (_ : e ∈ Finset.univ) =>
    mesh_cell_sum (B := fun _ => B) (hL' e) (fun _ => hv) hgrid hdeg htol (hB' e))
  rw [Finset.sum_sub_distrib, Finset.sum_const, nsmul_eq_mul, Finset.card_univ, Finset.prod_const, Finset.card_univ,
    Fintype.card_fin] at s1 s2
  rw [key] at s1
  rw [abs_le] at s1 s2 ⊢
  constructor <;> linarith [s1.1, s1.2, s2.1, s2.2]

/-- **C161, gradients on hexahedra.** For nodal values of absolute value at most `A` and vertex coordinates of absolute value
at most `B`, and rules other than the two-point Gauss-Lobatto rule: if no determinant vanishes at a quadrature point, the
weighted sums over the quadrature points of all cells of the gradient in physical coordinates times `detJ` differ by at most
`2 * (number of cells) * ((2 + ε)^3 - 8) * 3072 * A * B^2`. -/
theorem C161_gradient_hexahedra (t t' : ι → LinearTransform ℝ) (hv : v 0 = -1 ∧ v 1 = 1)
    (hL : ∀ e, IsLagrange (fun _ : Fin 3 => 1) (fun _ => v) (t e).shape)
    (hL' : ∀ e, IsLagrange (fun _ : Fin 3 => 1) (fun _ => v) (t' e).shape)
    (hP : ∀ e, HoldsPoints (t e).data (X e)) (hP' : ∀ e, HoldsPoints (t' e).data (X' e)) {U U' : ι → (Fin 3 → Fin 2) → ℝ}
    (var var' : ι → List Int → Res ℝ) (hU : ∀ e (idx : Fin 3 → Fin 2), var e (tup idx) = .ok (U e idx))
    (hU' : ∀ e (idx : Fin 3 → Fin 2), var' e (tup idx) = .ok (U' e idx))
    (hg : IsGluing glue) (hX : FitsGluing (m := 1) glue X) (hX' : FitsGluing (m := 1) glue X')
    (hb : SameOnBoundary (m := 1) glue X X') (gU : FitsGluing (m := 1) glue U) (gU' : FitsGluing (m := 1) glue U')
    (hbU : SameOnBoundary (m := 1) glue U U') (A B : ℝ) (hB : ∀ e idx i, |X e idx i| ≤ B) (hB' : ∀ e idx i, |X' e idx i| ≤ B)
    (hA : ∀ e idx, |U e idx| ≤ A) (hA' : ∀ e idx, |U' e idx| ≤ A)
    {F : Fin 3 → RuleFamily} {M : Fin 3 → ℕ} {p w : (k : Fin 3) → Fin (M k) → ℝ} (hgrid : IsGrid F M p w)
    (hdeg : ∀ k, ¬ (F k = .gaussLobatto ∧ M k = 2)) (ε : ℝ) (htol : ∀ k, (F k).tolerance (M k) ≤ ε) (cfg : Config)
    (detJ detJ' : ι → (Fin 3 → ℝ) → ℝ) (Du Du' : ι → (Fin 3 → ℝ) → Fin 3 → ℝ)
    (Inv Inv' : ι → (Fin 3 → ℝ) → Matrix (Fin 3) (Fin 3) ℝ)
    (hd : ∀ e, CellGradient cfg (t e) (var e) (detJ e) (Du e) (Inv e))
    (hd' : ∀ e, CellGradient cfg (t' e) (var' e) (detJ' e) (Du' e) (Inv' e))
    (hne : ∀ e, ∀ q : (k : Fin 3) → Fin (M k), detJ e (fun k => p k (q k)) ≠ 0 ∧ detJ' e (fun k => p k (q k)) ≠ 0) (i : Fin 3) :
    |∑ e, ∑ q : (k : Fin 3) → Fin (M k), (∏ k, w k (q k)) *
          (detJ e (fun k => p k (q k)) * ∑ a, Du e (fun k => p k (q k)) a * Inv e (fun k => p k (q k)) a i)
        - ∑ e, ∑ q : (k : Fin 3) → Fin (M k), (∏ k, w k (q k)) *
          (detJ' e (fun k => p k (q k)) * ∑ a, Du' e (fun k => p k (q k)) a * Inv' e (fun k => p k (q k)) a i)|
      ≤ 2 * Fintype.card ι * (((2 + ε) ^ 3 - 2 ^ 3) * (3072 * (A * B ^ 2))) := by
  rcases isEmpty_or_nonempty ι with h | ⟨⟨e₀⟩⟩
  · simp
  obtain ⟨-, -, -, hinj⟩ := isLagrange_realises (hL e₀)
  have key := glued_integral_sum (m := 1) (hinj 0) (mirror_ends hv) hv.1 hv.2 hg (fits_lifted hX gU i) (fits_lifted hX' gU' i)
    fun f hf idx hi => by
      simp only [lifted]
      rw [hb f hf idx hi, hbU f hf idx hi]
  have s1 := glued_lifted_sum hv hL hgrid hdeg htol hB hA i
  have s2 := glued_lifted_sum hv hL' hgrid hdeg htol hB' hA' i
  rw [key] at s1
  rw [Finset.sum_congr rfl fun e _ => Finset.sum_congr rfl fun q _ => congrArg (_ * ·)
      (mesh_cell_gradient (hL e) (hP e) (hU e) (hd e) (hne e q).1 i),
    Finset.sum_congr rfl fun e _ => Finset.sum_congr rfl fun q _ => congrArg (_ * ·)
      (mesh_cell_gradient (hL' e) (hP' e) (hU' e) (hd' e) (hne e q).2 i)]
  rw [abs_le] at s1 s2 ⊢
  constructor <;> linarith [s1.1, s1.2, s2.1, s2.2]

/-- Four hexahedra that fill a tetrahedron, one at each vertex: the neighbour of cell `i` in direction `a`. -/
private def tetNext (i : Fin 4) (a : Fin 3) : Fin 4 :=
  (![![1, 2, 3], ![0, 3, 2], ![3, 0, 1], ![2, 1, 0]] : Fin 4 → Fin 3 → Fin 4) i a

/-- Neighbours see each other in the same direction, with the other two directions swapped. -/
private def tetTurn (a : Fin 3) : CubeSymmetry 3 := ⟨Equiv.swap (a + 1) (a + 2), fun k => k == a⟩

private def tetGlue : Gluing (Fin 4) := fun f => if f.upper then some (tetNext f.cell f.dir, tetTurn f.dir) else none

/-- The vertices of the tetrahedron whose centre is node `idx` of cell `i`. -/
private def tetSet (i : Fin 4) (idx : Fin 3 → Fin 2) : Fin 4 → Bool := fun v => v == i || decide (∃ a, tetNext i a = v ∧ idx a = 1)

private theorem tet_some {f : MeshFace (Fin 4)} {e : Fin 4} {s : CubeSymmetry 3} (h : tetGlue f = some (e, s)) :
    f.upper = true ∧ e = tetNext f.cell f.dir ∧ s = tetTurn f.dir := by
  simp only [tetGlue] at h
  split at h
  · obtain ⟨rfl, rfl⟩ := Prod.mk.inj (Option.some.inj h)
    exact ⟨by assumption, rfl, rfl⟩
  · cases h

private theorem tet_gluing : IsGluing tetGlue where
  proper f e s h := by
    obtain ⟨-, -, rfl⟩ := tet_some h
    have : ∀ a : Fin 3, (Equiv.Perm.sign (tetTurn a).axis : ℤ) * ∏ k, (if (tetTurn a).flip k then -1 else 1) = 1 := by
      decide
    exact this _
  back f e s h := by
    obtain ⟨i, a, u⟩ := f
    obtain ⟨hu, rfl, rfl⟩ := tet_some h
    obtain rfl : u = true := hu
    have k1 : ∀ a : Fin 3, (tetTurn a).axis.symm a = a ∧ (tetTurn a).flip a = true := by decide
    have k2 : ∀ (i : Fin 4) (a : Fin 3), tetNext (tetNext i a) a = i := by decide
    refine ⟨tetTurn a, ?_⟩
    simp only [MeshFace.other, (k1 a).1, (k1 a).2, tetGlue, if_true, k2, and_self]

private theorem tet_fits {α : Type} (P : (Fin 4 → Bool) → α) : FitsGluing (m := 1) tetGlue fun i idx => P (tetSet i idx) := by
  intro f e s h idx
  obtain ⟨i, a, u⟩ := f
  obtain ⟨hu, rfl, rfl⟩ := tet_some h
  obtain rfl : u = true := hu
  have k : ∀ (i : Fin 4) (a : Fin 3) (idx : Fin 3 → Fin 2), tetSet i (Function.update idx a (endNode 1 true))
      = tetSet (tetNext i a) ((tetTurn a).node (Function.update idx a (endNode 1 !true))) := by
    decide +kernel
  exact congrArg P (k i a idx)

private theorem tet_boundary {α : Type} {P P' : (Fin 4 → Bool) → α} (h : ∀ S, (∃ v, S v = false) → P S = P' S) :
    SameOnBoundary (m := 1) tetGlue (fun i idx => P (tetSet i idx)) fun i idx => P' (tetSet i idx) := by
  intro f hf idx hi
  obtain ⟨i, a, u⟩ := f
  cases u with
  | true => simp [tetGlue] at hf
  | false =>
    have k : ∀ (i : Fin 4) (a : Fin 3) (idx : Fin 3 → Fin 2), idx a = endNode 1 false →
        tetSet i idx (tetNext i a) = false := by decide +kernel
    exact h _ ⟨_, k i a idx hi⟩

/-- Non-vacuity of `C161_mesh` and `C161_hexahedra`: a tetrahedron filled by four hexahedra, which meet in the middle; no
numbering of the nodes makes this a block mesh.  The second mesh has another node in the middle. -/
example : ∃ (P P' : (Fin 4 → Bool) → Fin 3 → ℝ) (t t' : Fin 4 → LinearTransform ℝ) (p w : (k : Fin 3) → Fin 2 → ℝ),
    P (fun _ => true) ≠ P' (fun _ => true) ∧ (∀ S i, |P S i| ≤ 1) ∧ (∀ S i, |P' S i| ≤ 1) ∧
    (∀ e, IsLagrange (fun _ : Fin 3 => 1) (fun _ => ![-1, 1]) (t e).shape) ∧
    (∀ e, IsLagrange (fun _ : Fin 3 => 1) (fun _ => ![-1, 1]) (t' e).shape) ∧
    (∀ e, HoldsPoints (t e).data fun (idx : Fin 3 → Fin 2) => P (tetSet e idx)) ∧
    (∀ e, HoldsPoints (t' e).data fun (idx : Fin 3 → Fin 2) => P' (tetSet e idx)) ∧
    IsGrid (fun _ : Fin 3 => .gaussLegendre) (fun _ => 2) p w ∧ IsGluing tetGlue ∧
    FitsGluing (m := 1) tetGlue (fun e idx => P (tetSet e idx)) ∧ FitsGluing (m := 1) tetGlue (fun e idx => P' (tetSet e idx)) ∧
    SameOnBoundary (m := 1) tetGlue (fun e idx => P (tetSet e idx)) (fun e idx => P' (tetSet e idx)) ∧
    (∀ e idx, tetSet e idx = (fun _ => true) ↔ idx = fun _ => 1) := by
  obtain ⟨e₀, he, hcell⟩ := trilinear_cell
  obtain ⟨p, w, hg⟩ := C94_grids (fun _ : Fin 3 => RuleFamily.gaussLegendre) (fun _ => 2)
    fun _ => ⟨by norm_num, by norm_num⟩
  let P : (Fin 4 → Bool) → Fin 3 → ℝ := fun S i => (if S i.succ then 1 else 0) / max 1 (∑ v, if S v then 1 else 0)
  let P' : (Fin 4 → Bool) → Fin 3 → ℝ := fun S i => if ∀ v, S v = true then 1 / 3 else P S i
  have hB : ∀ S i, |P S i| ≤ 1 := fun S i => by
    have h1 : (0 : ℝ) < max 1 (∑ v, if S v then 1 else 0) := lt_max_of_lt_left one_pos
    have h2 : (if S i.succ then (1 : ℝ) else 0) ≤ 1 := by split_ifs <;> norm_num
    have h3 : (0 : ℝ) ≤ if S i.succ then (1 : ℝ) else 0 := by split_ifs <;> norm_num
    rw [abs_of_nonneg (div_nonneg h3 h1.le), div_le_one h1]
    exact h2.trans (le_max_left _ _)
  choose t ht using fun e : Fin 4 => hcell fun (idx : Fin 3 → Fin 2) => P (tetSet e idx)
  choose t' ht' using fun e : Fin 4 => hcell fun (idx : Fin 3 → Fin 2) => P' (tetSet e idx)
  refine ⟨P, P', t, t', p, w, fun h => ?_, hB, fun S i => ?_, fun e => (ht e).1 ▸ he, fun e => (ht' e).1 ▸ he,
    fun e => (ht e).2, fun e => (ht' e).2, hg, tet_gluing, tet_fits P, tet_fits P', tet_boundary fun S hS => ?_,
    by decide +kernel⟩
  · have := congrFun h 0
    norm_num [P, P'] at this
  · simp only [P']
    split_ifs
    · norm_num [abs_of_pos]
    · exact hB S i
  · obtain ⟨v, hv⟩ := hS
    have : ¬ ∀ v, S v = true := fun h => by rw [h v] at hv; cases hv
    funext i
    simp only [P', if_neg this]

/-- Eight unit cubes around one node. -/
def cubeGlue : Gluing (Fin 3 → Fin 2) := fun f =>
  if f.cell f.dir = endNode 1 f.upper then none
  else some (Function.update f.cell f.dir (endNode 1 f.upper), ⟨1, fun _ => false⟩)

private theorem cube_some {f : MeshFace (Fin 3 → Fin 2)} {e : Fin 3 → Fin 2} {s : CubeSymmetry 3}
    (h : cubeGlue f = some (e, s)) :
    f.cell f.dir = endNode 1 (!f.upper) ∧ e = Function.update f.cell f.dir (endNode 1 f.upper) ∧ s = ⟨1, fun _ => false⟩ := by
  simp only [cubeGlue] at h
  split at h
  · cases h
  · rename_i hne
    obtain ⟨rfl, rfl⟩ := Prod.mk.inj (Option.some.inj h)
    exact ⟨(by decide : ∀ (j : Fin 2) (u : Bool), ¬ j = endNode 1 u → j = endNode 1 (!u)) _ _ hne, rfl, rfl⟩

theorem cube_gluing : IsGluing cubeGlue where
  proper f e s h := by
    obtain ⟨-, -, rfl⟩ := cube_some h
    show (Equiv.Perm.sign (1 : Equiv.Perm (Fin 3)) : ℤ) * ∏ _k : Fin 3, (1 : ℤ) = 1
    simp
  back f e s h := by
    obtain ⟨g, a, u⟩ := f
    obtain ⟨hu, rfl, rfl⟩ := cube_some h
    replace hu : g a = endNode 1 (!u) := hu
    have k : endNode 1 u ≠ endNode 1 (!u) := by cases u <;> decide
    refine ⟨⟨1, fun _ => false⟩, ?_, ?_⟩
    · show cubeGlue ⟨Function.update g a (endNode 1 u), a, !u⟩ = _
      simp only [cubeGlue, Function.update_self, if_neg k, Function.update_idem]
      rw [← hu, Function.update_eq_self]
    · show (⟨g, a, !(!u)⟩ : MeshFace _) = _
      rw [Bool.not_not]

theorem cube_fits {α : Type} (P : (Fin 3 → ℕ) → α) :
    FitsGluing (m := 1) cubeGlue fun e idx => P fun k => (e k : ℕ) + (idx k : ℕ) := by
  intro f e s h idx
  obtain ⟨g, a, u⟩ := f
  obtain ⟨hu, rfl, rfl⟩ := cube_some h
  replace hu : g a = endNode 1 (!u) := hu
  show P _ = P _
  congr 1
  funext k
  show (g k : ℕ) + (Function.update idx a (endNode 1 u) k : ℕ)
    = (Function.update g a (endNode 1 u) k : ℕ) + (Function.update idx a (endNode 1 !u) k : ℕ)
  by_cases hk : k = a
  · subst hk
    simp only [Function.update_self, hu]
    exact add_comm _ _
  · simp only [Function.update_of_ne hk]

/-- Non-vacuity of `C161_gradient`: eight unit cubes, and two variables with different values at the node in the middle. -/
example : ∃ (V V' : (Fin 3 → ℕ) → ℝ) (t : (Fin 3 → Fin 2) → LinearTransform ℝ)
    (var var' : (Fin 3 → Fin 2) → List Int → Res ℝ) (detJ detJ' : (Fin 3 → Fin 2) → (Fin 3 → ℝ) → ℝ)
    (Du Du' : (Fin 3 → Fin 2) → (Fin 3 → ℝ) → Fin 3 → ℝ)
    (Inv Inv' : (Fin 3 → Fin 2) → (Fin 3 → ℝ) → Matrix (Fin 3) (Fin 3) ℝ),
    V (fun _ => 1) ≠ V' (fun _ => 1) ∧
    (∀ e, IsLagrange (fun _ : Fin 3 => 1) (fun _ => ![-1, 1]) (t e).shape) ∧
    (∀ e, HoldsPoints (t e).data fun (idx : Fin 3 → Fin 2) i => (((e i : ℕ) + (idx i : ℕ) : ℕ) : ℝ)) ∧
    (∀ e (idx : Fin 3 → Fin 2), var e (tup idx) = .ok (V fun k => (e k : ℕ) + (idx k : ℕ))) ∧
    (∀ e (idx : Fin 3 → Fin 2), var' e (tup idx) = .ok (V' fun k => (e k : ℕ) + (idx k : ℕ))) ∧
    IsGluing cubeGlue ∧
    FitsGluing (m := 1) cubeGlue (fun e idx (i : Fin 3) => (((e i : ℕ) + (idx i : ℕ) : ℕ) : ℝ)) ∧
    FitsGluing (m := 1) cubeGlue (fun e idx => V fun k => (e k : ℕ) + (idx k : ℕ)) ∧
    FitsGluing (m := 1) cubeGlue (fun e idx => V' fun k => (e k : ℕ) + (idx k : ℕ)) ∧
    SameOnBoundary (m := 1) cubeGlue (fun e idx => V fun k => (e k : ℕ) + (idx k : ℕ))
      (fun e idx => V' fun k => (e k : ℕ) + (idx k : ℕ)) ∧
    (∀ e, CellGradient checkedHost (t e) (var e) (detJ e) (Du e) (Inv e)) ∧
    (∀ e, CellGradient checkedHost (t e) (var' e) (detJ' e) (Du' e) (Inv' e)) ∧
    ∀ e ξ, detJ e ξ ≠ 0 ∧ detJ' e ξ ≠ 0 := by
  obtain ⟨e₀, he, hcell⟩ := trilinear_cell
  let V : (Fin 3 → ℕ) → ℝ := fun _ => 0
  let V' : (Fin 3 → ℕ) → ℝ := fun g => if ∀ k, g k = 1 then 1 else 0
  choose t ht using fun e : Fin 3 → Fin 2 => hcell fun (idx : Fin 3 → Fin 2) i => (((e i : ℕ) + (idx i : ℕ) : ℕ) : ℝ)
  have hL : ∀ e, IsLagrange (fun _ : Fin 3 => 1) (fun _ => ![-1, 1]) (t e).shape := fun e => (ht e).1 ▸ he
  choose var hvar using fun e : Fin 3 → Fin 2 => exists_nodal (order := fun _ : Fin 3 => 1) fun (idx : Fin 3 → Fin 2) =>
    V fun k => (e k : ℕ) + (idx k : ℕ)
  choose var' hvar' using fun e : Fin 3 → Fin 2 => exists_nodal (order := fun _ : Fin 3 => 1) fun (idx : Fin 3 → Fin 2) =>
    V' fun k => (e k : ℕ) + (idx k : ℕ)
  choose detJ Du Inv hd using fun e => C160_defined (hL e) (ht e).2 (hvar e) checkedHost
  choose detJ' Du' Inv' hd' using fun e => C160_defined (hL e) (ht e).2 (hvar' e) checkedHost
  refine ⟨V, V', t, var, var', detJ, detJ', Du, Du', Inv, Inv', by simp [V, V'], hL, fun e => (ht e).2, hvar, hvar',
    cube_gluing, cube_fits fun g i => ((g i : ℕ) : ℝ), cube_fits V, cube_fits V', fun f hf idx hi => ?_, hd, hd',
    fun e ξ => ?_⟩
  · have : ¬ ∀ k, (f.cell k : ℕ) + (idx k : ℕ) = 1 := fun h => by
      have h1 := h f.dir
      simp only [cubeGlue] at hf
      split at hf
      · rename_i hc
        rw [hc, hi] at h1
        revert h1
        cases f.upper <;> decide
      · cases hf
    simp only [V, V', if_neg this]
  · obtain ⟨after, k1⟩ := mesh_unit_cell (fun k => (e k : ℕ)) (hL e) (ht e).2 checkedHost ξ
    obtain ⟨_, k2, -⟩ := (hd e).inverse ξ
    obtain ⟨_, k3, -⟩ := (hd' e).inverse ξ
    rw [(Prod.mk.inj (Res.ok.inj (k2.symm.trans k1))).1, (Prod.mk.inj (Res.ok.inj (k3.symm.trans k1))).1]
    norm_num

/-! ### the two-point Gauss-Lobatto rule -/

/-- Nodes on the tetrahedron with vertices `0`, `(12, 0, 0)`, `(0, 12, 0)` and `(0, 0, 12)`: the centres of all edges, faces
and of the tetrahedron, but two nodes are moved along edges, and the node in the middle is at height `z`. -/
private def movedNode (z : ℤ) (S : Fin 4 → Bool) (i : Fin 3) : ℤ :=
  if S = ![true, true, false, false] then ![7, 0, 0] i
  else if S = ![true, false, true, false] then ![0, 7, 0] i
  else if S = (fun _ => true) then ![3, 3, z] i
  else if S i.succ then 12 / (∑ v, if S v then 1 else 0) else 0

/-- **C161, the exception is needed.** With the two-point Gauss-Lobatto rule the sums do depend on inner nodes: there are
two meshes of four hexahedra, with coordinates from 0 to 12 and the same nodes on the boundary, whose sums over all cells
and quadrature points of weights times `detJ` differ by an eighth, with whichever elements with nodes -1 and 1 and in
whichever build. -/
theorem C161_lobatto : ∃ (glue : Gluing (Fin 4)) (X X' : Fin 4 → (Fin 3 → Fin 2) → Fin 3 → ℝ),
    IsGluing glue ∧ FitsGluing (m := 1) glue X ∧ FitsGluing (m := 1) glue X' ∧ SameOnBoundary (m := 1) glue X X' ∧
    (∀ e idx i, 0 ≤ X e idx i ∧ X e idx i ≤ 12 ∧ 0 ≤ X' e idx i ∧ X' e idx i ≤ 12) ∧
    ∀ t t' : Fin 4 → LinearTransform ℝ, (∀ e, IsLagrange (fun _ : Fin 3 => 1) (fun _ => ![-1, 1]) (t e).shape) →
      (∀ e, IsLagrange (fun _ : Fin 3 => 1) (fun _ => ![-1, 1]) (t' e).shape) →
      (∀ e, HoldsPoints (t e).data (X e)) → (∀ e, HoldsPoints (t' e).data (X' e)) →
      ∀ p w : (k : Fin 3) → Fin 2 → ℝ, IsGrid (fun _ : Fin 3 => .gaussLobatto) (fun _ => 2) p w → ∀ cfg,
      ∃ detJ detJ' : Fin 4 → (Fin 3 → ℝ) → ℝ,
        (∀ e ξ, ∃ after, LinearTransform.inverseJacobianValue cfg (exactArith ℝ) (t e) (List.ofFn ξ) = .ok (detJ e ξ, after)) ∧
        (∀ e ξ, ∃ after, LinearTransform.inverseJacobianValue cfg (exactArith ℝ) (t' e) (List.ofFn ξ) = .ok (detJ' e ξ, after)) ∧
        ∑ e, ∑ q : Fin 3 → Fin 2, (∏ k, w k (q k)) * detJ e (fun k => p k (q k))
          - ∑ e, ∑ q : Fin 3 → Fin 2, (∏ k, w k (q k)) * detJ' e (fun k => p k (q k)) = 1 / 8 := by
  have hB : ∀ (S : Fin 4 → Bool) (i : Fin 3), (0 ≤ movedNode 3 S i ∧ movedNode 3 S i ≤ 12) ∧
      0 ≤ movedNode 4 S i ∧ movedNode 4 S i ≤ 12 := by decide +kernel
  have hsum : ∑ e : Fin 4, ∑ q : Fin 3 → Fin 2, edgeDet (fun idx => movedNode 3 (tetSet e idx)) q
      - ∑ e : Fin 4, ∑ q : Fin 3 → Fin 2, edgeDet (fun idx => movedNode 4 (tetSet e idx)) q = 1 := by decide +kernel
  refine ⟨tetGlue, fun e idx i => ((movedNode 3 (tetSet e idx) i : ℤ) : ℝ), fun e idx i => ((movedNode 4 (tetSet e idx) i : ℤ) : ℝ),
    tet_gluing, tet_fits fun S i => ((movedNode 3 S i : ℤ) : ℝ), tet_fits fun S i => ((movedNode 4 S i : ℤ) : ℝ),
    tet_boundary (P := fun S i => ((movedNode 3 S i : ℤ) : ℝ)) (P' := fun S i => ((movedNode 4 S i : ℤ) : ℝ)) fun S hS => ?_,
    fun e idx i => ?_, fun t t' hL hL' hP hP' p w hgrid cfg => ⟨_, _, fun e ξ => detJ_polynomial (hL e) (hP e) cfg ξ,
      fun e ξ => detJ_polynomial (hL' e) (hP' e) cfg ξ, ?_⟩⟩
  · obtain ⟨v, hv⟩ := hS
    have : S ≠ fun _ => true := fun h => by rw [h] at hv; cases hv
    funext i
    simp only [movedNode, if_neg this]
  · obtain ⟨⟨h1, h2⟩, h3, h4⟩ := hB (tetSet e idx) i
    beta_reduce
    exact ⟨by exact_mod_cast h1, by exact_mod_cast h2, by exact_mod_cast h3, by exact_mod_cast h4⟩
  · obtain ⟨hp, hw⟩ := lobatto_two hgrid
    have hq : ∀ q : Fin 3 → Fin 2, (fun k => p k (q k)) = fun k => if q k = 0 then (-1 : ℝ) else 1 := fun q =>
      funext fun k => hp k (q k)
    have hc : ∀ z : ℤ, ∑ e : Fin 4, ∑ q : Fin 3 → Fin 2, (∏ k, w k (q k)) * eval (fun k => p k (q k))
        (jacobianPoly (mapPoly (order := fun _ : Fin 3 => 1) (fun _ => ![-1, 1])
          fun idx i => ((movedNode z (tetSet e idx) i : ℤ) : ℝ))).det
        = ((∑ e : Fin 4, ∑ q : Fin 3 → Fin 2, edgeDet (fun idx => movedNode z (tetSet e idx)) q : ℤ) : ℝ) / 8 := fun z => by
      rw [Int.cast_sum, Finset.sum_div]
      refine Finset.sum_congr rfl fun e _ => ?_
      rw [Int.cast_sum, Finset.sum_div]
      refine Finset.sum_congr rfl fun q _ => ?_
      rw [hq, vertex_det (fun idx => movedNode z (tetSet e idx)) q, Finset.prod_congr rfl fun k _ => hw k (q k),
        Finset.prod_const_one, one_mul]
    rw [hc 3, hc 4, ← sub_div, ← Int.cast_sub, hsum, Int.cast_one]

end hexahedra

end Verif.Props
