import Verif.Spec.MeshGradient
import Verif.Props.BlockMesh
import Verif.Props.GradientTheorem

/-!
# Property C160: the mean gradient over a mesh depends only on the boundary
-/

namespace Verif.Props

open Verif.Spec Verif.Lemmas MeasureTheory MvPolynomial

section cell
variable {order : Fin 3 → ℕ} {c : (k : Fin 3) → Fin (order k + 1) → ℝ}

/-- The nodes with component `i` replaced by the values of a variable. -/
noncomputable def lifted (X : ((k : Fin 3) → Fin (order k + 1)) → Fin 3 → ℝ) (U : ((k : Fin 3) → Fin (order k + 1)) → ℝ)
    (i : Fin 3) : ((k : Fin 3) → Fin (order k + 1)) → Fin 3 → ℝ := fun idx => Function.update (X idx) i (U idx)

theorem det_lifted (X : ((k : Fin 3) → Fin (order k + 1)) → Fin 3 → ℝ) (U : ((k : Fin 3) → Fin (order k + 1)) → ℝ)
    (i : Fin 3) :
    (jacobianPoly (mapPoly c (lifted X U i))).det
      = ∑ a, pderiv a (mapPoly c (fun idx (_ : Fin 3) => U idx) i) * (jacobianPoly (mapPoly c X)).adjugate a i := by
  have e1 : mapPoly c (lifted X U i) i = mapPoly c (fun idx (_ : Fin 3) => U idx) i := by
    simp only [mapPoly, lifted, Function.update_self]
  have e2 : ∀ j, j ≠ i → mapPoly c (lifted X U i) j = mapPoly c X j := fun j hj => by
    simp only [mapPoly, lifted, Function.update_of_ne hj]
  have h2 := congrFun (congrFun (Matrix.mul_adjugate (jacobianPoly (mapPoly c (lifted X U i)))) i) i
  rw [Matrix.mul_apply, Matrix.smul_apply, Matrix.one_apply_eq, smul_eq_mul, mul_one] at h2
  have e3 : ∀ r : Fin 3 → MvPolynomial (Fin 3) ℝ, (jacobianPoly (mapPoly c (lifted X U i))).updateRow i r
      = (jacobianPoly (mapPoly c X)).updateRow i r := fun r => by
    refine Matrix.ext fun j k => ?_
    by_cases hj : j = i
    · subst hj; rw [Matrix.updateRow_self, Matrix.updateRow_self]
    · rw [Matrix.updateRow_ne hj, Matrix.updateRow_ne hj]
      exact congrArg (pderiv k) (e2 j hj)
  have e4 : ∀ a, jacobianPoly (mapPoly c (lifted X U i)) i a = pderiv a (mapPoly c (fun idx (_ : Fin 3) => U idx) i) :=
    fun a => congrArg (pderiv a) e1
  rw [← h2]
  refine Finset.sum_congr rfl fun a _ => ?_
  rw [e4, Matrix.adjugate_apply, Matrix.adjugate_apply, e3]

/-- The gradient in physical coordinates times the determinant. -/
theorem mesh_cell_gradient {t : LinearTransform ℝ} {X : ((k : Fin 3) → Fin (order k + 1)) → Fin 3 → ℝ}
    {U : ((k : Fin 3) → Fin (order k + 1)) → ℝ} {cfg : Config} {var : List Int → Res ℝ} {detJ : (Fin 3 → ℝ) → ℝ}
    {Du : (Fin 3 → ℝ) → Fin 3 → ℝ} {Inv : (Fin 3 → ℝ) → Matrix (Fin 3) (Fin 3) ℝ}
    (h : IsLagrange order c t.shape) (hX : HoldsPoints t.data X) (hU : ∀ idx, var (tup idx) = .ok (U idx))
    (hd : CellGradient cfg t var detJ Du Inv) {ξ : Fin 3 → ℝ} (hne : detJ ξ ≠ 0) (i : Fin 3) :
    detJ ξ * ∑ a, Du ξ a * Inv ξ a i = eval ξ (jacobianPoly (mapPoly c (lifted X U i))).det := by
  obtain ⟨Inv', hInv⟩ := inverse_facts h hX cfg
  obtain ⟨u', G, hu, hG, hder⟩ := C42_interpolation_gradient h var U hU
  obtain ⟨uP, huP⟩ : ∃ uP, uP = mapPoly c (fun idx (_ : Fin 3) => U idx) i := ⟨_, rfl⟩
  have hval : ∀ ξ, ParentElement.value (exactArith ℝ) t.shape (List.ofFn ξ) var = .ok (eval ξ uP) := fun ξ => by
    rw [huP]; exact value_mapPoly (X := fun idx (_ : Fin 3) => U idx) h i var hU ξ
  have hu' : u' = fun ξ => eval ξ uP := funext fun ξ => Res.ok.inj ((hu ξ).symm.trans (hval ξ))
  have hGa : ∀ a, Du ξ a = eval ξ (pderiv a uP) := fun a => by
    have h1 := hder ξ
    rw [hu'] at h1
    rw [← congrFun (proj_sum_inj (h1.unique (hasFDerivAt_eval uP ξ))) a]
    exact congrFun (List.ofFn_injective (Res.ok.inj ((hd.gradient ξ).symm.trans (hG ξ)))) a
  obtain ⟨after, k1, k2⟩ := hd.inverse ξ
  obtain ⟨after', k3⟩ := detJ_polynomial h hX cfg ξ
  have k4 := Res.ok.inj (k1.symm.trans k3)
  have hdet : detJ ξ = eval ξ (jacobianPoly (mapPoly c X)).det := (Prod.mk.inj k4).1
  obtain ⟨⟨m, k5, k6⟩, k7⟩ := hInv ξ (hdet ▸ hne)
  obtain ⟨m', k8, k9⟩ := k2 hne
  have hm : m' = m := by
    have := (Prod.mk.inj (Res.ok.inj (k1.symm.trans k5))).2
    rw [k8] at this
    exact Res.ok.inj this
  have hI : Inv ξ = Inv' ξ := by
    funext a b
    exact Res.ok.inj ((k9.2 checkedHost a b).symm.trans (hm ▸ k6.2 checkedHost a b))
  rw [det_lifted, map_sum, Finset.mul_sum]
  refine Finset.sum_congr rfl fun a _ => ?_
  rw [map_mul, ← k7 a i, hGa, hI, hdet, huP]
  ring

/-- **C160, totality.** On every three-dimensional Lagrange cell the gradient of a variable and the determinant and
inverse of the Jacobian matrix are defined at every point. -/
theorem C160_defined {t : LinearTransform ℝ} {X : ((k : Fin 3) → Fin (order k + 1)) → Fin 3 → ℝ}
    {U : ((k : Fin 3) → Fin (order k + 1)) → ℝ} {var : List Int → Res ℝ} (h : IsLagrange order c t.shape)
    (hX : HoldsPoints t.data X) (hU : ∀ idx, var (tup idx) = .ok (U idx)) (cfg : Config) :
    ∃ (detJ : (Fin 3 → ℝ) → ℝ) (Du : (Fin 3 → ℝ) → Fin 3 → ℝ) (Inv : (Fin 3 → ℝ) → Matrix (Fin 3) (Fin 3) ℝ),
      CellGradient cfg t var detJ Du Inv := by
  obtain ⟨Inv, hInv⟩ := inverse_facts h hX cfg
  obtain ⟨u', G, hu, hG, hder⟩ := C42_interpolation_gradient h var U hU
  refine ⟨fun ξ => eval ξ (jacobianPoly (mapPoly c X)).det, G, Inv, hG, fun ξ => ?_⟩
  obtain ⟨after, e1⟩ := detJ_polynomial h hX cfg ξ
  refine ⟨after, e1, fun hne => ?_⟩
  obtain ⟨⟨m, e2, e3⟩, -⟩ := hInv ξ hne
  exact ⟨m, (Prod.mk.inj (Res.ok.inj (e1.symm.trans e2))).2, e3⟩

end cell

section mesh
variable {order : Fin 3 → ℕ} {c : (k : Fin 3) → Fin (order k + 1) → ℝ} {n : Fin 3 → ℕ}
  {X X' : (Fin 3 → ℕ) → ((k : Fin 3) → Fin (order k + 1)) → Fin 3 → ℝ}
  {U U' : (Fin 3 → ℕ) → ((k : Fin 3) → Fin (order k + 1)) → ℝ}

theorem conforming_lifted (h : Conforming n X) (hU : Conforming n U) (i : Fin 3) :
    Conforming n fun e => lifted (X e) (U e) i := fun e he k hk idx => by
  simp only [lifted]
  rw [h e he k hk idx, hU e he k hk idx]

theorem same_lifted (h : SameBoundary n X X') (hU : SameBoundary n U U') (i : Fin 3) :
    SameBoundary n (fun e => lifted (X e) (U e) i) fun e => lifted (X' e) (U' e) i := fun e he k idx => by
  simp only [lifted]
  exact ⟨fun h1 h2 => by rw [(h e he k idx).1 h1 h2, (hU e he k idx).1 h1 h2],
    fun h1 h2 => by rw [(h e he k idx).2 h1 h2, (hU e he k idx).2 h1 h2]⟩

/-- **C160.** In exact arithmetic, for two meshes of a block of cells with Lagrange bases of any orders, whose nodes include
-1 and 1, and a variable on each, with values at the nodes: if neighbouring cells have the nodes of the face between them,
and the values there, in common, if nodes and values on the faces of the block are the same for both, and if no
determinant vanishes on the cells, then the integrals over the cells of the gradient in physical coordinates (`gradient`
times the matrix of `inverseJacobian`, times `detJ`) have the same sum, component by component. -/
theorem C160_mesh (t t' : (Fin 3 → ℕ) → LinearTransform ℝ) (hc : ∀ k, c k 0 = -1 ∧ c k (Fin.last _) = 1)
    (hL : ∀ e ∈ blockCells n, IsLagrange order c (t e).shape) (hL' : ∀ e ∈ blockCells n, IsLagrange order c (t' e).shape)
    (hX : ∀ e ∈ blockCells n, HoldsPoints (t e).data (X e)) (hX' : ∀ e ∈ blockCells n, HoldsPoints (t' e).data (X' e))
    (var var' : (Fin 3 → ℕ) → List Int → Res ℝ)
    (hU : ∀ e ∈ blockCells n, ∀ idx, var e (tup idx) = .ok (U e idx))
    (hU' : ∀ e ∈ blockCells n, ∀ idx, var' e (tup idx) = .ok (U' e idx))
    (h : Conforming n X) (h' : Conforming n X') (hb : SameBoundary n X X')
    (g : Conforming n U) (g' : Conforming n U') (hbU : SameBoundary n U U') (cfg : Config)
    (detJ detJ' : (Fin 3 → ℕ) → (Fin 3 → ℝ) → ℝ) (Du Du' : (Fin 3 → ℕ) → (Fin 3 → ℝ) → Fin 3 → ℝ)
    (Inv Inv' : (Fin 3 → ℕ) → (Fin 3 → ℝ) → Matrix (Fin 3) (Fin 3) ℝ)
    (hd : ∀ e ∈ blockCells n, CellGradient cfg (t e) (var e) (detJ e) (Du e) (Inv e))
    (hd' : ∀ e ∈ blockCells n, CellGradient cfg (t' e) (var' e) (detJ' e) (Du' e) (Inv' e))
    (hne : ∀ e ∈ blockCells n, ∀ ξ ∈ cube 3, detJ e ξ ≠ 0 ∧ detJ' e ξ ≠ 0) (i : Fin 3) :
    ∑ e ∈ blockCells n, ∫ ξ in cube 3, detJ e ξ * ∑ a, Du e ξ a * Inv e ξ a i
      = ∑ e ∈ blockCells n, ∫ ξ in cube 3, detJ' e ξ * ∑ a, Du' e ξ a * Inv' e ξ a i := by
  rcases (blockCells n).eq_empty_or_nonempty with h0 | ⟨e₀, he₀⟩
  · rw [h0, Finset.sum_empty, Finset.sum_empty]
  obtain ⟨-, -, -, hinj⟩ := isLagrange_realises (hL e₀ he₀)
  have key := mesh_integral_sum hinj hc (conforming_lifted h g i) (conforming_lifted h' g' i) (same_lifted hb hbU i)
  rw [Finset.sum_congr rfl fun e he => setIntegral_congr_fun measurable_cube fun ξ hξ =>
      mesh_cell_gradient (hL e he) (hX e he) (hU e he) (hd e he) (hne e he ξ hξ).1 i, key,
    Finset.sum_congr rfl fun e he => setIntegral_congr_fun measurable_cube fun ξ hξ =>
      mesh_cell_gradient (hL' e he) (hX' e he) (hU' e he) (hd' e he) (hne e he ξ hξ).2 i]

end mesh

section hexahedra
variable {c : (k : Fin 3) → Fin 2 → ℝ} {n : Fin 3 → ℕ}

/-- **C160, hexahedra.** For a block of hexahedra with nodes at `P g` and nodal values `V g`, or `P' g` and `V' g`, that
agree on the faces of the block, with coordinates of absolute value at most `B` and values of absolute value at most `A`,
and rules other than the two-point Gauss-Lobatto rule: the weighted sums over the quadrature points of all cells of the
gradient in physical coordinates times `detJ` differ by at most
`2 * (n 0 * n 1 * n 2) * ((2 + ε)^3 - 8) * 3072 * A * B^2`, if no determinant vanishes at a quadrature point. -/
theorem C160_hexahedra (P P' : (Fin 3 → ℕ) → Fin 3 → ℝ) (hP : ∀ g k, g k = 0 ∨ g k = n k → P g = P' g)
    (V V' : (Fin 3 → ℕ) → ℝ) (hV : ∀ g k, g k = 0 ∨ g k = n k → V g = V' g)
    (t t' : (Fin 3 → ℕ) → LinearTransform ℝ) (hc : ∀ k, c k 0 = -1 ∧ c k 1 = 1)
    (hL : ∀ e ∈ blockCells n, IsLagrange (fun _ : Fin 3 => 1) c (t e).shape)
    (hL' : ∀ e ∈ blockCells n, IsLagrange (fun _ : Fin 3 => 1) c (t' e).shape)
    (hX : ∀ e ∈ blockCells n, HoldsPoints (t e).data fun (idx : Fin 3 → Fin 2) => P fun k => e k + (idx k : ℕ))
    (hX' : ∀ e ∈ blockCells n, HoldsPoints (t' e).data fun (idx : Fin 3 → Fin 2) => P' fun k => e k + (idx k : ℕ))
    (var var' : (Fin 3 → ℕ) → List Int → Res ℝ)
    (hU : ∀ e ∈ blockCells n, ∀ idx : Fin 3 → Fin 2, var e (tup idx) = .ok (V fun k => e k + (idx k : ℕ)))
    (hU' : ∀ e ∈ blockCells n, ∀ idx : Fin 3 → Fin 2, var' e (tup idx) = .ok (V' fun k => e k + (idx k : ℕ)))
    (A B : ℝ) (hB : ∀ g i, |P g i| ≤ B) (hB' : ∀ g i, |P' g i| ≤ B) (hA : ∀ g, |V g| ≤ A) (hA' : ∀ g, |V' g| ≤ A)
    {F : Fin 3 → RuleFamily} {M : Fin 3 → ℕ} {p w : (k : Fin 3) → Fin (M k) → ℝ} (hg : IsGrid F M p w)
    (hdeg : ∀ k, ¬ (F k = .gaussLobatto ∧ M k = 2)) (ε : ℝ) (htol : ∀ k, (F k).tolerance (M k) ≤ ε) (cfg : Config)
    (detJ detJ' : (Fin 3 → ℕ) → (Fin 3 → ℝ) → ℝ) (Du Du' : (Fin 3 → ℕ) → (Fin 3 → ℝ) → Fin 3 → ℝ)
    (Inv Inv' : (Fin 3 → ℕ) → (Fin 3 → ℝ) → Matrix (Fin 3) (Fin 3) ℝ)
    (hd : ∀ e ∈ blockCells n, CellGradient cfg (t e) (var e) (detJ e) (Du e) (Inv e))
    (hd' : ∀ e ∈ blockCells n, CellGradient cfg (t' e) (var' e) (detJ' e) (Du' e) (Inv' e))
    (hne : ∀ e ∈ blockCells n, ∀ q : (k : Fin 3) → Fin (M k),
      detJ e (fun k => p k (q k)) ≠ 0 ∧ detJ' e (fun k => p k (q k)) ≠ 0) (i : Fin 3) :
    |∑ e ∈ blockCells n, ∑ q : (k : Fin 3) → Fin (M k), (∏ k, w k (q k)) *
          (detJ e (fun k => p k (q k)) * ∑ a, Du e (fun k => p k (q k)) a * Inv e (fun k => p k (q k)) a i)
        - ∑ e ∈ blockCells n, ∑ q : (k : Fin 3) → Fin (M k), (∏ k, w k (q k)) *
          (detJ' e (fun k => p k (q k)) * ∑ a, Du' e (fun k => p k (q k)) a * Inv' e (fun k => p k (q k)) a i)|
      ≤ 2 * (n 0 * n 1 * n 2) * (((2 + ε) ^ 3 - 2 ^ 3) * (3072 * (A * B ^ 2))) := by
  have hcard : ((blockCells n).card : ℝ) = n 0 * n 1 * n 2 := by
    simp [blockCells, Fintype.card_piFinset, Fin.prod_univ_three]
  rcases (blockCells n).eq_empty_or_nonempty with h0 | ⟨e₀, he₀⟩
  · rw [← hcard, h0]; simp
  obtain ⟨-, -, -, hinj⟩ := isLagrange_realises (hL e₀ he₀)
  have key := mesh_integral_sum (order := fun _ => 1) (c := c) hinj hc
    (conforming_lifted (conforming_nodes (n := n) P) (conforming_nodes V) i)
    (conforming_lifted (conforming_nodes (n := n) P') (conforming_nodes V') i) (same_lifted (same_nodes hP) (same_nodes hV) i)
  have hprod : ∏ j, Function.update (fun _ : Fin 3 => B) i A j = A * B ^ 2 := by
    rw [Fin.prod_univ_three]
    fin_cases i <;> simp <;> ring
  have hbound : ∀ (Q : (Fin 3 → ℕ) → Fin 3 → ℝ) (W : (Fin 3 → ℕ) → ℝ), (∀ g i, |Q g i| ≤ B) → (∀ g, |W g| ≤ A) →
      ∀ (e : Fin 3 → ℕ) (idx : Fin 3 → Fin 2) (j : Fin 3),
        |lifted (order := fun _ => 1) (fun (idx : Fin 3 → Fin 2) => Q fun k => e k + (idx k : ℕ))
          (fun (idx : Fin 3 → Fin 2) => W fun k => e k + (idx k : ℕ)) i idx j| ≤ Function.update (fun _ : Fin 3 => B) i A j := by
    intro Q W hQ hW e idx j
    by_cases hj : j = i
    · subst hj; simp only [lifted, Function.update_self]; exact hW _
    · simp only [lifted, Function.update_of_ne hj]; exact hQ _ _
  have s1 := (Finset.abs_sum_le_sum_abs _ _).trans (Finset.sum_le_sum fun e he =>
    mesh_cell_sum (hL e he) hc hg hdeg htol (hbound P V hB hA e))
  have s2 := (Finset.abs_sum_le_sum_abs _ _).trans (Finset.sum_le_sum fun e he =>
    mesh_cell_sum (hL' e he) hc hg hdeg htol (hbound P' V' hB' hA' e))
  rw [Finset.sum_sub_distrib, Finset.sum_const, nsmul_eq_mul, hcard, hprod] at s1 s2
  rw [key] at s1
  rw [Finset.sum_congr rfl fun e he => Finset.sum_congr rfl fun q _ => congrArg (_ * ·)
      (mesh_cell_gradient (hL e he) (hX e he) (hU e he) (hd e he) (hne e he q).1 i),
    Finset.sum_congr rfl fun e he => Finset.sum_congr rfl fun q _ => congrArg (_ * ·)
      (mesh_cell_gradient (hL' e he) (hX' e he) (hU' e he) (hd' e he) (hne e he q).2 i)]
  rw [abs_le] at s1 s2 ⊢
  constructor <;> linarith [s1.1, s1.2, s2.1, s2.2]

/-- The determinant of a unit cube. -/
theorem mesh_unit_cell (e : Fin 3 → ℕ) {t : LinearTransform ℝ}
    (h : IsLagrange (fun _ : Fin 3 => 1) (fun _ => ![-1, 1]) t.shape)
    (hX : HoldsPoints t.data fun (idx : Fin 3 → Fin 2) i => ((e i + (idx i : ℕ) : ℕ) : ℝ)) (cfg : Config) (ξ : Fin 3 → ℝ) :
    ∃ after, LinearTransform.inverseJacobianValue cfg (exactArith ℝ) t (List.ofFn ξ) = .ok (1 / 8, after) := by
  classical
  obtain ⟨after, e1⟩ := detJ_polynomial h hX cfg ξ
  refine ⟨after, e1.trans ?_⟩
  have hm := mapPoly_of_nodes h hX (fun i => C ((e i : ℝ) + 1 / 2) + C (1 / 2) * MvPolynomial.X i) (fun i k => by
      refine (degreeOf_add_le _ _ _).trans (max_le ?_ ?_)
      · rw [degreeOf_C]; norm_num
      · refine (degreeOf_C_mul_le _ _ _).trans ?_
        rw [degreeOf_X]; split <;> norm_num) (fun idx i => by
      rcases (show ∀ j : Fin 2, j = 0 ∨ j = 1 by decide) (idx i) with hj | hj
      · simp [hj]
      · simp [hj]; ring)
  rw [hm, eval_det, Matrix.det_fin_three]
  simp [pderiv_X]
  norm_num

/-- Non-vacuity of C160: eight unit cubes, and two variables with different values at the node in the middle. -/
example : ∃ (P : (Fin 3 → ℕ) → Fin 3 → ℝ) (V V' : (Fin 3 → ℕ) → ℝ) (t : (Fin 3 → ℕ) → LinearTransform ℝ)
    (var var' : (Fin 3 → ℕ) → List Int → Res ℝ) (p w : (k : Fin 3) → Fin 2 → ℝ) (detJ detJ' : (Fin 3 → ℕ) → (Fin 3 → ℝ) → ℝ)
    (Du Du' : (Fin 3 → ℕ) → (Fin 3 → ℝ) → Fin 3 → ℝ) (Inv Inv' : (Fin 3 → ℕ) → (Fin 3 → ℝ) → Matrix (Fin 3) (Fin 3) ℝ),
    V (fun _ => 1) ≠ V' (fun _ => 1) ∧ (∀ g k, g k = 0 ∨ g k = 2 → V g = V' g) ∧ (∀ g i, |P g i| ≤ 2) ∧
    (∀ g, |V g| ≤ 1) ∧ (∀ g, |V' g| ≤ 1) ∧
    (∀ e, IsLagrange (fun _ : Fin 3 => 1) (fun _ => ![-1, 1]) (t e).shape) ∧
    (∀ e, HoldsPoints (t e).data fun (idx : Fin 3 → Fin 2) => P fun k => e k + (idx k : ℕ)) ∧
    (∀ e (idx : Fin 3 → Fin 2), var e (tup idx) = .ok (V fun k => e k + (idx k : ℕ))) ∧
    (∀ e (idx : Fin 3 → Fin 2), var' e (tup idx) = .ok (V' fun k => e k + (idx k : ℕ))) ∧
    IsGrid (fun _ : Fin 3 => .gaussLegendre) (fun _ => 2) p w ∧
    (∀ e, CellGradient checkedHost (t e) (var e) (detJ e) (Du e) (Inv e)) ∧
    (∀ e, CellGradient checkedHost (t e) (var' e) (detJ' e) (Du' e) (Inv' e)) ∧
    ∀ e ∈ blockCells fun _ => 2, ∀ ξ, detJ e ξ ≠ 0 ∧ detJ' e ξ ≠ 0 := by
  obtain ⟨e₀, he, hcell⟩ := trilinear_cell
  obtain ⟨p, w, hg⟩ := C94_grids (fun _ : Fin 3 => RuleFamily.gaussLegendre) (fun _ => 2)
    fun _ => ⟨by norm_num, by norm_num⟩
  let P : (Fin 3 → ℕ) → Fin 3 → ℝ := fun g i => ((min (g i) 2 : ℕ) : ℝ)
  let V : (Fin 3 → ℕ) → ℝ := fun _ => 0
  let V' : (Fin 3 → ℕ) → ℝ := fun g => if ∀ k, g k = 1 then 1 else 0
  choose t ht using fun e : Fin 3 → ℕ => hcell fun (idx : Fin 3 → Fin 2) => P fun k => e k + (idx k : ℕ)
  have hL : ∀ e, IsLagrange (fun _ : Fin 3 => 1) (fun _ => ![-1, 1]) (t e).shape := fun e => (ht e).1 ▸ he
  choose var hvar using fun e : Fin 3 → ℕ => exists_nodal (order := fun _ : Fin 3 => 1) fun (idx : Fin 3 → Fin 2) =>
    V fun k => e k + (idx k : ℕ)
  choose var' hvar' using fun e : Fin 3 → ℕ => exists_nodal (order := fun _ : Fin 3 => 1) fun (idx : Fin 3 → Fin 2) =>
    V' fun k => e k + (idx k : ℕ)
  choose detJ Du Inv hd using fun e => C160_defined (hL e) (ht e).2 (hvar e) checkedHost
  choose detJ' Du' Inv' hd' using fun e => C160_defined (hL e) (ht e).2 (hvar' e) checkedHost
  refine ⟨P, V, V', t, var, var', p, w, detJ, detJ', Du, Du', Inv, Inv', by simp [V, V'], fun g k hk => ?_, fun g i => ?_,
    fun g => by simp [V], fun g => ?_, hL, fun e => (ht e).2, hvar, hvar', hg, hd, hd', fun e hmem ξ => ?_⟩
  · have : ¬ ∀ k, g k = 1 := fun h => by rw [h k] at hk; simp at hk
    simp only [V, V', if_neg this]
  · rw [abs_of_nonneg (Nat.cast_nonneg _)]
    show ((min (g i) 2 : ℕ) : ℝ) ≤ ((2 : ℕ) : ℝ)
    exact Nat.cast_le.2 (Nat.min_le_right _ _)
  · simp only [V']
    split_ifs <;> norm_num
  · have hpos : HoldsPoints (t e).data fun (idx : Fin 3 → Fin 2) i => ((e i + (idx i : ℕ) : ℕ) : ℝ) := by
      have := (ht e).2
      convert this using 3 with idx i
      have h1 : e i < 2 := by simpa [blockCells] using (Fintype.mem_piFinset.1 hmem i)
      have h2 := (idx i).2
      have h3 : e i + (idx i : ℕ) ≤ 2 := by omega
      exact congrArg _ (min_eq_left h3).symm
    obtain ⟨after, k1⟩ := mesh_unit_cell e (hL e) hpos checkedHost ξ
    obtain ⟨_, k2, -⟩ := (hd e).inverse ξ
    obtain ⟨_, k3, -⟩ := (hd' e).inverse ξ
    rw [(Prod.mk.inj (Res.ok.inj (k2.symm.trans k1))).1, (Prod.mk.inj (Res.ok.inj (k3.symm.trans k1))).1]
    norm_num

end hexahedra

end Verif.Props
