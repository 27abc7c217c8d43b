import Verif.Props.GluedMesh

/-!
# Property C163: for affine boundary values the mean gradient over a mesh is exact
-/

namespace Verif.Props

open Verif.Spec Verif.Lemmas MeasureTheory MvPolynomial

section cell
variable {order : Fin 3 → ℕ} {c : (k : Fin 3) → Fin (order k + 1) → ℝ}

private theorem map_const {E : Element ℝ} (h : IsLagrange order c E) (d : ℝ) (i : Fin 3) :
    mapPoly c (fun _ (_ : Fin 3) => d) i = C d := by
  refine MvPolynomial.funext fun ξ => ?_
  obtain ⟨var, hvar⟩ := exists_nodal (order := order) fun _ => d
  have e1 := value_mapPoly (X := fun _ (_ : Fin 3) => d) h i var hvar ξ
  have e2 := (C43_polynomial_reproduction h (C d) (fun k => by rw [degreeOf_C]; exact Nat.zero_le _) var (fun idx => by
      rw [hvar, eval_C]) ξ).1
  exact Res.ok.inj (e1.symm.trans e2)

/-- Replacing component `i` by an affine function of all components multiplies the determinant by the coefficient of
component `i`. -/
private theorem det_affine {E : Element ℝ} (h : IsLagrange order c E) (X : ((k : Fin 3) → Fin (order k + 1)) → Fin 3 → ℝ)
    (b : Fin 3 → ℝ) (d : ℝ) (i : Fin 3) :
    (jacobianPoly (mapPoly c (lifted X (fun idx => ∑ j, b j * X idx j + d) i))).det
      = C (b i) * (jacobianPoly (mapPoly c X)).det := by
  have e1 : mapPoly c (fun idx (_ : Fin 3) => ∑ j, b j * X idx j + d) i = ∑ j, C (b j) * mapPoly c X j + C d := by
    rw [← map_const h d i]
    simp only [mapPoly, map_add, map_sum, map_mul, add_mul, Finset.sum_add_distrib, Finset.sum_mul, Finset.mul_sum]
    rw [Finset.sum_comm]
    simp only [mul_assoc]
  rw [det_lifted, e1]
  have e2 : ∀ a, pderiv a (∑ j, C (b j) * mapPoly c X j + C d) = ∑ j, C (b j) * jacobianPoly (mapPoly c X) j a := fun a => by
    rw [map_add, map_sum, pderiv_C, add_zero]
    exact Finset.sum_congr rfl fun j _ => pderiv_C_mul
  simp only [e2, Finset.sum_mul]
  rw [Finset.sum_comm]
  have e3 : ∀ j, ∑ a, C (b j) * jacobianPoly (mapPoly c X) j a * (jacobianPoly (mapPoly c X)).adjugate a i
      = C (b j) * ((jacobianPoly (mapPoly c X)).det * if j = i then 1 else 0) := fun j => by
    have := congrFun (congrFun (Matrix.mul_adjugate (jacobianPoly (mapPoly c X))) j) i
    rw [Matrix.mul_apply, Matrix.smul_apply, Matrix.one_apply, smul_eq_mul] at this
    rw [← this, Finset.mul_sum]
    exact Finset.sum_congr rfl fun a _ => mul_assoc _ _ _
  simp only [e3]
  rw [Finset.sum_eq_single i (fun j _ hj => by rw [if_neg hj, mul_zero, mul_zero]) (fun h => absurd (Finset.mem_univ i) h),
    if_pos rfl, mul_one]

private theorem cell_det {t : LinearTransform ℝ} {X : ((k : Fin 3) → Fin (order k + 1)) → Fin 3 → ℝ} {cfg : Config}
    {var : List Int → Res ℝ} {detJ : (Fin 3 → ℝ) → ℝ} {Du : (Fin 3 → ℝ) → Fin 3 → ℝ}
    {Inv : (Fin 3 → ℝ) → Matrix (Fin 3) (Fin 3) ℝ} (h : IsLagrange order c t.shape) (hX : HoldsPoints t.data X)
    (hd : CellGradient cfg t var detJ Du Inv) (ξ : Fin 3 → ℝ) : detJ ξ = eval ξ (jacobianPoly (mapPoly c X)).det := by
  obtain ⟨_, k1⟩ := detJ_polynomial h hX cfg ξ
  obtain ⟨_, k2, -⟩ := hd.inverse ξ
  exact (Prod.mk.inj (Res.ok.inj (k2.symm.trans k1))).1

private theorem integral_affine {E : Element ℝ} (h : IsLagrange order c E) (X : ((k : Fin 3) → Fin (order k + 1)) → Fin 3 → ℝ)
    (b : Fin 3 → ℝ) (d : ℝ) (i : Fin 3) :
    ∫ ξ in cube 3, eval ξ (jacobianPoly (mapPoly c (lifted X (fun idx => ∑ j, b j * X idx j + d) i))).det
      = b i * ∫ ξ in cube 3, eval ξ (jacobianPoly (mapPoly c X)).det := by
  rw [det_affine h, ← integral_const_mul]
  simp only [map_mul, eval_C]

end cell

section block
variable {order : Fin 3 → ℕ} {c : (k : Fin 3) → Fin (order k + 1) → ℝ} {n : Fin 3 → ℕ}
  {X : (Fin 3 → ℕ) → ((k : Fin 3) → Fin (order k + 1)) → Fin 3 → ℝ} {U : (Fin 3 → ℕ) → ((k : Fin 3) → Fin (order k + 1)) → ℝ}

private theorem conforming_affine (h : Conforming n X) (b : Fin 3 → ℝ) (d : ℝ) :
    Conforming n fun e idx => ∑ j, b j * X e idx j + d := fun e he k hk idx => by
  simp only [h e he k hk idx]

/-- **C163.** In exact arithmetic, for a mesh of a block of cells with Lagrange bases of any orders, whose nodes include -1
and 1, such that neighbouring cells have the nodes of the face between them, and the values of a variable there, in common:
if at the nodes on the faces of the block the variable is `b · x + d`, and no determinant vanishes on the cells, then
component `i` of the gradient in physical coordinates, integrated over the cells, sums up to `b i` times the sum of the
integrals of `detJ`, whatever the values at inner nodes. -/
theorem C163_mesh (t : (Fin 3 → ℕ) → LinearTransform ℝ) (hc : ∀ k, c k 0 = -1 ∧ c k (Fin.last _) = 1)
    (hL : ∀ e ∈ blockCells n, IsLagrange order c (t e).shape) (hX : ∀ e ∈ blockCells n, HoldsPoints (t e).data (X e))
    (var : (Fin 3 → ℕ) → List Int → Res ℝ) (hU : ∀ e ∈ blockCells n, ∀ idx, var e (tup idx) = .ok (U e idx))
    (h : Conforming n X) (g : Conforming n U) (b : Fin 3 → ℝ) (d : ℝ)
    (hb : SameBoundary n U fun e idx => ∑ j, b j * X e idx j + d) (cfg : Config)
    (detJ : (Fin 3 → ℕ) → (Fin 3 → ℝ) → ℝ) (Du : (Fin 3 → ℕ) → (Fin 3 → ℝ) → Fin 3 → ℝ)
    (Inv : (Fin 3 → ℕ) → (Fin 3 → ℝ) → Matrix (Fin 3) (Fin 3) ℝ)
    (hd : ∀ e ∈ blockCells n, CellGradient cfg (t e) (var e) (detJ e) (Du e) (Inv e))
    (hne : ∀ e ∈ blockCells n, ∀ ξ ∈ cube 3, detJ e ξ ≠ 0) (i : Fin 3) :
    ∑ e ∈ blockCells n, ∫ ξ in cube 3, detJ e ξ * ∑ a, Du e ξ a * Inv e ξ a i
      = b i * ∑ e ∈ blockCells n, ∫ ξ in cube 3, detJ e ξ := by
  rcases (blockCells n).eq_empty_or_nonempty with h0 | ⟨e₀, he₀⟩
  · rw [h0, Finset.sum_empty, Finset.sum_empty, mul_zero]
  obtain ⟨-, -, -, hinj⟩ := isLagrange_realises (hL e₀ he₀)
  have key := mesh_integral_sum hinj hc (conforming_lifted h g i) (conforming_lifted h (conforming_affine h b d) i)
    (same_lifted (fun _ _ _ _ => ⟨fun _ _ => rfl, fun _ _ => rfl⟩) hb i)
  rw [Finset.sum_congr rfl fun e he => setIntegral_congr_fun measurable_cube fun ξ hξ =>
      mesh_cell_gradient (hL e he) (hX e he) (hU e he) (hd e he) (hne e he ξ hξ) i, key, Finset.mul_sum]
  refine Finset.sum_congr rfl fun e he => ?_
  rw [integral_affine (hL e he)]
  simp only [cell_det (hL e he) (hX e he) (hd e he)]

end block

section glued
variable {ι : Type} [Fintype ι] {m : ℕ} {v : Fin (m + 1) → ℝ} {glue : Gluing ι}
  {X : ι → (Fin 3 → Fin (m + 1)) → Fin 3 → ℝ} {U : ι → (Fin 3 → Fin (m + 1)) → ℝ}

/-- **C163, unstructured meshes.** The same for cells glued along faces in any orientation, as in C161. -/
theorem C163_glued (t : ι → LinearTransform ℝ) (hs : ∀ i, v i.rev = -v i) (hv : v 0 = -1 ∧ v (Fin.last m) = 1)
    (hL : ∀ e, IsLagrange (fun _ : Fin 3 => m) (fun _ => v) (t e).shape) (hP : ∀ e, HoldsPoints (t e).data (X e))
    (var : ι → List Int → Res ℝ) (hU : ∀ e (idx : Fin 3 → Fin (m + 1)), var e (tup idx) = .ok (U e idx))
    (hg : IsGluing glue) (hX : FitsGluing glue X) (gU : FitsGluing glue U) (b : Fin 3 → ℝ) (d : ℝ)
    (hb : SameOnBoundary glue U fun e idx => ∑ j, b j * X e idx j + d) (cfg : Config)
    (detJ : ι → (Fin 3 → ℝ) → ℝ) (Du : ι → (Fin 3 → ℝ) → Fin 3 → ℝ) (Inv : ι → (Fin 3 → ℝ) → Matrix (Fin 3) (Fin 3) ℝ)
    (hd : ∀ e, CellGradient cfg (t e) (var e) (detJ e) (Du e) (Inv e)) (hne : ∀ e, ∀ ξ ∈ cube 3, detJ e ξ ≠ 0) (i : Fin 3) :
    ∑ e, ∫ ξ in cube 3, detJ e ξ * ∑ a, Du e ξ a * Inv e ξ a i = b i * ∑ e, ∫ ξ in cube 3, detJ e ξ := by
  rcases isEmpty_or_nonempty ι with h | ⟨⟨e₀⟩⟩
  · simp
  obtain ⟨-, -, -, hinj⟩ := isLagrange_realises (hL e₀)
  have hA : FitsGluing glue fun e (idx : Fin 3 → Fin (m + 1)) => ∑ j, b j * X e idx j + d := fun f e s hf idx => by
    simp only [hX f e s hf idx]
  have key := glued_integral_sum (hinj 0) hs hv.1 hv.2 hg (fits_lifted hX gU i) (fits_lifted hX hA i) fun f hf idx hi => by
    simp only [lifted]
    rw [hb f hf idx hi]
  rw [Finset.sum_congr rfl fun e _ => setIntegral_congr_fun measurable_cube fun ξ hξ =>
      mesh_cell_gradient (hL e) (hP e) (hU e) (hd e) (hne e ξ hξ) i, key, Finset.mul_sum]
  refine Finset.sum_congr rfl fun e _ => ?_
  rw [integral_affine (hL e)]
  simp only [cell_det (hL e) (hP e) (hd e)]

end glued

section hexahedra
variable {c : (k : Fin 3) → Fin 2 → ℝ} {n : Fin 3 → ℕ}

/-- **C163, hexahedra.** For a block of hexahedra with vertices `P g`, of coordinates of absolute value at most `B`, nodal
values `V g` of absolute value at most `A`, equal to `b · P g + d` on the faces of the block, and rules other than the
two-point Gauss-Lobatto rule: the weighted sum over the quadrature points of all cells of component `i` of the gradient in
physical coordinates times `detJ` differs from `b i` times the weighted sum of `detJ` by at most
`(n 0 * n 1 * n 2) * ((2 + ε)^3 - 8) * 3072 * (A * B^2 + |b i| * B^3)`. -/
theorem C163_hexahedra (P : (Fin 3 → ℕ) → Fin 3 → ℝ) (V : (Fin 3 → ℕ) → ℝ) (b : Fin 3 → ℝ) (d : ℝ)
    (hV : ∀ g k, g k = 0 ∨ g k = n k → V g = ∑ j, b j * P g j + d)
    (t : (Fin 3 → ℕ) → LinearTransform ℝ) (hc : ∀ k, c k 0 = -1 ∧ c k 1 = 1)
    (hL : ∀ e ∈ blockCells n, IsLagrange (fun _ : Fin 3 => 1) c (t e).shape)
    (hX : ∀ e ∈ blockCells n, HoldsPoints (t e).data fun (idx : Fin 3 → Fin 2) => P fun k => e k + (idx k : ℕ))
    (var : (Fin 3 → ℕ) → List Int → Res ℝ)
    (hU : ∀ e ∈ blockCells n, ∀ idx : Fin 3 → Fin 2, var e (tup idx) = .ok (V fun k => e k + (idx k : ℕ)))
    (A B : ℝ) (hB : ∀ g i, |P g i| ≤ B) (hA : ∀ g, |V g| ≤ A)
    {F : Fin 3 → RuleFamily} {M : Fin 3 → ℕ} {p w : (k : Fin 3) → Fin (M k) → ℝ} (hg : IsGrid F M p w)
    (hdeg : ∀ k, ¬ (F k = .gaussLobatto ∧ M k = 2)) (ε : ℝ) (htol : ∀ k, (F k).tolerance (M k) ≤ ε) (cfg : Config)
    (detJ : (Fin 3 → ℕ) → (Fin 3 → ℝ) → ℝ) (Du : (Fin 3 → ℕ) → (Fin 3 → ℝ) → Fin 3 → ℝ)
    (Inv : (Fin 3 → ℕ) → (Fin 3 → ℝ) → Matrix (Fin 3) (Fin 3) ℝ)
    (hd : ∀ e ∈ blockCells n, CellGradient cfg (t e) (var e) (detJ e) (Du e) (Inv e))
    (hne : ∀ e ∈ blockCells n, ∀ q : (k : Fin 3) → Fin (M k), detJ e (fun k => p k (q k)) ≠ 0) (i : Fin 3) :
    |∑ e ∈ blockCells n, ∑ q : (k : Fin 3) → Fin (M k), (∏ k, w k (q k)) *
          (detJ e (fun k => p k (q k)) * ∑ a, Du e (fun k => p k (q k)) a * Inv e (fun k => p k (q k)) a i)
        - b i * ∑ e ∈ blockCells n, ∑ q : (k : Fin 3) → Fin (M k), (∏ k, w k (q k)) * detJ e (fun k => p k (q k))|
      ≤ n 0 * n 1 * n 2 * (((2 + ε) ^ 3 - 2 ^ 3) * (3072 * (A * B ^ 2 + |b i| * B ^ 3))) := by
  have hcard : ((blockCells n).card : ℝ) = n 0 * n 1 * n 2 := by
    simp [blockCells, Fintype.card_piFinset, Fin.prod_univ_three]
  rcases (blockCells n).eq_empty_or_nonempty with h0 | ⟨e₀, he₀⟩
  · rw [← hcard, h0]; simp
  obtain ⟨-, -, -, hinj⟩ := isLagrange_realises (hL e₀ he₀)
  have key := mesh_integral_sum (order := fun _ => 1) (c := c) hinj hc
    (conforming_lifted (conforming_nodes (n := n) P) (conforming_nodes V) i)
    (conforming_lifted (conforming_nodes (n := n) P) (conforming_nodes fun g => ∑ j, b j * P g j + d) i)
    (same_lifted (same_nodes fun _ _ _ => rfl) (same_nodes hV) i)
  rw [Finset.sum_congr rfl fun e he => integral_affine (hL e he)
    (fun (idx : Fin 3 → Fin 2) => P fun k => e k + (idx k : ℕ)) b d i, ← Finset.mul_sum] at key
  have hprod : ∏ j, Function.update (fun _ : Fin 3 => B) i A j = A * B ^ 2 := by
    rw [Fin.prod_univ_three]
    fin_cases i <;> simp <;> ring
  have s1 := (Finset.abs_sum_le_sum_abs _ _).trans (Finset.sum_le_sum fun e he =>
    mesh_cell_sum (X := lifted (order := fun _ => 1) (fun (idx : Fin 3 → Fin 2) => P fun k => e k + (idx k : ℕ))
      (fun (idx : Fin 3 → Fin 2) => V fun k => e k + (idx k : ℕ)) i) (B := Function.update (fun _ : Fin 3 => B) i A)
      (hL e he) hc hg hdeg htol fun idx j => by
        by_cases hj : j = i
        · subst hj; simp only [lifted, Function.update_self]; exact hA _
        · simp only [lifted, Function.update_of_ne hj]; exact hB _ _)
  have s2 := (Finset.abs_sum_le_sum_abs _ _).trans (Finset.sum_le_sum fun e he =>
    mesh_cell_sum (B := fun _ => B) (hL e he) hc hg hdeg htol fun idx i => hB (fun k => e k + (idx k : ℕ)) i)
  rw [Finset.sum_sub_distrib, Finset.sum_const, nsmul_eq_mul, hcard, hprod] at s1
  rw [Finset.sum_sub_distrib, Finset.sum_const, nsmul_eq_mul, hcard, Finset.prod_const, Finset.card_univ,
    Fintype.card_fin] at s2
  rw [key] at s1
  have hsum : ∑ e ∈ blockCells n, ∑ q : (k : Fin 3) → Fin (M k), (∏ k, w k (q k)) * detJ e (fun k => p k (q k))
      = ∑ e ∈ blockCells n, ∑ q : (k : Fin 3) → Fin (M k), (∏ k, w k (q k)) * eval (fun k => p k (q k))
        (jacobianPoly (mapPoly (order := fun _ => 1) c fun (idx : Fin 3 → Fin 2) => P fun k => e k + (idx k : ℕ))).det :=
    Finset.sum_congr rfl fun e he => Finset.sum_congr rfl fun q _ => congrArg ((∏ k, w k (q k)) * ·)
      (cell_det (hL e he) (hX e he) (hd e he) fun k => p k (q k))
  rw [Finset.sum_congr rfl fun e he => Finset.sum_congr rfl fun q _ => congrArg (_ * ·)
      (mesh_cell_gradient (hL e he) (hX e he) (hU e he) (hd e he) (hne e he q) i), hsum]
  have s3 := mul_le_mul_of_nonneg_left s2 (abs_nonneg (b i))
  rw [← abs_mul, mul_sub] at s3
  refine (abs_sub_le _ _ _).trans ((add_le_add s1 ((abs_sub_comm _ _).le.trans s3)).trans (le_of_eq ?_))
  ring

/-- Non-vacuity of C163: eight unit cubes, and a variable that is the first coordinate but for the node in the middle. -/
example : ∃ (P : (Fin 3 → ℕ) → Fin 3 → ℝ) (V : (Fin 3 → ℕ) → ℝ) (t : (Fin 3 → ℕ) → LinearTransform ℝ)
    (var : (Fin 3 → ℕ) → List Int → Res ℝ) (p w : (k : Fin 3) → Fin 2 → ℝ) (detJ : (Fin 3 → ℕ) → (Fin 3 → ℝ) → ℝ)
    (Du : (Fin 3 → ℕ) → (Fin 3 → ℝ) → Fin 3 → ℝ) (Inv : (Fin 3 → ℕ) → (Fin 3 → ℝ) → Matrix (Fin 3) (Fin 3) ℝ),
    V (fun _ => 1) ≠ P (fun _ => 1) 0 ∧
    (∀ g k, g k = 0 ∨ g k = 2 → V g = ∑ j, (![1, 0, 0] : Fin 3 → ℝ) j * P g j + 0) ∧ (∀ g i, |P g i| ≤ 2) ∧ (∀ g, |V g| ≤ 2) ∧
    (∀ e, IsLagrange (fun _ : Fin 3 => 1) (fun _ => ![-1, 1]) (t e).shape) ∧
    (∀ e, HoldsPoints (t e).data fun (idx : Fin 3 → Fin 2) => P fun k => e k + (idx k : ℕ)) ∧
    (∀ e (idx : Fin 3 → Fin 2), var e (tup idx) = .ok (V fun k => e k + (idx k : ℕ))) ∧
    IsGrid (fun _ : Fin 3 => .gaussLegendre) (fun _ => 2) p w ∧
    (∀ e, CellGradient checkedHost (t e) (var e) (detJ e) (Du e) (Inv e)) ∧
    ∀ e ∈ blockCells fun _ => 2, ∀ ξ, detJ e ξ ≠ 0 := by
  obtain ⟨e₀, he, hcell⟩ := trilinear_cell
  obtain ⟨p, w, hg⟩ := C94_grids (fun _ : Fin 3 => RuleFamily.gaussLegendre) (fun _ => 2)
    fun _ => ⟨by norm_num, by norm_num⟩
  let P : (Fin 3 → ℕ) → Fin 3 → ℝ := fun g i => ((min (g i) 2 : ℕ) : ℝ)
  let V : (Fin 3 → ℕ) → ℝ := fun g => if ∀ k, g k = 1 then 0 else P g 0
  have hB : ∀ g i, |P g i| ≤ 2 := fun g i => by
    rw [abs_of_nonneg (Nat.cast_nonneg _)]
    show ((min (g i) 2 : ℕ) : ℝ) ≤ ((2 : ℕ) : ℝ)
    exact Nat.cast_le.2 (Nat.min_le_right _ _)
  choose t ht using fun e : Fin 3 → ℕ => hcell fun (idx : Fin 3 → Fin 2) => P fun k => e k + (idx k : ℕ)
  have hL : ∀ e, IsLagrange (fun _ : Fin 3 => 1) (fun _ => ![-1, 1]) (t e).shape := fun e => (ht e).1 ▸ he
  choose var hvar using fun e : Fin 3 → ℕ => exists_nodal (order := fun _ : Fin 3 => 1) fun (idx : Fin 3 → Fin 2) =>
    V fun k => e k + (idx k : ℕ)
  choose detJ Du Inv hd using fun e => C160_defined (hL e) (ht e).2 (hvar e) checkedHost
  refine ⟨P, V, t, var, p, w, detJ, Du, Inv, by norm_num [V, P], fun g k hk => ?_, hB, fun g => ?_, hL, fun e => (ht e).2,
    hvar, hg, hd, fun e hmem ξ => ?_⟩
  · have : ¬ ∀ k, g k = 1 := fun h => by rw [h k] at hk; simp at hk
    simp [V, if_neg this, Fin.sum_univ_three]
  · simp only [V]
    split_ifs
    · norm_num
    · exact hB g 0
  · have hpos : HoldsPoints (t e).data fun (idx : Fin 3 → Fin 2) i => ((e i + (idx i : ℕ) : ℕ) : ℝ) := by
      have := (ht e).2
      convert this using 3 with idx i
      have h1 : e i < 2 := by simpa [blockCells] using (Fintype.mem_piFinset.1 hmem i)
      have h2 := (idx i).2
      have h3 : e i + (idx i : ℕ) ≤ 2 := by omega
      exact congrArg _ (min_eq_left h3).symm
    obtain ⟨after, k1⟩ := mesh_unit_cell e (hL e) hpos checkedHost ξ
    obtain ⟨_, k2, -⟩ := (hd e).inverse ξ
    rw [(Prod.mk.inj (Res.ok.inj (k2.symm.trans k1))).1]
    norm_num

/-- Non-vacuity of `C163_glued`: eight unit cubes glued around one node, and a variable that is the first coordinate but for
that node.  The rest is as in the example for C161. -/
example : ∃ V : (Fin 3 → ℕ) → ℝ, V (fun _ => 1) ≠ 1 ∧ IsGluing cubeGlue ∧
    FitsGluing (m := 1) cubeGlue (fun e idx => V fun k => (e k : ℕ) + (idx k : ℕ)) ∧
    SameOnBoundary (m := 1) cubeGlue (fun e idx => V fun k => (e k : ℕ) + (idx k : ℕ))
      fun e idx => ∑ j, (![1, 0, 0] : Fin 3 → ℝ) j * (((e j : ℕ) + (idx j : ℕ) : ℕ) : ℝ) + 0 := by
  refine ⟨fun g => if ∀ k, g k = 1 then 0 else (g 0 : ℝ), by norm_num, cube_gluing,
    cube_fits fun g => if ∀ k, g k = 1 then (0 : ℝ) else (g 0 : ℝ), fun f hf idx hi => ?_⟩
  have : ¬ ∀ k, (f.cell k : ℕ) + (idx k : ℕ) = 1 := fun h => by
    have h1 := h f.dir
    simp only [cubeGlue] at hf
    split at hf
    · rename_i hc
      rw [hc, hi] at h1
      revert h1
      cases f.upper <;> decide
    · cases hf
  simp [if_neg this, Fin.sum_univ_three]

end hexahedra

section glued
variable {ι : Type} [Fintype ι] {v : Fin 2 → ℝ} {glue : Gluing ι} {X : ι → (Fin 3 → Fin 2) → Fin 3 → ℝ}
  {U : ι → (Fin 3 → Fin 2) → ℝ}

/-- **C163, unstructured meshes of hexahedra.** The same for hexahedra glued along faces in any orientation. -/
theorem C163_glued_hexahedra (t : ι → LinearTransform ℝ) (hv : v 0 = -1 ∧ v 1 = 1)
    (hL : ∀ e, IsLagrange (fun _ : Fin 3 => 1) (fun _ => v) (t e).shape) (hP : ∀ e, HoldsPoints (t e).data (X e))
    (var : ι → List Int → Res ℝ) (hU : ∀ e (idx : Fin 3 → Fin 2), var e (tup idx) = .ok (U e idx))
    (hg : IsGluing glue) (hX : FitsGluing (m := 1) glue X) (gU : FitsGluing (m := 1) glue U) (b : Fin 3 → ℝ) (d : ℝ)
    (hb : SameOnBoundary (m := 1) glue U fun e idx => ∑ j, b j * X e idx j + d)
    (A B : ℝ) (hB : ∀ e idx i, |X e idx i| ≤ B) (hA : ∀ e idx, |U e idx| ≤ A)
    {F : Fin 3 → RuleFamily} {M : Fin 3 → ℕ} {p w : (k : Fin 3) → Fin (M k) → ℝ} (hgrid : IsGrid F M p w)
    (hdeg : ∀ k, ¬ (F k = .gaussLobatto ∧ M k = 2)) (ε : ℝ) (htol : ∀ k, (F k).tolerance (M k) ≤ ε) (cfg : Config)
    (detJ : ι → (Fin 3 → ℝ) → ℝ) (Du : ι → (Fin 3 → ℝ) → Fin 3 → ℝ) (Inv : ι → (Fin 3 → ℝ) → Matrix (Fin 3) (Fin 3) ℝ)
    (hd : ∀ e, CellGradient cfg (t e) (var e) (detJ e) (Du e) (Inv e))
    (hne : ∀ e, ∀ q : (k : Fin 3) → Fin (M k), detJ e (fun k => p k (q k)) ≠ 0) (i : Fin 3) :
    |∑ e, ∑ q : (k : Fin 3) → Fin (M k), (∏ k, w k (q k)) *
          (detJ e (fun k => p k (q k)) * ∑ a, Du e (fun k => p k (q k)) a * Inv e (fun k => p k (q k)) a i)
        - b i * ∑ e, ∑ q : (k : Fin 3) → Fin (M k), (∏ k, w k (q k)) * detJ e (fun k => p k (q k))|
      ≤ Fintype.card ι * (((2 + ε) ^ 3 - 2 ^ 3) * (3072 * (A * B ^ 2 + |b i| * B ^ 3))) := by
  rcases isEmpty_or_nonempty ι with h | ⟨⟨e₀⟩⟩
  · simp
  obtain ⟨-, -, -, hinj⟩ := isLagrange_realises (hL e₀)
  have hF : FitsGluing (m := 1) glue fun e idx => ∑ j, b j * X e idx j + d := fun f e s hf idx => by
    simp only [hX f e s hf idx]
  have key := glued_integral_sum (m := 1) (hinj 0) (mirror_ends hv) hv.1 hv.2 hg (fits_lifted hX gU i) (fits_lifted hX hF i)
    fun f hf idx hi => by
      simp only [lifted]
      rw [hb f hf idx hi]
  rw [Finset.sum_congr rfl fun e _ => integral_affine (hL e) (X e) b d i, ← Finset.mul_sum] at key
  have s1 := glued_lifted_sum hv hL hgrid hdeg htol hB hA i
  have s2 := (Finset.abs_sum_le_sum_abs _ _).trans (Finset.sum_le_sum fun e (_ : e ∈ Finset.univ) =>
    mesh_cell_sum (B := fun _ => B) (hL e) (fun _ => hv) hgrid hdeg htol (hB e))
  rw [Finset.sum_sub_distrib, Finset.sum_const, nsmul_eq_mul, Finset.card_univ, Finset.prod_const, Finset.card_univ,
    Fintype.card_fin] at s2
  rw [key] at s1
  have hsum : ∑ e, ∑ q : (k : Fin 3) → Fin (M k), (∏ k, w k (q k)) * detJ e (fun k => p k (q k))
      = ∑ e, ∑ q : (k : Fin 3) → Fin (M k), (∏ k, w k (q k)) * eval (fun k => p k (q k))
        (jacobianPoly (mapPoly (order := fun _ : Fin 3 => 1) (fun _ => v) (X e))).det :=
    Finset.sum_congr rfl fun e _ => Finset.sum_congr rfl fun q _ => congrArg ((∏ k, w k (q k)) * ·)
      (cell_det (hL e) (hP e) (hd e) fun k => p k (q k))
  rw [Finset.sum_congr rfl fun e _ => Finset.sum_congr rfl fun q _ => congrArg (_ * ·)
      (mesh_cell_gradient (hL e) (hP e) (hU e) (hd e) (hne e q) i), hsum]
  have s3 := mul_le_mul_of_nonneg_left s2 (abs_nonneg (b i))
  rw [← abs_mul, mul_sub] at s3
  refine (abs_sub_le _ _ _).trans ((add_le_add s1 ((abs_sub_comm _ _).le.trans s3)).trans (le_of_eq ?_))
  ring

end glued

end Verif.Props
