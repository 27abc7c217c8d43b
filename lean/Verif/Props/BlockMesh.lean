import Verif.Lemmas.FaceFlux
import Verif.Spec.BlockMesh
import Verif.Spec.Grid
import Verif.Props.CellVolume
import Verif.Props.Matrices

/-!
# Property C159: moving the inner nodes of a mesh does not change its volume
-/

namespace Verif.Props

open Verif.Spec Verif.Lemmas MeasureTheory MvPolynomial

section cell
variable {order : Fin 3 → ℕ} {c : (k : Fin 3) → Fin (order k + 1) → ℝ}

private theorem eval_map_face (hinj : ∀ k, Function.Injective (c k)) (X : ((k : Fin 3) → Fin (order k + 1)) → Fin 3 → ℝ)
    (a : Fin 3) (m : Fin (order a + 1)) (ξ : Fin 3 → ℝ) (i : Fin 3) :
    eval (Function.update ξ a (c a m)) (mapPoly c X i)
      = ∑ idx : (k : Fin 3) → Fin (order k + 1), if idx a = m then X (Function.update idx a m) i
          * ∏ k ∈ Finset.univ.erase a, (Lagrange.basis Finset.univ (c k) (idx k)).eval (ξ k) else 0 := by
  classical
  rw [mapPoly, map_sum]
  refine Finset.sum_congr rfl fun idx _ => ?_
  rw [map_mul, eval_C, map_prod, ← Finset.mul_prod_erase _ _ (Finset.mem_univ a), eval_inVar, Function.update_self]
  have e : ∏ k ∈ Finset.univ.erase a, eval (Function.update ξ a (c a m)) (inVar k (Lagrange.basis Finset.univ (c k) (idx k)))
      = ∏ k ∈ Finset.univ.erase a, (Lagrange.basis Finset.univ (c k) (idx k)).eval (ξ k) :=
    Finset.prod_congr rfl fun k hk => by rw [eval_inVar, Function.update_of_ne (Finset.ne_of_mem_erase hk)]
  rw [e]
  split_ifs with h
  · subst h
    rw [Lagrange.eval_basis_self (hinj a).injOn (Finset.mem_univ _), one_mul, Function.update_eq_self]
  · rw [Lagrange.eval_basis_of_ne h (Finset.mem_univ _), zero_mul, mul_zero]

/-- Maps of cells with the same nodes on a face agree there. -/
theorem mesh_face_congr (hinj : ∀ k, Function.Injective (c k)) {X Y : ((k : Fin 3) → Fin (order k + 1)) → Fin 3 → ℝ}
    {a : Fin 3} {m m' : Fin (order a + 1)}
    (h : ∀ idx, X (Function.update idx a m) = Y (Function.update idx a m')) (i : Fin 3) (ξ : Fin 3 → ℝ) :
    eval (Function.update ξ a (c a m)) (mapPoly c X i) = eval (Function.update ξ a (c a m')) (mapPoly c Y i) := by
  classical
  rw [eval_map_face hinj, eval_map_face hinj]
  let σ : ((k : Fin 3) → Fin (order k + 1)) → (k : Fin 3) → Fin (order k + 1) := fun idx =>
    Function.update idx a (Equiv.swap m m' (idx a))
  have hσ : Function.Involutive σ := fun idx => by simp [σ]
  refine Fintype.sum_equiv hσ.toPerm _ _ fun idx => ?_
  show _ = if σ idx a = m' then Y (Function.update (σ idx) a m') i
    * ∏ k ∈ Finset.univ.erase a, (Lagrange.basis Finset.univ (c k) (σ idx k)).eval (ξ k) else 0
  have e1 : σ idx a = Equiv.swap m m' (idx a) := by simp [σ]
  have e2 : Function.update (σ idx) a m' = Function.update idx a m' := by simp [σ]
  have e3 : ∏ k ∈ Finset.univ.erase a, (Lagrange.basis Finset.univ (c k) (σ idx k)).eval (ξ k)
      = ∏ k ∈ Finset.univ.erase a, (Lagrange.basis Finset.univ (c k) (idx k)).eval (ξ k) :=
    Finset.prod_congr rfl fun k hk => by
      simp only [σ, Function.update_of_ne (Finset.ne_of_mem_erase hk)]
  rw [e1, e2, e3, h]
  have e4 : Equiv.swap m m' (idx a) = m' ↔ idx a = m := by
    rw [Equiv.swap_apply_eq_iff, Equiv.swap_apply_right]
  simp only [e4]

end cell

section mesh
variable {order : Fin 3 → ℕ} {c : (k : Fin 3) → Fin (order k + 1) → ℝ} {n : Fin 3 → ℕ}
  {X X' : (Fin 3 → ℕ) → ((k : Fin 3) → Fin (order k + 1)) → Fin 3 → ℝ}

private theorem flux_sum (hinj : ∀ k, Function.Injective (c k)) (h : Conforming n X) (h' : Conforming n X')
    (hb : SameBoundary n X X') (a : Fin 3) :
    ∑ e ∈ blockCells n, (faceFlux (mapPoly c (X e)) a (c a (Fin.last _)) - faceFlux (mapPoly c (X' e)) a (c a (Fin.last _)))
      = ∑ e ∈ blockCells n, (faceFlux (mapPoly c (X e)) a (c a 0) - faceFlux (mapPoly c (X' e)) a (c a 0)) := by
  classical
  have mem : ∀ e : Fin 3 → ℕ, e ∈ blockCells n ↔ ∀ k, e k < n k := fun e => by simp [blockCells]
  have up : ∀ e ∈ blockCells n, faceFlux (mapPoly c (X e)) a (c a (Fin.last _)) - faceFlux (mapPoly c (X' e)) a (c a (Fin.last _)) ≠ 0 →
      e a + 1 < n a := fun e he hne => by
    by_contra hlt
    refine hne (sub_eq_zero.2 (faceFlux_congr fun i ξ => mesh_face_congr hinj (fun idx => ?_) i ξ))
    exact (hb e he a _).2 (by have := (mem e).1 he a; omega) (by simp)
  refine Finset.sum_bij_ne_zero (fun e _ _ => Function.update e a (e a + 1)) ?_ ?_ ?_ ?_
  · intro e he hne
    refine (mem _).2 fun k => ?_
    by_cases hk : k = a
    · subst hk; rw [Function.update_self]; exact up e he hne
    · rw [Function.update_of_ne hk]; exact (mem e).1 he k
  · intro e₁ _ _ e₂ _ _ heq
    funext k
    have hk' := congrFun heq k
    by_cases hk : k = a
    · subst hk; rw [Function.update_self, Function.update_self] at hk'; omega
    · rwa [Function.update_of_ne hk, Function.update_of_ne hk] at hk'
  · intro e he hne
    have hpos : e a ≠ 0 := fun h0 => hne (sub_eq_zero.2
      (faceFlux_congr fun i ξ => mesh_face_congr hinj (fun idx => (hb e he a _).1 h0 (by simp)) i ξ))
    have hm : Function.update e a (e a - 1) ∈ blockCells n := (mem _).2 fun k => by
      have := (mem e).1 he k
      by_cases hk : k = a
      · subst hk; rw [Function.update_self]; omega
      · rwa [Function.update_of_ne hk]
    have hu : Function.update (Function.update e a (e a - 1)) a (Function.update e a (e a - 1) a + 1) = e := by
      rw [Function.update_self, Function.update_idem, Nat.sub_add_cancel (Nat.pos_of_ne_zero hpos), Function.update_eq_self]
    have hlt : Function.update e a (e a - 1) a + 1 < n a := by
      have := (mem e).1 he a
      rw [Function.update_self]; omega
    have k1 := h _ hm a hlt
    have k2 := h' _ hm a hlt
    rw [hu] at k1 k2
    refine ⟨_, hm, ?_, hu⟩
    rwa [faceFlux_congr fun i ξ => mesh_face_congr hinj k1 i ξ, faceFlux_congr fun i ξ => mesh_face_congr hinj k2 i ξ]
  · intro e he hne
    have k1 := h _ he a (up e he hne)
    have k2 := h' _ he a (up e he hne)
    rw [faceFlux_congr fun i ξ => mesh_face_congr hinj k1 i ξ, faceFlux_congr fun i ξ => mesh_face_congr hinj k2 i ξ]

/-- The sums of the integrals of the determinants of two meshes. -/
theorem mesh_integral_sum (hinj : ∀ k, Function.Injective (c k)) (hc : ∀ k, c k 0 = -1 ∧ c k (Fin.last _) = 1)
    (h : Conforming n X) (h' : Conforming n X') (hb : SameBoundary n X X') :
    ∑ e ∈ blockCells n, ∫ ξ in cube 3, eval ξ (jacobianPoly (mapPoly c (X e))).det
      = ∑ e ∈ blockCells n, ∫ ξ in cube 3, eval ξ (jacobianPoly (mapPoly c (X' e))).det := by
  simp only [integral_det]
  rw [Finset.sum_comm, Finset.sum_comm (s := blockCells n)]
  refine Finset.sum_congr rfl fun a _ => ?_
  have := flux_sum hinj h h' hb a
  rw [(hc a).1, (hc a).2] at this
  simp only [Finset.sum_sub_distrib] at this ⊢
  linarith

/-- The shape functions. -/
theorem mesh_shape_values {t : LinearTransform ℝ} (h : IsLagrange order c t.shape)
    (idx : (k : Fin 3) → Fin (order k + 1)) (ξ : Fin 3 → ℝ) :
    InterpolatedShape.value (exactArith ℝ) t.shape (tup idx) (List.ofFn ξ)
      = .ok (∏ k, (Lagrange.basis Finset.univ (c k) (idx k)).eval (ξ k)) := by
  obtain ⟨bs, hb, hr, -⟩ := isLagrange_realises h
  rw [hb, (basisValue_eq (exactArith ℝ) (elementOf_instantiate bs) (idx := tup idx)
    (by simp [tup_length, elementOf]) (List.ofFn ξ)).2.1]
  exact product_value h.dims hr idx ξ

/-- The map of a cell. -/
theorem mesh_map_eval (Y : ((k : Fin 3) → Fin (order k + 1)) → Fin 3 → ℝ) (ξ : Fin 3 → ℝ) (i : Fin 3) :
    ∑ idx, (∏ k, (Lagrange.basis Finset.univ (c k) (idx k)).eval (ξ k)) * Y idx i = eval ξ (mapPoly c Y i) := by
  simp only [mapPoly, map_sum, map_mul, map_prod, eval_inVar, eval_C]
  exact Finset.sum_congr rfl fun idx _ => mul_comm _ _

/-- **C159.** In exact arithmetic, for two meshes of a block of cells with Lagrange bases of any orders, whose nodes
include -1 and 1: if in both meshes neighbouring cells have the nodes of the face between them in common, and if the nodes
on the faces of the block are the same in both, then the integrals over the parent cube of the `detJ` that
`inverseJacobian` returns have the same sum over the cells.  The other nodes may be anywhere: the cells may be tangled.
If in both meshes `x(ξ) = Σ_a N_a(ξ) X_a` is one-to-one on the parent cube and `detJ` is nowhere negative there, for every
cell, the sums of the volumes of the cells are the same. -/
theorem C159_mesh (t t' : (Fin 3 → ℕ) → LinearTransform ℝ) (hc : ∀ k, c k 0 = -1 ∧ c k (Fin.last _) = 1)
    (hL : ∀ e ∈ blockCells n, IsLagrange order c (t e).shape) (hL' : ∀ e ∈ blockCells n, IsLagrange order c (t' e).shape)
    (hX : ∀ e ∈ blockCells n, HoldsPoints (t e).data (X e)) (hX' : ∀ e ∈ blockCells n, HoldsPoints (t' e).data (X' e))
    (h : Conforming n X) (h' : Conforming n X') (hb : SameBoundary n X X') (cfg : Config) :
    ∃ (N : ((k : Fin 3) → Fin (order k + 1)) → (Fin 3 → ℝ) → ℝ) (detJ detJ' : (Fin 3 → ℕ) → (Fin 3 → ℝ) → ℝ),
      (∀ e ∈ blockCells n, ∀ idx ξ,
        InterpolatedShape.value (exactArith ℝ) (t e).shape (tup idx) (List.ofFn ξ) = .ok (N idx ξ) ∧
        InterpolatedShape.value (exactArith ℝ) (t' e).shape (tup idx) (List.ofFn ξ) = .ok (N idx ξ)) ∧
      (∀ e ∈ blockCells n, ∀ ξ, ∃ after, LinearTransform.inverseJacobianValue cfg (exactArith ℝ) (t e) (List.ofFn ξ)
        = .ok (detJ e ξ, after)) ∧
      (∀ e ∈ blockCells n, ∀ ξ, ∃ after, LinearTransform.inverseJacobianValue cfg (exactArith ℝ) (t' e) (List.ofFn ξ)
        = .ok (detJ' e ξ, after)) ∧
      ∑ e ∈ blockCells n, ∫ ξ in cube 3, detJ e ξ = ∑ e ∈ blockCells n, ∫ ξ in cube 3, detJ' e ξ ∧
      ((∀ e ∈ blockCells n, Set.InjOn (fun ξ i => ∑ idx, N idx ξ * X e idx i) (cube 3) ∧ ∀ ξ ∈ cube 3, 0 ≤ detJ e ξ) →
        (∀ e ∈ blockCells n, Set.InjOn (fun ξ i => ∑ idx, N idx ξ * X' e idx i) (cube 3) ∧ ∀ ξ ∈ cube 3, 0 ≤ detJ' e ξ) →
        ∑ e ∈ blockCells n, (volume ((fun (ξ : Fin 3 → ℝ) i => ∑ idx, N idx ξ * X e idx i) '' cube 3)).toReal
          = ∑ e ∈ blockCells n, (volume ((fun (ξ : Fin 3 → ℝ) i => ∑ idx, N idx ξ * X' e idx i) '' cube 3)).toReal) := by
  have key : ∑ e ∈ blockCells n, ∫ ξ in cube 3, eval ξ (jacobianPoly (mapPoly c (X e))).det
      = ∑ e ∈ blockCells n, ∫ ξ in cube 3, eval ξ (jacobianPoly (mapPoly c (X' e))).det := by
    rcases (blockCells n).eq_empty_or_nonempty with h0 | ⟨e, he⟩
    · rw [h0, Finset.sum_empty, Finset.sum_empty]
    · obtain ⟨-, -, -, hinj⟩ := isLagrange_realises (hL e he)
      exact mesh_integral_sum hinj hc h h' hb
  refine ⟨fun idx ξ => ∏ k, (Lagrange.basis Finset.univ (c k) (idx k)).eval (ξ k),
    fun e ξ => eval ξ (jacobianPoly (mapPoly c (X e))).det, fun e ξ => eval ξ (jacobianPoly (mapPoly c (X' e))).det,
    fun e he idx ξ => ⟨mesh_shape_values (hL e he) idx ξ, mesh_shape_values (hL' e he) idx ξ⟩,
    fun e he ξ => detJ_polynomial (hL e he) (hX e he) cfg ξ, fun e he ξ => detJ_polynomial (hL' e he) (hX' e he) cfg ξ, key,
    fun hp hp' => ?_⟩
  simp only [mesh_map_eval] at hp hp' ⊢
  rw [← Finset.sum_congr rfl fun e he => volume_image _ (hp e he).1 (hp e he).2,
    ← Finset.sum_congr rfl fun e he => volume_image _ (hp' e he).1 (hp' e he).2, key]

end mesh

/-! ### hexahedra -/

section hexahedra
variable {c : (k : Fin 3) → Fin 2 → ℝ} {n : Fin 3 → ℕ}

theorem conforming_nodes {α : Type} (P : (Fin 3 → ℕ) → α) :
    Conforming (order := fun _ => 1) n fun e (idx : Fin 3 → Fin 2) => P fun k => e k + (idx k : ℕ) := by
  intro e _ a _ idx
  refine congrArg P (funext fun k => ?_)
  by_cases hk : k = a
  · subst hk; simp
  · simp [Function.update_of_ne hk]

theorem same_nodes {α : Type} {P P' : (Fin 3 → ℕ) → α} (hP : ∀ g k, g k = 0 ∨ g k = n k → P g = P' g) :
    SameBoundary (order := fun _ => 1) n (fun e (idx : Fin 3 → Fin 2) => P fun k => e k + (idx k : ℕ))
      fun e (idx : Fin 3 → Fin 2) => P' fun k => e k + (idx k : ℕ) := by
  intro e _ k idx
  refine ⟨fun h1 h2 => hP _ k (Or.inl ?_), fun h1 h2 => hP _ k (Or.inr ?_)⟩
  · rw [h1, h2]; rfl
  · rw [h2, ← h1]; rfl

private theorem coeffSum_det_rows (x : Fin 3 → MvPolynomial (Fin 3) ℝ) (h : ∀ i k, (x i).degreeOf k ≤ 1) {B : Fin 3 → ℝ}
    (hB : ∀ i, coeffSum (x i) ≤ B i) : coeffSum (jacobianPoly x).det ≤ 6 * ∏ i, B i := by
  classical
  rw [Matrix.det_apply]
  refine (coeffSum_sum_le _ _).trans ?_
  have h1 : ∀ σ ∈ (Finset.univ : Finset (Equiv.Perm (Fin 3))),
      coeffSum (Equiv.Perm.sign σ • ∏ i, jacobianPoly x (σ i) i) ≤ ∏ i, B i := by
    intro σ _
    have h2 : coeffSum (∏ i, jacobianPoly x (σ i) i) ≤ ∏ i, B i := by
      rw [← Equiv.prod_comp σ B]
      refine (coeffSum_prod_le _ _).trans (Finset.prod_le_prod (fun _ _ => coeffSum_nonneg _) fun i _ => ?_)
      have := coeffSum_pderiv_le i _ (h (σ i) i)
      rw [Nat.cast_one, one_mul] at this
      exact this.trans (hB _)
    rcases Int.units_eq_one_or (Equiv.Perm.sign σ) with hs | hs <;> rw [hs]
    · simpa using h2
    · rw [Units.neg_smul, one_smul, coeffSum_neg]; exact h2
  refine (Finset.sum_le_sum h1).trans ?_
  rw [Finset.sum_const, Finset.card_univ, Fintype.card_perm, Fintype.card_fin, nsmul_eq_mul]
  norm_num [Nat.factorial]

/-- The weighted sum of the determinants of a hexahedron, with a bound for each component. -/
theorem mesh_cell_sum {F : Fin 3 → RuleFamily} {M : Fin 3 → ℕ} {p w : (k : Fin 3) → Fin (M k) → ℝ}
    {t : LinearTransform ℝ} {X : (Fin 3 → Fin 2) → Fin 3 → ℝ}
    (h : IsLagrange (fun _ : Fin 3 => 1) c t.shape) (hc : ∀ k, c k 0 = -1 ∧ c k 1 = 1)
    (hg : IsGrid F M p w) (hdeg : ∀ k, ¬ (F k = .gaussLobatto ∧ M k = 2)) {ε : ℝ} (htol : ∀ k, (F k).tolerance (M k) ≤ ε)
    {B : Fin 3 → ℝ} (hB : ∀ idx i, |X idx i| ≤ B i) :
    |∑ q : (k : Fin 3) → Fin (M k), (∏ k, w k (q k)) * eval (fun k => p k (q k)) (jacobianPoly (mapPoly (order := fun _ => 1) c X)).det
        - ∫ ξ in cube 3, eval ξ (jacobianPoly (mapPoly (order := fun _ => 1) c X)).det|
      ≤ ((2 + ε) ^ 3 - 2 ^ 3) * (3072 * ∏ i, B i) := by
  have hε : 0 ≤ ε := by
    refine le_trans ?_ (htol 0)
    cases F 0 <;> simp only [RuleFamily.tolerance]
    · positivity
    · split <;> positivity
  obtain ⟨q, w', hq, hw, hP⟩ := C65_tensor_rule F M hg.supported ε hε htol
  obtain rfl : q = p := funext fun k => funext fun i => Res.ok.inj ((hq k i).symm.trans (hg.points k i))
  obtain rfl : w' = w := funext fun k => funext fun i => Res.ok.inj ((hw k i).symm.trans (hg.weights k i))
  obtain ⟨-, -, -, hinj⟩ := isLagrange_realises h
  refine (hP _ fun k => (degreeOf_det_le _ (fun _ => 1) (degreeOf_mapPoly hinj) k).trans ?_).trans
    (mul_le_mul_of_nonneg_left ?_ ?_)
  · have a1 := hg.supported k
    have a2 := hdeg k
    generalize F k = G at a1 a2 ⊢
    cases G <;> simp only [RuleFamily.Supports, RuleFamily.degree, true_and] at a1 a2 ⊢ <;> omega
  · refine (coeffSum_det_rows _ (degreeOf_mapPoly hinj) (B := fun i => 8 * B i) fun i =>
      coeffSum_mapPoly hc i fun idx => hB idx i).trans (le_of_eq ?_)
    rw [Finset.prod_mul_distrib, Finset.prod_const, Finset.card_univ, Fintype.card_fin]
    ring
  · have : (2 : ℝ) ^ 3 ≤ (2 + ε) ^ 3 := pow_le_pow_left₀ (by norm_num) (by linarith) 3
    linarith

/-- **C159, hexahedra.** For a block of `n 0 × n 1 × n 2` hexahedra, with nodes at `P g` or at `P' g` for
`0 ≤ g k ≤ n k`: if `P` and `P'` agree on the faces of the block, and no coordinate exceeds `B` in absolute value, the sums
over all cells and quadrature points of the product of the weights times `detJ` differ by at most
`2 * (n 0 * n 1 * n 2) * ((2 + ε)^3 - 8) * 3072 * B^3`, for rules other than the two-point Gauss-Lobatto rule. -/
theorem C159_hexahedra (P P' : (Fin 3 → ℕ) → Fin 3 → ℝ) (hP : ∀ g k, g k = 0 ∨ g k = n k → P g = P' g)
    (t t' : (Fin 3 → ℕ) → LinearTransform ℝ) (hc : ∀ k, c k 0 = -1 ∧ c k 1 = 1)
    (hL : ∀ e ∈ blockCells n, IsLagrange (fun _ : Fin 3 => 1) c (t e).shape)
    (hL' : ∀ e ∈ blockCells n, IsLagrange (fun _ : Fin 3 => 1) c (t' e).shape)
    (hX : ∀ e ∈ blockCells n, HoldsPoints (t e).data fun (idx : Fin 3 → Fin 2) => P fun k => e k + (idx k : ℕ))
    (hX' : ∀ e ∈ blockCells n, HoldsPoints (t' e).data fun (idx : Fin 3 → Fin 2) => P' fun k => e k + (idx k : ℕ))
    (B : ℝ) (hB : ∀ g i, |P g i| ≤ B) (hB' : ∀ g i, |P' g i| ≤ B)
    {F : Fin 3 → RuleFamily} {M : Fin 3 → ℕ} {p w : (k : Fin 3) → Fin (M k) → ℝ} (hg : IsGrid F M p w)
    (hdeg : ∀ k, ¬ (F k = .gaussLobatto ∧ M k = 2)) (ε : ℝ) (htol : ∀ k, (F k).tolerance (M k) ≤ ε) (cfg : Config) :
    ∃ detJ detJ' : (Fin 3 → ℕ) → (Fin 3 → ℝ) → ℝ,
      (∀ e ∈ blockCells n, ∀ ξ, ∃ after, LinearTransform.inverseJacobianValue cfg (exactArith ℝ) (t e) (List.ofFn ξ)
        = .ok (detJ e ξ, after)) ∧
      (∀ e ∈ blockCells n, ∀ ξ, ∃ after, LinearTransform.inverseJacobianValue cfg (exactArith ℝ) (t' e) (List.ofFn ξ)
        = .ok (detJ' e ξ, after)) ∧
      |∑ e ∈ blockCells n, ∑ q : (k : Fin 3) → Fin (M k), (∏ k, w k (q k)) * detJ e (fun k => p k (q k))
          - ∑ e ∈ blockCells n, ∑ q : (k : Fin 3) → Fin (M k), (∏ k, w k (q k)) * detJ' e (fun k => p k (q k))|
        ≤ 2 * (n 0 * n 1 * n 2) * (((2 + ε) ^ 3 - 2 ^ 3) * (3072 * B ^ 3)) := by
  refine ⟨_, _, fun e he ξ => detJ_polynomial (hL e he) (hX e he) cfg ξ, fun e he ξ => detJ_polynomial (hL' e he) (hX' e he) cfg ξ, ?_⟩
  set δ := ((2 + ε) ^ 3 - 2 ^ 3) * (3072 * B ^ 3) with hδ
  have hcard : ((blockCells n).card : ℝ) = n 0 * n 1 * n 2 := by
    simp [blockCells, Fintype.card_piFinset, Fin.prod_univ_three]
  rcases (blockCells n).eq_empty_or_nonempty with h0 | ⟨e₀, he₀⟩
  · rw [← hcard, h0]; simp
  obtain ⟨-, -, -, hinj⟩ := isLagrange_realises (hL e₀ he₀)
  have key := mesh_integral_sum (order := fun _ => 1) (c := c) hinj hc (conforming_nodes (n := n) P) (conforming_nodes P')
    (same_nodes hP)
  have s1 := (Finset.abs_sum_le_sum_abs _ _).trans (Finset.sum_le_sum fun e he =>
    mesh_cell_sum (B := fun _ => B) (X := fun (idx : Fin 3 → Fin 2) => P fun k => e k + (idx k : ℕ)) (hL e he) hc hg hdeg htol fun idx i => hB _ i)
  have s2 := (Finset.abs_sum_le_sum_abs _ _).trans (Finset.sum_le_sum fun e he =>
    mesh_cell_sum (B := fun _ => B) (X := fun (idx : Fin 3 → Fin 2) => P' fun k => e k + (idx k : ℕ)) (hL' e he) hc hg hdeg htol fun idx i => hB' _ i)
  rw [Finset.sum_sub_distrib, Finset.sum_const, nsmul_eq_mul, hcard, Finset.prod_const, Finset.card_univ,
    Fintype.card_fin] at s1 s2
  rw [key] at s1
  rw [abs_le] at s1 s2 ⊢
  constructor <;> linarith [s1.1, s1.2, s2.1, s2.2]

/-- Non-vacuity of C159: eight cells around a node, which is at different places in the two meshes. -/
example : ∃ (P P' : (Fin 3 → ℕ) → Fin 3 → ℝ) (t t' : (Fin 3 → ℕ) → LinearTransform ℝ) (p w : (k : Fin 3) → Fin 2 → ℝ),
    P (fun _ => 1) ≠ P' (fun _ => 1) ∧
    (∀ g k, g k = 0 ∨ g k = 2 → P g = P' g) ∧ (∀ g i, |P g i| ≤ 2) ∧ (∀ g i, |P' g i| ≤ 2) ∧
    (∀ e, IsLagrange (fun _ : Fin 3 => 1) (fun _ => ![-1, 1]) (t e).shape) ∧
    (∀ e, IsLagrange (fun _ : Fin 3 => 1) (fun _ => ![-1, 1]) (t' e).shape) ∧
    (∀ e, HoldsPoints (t e).data fun (idx : Fin 3 → Fin 2) => P fun k => e k + (idx k : ℕ)) ∧
    (∀ e, HoldsPoints (t' e).data fun (idx : Fin 3 → Fin 2) => P' fun k => e k + (idx k : ℕ)) ∧
    IsGrid (fun _ : Fin 3 => .gaussLegendre) (fun _ => 2) p w ∧
    Conforming (order := fun _ => 1) (fun _ => 2) (fun e (idx : Fin 3 → Fin 2) => P fun k => e k + (idx k : ℕ)) ∧
    Conforming (order := fun _ => 1) (fun _ => 2) (fun e (idx : Fin 3 → Fin 2) => P' fun k => e k + (idx k : ℕ)) ∧
    SameBoundary (order := fun _ => 1) (fun _ => 2) (fun e (idx : Fin 3 → Fin 2) => P fun k => e k + (idx k : ℕ))
      (fun e (idx : Fin 3 → Fin 2) => P' fun k => e k + (idx k : ℕ)) ∧
    (blockCells fun _ => 2).card = 8 := by
  obtain ⟨e₀, he, hcell⟩ := trilinear_cell
  obtain ⟨p, w, hg⟩ := C94_grids (fun _ : Fin 3 => RuleFamily.gaussLegendre) (fun _ => 2)
    fun _ => ⟨by norm_num, by norm_num⟩
  let P : (Fin 3 → ℕ) → Fin 3 → ℝ := fun g i => ((min (g i) 2 : ℕ) : ℝ)
  let P' : (Fin 3 → ℕ) → Fin 3 → ℝ := fun g i => if ∀ k, g k = 1 then 3 / 2 else P g i
  choose t ht using fun e : Fin 3 → ℕ => hcell fun (idx : Fin 3 → Fin 2) => P fun k => e k + (idx k : ℕ)
  choose t' ht' using fun e : Fin 3 → ℕ => hcell fun (idx : Fin 3 → Fin 2) => P' fun k => e k + (idx k : ℕ)
  have hP : ∀ g k, g k = 0 ∨ g k = (fun _ : Fin 3 => 2) k → P g = P' g := fun g k hk => by
    funext i
    have : ¬ ∀ k, g k = 1 := fun h => by rw [h k] at hk; simp at hk
    simp only [P', if_neg this]
  have hB : ∀ g i, |P g i| ≤ 2 := fun g i => by
    rw [abs_of_nonneg (Nat.cast_nonneg _)]
    show ((min (g i) 2 : ℕ) : ℝ) ≤ ((2 : ℕ) : ℝ)
    exact Nat.cast_le.2 (Nat.min_le_right _ _)
  refine ⟨P, P', t, t', p, w, fun h => ?_, hP, hB, fun g i => ?_, fun e => (ht e).1 ▸ he, fun e => (ht' e).1 ▸ he,
    fun e => (ht e).2, fun e => (ht' e).2, hg, conforming_nodes P, conforming_nodes P', same_nodes hP, ?_⟩
  · have := congrFun h 0
    norm_num [P, P'] at this
  · simp only [P']
    split_ifs
    · norm_num [abs_of_pos]
    · exact hB g i
  · simp [blockCells, Fintype.card_piFinset]

end hexahedra

end Verif.Props
