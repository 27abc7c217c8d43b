import Verif.Lemmas.QuadratureError
import Verif.Spec.BoxMesh
import Verif.Props.BlockMesh
import Verif.Props.PhysicalGradient

/-!
# Property C162: the cells of a mesh of a box measure the box, wherever the inner nodes are
-/

namespace Verif.Props

open Verif.Spec Verif.Lemmas MeasureTheory MvPolynomial

section mesh
variable {order : Fin 3 → ℕ} {c : (k : Fin 3) → Fin (order k + 1) → ℝ} {n : Fin 3 → ℕ}

private theorem box_conforming (hc : ∀ k, c k 0 = -1 ∧ c k (Fin.last _) = 1) (a : Fin 3 → ℕ → ℝ) :
    Conforming n (boxNode c a) := by
  intro e _ k _ idx
  funext i
  by_cases hi : i = k
  · subst hi
    simp only [boxNode, Function.update_self, (hc i).1, (hc i).2]
    ring
  · simp only [boxNode, Function.update_of_ne hi]

private theorem box_map (hc : ∀ k, c k 0 = -1 ∧ c k (Fin.last _) = 1) {E : Element ℝ} (h : IsLagrange order c E)
    (a : Fin 3 → ℕ → ℝ) (e : Fin 3 → ℕ) : mapPoly c (boxNode c a e)
      = fun i => C (a i (e i) + (a i (e i + 1) - a i (e i)) / 2) + C ((a i (e i + 1) - a i (e i)) / 2) * X i := by
  have ho : ∀ k, 1 ≤ order k := fun k => by
    rcases Nat.eq_zero_or_pos (order k) with h0 | h0
    · exfalso
      have : Fin.last (order k) = 0 := Fin.ext (by simp [h0])
      have h1 := (hc k).2
      rw [this, (hc k).1] at h1
      norm_num at h1
    · exact h0
  funext i
  refine MvPolynomial.funext fun ξ => ?_
  obtain ⟨var, hvar⟩ := exists_nodal (order := order) fun idx => boxNode c a e idx i
  have e1 := value_mapPoly (X := boxNode c a e) h i var hvar ξ
  have e2 := (C43_polynomial_reproduction h
    (C (a i (e i) + (a i (e i + 1) - a i (e i)) / 2) + C ((a i (e i + 1) - a i (e i)) / 2) * X i) (fun k => by
      refine (degreeOf_add_le _ _ _).trans (max_le ?_ ?_)
      · rw [degreeOf_C]; exact Nat.zero_le _
      · refine (degreeOf_C_mul_le _ _ _).trans ?_
        rw [degreeOf_X]
        split
        · exact ho k
        · exact Nat.zero_le _) var (fun idx => by
      rw [hvar]
      simp only [boxNode, map_add, map_mul, eval_C, eval_X]
      congr 1
      ring) ξ).1
  exact Res.ok.inj (e1.symm.trans e2)

private theorem box_integral (hc : ∀ k, c k 0 = -1 ∧ c k (Fin.last _) = 1) {E : Element ℝ} (h : IsLagrange order c E)
    (a : Fin 3 → ℕ → ℝ) (e : Fin 3 → ℕ) : ∫ ξ in cube 3, eval ξ (jacobianPoly (mapPoly c (boxNode c a e))).det
      = ∏ i, (a i (e i + 1) - a i (e i)) := by
  have e1 : ∀ ξ : Fin 3 → ℝ, eval ξ (jacobianPoly (mapPoly c (boxNode c a e))).det
      = (∏ i, (a i (e i + 1) - a i (e i))) / 8 := fun ξ => by
    rw [box_map hc h, eval_det, Matrix.det_fin_three, Fin.prod_univ_three]
    simp [pderiv_X]
    ring
  simp only [e1]
  rw [setIntegral_const, cube_volume, smul_eq_mul]
  norm_num
  ring

private theorem box_sum (a : Fin 3 → ℕ → ℝ) :
    ∑ e ∈ blockCells n, ∏ i, (a i (e i + 1) - a i (e i)) = ∏ i, (a i (n i) - a i 0) := by
  rw [blockCells, ← Finset.prod_univ_sum (fun k => Finset.range (n k)) fun i j => a i (j + 1) - a i j]
  exact Finset.prod_congr rfl fun i _ => Finset.sum_range_sub (a i) (n i)

variable {X : (Fin 3 → ℕ) → ((k : Fin 3) → Fin (order k + 1)) → Fin 3 → ℝ}

private theorem box_total (hc : ∀ k, c k 0 = -1 ∧ c k (Fin.last _) = 1) {t : (Fin 3 → ℕ) → LinearTransform ℝ}
    (hL : ∀ e ∈ blockCells n, IsLagrange order c (t e).shape) (h : Conforming n X) {a : Fin 3 → ℕ → ℝ}
    (hb : SameBoundary n X (boxNode c a)) :
    ∑ e ∈ blockCells n, ∫ ξ in cube 3, eval ξ (jacobianPoly (mapPoly c (X e))).det = ∏ i, (a i (n i) - a i 0) := by
  rcases (blockCells n).eq_empty_or_nonempty with h0 | ⟨e, he⟩
  · rw [← box_sum, h0, Finset.sum_empty, Finset.sum_empty]
  · obtain ⟨-, -, -, hinj⟩ := isLagrange_realises (hL e he)
    rw [mesh_integral_sum hinj hc h (box_conforming hc a) hb, ← box_sum]
    exact Finset.sum_congr rfl fun e he => box_integral hc (hL e he) a e

/-- **C162.** In exact arithmetic, for a block of `n 0 * n 1 * n 2` cells of any orders, whose nodes include -1 and 1 in each
direction: if neighbouring cells have the nodes on the face between them in common, and the nodes on the faces of the block
are those of a mesh of boxes, the integrals over the parent cube of the `detJ` that `inverseJacobian` returns sum up to the
product of the edges of the box that the block fills, wherever the inner nodes are.  If `x(ξ) = Σ_a N_a(ξ) X_a` is one-to-one
on the parent cube and `detJ` is nowhere negative there, for every cell, so do the volumes of the cells. -/
theorem C162_box (t : (Fin 3 → ℕ) → LinearTransform ℝ) (hc : ∀ k, c k 0 = -1 ∧ c k (Fin.last _) = 1)
    (hL : ∀ e ∈ blockCells n, IsLagrange order c (t e).shape) (hX : ∀ e ∈ blockCells n, HoldsPoints (t e).data (X e))
    (h : Conforming n X) (a : Fin 3 → ℕ → ℝ) (hb : SameBoundary n X (boxNode c a)) (cfg : Config) :
    ∃ (N : ((k : Fin 3) → Fin (order k + 1)) → (Fin 3 → ℝ) → ℝ) (detJ : (Fin 3 → ℕ) → (Fin 3 → ℝ) → ℝ),
      (∀ e ∈ blockCells n, ∀ idx ξ,
        InterpolatedShape.value (exactArith ℝ) (t e).shape (tup idx) (List.ofFn ξ) = .ok (N idx ξ)) ∧
      (∀ e ∈ blockCells n, ∀ ξ, ∃ after, LinearTransform.inverseJacobianValue cfg (exactArith ℝ) (t e) (List.ofFn ξ)
        = .ok (detJ e ξ, after)) ∧
      ∑ e ∈ blockCells n, ∫ ξ in cube 3, detJ e ξ = ∏ i, (a i (n i) - a i 0) ∧
      ((∀ e ∈ blockCells n, Set.InjOn (fun ξ i => ∑ idx, N idx ξ * X e idx i) (cube 3) ∧ ∀ ξ ∈ cube 3, 0 ≤ detJ e ξ) →
        ∑ e ∈ blockCells n, (volume ((fun (ξ : Fin 3 → ℝ) i => ∑ idx, N idx ξ * X e idx i) '' cube 3)).toReal
          = ∏ i, (a i (n i) - a i 0)) := by
  refine ⟨fun idx ξ => ∏ k, (Lagrange.basis Finset.univ (c k) (idx k)).eval (ξ k),
    fun e ξ => eval ξ (jacobianPoly (mapPoly c (X e))).det, fun e he idx ξ => mesh_shape_values (hL e he) idx ξ,
    fun e he ξ => detJ_polynomial (hL e he) (hX e he) cfg ξ, box_total hc hL h hb, fun hp => ?_⟩
  simp only [mesh_map_eval] at hp ⊢
  rw [← Finset.sum_congr rfl fun e he => volume_image _ (hp e he).1 (hp e he).2]
  exact box_total hc hL h hb

end mesh

section hexahedra
variable {c : (k : Fin 3) → Fin 2 → ℝ} {n : Fin 3 → ℕ}

private theorem box_corner (hc : ∀ k, c k 0 = -1 ∧ c k 1 = 1) (a : Fin 3 → ℕ → ℝ) (e : Fin 3 → ℕ) (idx : Fin 3 → Fin 2) :
    boxNode (order := fun _ => 1) c a e idx = fun i => a i (e i + (idx i : ℕ)) := by
  funext i
  simp only [boxNode]
  rcases (show ∀ j : Fin 2, j = 0 ∨ j = 1 by decide) (idx i) with hj | hj <;> rw [hj]
  · rw [(hc i).1]; simp
  · rw [(hc i).2]; simp

/-- **C162, hexahedra.** Vertices numbered through the block: if those on the faces of the block have coordinates
`a i (g i)`, and all have coordinates of absolute value at most `B`, then for rules other than the two-point Gauss-Lobatto
rule the sum over all cells and quadrature points of weights times `detJ` differs from the product of the edges of the box by
at most `(number of cells) * ((2 + ε)^3 - 8) * 3072 * B^3`. -/
theorem C162_hexahedra (P : (Fin 3 → ℕ) → Fin 3 → ℝ) (a : Fin 3 → ℕ → ℝ)
    (hP : ∀ g k, g k = 0 ∨ g k = n k → ∀ i, P g i = a i (g i))
    (t : (Fin 3 → ℕ) → LinearTransform ℝ) (hc : ∀ k, c k 0 = -1 ∧ c k 1 = 1)
    (hL : ∀ e ∈ blockCells n, IsLagrange (fun _ : Fin 3 => 1) c (t e).shape)
    (hX : ∀ e ∈ blockCells n, HoldsPoints (t e).data fun (idx : Fin 3 → Fin 2) => P fun k => e k + (idx k : ℕ))
    (B : ℝ) (hB : ∀ g i, |P g i| ≤ B)
    {F : Fin 3 → RuleFamily} {M : Fin 3 → ℕ} {p w : (k : Fin 3) → Fin (M k) → ℝ} (hg : IsGrid F M p w)
    (hdeg : ∀ k, ¬ (F k = .gaussLobatto ∧ M k = 2)) (ε : ℝ) (htol : ∀ k, (F k).tolerance (M k) ≤ ε) (cfg : Config) :
    ∃ detJ : (Fin 3 → ℕ) → (Fin 3 → ℝ) → ℝ,
      (∀ e ∈ blockCells n, ∀ ξ, ∃ after, LinearTransform.inverseJacobianValue cfg (exactArith ℝ) (t e) (List.ofFn ξ)
        = .ok (detJ e ξ, after)) ∧
      |∑ e ∈ blockCells n, ∑ q : (k : Fin 3) → Fin (M k), (∏ k, w k (q k)) * detJ e (fun k => p k (q k))
          - ∏ i, (a i (n i) - a i 0)| ≤ n 0 * n 1 * n 2 * (((2 + ε) ^ 3 - 2 ^ 3) * (3072 * B ^ 3)) := by
  refine ⟨_, fun e he ξ => detJ_polynomial (hL e he) (hX e he) cfg ξ, ?_⟩
  have hcard : ((blockCells n).card : ℝ) = n 0 * n 1 * n 2 := by
    simp [blockCells, Fintype.card_piFinset, Fin.prod_univ_three]
  have hb : SameBoundary (order := fun _ => 1) n (fun e (idx : Fin 3 → Fin 2) => P fun k => e k + (idx k : ℕ))
      (boxNode (order := fun _ => 1) c a) := by
    have : boxNode (order := fun _ => 1) c a
        = fun e (idx : Fin 3 → Fin 2) => (fun (g : Fin 3 → ℕ) i => a i (g i)) fun k => e k + (idx k : ℕ) :=
      funext fun e => funext fun idx => box_corner hc a e idx
    rw [this]
    exact same_nodes (P' := fun (g : Fin 3 → ℕ) i => a i (g i)) fun g k hk => funext fun i => hP g k hk i
  have key := box_total (order := fun _ => 1) hc hL (conforming_nodes (n := n) P) hb
  have s1 := (Finset.abs_sum_le_sum_abs _ _).trans (Finset.sum_le_sum fun e he =>
    mesh_cell_sum (B := fun _ => B) (hL e he) hc hg hdeg htol fun idx i => hB (fun k => e k + (idx k : ℕ)) i)
  rw [Finset.sum_sub_distrib, Finset.sum_const, nsmul_eq_mul, hcard, Finset.prod_const, Finset.card_univ,
    Fintype.card_fin, key] at s1
  exact s1

/-- Non-vacuity of C162: eight hexahedra that fill the cube of edge 2, with a node in the middle that is not in the middle. -/
example : ∃ (P : (Fin 3 → ℕ) → Fin 3 → ℝ) (t : (Fin 3 → ℕ) → LinearTransform ℝ) (p w : (k : Fin 3) → Fin 2 → ℝ),
    P (fun _ => 1) 0 ≠ 1 ∧ (∀ g k, g k = 0 ∨ g k = 2 → ∀ i, P g i = ((min (g i) 2 : ℕ) : ℝ)) ∧ (∀ g i, |P g i| ≤ 2) ∧
    (∀ e, IsLagrange (fun _ : Fin 3 => 1) (fun _ => ![-1, 1]) (t e).shape) ∧
    (∀ e, HoldsPoints (t e).data fun (idx : Fin 3 → Fin 2) => P fun k => e k + (idx k : ℕ)) ∧
    IsGrid (fun _ : Fin 3 => .gaussLegendre) (fun _ => 2) p w ∧
    Conforming (order := fun _ => 1) (fun _ => 2) (fun e (idx : Fin 3 → Fin 2) => P fun k => e k + (idx k : ℕ)) ∧
    ∏ _i : Fin 3, (((min 2 2 : ℕ) : ℝ) - ((min 0 2 : ℕ) : ℝ)) = 8 := by
  obtain ⟨e₀, he, hcell⟩ := trilinear_cell
  obtain ⟨p, w, hg⟩ := C94_grids (fun _ : Fin 3 => RuleFamily.gaussLegendre) (fun _ => 2)
    fun _ => ⟨by norm_num, by norm_num⟩
  let P : (Fin 3 → ℕ) → Fin 3 → ℝ := fun g i => if ∀ k, g k = 1 then 3 / 2 else ((min (g i) 2 : ℕ) : ℝ)
  choose t ht using fun e : Fin 3 → ℕ => hcell fun (idx : Fin 3 → Fin 2) => P fun k => e k + (idx k : ℕ)
  refine ⟨P, t, p, w, by norm_num [P], fun g k hk i => ?_, fun g i => ?_, fun e => (ht e).1 ▸ he, fun e => (ht e).2, hg,
    conforming_nodes P, by norm_num⟩
  · have : ¬ ∀ k, g k = 1 := fun h => by rw [h k] at hk; simp at hk
    simp only [P, if_neg this]
  · simp only [P]
    split_ifs
    · norm_num [abs_of_pos]
    · rw [abs_of_nonneg (Nat.cast_nonneg _)]
      exact_mod_cast Nat.min_le_right _ _

end hexahedra

end Verif.Props
