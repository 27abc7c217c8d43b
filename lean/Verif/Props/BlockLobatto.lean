import Verif.Props.MeshGradient
import Verif.Props.VertexDet

/-!
# Properties C159 and C160: the two-point Gauss-Lobatto rule
-/

namespace Verif.Props

open Verif.Spec Verif.Lemmas MvPolynomial

/-- Nodes of eight cubes of edge 4, but two nodes are moved along edges of the block, and the node in the middle is moved by
`z` in the first direction. -/
private def slidNode (z : ℤ) (g : Fin 3 → ℕ) (i : Fin 3) : ℤ :=
  4 * (g i : ℤ) + (if g 0 = 0 ∧ g 1 = 0 ∧ g 2 = 1 then ![0, 0, 1] i else if g 0 = 0 ∧ g 1 = 1 ∧ g 2 = 0 then ![0, 1, 0] i
    else if g 0 = 1 ∧ g 1 = 1 ∧ g 2 = 1 then ![z, 0, 0] i else 0)

private theorem slid_boundary {g : Fin 3 → ℕ} {k : Fin 3} (hk : g k = 0 ∨ g k = 2) (i : Fin 3) :
    slidNode 0 g i = slidNode 1 g i := by
  have : ¬ (g 0 = 1 ∧ g 1 = 1 ∧ g 2 = 1) := fun ⟨h0, h1, h2⟩ => by
    rcases (show ∀ j : Fin 3, j = 0 ∨ j = 1 ∨ j = 2 by decide) k with rfl | rfl | rfl <;> omega
  simp only [slidNode, if_neg this]

private theorem slid_sum :
    ∑ e ∈ blockCells fun _ => 2, ∑ q : Fin 3 → Fin 2, edgeDet (fun idx => slidNode 0 fun k => e k + (idx k : ℕ)) q
      - ∑ e ∈ blockCells fun _ => 2, ∑ q : Fin 3 → Fin 2, edgeDet (fun idx => slidNode 1 fun k => e k + (idx k : ℕ)) q = 1 := by
  decide +kernel

private theorem slid_det {p w : (k : Fin 3) → Fin 2 → ℝ} (hgrid : IsGrid (fun _ : Fin 3 => .gaussLobatto) (fun _ => 2) p w)
    (z : ℤ) : ∑ e ∈ blockCells fun _ => 2, ∑ q : Fin 3 → Fin 2, (∏ k, w k (q k)) * eval (fun k => p k (q k))
        (jacobianPoly (mapPoly (order := fun _ : Fin 3 => 1) (fun _ => ![-1, 1])
          fun idx i => ((slidNode z (fun k => e k + (idx k : ℕ)) i : ℤ) : ℝ))).det
      = ((∑ e ∈ blockCells fun _ => 2, ∑ q : Fin 3 → Fin 2,
        edgeDet (fun idx => slidNode z fun k => e k + (idx k : ℕ)) q : ℤ) : ℝ) / 8 := by
  obtain ⟨hp, hw⟩ := lobatto_two hgrid
  rw [Int.cast_sum, Finset.sum_div]
  refine Finset.sum_congr rfl fun e _ => ?_
  rw [Int.cast_sum, Finset.sum_div]
  refine Finset.sum_congr rfl fun q _ => ?_
  rw [show (fun k => p k (q k)) = fun k => if q k = 0 then (-1 : ℝ) else 1 from funext fun k => hp k (q k),
    vertex_det (fun idx => slidNode z fun k => e k + (idx k : ℕ)) q, Finset.prod_congr rfl fun k _ => hw k (q k),
    Finset.prod_const_one, one_mul]

/-- **C159, the exception is needed.** With the two-point Gauss-Lobatto rule the sums do depend on inner nodes: there are
two meshes of a block of `2 * 2 * 2` hexahedra with the same nodes on the faces of the block, whose sums over all cells and
quadrature points of weights times `detJ` differ by an eighth, with whichever elements with nodes -1 and 1 and in
whichever build. -/
theorem C159_lobatto : ∃ P P' : (Fin 3 → ℕ) → Fin 3 → ℝ, (∀ g k, g k = 0 ∨ g k = 2 → P g = P' g) ∧
    ∀ t t' : (Fin 3 → ℕ) → LinearTransform ℝ,
      (∀ e ∈ blockCells fun _ => 2, IsLagrange (fun _ : Fin 3 => 1) (fun _ => ![-1, 1]) (t e).shape) →
      (∀ e ∈ blockCells fun _ => 2, IsLagrange (fun _ : Fin 3 => 1) (fun _ => ![-1, 1]) (t' e).shape) →
      (∀ e ∈ blockCells fun _ => 2, HoldsPoints (t e).data fun (idx : Fin 3 → Fin 2) => P fun k => e k + (idx k : ℕ)) →
      (∀ e ∈ blockCells fun _ => 2, HoldsPoints (t' e).data fun (idx : Fin 3 → Fin 2) => P' fun k => e k + (idx k : ℕ)) →
      ∀ p w : (k : Fin 3) → Fin 2 → ℝ, IsGrid (fun _ : Fin 3 => .gaussLobatto) (fun _ => 2) p w → ∀ cfg,
      ∃ detJ detJ' : (Fin 3 → ℕ) → (Fin 3 → ℝ) → ℝ,
        (∀ e ∈ blockCells fun _ => 2, ∀ ξ, ∃ after, LinearTransform.inverseJacobianValue cfg (exactArith ℝ) (t e) (List.ofFn ξ)
          = .ok (detJ e ξ, after)) ∧
        (∀ e ∈ blockCells fun _ => 2, ∀ ξ, ∃ after, LinearTransform.inverseJacobianValue cfg (exactArith ℝ) (t' e) (List.ofFn ξ)
          = .ok (detJ' e ξ, after)) ∧
        ∑ e ∈ blockCells fun _ => 2, ∑ q : Fin 3 → Fin 2, (∏ k, w k (q k)) * detJ e (fun k => p k (q k))
          - ∑ e ∈ blockCells fun _ => 2, ∑ q : Fin 3 → Fin 2, (∏ k, w k (q k)) * detJ' e (fun k => p k (q k)) = 1 / 8 := by
  refine ⟨fun g i => ((slidNode 0 g i : ℤ) : ℝ), fun g i => ((slidNode 1 g i : ℤ) : ℝ),
    fun g k hk => funext fun i => congrArg (fun n : ℤ => (n : ℝ)) (slid_boundary hk i),
    fun t t' hL hL' hP hP' p w hgrid cfg => ⟨_, _, fun e he ξ => detJ_polynomial (hL e he) (hP e he) cfg ξ,
      fun e he ξ => detJ_polynomial (hL' e he) (hP' e he) cfg ξ, ?_⟩⟩
  · rw [slid_det hgrid 0, slid_det hgrid 1, ← sub_div, ← Int.cast_sub, slid_sum, Int.cast_one]

/-- **C160, the exception is needed.** With the two-point Gauss-Lobatto rule the mean gradient does depend on inner values:
there are a mesh of a block of `2 * 2 * 2` hexahedra and two variables with the same values on the faces of the block, such
that no determinant vanishes at quadrature points, and the sums over all cells and quadrature points of weights times `detJ`
times the first component of the gradient in physical coordinates differ by an eighth. -/
theorem C160_lobatto : ∃ (P : (Fin 3 → ℕ) → Fin 3 → ℝ) (V V' : (Fin 3 → ℕ) → ℝ),
    (∀ g k, g k = 0 ∨ g k = 2 → V g = V' g) ∧
    ∀ t : (Fin 3 → ℕ) → LinearTransform ℝ,
      (∀ e ∈ blockCells fun _ => 2, IsLagrange (fun _ : Fin 3 => 1) (fun _ => ![-1, 1]) (t e).shape) →
      (∀ e ∈ blockCells fun _ => 2, HoldsPoints (t e).data fun (idx : Fin 3 → Fin 2) => P fun k => e k + (idx k : ℕ)) →
      ∀ var var' : (Fin 3 → ℕ) → List Int → Res ℝ,
      (∀ e ∈ blockCells fun _ => 2, ∀ idx : Fin 3 → Fin 2, var e (tup idx) = .ok (V fun k => e k + (idx k : ℕ))) →
      (∀ e ∈ blockCells fun _ => 2, ∀ idx : Fin 3 → Fin 2, var' e (tup idx) = .ok (V' fun k => e k + (idx k : ℕ))) →
      ∀ p w : (k : Fin 3) → Fin 2 → ℝ, IsGrid (fun _ : Fin 3 => .gaussLobatto) (fun _ => 2) p w →
      ∀ (cfg : Config) (detJ detJ' : (Fin 3 → ℕ) → (Fin 3 → ℝ) → ℝ) (Du Du' : (Fin 3 → ℕ) → (Fin 3 → ℝ) → Fin 3 → ℝ)
        (Inv Inv' : (Fin 3 → ℕ) → (Fin 3 → ℝ) → Matrix (Fin 3) (Fin 3) ℝ),
      (∀ e ∈ blockCells fun _ => 2, CellGradient cfg (t e) (var e) (detJ e) (Du e) (Inv e)) →
      (∀ e ∈ blockCells fun _ => 2, CellGradient cfg (t e) (var' e) (detJ' e) (Du' e) (Inv' e)) →
      (∀ e ∈ blockCells fun _ => 2, ∀ q : Fin 3 → Fin 2,
        detJ e (fun k => p k (q k)) ≠ 0 ∧ detJ' e (fun k => p k (q k)) ≠ 0) ∧
      ∑ e ∈ blockCells fun _ => 2, ∑ q : Fin 3 → Fin 2, (∏ k, w k (q k)) *
          (detJ e (fun k => p k (q k)) * ∑ a, Du e (fun k => p k (q k)) a * Inv e (fun k => p k (q k)) a 0)
        - ∑ e ∈ blockCells fun _ => 2, ∑ q : Fin 3 → Fin 2, (∏ k, w k (q k)) *
          (detJ' e (fun k => p k (q k)) * ∑ a, Du' e (fun k => p k (q k)) a * Inv' e (fun k => p k (q k)) a 0) = 1 / 8 := by
  have hdet : ∀ e ∈ blockCells fun _ => 2, ∀ q : Fin 3 → Fin 2,
      edgeDet (fun idx => slidNode 0 fun k => e k + (idx k : ℕ)) q ≠ 0 := by decide +kernel
  refine ⟨fun g i => ((slidNode 0 g i : ℤ) : ℝ), fun g => ((slidNode 0 g 0 : ℤ) : ℝ), fun g => ((slidNode 1 g 0 : ℤ) : ℝ),
    fun g k hk => congrArg (fun n : ℤ => (n : ℝ)) (slid_boundary hk 0),
    fun t hL hP var var' hU hU' p w hgrid cfg detJ detJ' Du Du' Inv Inv' hd hd' => ?_⟩
  have hq : ∀ q : Fin 3 → Fin 2, (fun k => p k (q k)) = fun k => if q k = 0 then (-1 : ℝ) else 1 := fun q =>
    funext fun k => (lobatto_two hgrid).1 k (q k)
  have hne : ∀ e ∈ blockCells fun _ => 2, ∀ q : Fin 3 → Fin 2,
      detJ e (fun k => p k (q k)) ≠ 0 ∧ detJ' e (fun k => p k (q k)) ≠ 0 := fun e he q => by
    obtain ⟨after, k1⟩ := detJ_polynomial (hL e he) (hP e he) cfg fun k => p k (q k)
    obtain ⟨_, k2, -⟩ := (hd e he).inverse fun k => p k (q k)
    obtain ⟨_, k3, -⟩ := (hd' e he).inverse fun k => p k (q k)
    rw [(Prod.mk.inj (Res.ok.inj (k2.symm.trans k1))).1, (Prod.mk.inj (Res.ok.inj (k3.symm.trans k1))).1, hq,
      vertex_det (fun idx => slidNode 0 fun k => e k + (idx k : ℕ)) q]
    have : ((edgeDet (fun idx => slidNode 0 fun k => e k + (idx k : ℕ)) q : ℤ) : ℝ) ≠ 0 := Int.cast_ne_zero.2 (hdet e he q)
    exact ⟨div_ne_zero this (by norm_num), div_ne_zero this (by norm_num)⟩
  refine ⟨hne, ?_⟩
  have hlift : ∀ (z : ℤ) (e : Fin 3 → ℕ), lifted (order := fun _ : Fin 3 => 1)
      (fun (idx : Fin 3 → Fin 2) i => ((slidNode 0 (fun k => e k + (idx k : ℕ)) i : ℤ) : ℝ))
      (fun idx => ((slidNode z (fun k => e k + (idx k : ℕ)) 0 : ℤ) : ℝ)) 0
      = fun (idx : Fin 3 → Fin 2) i => ((slidNode z (fun k => e k + (idx k : ℕ)) i : ℤ) : ℝ) := fun z e => by
    funext idx i
    simp only [lifted]
    by_cases hi : i = 0
    · subst hi; simp
    · rw [Function.update_of_ne hi]
      refine congrArg (fun n : ℤ => (n : ℝ)) ?_
      rcases (show ∀ j : Fin 3, j = 0 ∨ j = 1 ∨ j = 2 by decide) i with rfl | rfl | rfl
      · exact absurd rfl hi
      · simp [slidNode]
      · simp [slidNode]
  have e1 := slid_det hgrid 0
  have e2 := slid_det hgrid 1
  rw [Finset.sum_congr rfl fun e he => Finset.sum_congr rfl fun q _ => congrArg ((∏ k, w k (q k)) * ·)
      ((mesh_cell_gradient (hL e he) (hP e he) (hU e he) (hd e he) (hne e he q).1 0).trans (by rw [hlift 0 e])), e1,
    Finset.sum_congr rfl fun e he => Finset.sum_congr rfl fun q _ => congrArg ((∏ k, w k (q k)) * ·)
      ((mesh_cell_gradient (hL e he) (hP e he) (hU' e he) (hd' e he) (hne e he q).2 0).trans (by rw [hlift 1 e])), e2,
    ← sub_div, ← Int.cast_sub, slid_sum, Int.cast_one]

/-- Non-vacuity of `C159_lobatto`, `C160_lobatto` and `C161_lobatto`: the rule and cells with any vertices exist; for
variables see the example for C160. -/
example : (∃ p w : (k : Fin 3) → Fin 2 → ℝ, IsGrid (fun _ : Fin 3 => .gaussLobatto) (fun _ => 2) p w) ∧
    ∀ X : (Fin 3 → ℕ) → (Fin 3 → Fin 2) → Fin 3 → ℝ, ∃ t : (Fin 3 → ℕ) → LinearTransform ℝ,
      ∀ e, IsLagrange (fun _ : Fin 3 => 1) (fun _ => ![-1, 1]) (t e).shape ∧ HoldsPoints (t e).data (X e) := by
  obtain ⟨e₀, he, hcell⟩ := trilinear_cell
  refine ⟨C94_grids (fun _ : Fin 3 => RuleFamily.gaussLobatto) (fun _ => 2) fun _ => ⟨by norm_num, by norm_num⟩, fun X => ?_⟩
  choose t ht using fun e => hcell (X e)
  exact ⟨t, fun e => ⟨(ht e).1 ▸ he, (ht e).2⟩⟩

end Verif.Props
