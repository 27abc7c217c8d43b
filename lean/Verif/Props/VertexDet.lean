import Verif.Props.DistortedBox
import Verif.Props.Matrices

/-!
# The determinant at the vertices of a hexahedron
-/

namespace Verif.Props

open Verif.Spec Verif.Lemmas MvPolynomial

/-- The edge of a cell in direction `a` through vertex `q`, for vertices with whole coordinates. -/
def edge (Y : (Fin 3 → Fin 2) → Fin 3 → ℤ) (q : Fin 3 → Fin 2) (i a : Fin 3) : ℤ :=
  Y (Function.update q a 1) i - Y (Function.update q a 0) i

/-- The determinant of the three edges at a vertex. -/
def edgeDet (Y : (Fin 3 → Fin 2) → Fin 3 → ℤ) (q : Fin 3 → Fin 2) : ℤ :=
  edge Y q 0 0 * edge Y q 1 1 * edge Y q 2 2 - edge Y q 0 0 * edge Y q 1 2 * edge Y q 2 1
    - edge Y q 0 1 * edge Y q 1 0 * edge Y q 2 2 + edge Y q 0 1 * edge Y q 1 2 * edge Y q 2 0
    + edge Y q 0 2 * edge Y q 1 0 * edge Y q 2 1 - edge Y q 0 2 * edge Y q 1 1 * edge Y q 2 0

/-- At a vertex the determinant is an eighth of that of the edges. -/
theorem vertex_det (Y : (Fin 3 → Fin 2) → Fin 3 → ℤ) (q : Fin 3 → Fin 2) :
    eval (fun k => if q k = 0 then -1 else 1)
      (jacobianPoly (mapPoly (order := fun _ : Fin 3 => 1) (fun _ => ![-1, 1]) fun idx i => ((Y idx i : ℤ) : ℝ))).det
      = (edgeDet Y q : ℝ) / 8 := by
  have hu : ∀ (a : Fin 3) (r : Fin 2), Function.update (fun k => if q k = 0 then (-1 : ℝ) else 1) a (if r = 0 then -1 else 1)
      = fun k => if Function.update q a r k = 0 then (-1 : ℝ) else 1 := fun a r => by
    funext k
    by_cases hk : k = a
    · subst hk; simp
    · simp [hk]
  have he : ∀ i a : Fin 3, eval (fun k => if q k = 0 then (-1 : ℝ) else 1) (pderiv a
      (mapPoly (order := fun _ : Fin 3 => 1) (fun _ => ![-1, 1]) (fun idx i => ((Y idx i : ℤ) : ℝ)) i))
      = (edge Y q i a : ℝ) / 2 := fun i a => by
    have h1 := hu a 1
    have h0 := hu a 0
    rw [if_neg (by decide)] at h1
    rw [if_pos rfl] at h0
    refine (pderiv_multi (eval_mapPoly (fun _ => ⟨rfl, rfl⟩) _ i) _ a).trans ?_
    rw [h1, h0, multi_vertex, multi_vertex, edge, Int.cast_sub]
  rw [eval_det, Matrix.det_fin_three]
  simp only [Matrix.of_apply, he, edgeDet]
  push_cast
  ring

/-- The two-point Gauss-Lobatto rule: the vertices, with weights one. -/
theorem lobatto_two {p w : (k : Fin 3) → Fin 2 → ℝ} (hgrid : IsGrid (fun _ : Fin 3 => .gaussLobatto) (fun _ => 2) p w) :
    (∀ k (i : Fin 2), p k i = if i = 0 then -1 else 1) ∧ ∀ k (i : Fin 2), w k i = 1 := by
  refine ⟨fun k i => ?_, fun k i => ?_⟩
  · have := hgrid.points k i
    rcases (show ∀ j : Fin 2, j = 0 ∨ j = 1 by decide) i with rfl | rfl
    · have e : Res.ok _ = Res.ok (p k 0) := this
      rw [← Res.ok.inj e]
      simp [exactArith]
    · have e : Res.ok _ = Res.ok (p k 1) := this
      rw [← Res.ok.inj e]
      norm_num [exactArith]
  · have := hgrid.weights k i
    rcases (show ∀ j : Fin 2, j = 0 ∨ j = 1 by decide) i with rfl | rfl
    · have e : Res.ok _ = Res.ok (w k 0) := this
      rw [← Res.ok.inj e]
      norm_num [exactArith]
    · have e : Res.ok _ = Res.ok (w k 1) := this
      rw [← Res.ok.inj e]
      norm_num [exactArith]

end Verif.Props
