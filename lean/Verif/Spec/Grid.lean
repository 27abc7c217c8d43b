import Verif.Spec.Cube
import Verif.Spec.Element

/-! # Grids of quadrature points and the matrices formed on them -/

namespace Verif.Spec

variable {d : ℕ}

/-- The points `p` and weights `w` of a quadrature rule in each of `d` directions, as the library gives them. -/
structure IsGrid (F : Fin d → RuleFamily) (N : Fin d → ℕ) (p w : (k : Fin d) → Fin (N k) → ℝ) : Prop where
  supported : ∀ k, (F k).Supports (N k)
  points : ∀ k (i : Fin (N k)), ((F k).rule (exactArith ℝ) (N k)).coordCT (i : ℕ) = .ok (p k i)
  weights : ∀ k (i : Fin (N k)), ((F k).rule (exactArith ℝ) (N k)).weightCT (i : ℕ) = .ok (w k i)

/-- The quadratic form of a matrix. -/
def quadraticForm {ι : Type} [Fintype ι] (M : ι → ι → ℝ) (y : ι → ℝ) : ℝ := ∑ i, ∑ j, y i * M i j * y j

/-- The point with coordinate `t` in direction `a` and those of the quadrature points number `r` in the other directions:
for `t = 1` and `t = -1` a quadrature point of a face of the cube. -/
def facePoint {N : Fin (d + 1) → ℕ} (p : (k : Fin (d + 1)) → Fin (N k) → ℝ) (a : Fin (d + 1))
    (r : (l : Fin d) → Fin (N (a.succAbove l))) (t : ℝ) : Fin (d + 1) → ℝ :=
  a.insertNth (α := fun _ => ℝ) t fun l => p (a.succAbove l) (r l)

/-- The sum over the quadrature points of all faces of the cube of the weights of the face times `f a`, counted positive on
the face `ξ_a = 1` and negative on the face `ξ_a = -1`. -/
def faceSum {N : Fin (d + 1) → ℕ} (p w : (k : Fin (d + 1)) → Fin (N k) → ℝ)
    (f : Fin (d + 1) → (Fin (d + 1) → ℝ) → ℝ) : ℝ :=
  ∑ a, ∑ r : (l : Fin d) → Fin (N (a.succAbove l)), (∏ l, w (a.succAbove l) (r l)) *
    (f a (facePoint p a r 1) - f a (facePoint p a r (-1)))

end Verif.Spec
