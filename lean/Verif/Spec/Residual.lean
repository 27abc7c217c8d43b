import Verif.Spec.Rounding

/-! # Products of a matrix with an approximation of its inverse -/

namespace Verif.Spec

/-- The sum of the absolute values of the terms of entry `(i,j)` of the product of the adjugate of a matrix with `M`, where `B` bounds the entries of the
matrix. -/
noncomputable def leftMagnitude (B M : Matrix (Fin 3) (Fin 3) ℝ) (i j : Fin 3) : ℝ := ∑ k, adjMagnitude B i k * |M k j|

/-- The same for the product of `M` with the adjugate. -/
noncomputable def rightMagnitude (B M : Matrix (Fin 3) (Fin 3) ℝ) (i j : Fin 3) : ℝ := ∑ k, |M i k| * adjMagnitude B k j

/-- `P * M` and `M * P` are the identity up to an error in entry `(i,j)` of `a` times the magnitudes above plus `s`. -/
def NearlyInverse (B M P : Matrix (Fin 3) (Fin 3) ℝ) (a s : ℝ) : Prop :=
  ∀ i j, |(P * M) i j - (1 : Matrix (Fin 3) (Fin 3) ℝ) i j| ≤ a * leftMagnitude B M i j + s ∧
    |(M * P) i j - (1 : Matrix (Fin 3) (Fin 3) ℝ) i j| ≤ a * rightMagnitude B M i j + s

end Verif.Spec
