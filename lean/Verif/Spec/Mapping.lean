import Verif.Model.LinearTransform
import Verif.Spec.Element
import Mathlib.Data.Matrix.Basic
import Mathlib.Analysis.Calculus.FDeriv.Pi

/-! # Vocabulary for mappings -/

namespace Verif.Spec

variable {R : Type}

/-- The contents `mem` of a `CArrayNd< R, d, d >` hold the matrix `M`: `a( i, j )` reads `M i j` in every
configuration. -/
def HoldsMatrix {d : ℕ} (mem : List R) (M : Matrix (Fin d) (Fin d) R) : Prop :=
  mem.length = d * d ∧ ∀ (cfg : Config) (i j : Fin d),
    CArray.read cfg mem (CArray.whole [(d : Int), (d : Int)]) [((i : ℕ) : Int), ((j : ℕ) : Int)]
      = .ok (M i j)

/-- The contents `data` of a `CArrayNd< R, n_0, .., n_{d-1}, d >` hold the points `X`: `a( idx..., i )` reads
component `i` of the point `X idx` in every configuration. -/
def HoldsPoints {d : ℕ} {n : Fin d → ℕ} (data : List R) (X : ((k : Fin d) → Fin (n k)) → Fin d → R) : Prop :=
  ∀ (cfg : Config) (idx : (k : Fin d) → Fin (n k)) (i : Fin d),
    CArray.read cfg data (CArray.whole ((List.ofFn fun k => ((n k : ℕ) : Int)) ++ [(d : Int)]))
      (tup idx ++ [((i : ℕ) : Int)]) = .ok (X idx i)

/-- The contents `m` of a built-in array `T[3][3]` hold the matrix `M`: `a[i][j]` reads `M i j`. -/
def HoldsNative (m : List R) (M : Matrix (Fin 3) (Fin 3) R) : Prop :=
  m.length = 9 ∧ ∀ i j : Fin 3, MathUtilities.native3.get m ((i : ℕ) : Int) ((j : ℕ) : Int) = .ok (M i j)

/-- Reading `x[r][i]` from a built-in array `T x[rows][3]` with contents `W`: undefined outside it. -/
def builtinRows (rows : ℕ) (W : ℕ → Fin 3 → R) (r i : Int) : Res R :=
  if h : 0 ≤ r ∧ r < rows ∧ 0 ≤ i ∧ i < 3 then .ok (W r.toNat ⟨i.toNat, by omega⟩) else .ub

/-- The number `a + 2 b + 4 c` of the vertex `(a,b,c)` of a hexahedron. -/
def vertexNumber (idx : Fin 3 → Fin 2) : Fin 8 :=
  ⟨(idx 0 : ℕ) + 2 * (idx 1 : ℕ) + 4 * (idx 2 : ℕ), by omega⟩

/-- `M` is the matrix of partial derivatives of `F` at `ξ`, `F` being differentiable there. -/
def IsDerivative {d : ℕ} (F : (Fin d → ℝ) → Fin d → ℝ) (M : Matrix (Fin d) (Fin d) ℝ) (ξ : Fin d → ℝ) : Prop :=
  ∀ i, HasFDerivAt (fun ξ => F ξ i)
    (∑ j, M i j • (ContinuousLinearMap.proj j : (Fin d → ℝ) →L[ℝ] ℝ)) ξ

end Verif.Spec
