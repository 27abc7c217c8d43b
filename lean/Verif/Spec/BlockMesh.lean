import Mathlib.Algebra.BigOperators.Group.Finset.Basic
import Mathlib.Data.Fintype.Pi

/-! # Block meshes: cells numbered by three indices, neighbours sharing their faces -/

namespace Verif.Spec

/-- The cells of a block of `n 0 × n 1 × n 2` cells. -/
def blockCells (n : Fin 3 → ℕ) : Finset (Fin 3 → ℕ) := Fintype.piFinset fun k => Finset.range (n k)

/-- `X e idx` is the position of node `idx` of cell `e`, or a value there: a cell and the next one in direction `k` have
the nodes of the face between them in common. -/
def Conforming {α : Type} {order : Fin 3 → ℕ} (n : Fin 3 → ℕ)
    (X : (Fin 3 → ℕ) → ((k : Fin 3) → Fin (order k + 1)) → α) : Prop :=
  ∀ e ∈ blockCells n, ∀ k, e k + 1 < n k → ∀ idx,
    X e (Function.update idx k (Fin.last (order k))) = X (Function.update e k (e k + 1)) (Function.update idx k 0)

/-- Two meshes of the same block have the same nodes, or values there, on the faces of the block. -/
def SameBoundary {α : Type} {order : Fin 3 → ℕ} (n : Fin 3 → ℕ)
    (X X' : (Fin 3 → ℕ) → ((k : Fin 3) → Fin (order k + 1)) → α) : Prop :=
  ∀ e ∈ blockCells n, ∀ k idx,
    (e k = 0 → idx k = 0 → X e idx = X' e idx) ∧
    (e k + 1 = n k → idx k = Fin.last (order k) → X e idx = X' e idx)

end Verif.Spec
