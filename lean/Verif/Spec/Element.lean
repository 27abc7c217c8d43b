import Verif.Model.BasisProduct
import Verif.Spec.Nodes

/-! # Vocabulary for tensor-product elements -/

namespace Verif.Spec

/-- The pack of indices written for a multi-index. -/
def tup {d : ℕ} {n : Fin d → ℕ} (idx : (k : Fin d) → Fin (n k)) : List Int :=
  List.ofFn fun k => ((idx k : ℕ) : Int)

/-- `e` is a `d`-dimensional element class whose basis in direction `k` is a Lagrange basis of order
`order k` on the nodes `c k`, read in exact arithmetic. -/
structure IsLagrange {d : ℕ} (order : Fin d → ℕ) (c : (k : Fin d) → Fin (order k + 1) → ℝ)
    (e : Element ℝ) : Prop where
  dims : 0 < d
  shape : e.shapeDims = .ok d
  bases : ∃ b : Fin d → Basis ℝ, e.bases = List.ofFn b ∧
    ∀ k, order k < 2147483647 ∧ ∃ S : Int → Spacing ℝ,
      Nodes (S ((order k + 1 : ℕ) : Int)) (order k + 1) (c k) ∧
      lagrangeBasis (exactArith ℝ) S (order k) = .ok (b k)

end Verif.Spec
