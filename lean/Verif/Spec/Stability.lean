import Verif.Spec.Mixed
import Verif.Spec.Rounding

/-! # How much interpolation can amplify nodal values -/

namespace Verif.Spec

/-- The factor by which interpolation on a line may enlarge values: in hundredths, for the orders 0, 1, 2, ... -/
def Family.amplification (fam : Family) (order : ℕ) : ℚ :=
  (match fam with
    | .equal => [100, 101, 126, 164, 223, 315, 462, 707, 1121]
    | .gaussLegendre => [100, 174, 234, 286]
    | .gaussLobatto => [100, 101, 126, 151, 165, 180, 190, 200, 208]).getD order 0 / 100

/-- The same for the derivative on a line. -/
def Family.steepness (fam : Family) (order : ℕ) : ℚ :=
  (match fam with
    | .equal => [0, 101, 401, 1003, 2144, 4299, 8410, 16340, 31780]
    | .gaussLegendre => [0, 174, 667, 1597]
    | .gaussLobatto => [0, 101, 401, 912, 1641, 2595, 3781, 5206, 6876]).getD order 0 / 100

/-- The factor for values in `d` dimensions: the product of those of the directions. -/
def valueFactor {d : ℕ} (fam : Fin d → Family) (order : Fin d → ℕ) : ℚ := ∏ k, (fam k).amplification (order k)

/-- The factor for component `a` of the gradient. -/
def gradientFactor {d : ℕ} (fam : Fin d → Family) (order : Fin d → ℕ) (a : Fin d) : ℚ :=
  ∏ k, if a = k then (fam k).steepness (order k) else (fam k).amplification (order k)

/-- `e` is an element class of the library, read in exact arithmetic: in direction `k` the Lagrange basis of order `order k`,
at most 8, on the points of the family `fam k`. -/
structure IsShippedExactly {d : ℕ} (fam : Fin d → Family) (order : Fin d → ℕ) (e : Element ℝ) : Prop where
  dims : 0 < d
  shape : e.shapeDims = .ok d
  orders : ∀ k, (fam k).Supports (order k) ∧ order k ≤ 8
  bases : ∃ b : Fin d → Basis ℝ, e.bases = List.ofFn b ∧
    ∀ k, lagrangeBasis (exactArith ℝ) ((fam k).spacing (exactArith ℝ)) (order k) = .ok (b k)

/-- The same for `REAL_TYPE = T`, for orders from 1 to 8. -/
structure IsShippedAs (T : RealType) {d : ℕ} (fam : Fin d → Family) (order : Fin d → ℕ) (e : Element Flt) : Prop where
  dims : 0 < d
  shape : e.shapeDims = .ok d
  orders : ∀ k, (fam k).Supports (order k) ∧ 1 ≤ order k ∧ order k ≤ 8
  bases : ∃ b : Fin d → Basis Flt, e.bases = List.ofFn b ∧
    ∀ k, T.arith.lagrangeBasis ((fam k).spacingIn T.arith) (order k) = .ok (b k)

end Verif.Spec
