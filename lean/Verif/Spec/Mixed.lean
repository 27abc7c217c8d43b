import Verif.Model.Mixed
import Verif.Spec.Families
import Verif.Spec.Float
import Verif.Spec.Legendre

/-! # The library instantiated with `float` and with `double` -/

namespace Verif.Spec

/-- The choices for the template parameter `REAL_TYPE`. -/
inductive RealType where
  | float
  | double
  deriving DecidableEq, Repr

/-- How C++ evaluates expressions for this `REAL_TYPE`. -/
noncomputable def RealType.arith : RealType → Mixed Flt Flt
  | .float => floatMixed
  | .double => doubleMixed

/-- The format of this `REAL_TYPE`. -/
def RealType.format : RealType → FloatFormat
  | .float => binary32
  | .double => binary64

/-- The class template of a family of spacings. -/
def Family.spacingIn {R W : Type} (M : Mixed R W) : Family → Int → Spacing R
  | .equal => M.equalSpacing
  | .gaussLegendre => M.gaussLegendreSpacing
  | .gaussLobatto => M.gaussLobattoSpacing

/-- `e` is an element class for `REAL_TYPE = T` with the template parameters of the library: in direction `k` a
Lagrange basis of order `order k`, from 1 to 8, on points of a shipped family.  `c k` are the coordinates of these
points in `T`. -/
structure IsShippedIn (T : RealType) {d : ℕ} (order : Fin d → ℕ) (c : (k : Fin d) → Fin (order k + 1) → ℝ)
    (e : Element Flt) : Prop where
  dims : 0 < d
  shape : e.shapeDims = .ok d
  orders : ∀ k, 1 ≤ order k ∧ order k ≤ 8
  bases : ∃ (fam : Fin d → Family) (b : Fin d → Basis Flt), e.bases = List.ofFn b ∧ ∀ k,
    (fam k).Supports (order k) ∧
    (∀ i : Fin (order k + 1), ((fam k).spacingIn T.arith ((order k + 1 : ℕ) : Int)).coordCT (i : ℕ) = .ok (Flt.ofReal (c k i))) ∧
    T.arith.lagrangeBasis ((fam k).spacingIn T.arith) (order k) = .ok (b k)

/-- The two classes of quadrature rules. -/
inductive Rule where
  | gaussLegendre
  | gaussLobatto
  deriving DecidableEq, Repr

/-- The class template of a quadrature rule. -/
def Rule.quadratureIn {R W : Type} (M : Mixed R W) : Rule → Int → Quadrature R
  | .gaussLegendre => M.quadratureGaussLegendre
  | .gaussLobatto => M.quadratureGaussLobatto

/-- Numbers of points for which `coordinate( i )` gives points. -/
def Family.RuntimePoints : Family → ℕ → Prop
  | .equal, n => 2 ≤ n ∧ n ≤ 2147483647
  | .gaussLegendre, n => 2 ≤ n ∧ n ≤ 4
  | .gaussLobatto, n => 2 ≤ n ∧ n ≤ 5

/-- Numbers of points for which `coordinate< i >()` gives points. -/
def Family.Points : Family → ℕ → Prop
  | .equal, n => 2 ≤ n ∧ n ≤ 2147483647
  | .gaussLegendre, n => 2 ≤ n ∧ n ≤ 4
  | .gaussLobatto, n => 2 ≤ n ∧ n ≤ 9

/-- Numbers of points for which `weight( i )` exists. -/
def Rule.RuntimePoints : Rule → ℕ → Prop
  | .gaussLegendre, n => 2 ≤ n ∧ n ≤ 4
  | .gaussLobatto, n => 2 ≤ n ∧ n ≤ 5

/-- Numbers of points for which `weight< i >()` exists. -/
def Rule.Points : Rule → ℕ → Prop
  | .gaussLegendre, n => 2 ≤ n ∧ n ≤ 4
  | .gaussLobatto, n => 2 ≤ n ∧ n ≤ 9

/-- The degree up to which the rule with `n` points is exact. -/
def Rule.degree : Rule → ℕ → ℕ
  | .gaussLegendre, n => 2 * n - 1
  | .gaussLobatto, n => 2 * n - 3

/-- The polynomial whose roots are the points of the rule. -/
noncomputable def Rule.nodePoly : Rule → ℕ → Polynomial ℝ
  | .gaussLegendre, n => legendre n
  | .gaussLobatto, n => lobattoPoly n

/-- The tables with six points or more have 14 digits, the others all digits of `double`. -/
noncomputable def literalError (n : ℕ) : ℝ := if n ≤ 5 then 0 else 2 / 10 ^ 14

/-- Two results are the same number, computed without exceptions. -/
def SameNumber (a b : Res Flt) : Prop := ∃ x, a = .ok (Flt.ofReal x) ∧ b = .ok (Flt.ofReal x)

end Verif.Spec
