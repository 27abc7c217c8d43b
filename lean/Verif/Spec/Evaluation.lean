import Verif.Model.Arith
import Verif.Spec.Rounding

/-!
# Evaluations of floating-point expressions

C++ lets a compiler evaluate floating-point expressions with more precision than the type has: it may fuse a product and a
sum into one rounding, keep intermediate results in wider registers, and compute the same expression differently in different
places.  The rounding mode may change too.  Here code runs on expressions, and an evaluation of an expression may round each
operation in its own way.
-/

namespace Verif.Spec

/-- The binary operations. -/
inductive Op
  | add
  | sub
  | mul
  | div
  deriving DecidableEq

open Classical in
/-- The exact result; none for a division by zero. -/
noncomputable def Op.apply : Op → ℝ → ℝ → Option ℝ
  | .add, x, y => some (x + y)
  | .sub, x, y => some (x - y)
  | .mul, x, y => some (x * y)
  | .div, x, y => if y = 0 then none else some (x / y)

/-- A floating-point expression: a number held in a variable, a literal, or an operation. -/
inductive Term
  | num (x : ℝ)
  | lit (q : ℚ)
  | neg (a : Term)
  | op (o : Op) (a b : Term)

/-- Arithmetic that builds the expression. -/
noncomputable def termArith : Arith Term where
  lit q := .lit q
  add a b := .op .add a b
  sub a b := .op .sub a b
  mul a b := .op .mul a b
  neg a := .neg a
  div a b := .ok (.op .div a b)

/-- `o` is a result of evaluating the expression so that every operation and literal has a relative error of at most `u`;
`none` stands for a division by zero.  An operation may have a different error each time, or none. -/
inductive Evaluates (u : ℝ) : Term → Option ℝ → Prop
  | num (x : ℝ) : Evaluates u (.num x) (some x)
  | lit {q : ℚ} {v : ℝ} : |v - q| ≤ u * |(q : ℝ)| → Evaluates u (.lit q) (some v)
  | neg {a : Term} {x : ℝ} : Evaluates u a (some x) → Evaluates u (.neg a) (some (-x))
  | neg_fail {a : Term} : Evaluates u a none → Evaluates u (.neg a) none
  | op {o : Op} {a b : Term} {x y z v : ℝ} : Evaluates u a (some x) → Evaluates u b (some y) →
      o.apply x y = some z → |v - z| ≤ u * |z| → Evaluates u (.op o a b) (some v)
  | fail {o : Op} {a b : Term} {x y : ℝ} : Evaluates u a (some x) → Evaluates u b (some y) →
      o.apply x y = none → Evaluates u (.op o a b) none
  | left_fail {o : Op} {a b : Term} : Evaluates u a none → Evaluates u (.op o a b) none
  | right_fail {o : Op} {a b : Term} : Evaluates u b none → Evaluates u (.op o a b) none

/-- Every evaluation gives a number within `bound` of `target`; none divides by zero. -/
def AlwaysWithin (u : ℝ) (t : Term) (target bound : ℝ) : Prop :=
  ∀ o, Evaluates u t o → ∃ v, o = some v ∧ |v - target| ≤ bound

/-- `v` is a result of evaluating the expression with the rounding function `fl`, where a product that is added to or subtracted
from something may be fused with that operation. -/
inductive Contracted (fl : ℝ → ℝ) : Term → ℝ → Prop
  | num (x : ℝ) : Contracted fl (.num x) x
  | lit (q : ℚ) : Contracted fl (.lit q) (fl q)
  | neg {a : Term} {x : ℝ} : Contracted fl a x → Contracted fl (.neg a) (-x)
  | op {o : Op} {a b : Term} {x y z : ℝ} : Contracted fl a x → Contracted fl b y → o.apply x y = some z →
      Contracted fl (.op o a b) (fl z)
  | mul_add {a b c : Term} {x y z : ℝ} : Contracted fl a x → Contracted fl b y → Contracted fl c z →
      Contracted fl (.op .add (.op .mul a b) c) (fl (x * y + z))
  | add_mul {a b c : Term} {x y z : ℝ} : Contracted fl a x → Contracted fl b y → Contracted fl c z →
      Contracted fl (.op .add c (.op .mul a b)) (fl (z + x * y))
  | mul_sub {a b c : Term} {x y z : ℝ} : Contracted fl a x → Contracted fl b y → Contracted fl c z →
      Contracted fl (.op .sub (.op .mul a b) c) (fl (x * y - z))
  | sub_mul {a b c : Term} {x y z : ℝ} : Contracted fl a x → Contracted fl b y → Contracted fl c z →
      Contracted fl (.op .sub c (.op .mul a b)) (fl (z - x * y))

/-- A spacing whose coordinates are held in variables. -/
def held (s : Spacing ℝ) : Spacing Term where
  numPoints := s.numPoints
  coordRT i := Term.num <$> s.coordRT i
  coordCT i := Term.num <$> s.coordCT i

/-- As `IsLagrangeIn`, for code that builds expressions: `c k` are the nodes, computed beforehand in any arithmetic. -/
structure IsLagrangeOn {d : ℕ} (order : Fin d → ℕ) (c : (k : Fin d) → Fin (order k + 1) → ℝ) (e : Element Term) : Prop where
  dims : 0 < d
  shape : e.shapeDims = .ok d
  bases : ∃ b : Fin d → Basis Term, e.bases = List.ofFn b ∧
    ∀ k, order k < 2147483647 ∧ ∃ S : Int → Spacing ℝ,
      Nodes (S ((order k + 1 : ℕ) : Int)) (order k + 1) (c k) ∧
      lagrangeBasis termArith (fun n => held (S n)) (order k) = .ok (b k)

end Verif.Spec
