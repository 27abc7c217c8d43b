import Verif.Spec.Evaluation
import Verif.Spec.Mixed

/-! # What fusing products with sums can change -/

namespace Verif.Spec

/-- Whatever products are fused with the sums and differences that use them, the expression has the value `v` (or none, if something is divided by zero). -/
def AlwaysIs (fl : ℝ → ℝ) (t : Term) (v : ℝ) : Prop := ∀ w, Contracted fl t w → w = v

/-- Whatever products are fused, the expression has the same value. -/
def Unaffected (fl : ℝ → ℝ) (t : Term) : Prop := ∀ v w, Contracted fl t v → Contracted fl t w → v = w

/-- Nothing is rounded: all literals and all results of operations are numbers that `fl` keeps, and the value of the expression is `v`. -/
inductive NothingRounded (fl : ℝ → ℝ) : Term → ℝ → Prop
  | num (x : ℝ) : NothingRounded fl (.num x) x
  | lit {q : ℚ} : fl q = q → NothingRounded fl (.lit q) q
  | neg {a : Term} {x : ℝ} : NothingRounded fl a x → NothingRounded fl (.neg a) (-x)
  | op {o : Op} {a b : Term} {x y z : ℝ} : NothingRounded fl a x → NothingRounded fl b y → o.apply x y = some z → fl z = z →
      NothingRounded fl (.op o a b) z

end Verif.Spec
