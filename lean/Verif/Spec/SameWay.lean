import Verif.Spec.Evaluation

/-! # One compiled expression, run on two sets of data -/

namespace Verif.Spec

/-- `v` and `v'` are results of evaluating the expressions `t` and `t'`, which differ in the numbers held in variables only, with the rounding function `fl` and with the same
products fused: what one compiled function returns for two sets of data. -/
inductive SameWay (fl : ℝ → ℝ) : Term → ℝ → Term → ℝ → Prop
  | num (x x' : ℝ) : SameWay fl (.num x) x (.num x') x'
  | lit (q : ℚ) : SameWay fl (.lit q) (fl q) (.lit q) (fl q)
  | neg {a a' : Term} {x x' : ℝ} : SameWay fl a x a' x' → SameWay fl (.neg a) (-x) (.neg a') (-x')
  | op {o : Op} {a a' b b' : Term} {x x' y y' z z' : ℝ} : SameWay fl a x a' x' → SameWay fl b y b' y' →
      o.apply x y = some z → o.apply x' y' = some z' → SameWay fl (.op o a b) (fl z) (.op o a' b') (fl z')
  | mul_add {a a' b b' c c' : Term} {x x' y y' z z' : ℝ} : SameWay fl a x a' x' → SameWay fl b y b' y' → SameWay fl c z c' z' →
      SameWay fl (.op .add (.op .mul a b) c) (fl (x * y + z)) (.op .add (.op .mul a' b') c') (fl (x' * y' + z'))
  | add_mul {a a' b b' c c' : Term} {x x' y y' z z' : ℝ} : SameWay fl a x a' x' → SameWay fl b y b' y' → SameWay fl c z c' z' →
      SameWay fl (.op .add c (.op .mul a b)) (fl (z + x * y)) (.op .add c' (.op .mul a' b')) (fl (z' + x' * y'))
  | mul_sub {a a' b b' c c' : Term} {x x' y y' z z' : ℝ} : SameWay fl a x a' x' → SameWay fl b y b' y' → SameWay fl c z c' z' →
      SameWay fl (.op .sub (.op .mul a b) c) (fl (x * y - z)) (.op .sub (.op .mul a' b') c') (fl (x' * y' - z'))
  | sub_mul {a a' b b' c c' : Term} {x x' y y' z z' : ℝ} : SameWay fl a x a' x' → SameWay fl b y b' y' → SameWay fl c z c' z' →
      SameWay fl (.op .sub c (.op .mul a b)) (fl (z - x * y)) (.op .sub c' (.op .mul a' b')) (fl (z' - x' * y'))

/-- However the function was compiled, its result for the first set of data is at most its result for the second. -/
def InOrder (fl : ℝ → ℝ) (t t' : Term) : Prop :=
  ∀ v v', SameWay fl t v t' v' → v ≤ v'

end Verif.Spec
