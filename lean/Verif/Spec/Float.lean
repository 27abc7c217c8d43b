import Verif.Model.Float
import Verif.Spec.Rounding

/-! # Vocabulary for IEEE 754 arithmetic -/

namespace Verif.Spec

/-- The largest relative error of rounding a number in the normal range: `2^-53` for `double`, `2^-24` for
`float`. -/
noncomputable def unitRoundoff (F : FloatFormat) : ℝ := (2 : ℝ)⁻¹ ^ (F.fracBits + 1)

/-- `x` is a finite number of the format. -/
def Represents (F : FloatFormat) (x : ℝ) : Prop := F.nearest x = x ∧ |x| < 2 ^ (F.maxExp + 1)

/-- Unless an exception other than `inexact` was raised, `f` is a finite number within `bound` of `target`. -/
def Accurate (f : Flt) (target bound : ℝ) : Prop :=
  f.raised = true ∨ ∃ y, f = Flt.ofReal y ∧ |y - target| ≤ bound

/-- `f` is a finite number within `bound` of `target`, whether or not an exception was raised on the way. -/
def FiniteWithin (f : Flt) (target bound : ℝ) : Prop := ∃ y, f.datum = .finite y ∧ |y - target| ≤ bound

/-- The smallest positive number of the format: `2^-1074` for `double`, `2^-149` for `float`. -/
noncomputable def smallestPositive (F : FloatFormat) : ℝ := 2 ^ (F.minExp - F.fracBits)

/-- As `IsLagrange`, for code running in IEEE arithmetic.  `c k` are the nodes the code computes. -/
structure IsLagrangeFloat (F : FloatFormat) {d : ℕ} (order : Fin d → ℕ)
    (c : (k : Fin d) → Fin (order k + 1) → ℝ) (e : Element Flt) : Prop where
  dims : 0 < d
  shape : e.shapeDims = .ok d
  distinct : ∀ k, Function.Injective (c k)
  represented : ∀ k i, Represents F (c k i)
  bases : ∃ b : Fin d → Basis Flt, e.bases = List.ofFn b ∧
    ∀ k, order k < 2147483647 ∧ ∃ S : Int → Spacing Flt,
      (1 ≤ order k → ∀ i : Fin (order k + 1),
        (S ((order k + 1 : ℕ) : Int)).coordCT (i : ℕ) = .ok (Flt.ofReal (c k i))) ∧
      lagrangeBasis (floatArith F) S (order k) = .ok (b k)

/-- Zero, or a number of the format of magnitude between `2^-m` and `2^m`. -/
def Moderate (F : FloatFormat) (m : ℕ) (x : ℝ) : Prop :=
  x = 0 ∨ Represents F x ∧ 1 / 2 ^ m ≤ |x| ∧ |x| ≤ 2 ^ m

end Verif.Spec
