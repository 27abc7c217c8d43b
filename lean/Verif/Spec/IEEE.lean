import Verif.Model.Float

/-!
# IEEE 754 rounding

The numbers of a binary format and rounding to nearest, in the words of the standard.
-/

namespace Verif.Spec

/-- `x` is the finite number with the integer significand `m` (of at most `fracBits + 1` bits) and the exponent `e`. -/
def NumberWith (F : FloatFormat) (m e : ℤ) (x : ℝ) : Prop :=
  x = m * 2 ^ e ∧ |m| < 2 ^ (F.fracBits + 1) ∧ F.minExp - F.fracBits ≤ e ∧ e ≤ F.maxExp - F.fracBits

/-- `x` is a finite number of the format. -/
def IsNumber (F : FloatFormat) (x : ℝ) : Prop := ∃ m e, NumberWith F m e x

/-- The last bit of the significand of `x` is zero.  The significand has a leading one, unless the exponent is the smallest. -/
def EvenSignificand (F : FloatFormat) (x : ℝ) : Prop :=
  ∃ m e, NumberWith F m e x ∧ (2 ^ F.fracBits ≤ |m| ∨ e = F.minExp - F.fracBits) ∧ Even m

/-- `y` is a number nearest to `x`; if another number is as near, the significand of `y` is even. -/
structure RoundsTo (F : FloatFormat) (x y : ℝ) : Prop where
  number : IsNumber F y
  nearest : ∀ z, IsNumber F z → |y - x| ≤ |z - x|
  ties : ∀ z, IsNumber F z → z ≠ y → |z - x| = |y - x| → EvenSignificand F y

/-- Results of this magnitude or more become infinite: half a unit above the largest finite number. -/
noncomputable def overflowBound (F : FloatFormat) : ℝ := (2 - (2 : ℝ)⁻¹ ^ (F.fracBits + 1)) * 2 ^ F.maxExp

/-- `f` is the result of an operation on finite numbers whose exact result is `v`: an infinity of the right sign and
the overflow exception, or the rounded number, with the underflow exception if it is inexact and `v` is below the
normal range. -/
def OperationResult (F : FloatFormat) (v : ℝ) (f : Flt) : Prop :=
  (overflowBound F ≤ |v| ∧ f.raised = true ∧ ∃ s, f.datum = .inf s ∧ (s = true ↔ v < 0)) ∨
  (|v| < overflowBound F ∧ ∃ y, RoundsTo F v y ∧ f.datum = .finite y ∧ (f.raised = true ↔ |v| < 2 ^ F.minExp ∧ y ≠ v))

end Verif.Spec
