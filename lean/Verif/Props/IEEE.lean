import Verif.Lemmas.FloatEval
import Verif.Lemmas.FloatIEEE
import Verif.Lemmas.MixedFloat
import Verif.Spec.Mixed

/-!
# Property C91: the arithmetic of C81–C90 is that of IEEE 754

The model rounds with a formula; here the formula is compared with the definition of the standard.
-/

namespace Verif.Props

open Verif.Spec Verif.Lemmas

/-- **C91, formats.** The numbers of `float` have 24-bit significands and exponents from -149 to 104, those of `double`
53-bit significands and exponents from -1074 to 971. -/
theorem C91_numbers (x : ℝ) :
    (Represents binary32 x ↔ ∃ m e : ℤ, x = m * 2 ^ e ∧ |m| < 2 ^ 24 ∧ -149 ≤ e ∧ e ≤ 104) ∧
    (Represents binary64 x ↔ ∃ m e : ℤ, x = m * 2 ^ e ∧ |m| < 2 ^ 53 ∧ -1074 ≤ e ∧ e ≤ 971) :=
  ⟨represents_iff_isNumber, represents_iff_isNumber⟩

/-- **C91, overflow.** The smallest magnitudes that become infinite. -/
theorem C91_overflow : overflowBound binary32 = (2 ^ 25 - 1) * 2 ^ 103 ∧ overflowBound binary64 = (2 ^ 54 - 1) * 2 ^ 970 := by
  constructor
  · simp only [overflowBound, binary32]
    rw [show (127 : ℤ) = ((24 + 103 : ℕ) : ℤ) by norm_num, zpow_natCast, pow_add]
    ring
  · simp only [overflowBound, binary64]
    rw [show (1023 : ℤ) = ((53 + 970 : ℕ) : ℤ) by norm_num, zpow_natCast, pow_add (2 : ℝ) 53 970]
    generalize (2 : ℝ) ^ 970 = b
    norm_num
    ring

/-- **C91, rounding.** Rounding to nearest with ties to even determines the result. -/
theorem C91_unique (F : FloatFormat) (hF : 1 ≤ F.fracBits) (x : ℝ) (hx : |x| < overflowBound F) : ∃! y, RoundsTo F x y := by
  have ho : ¬ F.Overflows x := fun h => absurd (overflows_iff.1 h) (not_le.2 hx)
  exact ⟨_, nearest_roundsTo hF ho, fun y hy => roundsTo_unique hF ho hy⟩

private theorem round_result {F : FloatFormat} (hF : 1 ≤ F.fracBits) (x : ℝ) : OperationResult F x (Flt.round F false x) := by
  by_cases ho : F.Overflows x
  · refine .inl ⟨overflows_iff.1 ho, ?_, decide (x < 0), ?_, ?_⟩
    · simp only [Flt.round, ho, if_true]
    · simp only [Flt.round, ho, if_true]
    · exact decide_eq_true_iff
  · refine .inr ⟨not_le.1 fun h => ho (overflows_iff.2 h), F.nearest x, nearest_roundsTo hF ho, ?_, ?_⟩
    · simp only [Flt.round, ho, if_false]
    · simp only [Flt.round, ho, if_false, Bool.false_or]
      exact @decide_eq_true_iff _ (Classical.propDecidable _)

/-- **C91, operations.** Every operation on finite numbers gives the exact result, rounded.  Negation is exact. Dividing by
zero is reported separately. -/
theorem C91_operations (F : FloatFormat) (hF : 1 ≤ F.fracBits) (x y : ℝ) :
    OperationResult F (x + y) ((floatArith F).add (Flt.ofReal x) (Flt.ofReal y)) ∧
    OperationResult F (x - y) ((floatArith F).sub (Flt.ofReal x) (Flt.ofReal y)) ∧
    OperationResult F (x * y) ((floatArith F).mul (Flt.ofReal x) (Flt.ofReal y)) ∧
    (floatArith F).neg (Flt.ofReal x) = Flt.ofReal (-x) ∧
    (y ≠ 0 → ∃ q, (floatArith F).div (Flt.ofReal x) (Flt.ofReal y) = .ok q ∧ OperationResult F (x / y) q) ∧
    (y = 0 → (floatArith F).div (Flt.ofReal x) (Flt.ofReal y) = .nonfinite) := by
  refine ⟨round_result hF _, ?_, round_result hF _, rfl, fun h => ⟨_, ?_, round_result hF _⟩, fun h => ?_⟩
  · rw [sub_eq_add_neg]; exact round_result hF _
  · simp only [floatArith, Flt.div, Flt.ofReal, if_neg h, Bool.or_false]
  · simp only [floatArith, Flt.div, Flt.ofReal, if_pos h]

/-- **C91, literals and conversions.** A literal is rounded to its type, and a finite `double` assigned to a `float` is
rounded to `float`; widening is exact. -/
theorem C91_conversions (F : FloatFormat) (hF : 1 ≤ F.fracBits) (q : ℚ) (x : ℝ) :
    OperationResult F q ((floatArith F).lit q) ∧ OperationResult binary32 x (floatMixed.narrow (Flt.ofReal x)) ∧
    floatMixed.widen (Flt.ofReal x) = Flt.ofReal x ∧ (Represents binary32 x → Represents binary64 x) := by
  refine ⟨round_result hF _, round_result (F := binary32) (by simp [binary32]) _, rfl, fun h => ?_⟩
  obtain ⟨m, e, h1, h2, h3, h4⟩ := (C91_numbers x).1.1 h
  exact (C91_numbers x).2.2 ⟨m, e, h1, h2.trans (by norm_num), by omega, by omega⟩

/-- **C91, exceptions.** An exception seen in an operand is kept in the result of every operation. -/
theorem C91_sticky (F : FloatFormat) (a b q : Flt) (h : a.raised = true ∨ b.raised = true) :
    ((floatArith F).add a b).raised = true ∧ ((floatArith F).sub a b).raised = true ∧
    ((floatArith F).mul a b).raised = true ∧ ((floatArith F).div a b = .ok q → q.raised = true) ∧
    (a.raised = true → ((floatArith F).neg a).raised = true) := by
  have hor : (a.raised || b.raised) = true := by simpa using h
  have hround : ∀ x, (Flt.round F true x).raised = true := by
    intro x; unfold Flt.round; split_ifs <;> simp
  have hneg : ∀ c : Flt, (Flt.neg c).raised = c.raised := by
    intro c; unfold Flt.neg; split <;> rfl
  have hadd : ∀ a b : Flt, (a.raised || b.raised) = true → (Flt.add F a b).raised = true := by
    intro a b hor
    unfold Flt.add
    rw [hor]
    split <;> first | rfl | exact hround _ | (split_ifs <;> rfl)
  refine ⟨hadd a b hor, hadd a (Flt.neg b) (by rw [hneg]; exact hor), ?_, fun hq => ?_, fun ha => (hneg a).trans ha⟩
  · show (Flt.mul F a b).raised = true
    unfold Flt.mul
    rw [hor]
    split <;> first | rfl | exact hround _ | (split_ifs <;> rfl)
  · change Flt.div F a b = .ok q at hq
    unfold Flt.div at hq
    rw [hor] at hq
    split at hq
    · cases hq; rfl
    · cases hq; rfl
    · cases hq; rfl
    · cases hq; rfl
    · split_ifs at hq
      cases hq; rfl
    · split_ifs at hq
      cases hq; exact hround _

/-- Non-vacuity: one tenth in `double` and in `float`, a tie in `float`, and an overflow. -/
example : (floatArith binary64).lit (1 / 10) = Flt.ofReal ((3602879701896397 / 2 ^ 55 : ℚ) : ℝ) ∧
    (floatArith binary32).lit (1 / 10) = Flt.ofReal ((13421773 / 2 ^ 27 : ℚ) : ℝ) ∧
    (floatArith binary32).lit (2 ^ 24 + 1) = Flt.ofReal ((2 ^ 24 : ℚ) : ℝ) ∧
    (floatArith binary32).lit (2 ^ 24 + 3) = Flt.ofReal ((2 ^ 24 + 4 : ℚ) : ℝ) := by
  refine ⟨?_, ?_, ?_, ?_⟩ <;> refine (evalRound_sound _ ?_).trans rfl <;> decide +kernel

end Verif.Props
