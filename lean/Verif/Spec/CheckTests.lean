import Verif.Spec.FileTree

/-!
# What the test of a code checker has to say

The specification of C123: a test that runs a checker fails exactly if the checker could not be run or reported something.
-/

namespace Verif.Spec

/-- What a checker did: its exit status, and all it reported. -/
structure Checker where
  status : Nat
  reports : Text

/-- The checker was run and has nothing to report. -/
def Checker.Content (c : Checker) : Prop := c.status = 0 ∧ c.reports = []

/-- All reports are lines with an end, and there are fewer than 256 of them. -/
def Checker.FewLines (c : Checker) : Prop :=
  (c.reports = [] ∨ c.reports.getLast? = some '\n') ∧ c.reports.count '\n' < 256

end Verif.Spec
