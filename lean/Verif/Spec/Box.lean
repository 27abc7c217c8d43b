import Mathlib.Algebra.BigOperators.Group.List.Basic
import Mathlib.Data.List.Lex

/-!
# Index boxes: independent vocabulary for the array and loop properties
-/

namespace Verif.Spec

/-- Every index is within its dimension: `0 ≤ i_k < d_k`, with as many indices as dimensions. -/
def InBox (dims idx : List Int) : Prop := List.Forall₂ (fun i d => 0 ≤ i ∧ i < d) idx dims

instance (dims idx : List Int) : Decidable (InBox dims idx) :=
  inferInstanceAs (Decidable (List.Forall₂ _ _ _))

/-- A shape a C++ array can have: at least one dimension, all positive, and at most `INT_MAX`
elements in total. -/
def ValidShape (dims : List Int) : Prop :=
  dims ≠ [] ∧ (∀ d ∈ dims, 0 < d) ∧ dims.prod ≤ 2147483647

/-- The row-major number `Σ_k i_k · Π_{m>k} d_m`. -/
def rowMajor (dims idx : List Int) : Int :=
  ((List.range dims.length).map fun k => idx.getD k 0 * (dims.drop (k + 1)).prod).sum

/-- An `int` value. -/
def IsInt (x : Int) : Prop := -2147483648 ≤ x ∧ x ≤ 2147483647

/-- No term `i_k · Π_{m>k} d_m` and no partial sum (from the last index backwards) leaves `int`. -/
def NoOverflow (dims idx : List Int) : Prop :=
  ∀ k < dims.length, IsInt (idx.getD k 0 * (dims.drop (k + 1)).prod) ∧
    IsInt (rowMajor (dims.drop k) (idx.drop k))

/-- Strict lexicographic order on index tuples of equal length: the tuples agree up to some
position and the left one is smaller there. -/
def LexLT (a b : List Int) : Prop :=
  a.length = b.length ∧ ∃ k, k < a.length ∧ a.take k = b.take k ∧ a.getD k 0 < b.getD k 0

end Verif.Spec

namespace Verif.Spec

/-- Every index is at least its start and below its range, with as many indices as ranges. -/
def InRange (start ranges t : List Int) : Prop :=
  t.length = ranges.length ∧
    ∀ k < ranges.length, start.getD k 0 ≤ t.getD k 0 ∧ t.getD k 0 < ranges.getD k 0

end Verif.Spec

namespace Verif.Spec

/-- What `linearIndex` of a multi-index computes instead of the row-major number:
`Σ_k i_k · Π_{m < n-1-k} r_m`, with strides from the *leading* ranges. -/
def leadingStrideIndex (ranges idx : List Int) : Int :=
  ((List.range ranges.length).map fun k =>
    idx.getD k 0 * (ranges.take (ranges.length - 1 - k)).prod).sum

end Verif.Spec
