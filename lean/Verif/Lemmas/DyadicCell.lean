import Verif.Lemmas.Dyadic
import Verif.Lemmas.MatrixMemory

/-! # Linear elements on data without roundings -/

namespace Verif.Lemmas

open Verif.Spec

/-- Support points known exactly. -/
def tagSpacing (nodes : List ℚ) : Spacing (Option Tag) where
  numPoints := nodes.length
  coordRT _ := .ub
  coordCT i := tableAt (nodes.map fun q => some (Tag.known q)) i

/-- The linear basis. -/
def tagBasis (F : FloatFormat) (S : ℕ) : Basis (Option Tag) :=
  ⟨((1 + 1 : ℕ) : Int), LagrangeBasis.value (tagArith F S) (tagSpacing [-1, 1]) ((1 + 1 : ℕ) : Int),
    LagrangeBasis.gradient (tagArith F S) (tagSpacing [-1, 1]) ((1 + 1 : ℕ) : Int)⟩

/-- The linear element. -/
def tagElement (F : FloatFormat) (S d : ℕ) : Element (Option Tag) := ⟨.ok d, List.ofFn fun _ : Fin d => tagBasis F S⟩

/-- A cell with coordinates that are at most `m` units. -/
def tagCell (F : FloatFormat) (S m : ℕ) : LinearTransform (Option Tag) := ⟨tagElement F S 3, List.replicate 24 (some (.grid 1 0 m))⟩

/-- A point with coordinates that are multiples of `2^-p`. -/
def tagPoint (p : ℕ) : List (Option Tag) := List.replicate 3 (some (.grid 0 p (2 ^ p)))

/-- All entries of the Jacobian are computed exactly. -/
def jacobianKnown (F : FloatFormat) (S m p : ℕ) (cfg : Config) : Bool :=
  match LinearTransform.jacobianValue cfg (tagArith F S) (tagCell F S m) (tagPoint p) with
  | .ok l => l.all Option.isSome
  | _ => false

/-- The determinant is computed exactly. -/
def detKnown (F : FloatFormat) (S m : ℕ) (cfg : Config) : Bool :=
  match MathUtilities.inverse (tagArith F S) (MathUtilities.carray cfg (CArray.whole [3, 3])) (List.replicate 9 (some (.grid 1 0 m))) with
  | .ok (some _, _) => true
  | _ => false

/-- The vertices. -/
def corners : List (List Int) := [[0, 0, 0], [0, 0, 1], [0, 1, 0], [0, 1, 1], [1, 0, 0], [1, 0, 1], [1, 1, 0], [1, 1, 1]]

/-- Nodal values that are at most `m` units. -/
def tagField (m : ℕ) (idx : List Int) : Res (Option Tag) := if idx ∈ corners then .ok (some (.grid 1 0 m)) else .ub

/-- The value of a field is computed exactly. -/
def valueKnown (F : FloatFormat) (S m p : ℕ) : Bool :=
  match ParentElement.value (tagArith F S) (tagElement F S 3) (tagPoint p) (tagField m) with
  | .ok (some _) => true
  | _ => false

/-- The gradient of a field is computed exactly. -/
def gradientKnown (F : FloatFormat) (S m p : ℕ) : Bool :=
  match ParentElement.gradient (tagArith F S) (tagElement F S 3) (tagPoint p) (tagField m) with
  | .ok l => l.all Option.isSome
  | _ => false

theorem jacobian_known_float : ∀ p < 10, ∀ a b c : Bool, jacobianKnown binary32 30 (2 ^ (19 - 2 * p) - 1) p ⟨a, b, c⟩ = true := by decide +kernel

theorem jacobian_known_double : ∀ p < 16, ∀ a b c : Bool, jacobianKnown binary64 300 (2 ^ (48 - 2 * p) - 1) p ⟨a, b, c⟩ = true := by decide +kernel

theorem det_known_float : ∀ a b c : Bool, detKnown binary32 30 140 ⟨a, b, c⟩ = true := by decide +kernel

theorem det_known_double : ∀ a b c : Bool, detKnown binary64 300 114500 ⟨a, b, c⟩ = true := by decide +kernel

theorem value_known_float : ∀ p < 6, valueKnown binary32 30 (2 ^ (18 - 3 * p) - 1) p = true := by decide +kernel

theorem value_known_double : ∀ p < 16, valueKnown binary64 300 (2 ^ (47 - 3 * p) - 1) p = true := by decide +kernel

theorem gradient_known_float : ∀ p < 10, gradientKnown binary32 30 (2 ^ (19 - 2 * p) - 1) p = true := by decide +kernel

theorem gradient_known_double : ∀ p < 16, gradientKnown binary64 300 (2 ^ (48 - 2 * p) - 1) p = true := by decide +kernel

end Verif.Lemmas
