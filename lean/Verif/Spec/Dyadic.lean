import Verif.Spec.Mixed

/-! # Data that need no rounding -/

namespace Verif.Spec

/-- A point of `[-1,1]` with at most `p` binary places. -/
def BinaryPoint (p : ℕ) (x : ℝ) : Prop := ∃ k : ℤ, x = k / 2 ^ p ∧ |k| ≤ 2 ^ p

/-- A whole number of units `2^s`, of magnitude at most `m` units. -/
def InUnits (s : ℤ) (m : ℕ) (x : ℝ) : Prop := ∃ k : ℤ, x = k * 2 ^ s ∧ |k| ≤ m

/-- Exponents of units allowed here. -/
def unitRange : RealType → ℕ
  | .float => 30
  | .double => 300

/-- Room for values: units of the nodal values times `8^p`. -/
def valueRoom : RealType → ℕ
  | .float => 2 ^ 18
  | .double => 2 ^ 47

/-- Room for gradients and Jacobians: units of the nodal values times `4^p`. -/
def gradientRoom : RealType → ℕ
  | .float => 2 ^ 19
  | .double => 2 ^ 48

/-- Room for determinants: units of the entries of the Jacobian. -/
def detRoom : RealType → ℕ
  | .float => 140
  | .double => 114500

/-- Room for cells on a lattice: units of half the edge of a cube that contains the cell. -/
def latticeRoom : RealType → ℕ
  | .float => 17
  | .double => 14300

/-- The interpolant of values at the vertices of the cube that is linear in each coordinate. -/
noncomputable def trilinear (y : (Fin 3 → Fin 2) → ℝ) (x : Fin 3 → ℝ) : ℝ :=
  ∑ idx : Fin 3 → Fin 2, (∏ k, if idx k = 0 then (1 - x k) / 2 else (1 + x k) / 2) * y idx

end Verif.Spec
