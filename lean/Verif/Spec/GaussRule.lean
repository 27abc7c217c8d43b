import Verif.Spec.Mixed
import Mathlib.MeasureTheory.Integral.IntervalIntegral.Basic

/-! # The Gauss rules themselves -/

namespace Verif.Spec

open Polynomial

/-- The points `x` and weights `w` are those of the rule with `n` points: the points are the roots of its
polynomial, in increasing order, and the rule integrates every polynomial up to its degree without error. -/
structure ExactRule (r : Rule) (n : ℕ) (x w : Fin n → ℝ) : Prop where
  increasing : StrictMono x
  points : ∀ t, (r.nodePoly n).eval t = 0 ↔ ∃ i, t = x i
  exact : ∀ p : ℝ[X], p.natDegree ≤ r.degree n → ∑ i, w i * p.eval (x i) = ∫ t in (-1 : ℝ)..1, p.eval t

/-- `a` is `b` up to `k` units roundoff of the `REAL_TYPE`, 2^-24 or 2^-53, relative to `b`. -/
def RealType.Within (T : RealType) (k : ℝ) (a b : ℝ) : Prop := |a - b| ≤ k * (1 / 2) ^ (T.format.fracBits + 1) * |b|

/-- `a` is `b` up to one unit roundoff. -/
def RealType.Accurate (T : RealType) (a b : ℝ) : Prop := T.Within 1 a b

/-- The rule, its literals read as real numbers. -/
def Rule.quadrature {R : Type} (A : Arith R) : Rule → Int → Quadrature R
  | .gaussLegendre => quadratureGaussLegendre A
  | .gaussLobatto => quadratureGaussLobatto A

/-- Every point and weight that the compile-time accessors of the `REAL_TYPE` give is accurate. -/
def RealType.AccurateRule (T : RealType) (r : Rule) (n : ℕ) : Prop :=
  ∀ x w : Fin n → ℝ, ExactRule r n x w → ∀ i : Fin n, ∃ c v : ℝ,
    (r.quadratureIn T.arith n).coordCT (i : ℕ) = .ok (Flt.ofReal c) ∧
    (r.quadratureIn T.arith n).weightCT (i : ℕ) = .ok (Flt.ofReal v) ∧ T.Accurate c (x i) ∧ T.Accurate v (w i)

end Verif.Spec
