import Verif.Spec.Float
import Verif.Spec.Mapping
import Verif.Spec.Mixed
import Mathlib.GroupTheory.Perm.Sign

/-! # Exchanging rows and columns of a matrix -/

namespace Verif.Spec

/-- `a` or `-a`. -/
def signedFlt (s : ℤˣ) (a : Flt) : Flt := if s = 1 then a else a.neg

/-- Binary digits of the entries of the matrices that show the difference. -/
def exchangeBits : RealType → ℕ
  | .float => 9
  | .double => 22

/-- `inverse( m, det )` respects an exchange of the rows by `σ` and of the columns by `τ`: it leaves in `det` the same number, with the
sign of the exchange, and in the matrix the same inverse, with its columns exchanged by `σ` and its rows by `τ`; there is an inverse
if and only if there was one. -/
def RespectsExchange (F : FloatFormat) (σ τ : Equiv.Perm (Fin 3)) : Prop :=
  ∀ (N : Matrix (Fin 3) (Fin 3) Flt) (m m' : List Flt), HoldsNative m N → HoldsNative m' (N.submatrix σ τ) →
    ∃ (det : Flt) (after after' : Res (List Flt)), MathUtilities.inverseNative (floatArith F) m = .ok (det, after) ∧
      MathUtilities.inverseNative (floatArith F) m' = .ok (signedFlt (Equiv.Perm.sign σ * Equiv.Perm.sign τ) det, after') ∧
      ((∃ l, after = .ok l) ↔ ∃ l, after' = .ok l) ∧
      ∀ l l', after = .ok l → after' = .ok l' → ∃ Q : Matrix (Fin 3) (Fin 3) Flt, HoldsNative l Q ∧ HoldsNative l' (Q.submatrix τ σ)

end Verif.Spec
