import Verif.Model.SignedZero
import Verif.Spec.Mixed

/-! # Numbers with signed zeros -/

namespace Verif.Spec

/-- The number `s` without the sign it may have as a zero. -/
def unsigned (s : SFlt) : Flt :=
  match s.datum with
  | .finite _ x => ⟨.finite x, s.raised⟩
  | .inf n => ⟨.inf n, s.raised⟩
  | .nan => ⟨.nan, s.raised⟩

/-- A zero of either sign. -/
def IsZero (s : SFlt) : Prop := ∃ n, s.datum = .finite n 0

/-- How C++ evaluates expressions for this `REAL_TYPE`, with signed zeros. -/
noncomputable def RealType.signed : RealType → Mixed SFlt SFlt
  | .float => signedFloatMixed
  | .double => signedDoubleMixed

/-- `e` and `e'` are one element class for `REAL_TYPE = T`, in arithmetic without and with signed zeros: in direction
`k` a Lagrange basis of order `order k`, from 1 to 8, on points of a shipped family. -/
structure SameElement (T : RealType) {d : ℕ} (order : Fin d → ℕ) (e : Element Flt) (e' : Element SFlt) : Prop where
  dims : 0 < d
  shape : e.shapeDims = .ok d ∧ e'.shapeDims = .ok d
  orders : ∀ k, 1 ≤ order k ∧ order k ≤ 8
  bases : ∃ (fam : Fin d → Family) (b : Fin d → Basis Flt) (b' : Fin d → Basis SFlt),
    e.bases = List.ofFn b ∧ e'.bases = List.ofFn b' ∧ ∀ k, (fam k).Supports (order k) ∧
    T.arith.lagrangeBasis ((fam k).spacingIn T.arith) (order k) = .ok (b k) ∧
    T.signed.lagrangeBasis ((fam k).spacingIn T.signed) (order k) = .ok (b' k)

end Verif.Spec
