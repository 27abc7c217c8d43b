import Verif.Spec.Float
import Verif.Spec.Mapping

/-! # Matrices and cells without volume -/

namespace Verif.Spec

/-- Zero, unless it is an infinity or NaN. -/
def ZeroIfFinite (a : Flt) : Prop := ∀ x, a.datum = .finite x → x = 0

/-- No volume is reported: unless it is an infinity or NaN, the determinant is zero, and then nothing finite is left as inverse. -/
def NoVolume (det : Flt) (after : Res (List Flt)) : Prop := ∀ δ, det.datum = .finite δ → δ = 0 ∧ after = .nonfinite

/-- Two of the rows are equal or opposite, or one is zero. -/
def DependentRows (N : Matrix (Fin 3) (Fin 3) Flt) : Prop :=
  (∃ i j, i ≠ j ∧ ((∀ k, N i k = N j k) ∨ ∀ k, N i k = (N j k).neg)) ∨ ∃ i, ∀ k, (N i k).datum = .finite 0

/-- The last two columns are equal or opposite, or one of the columns is zero. -/
def DependentColumns (N : Matrix (Fin 3) (Fin 3) Flt) : Prop :=
  (∀ i, N i 1 = N i 2) ∨ (∀ i, N i 1 = (N i 2).neg) ∨ ∃ k, ∀ i, (N i k).datum = .finite 0

/-- A cell in a plane through the origin: for all vertices two of the coordinates are equal or opposite, or one is zero. -/
def FlatThroughOrigin {ι : Type} (X : ι → Fin 3 → Flt) : Prop :=
  (∃ i j, i ≠ j ∧ ((∀ idx, X idx i = X idx j) ∨ ∀ idx, X idx i = (X idx j).neg)) ∨ ∃ i, ∀ idx, (X idx i).datum = .finite 0

end Verif.Spec
