import Verif.Lemmas.ConstantFloat
import Verif.Lemmas.Inverse
import Mathlib.GroupTheory.Perm.Basic
import Mathlib.Data.Matrix.Basic

/-! # A matrix and a cell whose determinant changes with the order of the axes -/

namespace Verif.Lemmas

open Verif.Spec Verif.MathUtilities

/-- The matrix. -/
def exchangeMatrix : RealType → Matrix (Fin 3) (Fin 3) ℚ
  | .float => !![125, 467, 429; 485, 347, 13; 161, 4, 345]
  | .double => !![2091625, 3922880, 3422777; 1487692, 272854, 215398; 658368, 4057671, 3738677]

/-- Its determinant, evaluated. -/
def knownDet (T : RealType) (M : Matrix (Fin 3) (Fin 3) ℚ) : Option ℚ :=
  match inverseNative (evalArith T.format) (matMem (M.map some)) with
  | .ok (some q, _) => some q
  | _ => none

/-- Two determinants are known and differ not only in sign. -/
def detsDiffer (p q : Option ℚ) : Bool :=
  match p, q with
  | some p, some q => decide (|p| ≠ |q|)
  | _, _ => false

theorem dets_differ (T : RealType) : ∀ σ τ : Equiv.Perm (Fin 3), ¬ (σ 2 = 2 ∧ τ 0 = 0) →
    detsDiffer (knownDet T (exchangeMatrix T)) (knownDet T ((exchangeMatrix T).submatrix σ τ)) = true := by
  cases T <;> decide +kernel

theorem dets_differ_transposed (T : RealType) : ∀ σ τ : Equiv.Perm (Fin 3),
    detsDiffer (knownDet T (exchangeMatrix T)) (knownDet T ((exchangeMatrix T).transpose.submatrix σ τ)) = true := by
  cases T <;> decide +kernel

private theorem some_rel : ∀ l : List ℚ, List.Forall₂ Knows (l.map some) (l.map fun q : ℚ => Flt.ofReal q)
  | [] => .nil
  | q :: l => .cons (knows_some q) (some_rel l)

theorem knownDet_sound {T : RealType} {M : Matrix (Fin 3) (Fin 3) ℚ} {q : ℚ} (h : knownDet T M = some q) :
    ∃ after, inverseNative (floatArith T.format) (matMem (M.map fun q : ℚ => Flt.ofReal q)) = .ok (Flt.ofReal q, after) := by
  have hl : List.Forall₂ Knows (matMem (M.map some)) (matMem (M.map fun q : ℚ => Flt.ofReal q)) := by
    have := some_rel (matMem M)
    rw [matMem_three] at this
    exact this
  have hr := inverse_native_rel (eval_rel T.format) hl
  unfold knownDet at h
  split at h
  · next q' after e =>
    cases h
    rcases hr _ e with ⟨⟨det, after'⟩, h1, h2, -⟩ | ⟨hf, -⟩
    · exact ⟨after', by rw [h1, show det = Flt.ofReal q from h2 q rfl]⟩
    · exact hf.elim
  · cases h

theorem detsDiffer_spec {p q : Option ℚ} (h : detsDiffer p q = true) : ∃ x y, p = some x ∧ q = some y ∧ |x| ≠ |y| := by
  unfold detsDiffer at h
  split at h
  · exact ⟨_, _, rfl, rfl, of_decide_eq_true h⟩
  · cases h

end Verif.Lemmas
