import Verif.Spec.ExchangeFloat
import Verif.Lemmas.MirrorFloat
import Verif.Lemmas.Inverse
import Verif.Lemmas.FloatInverse

/-! # Exchanging rows and columns of a matrix -/

namespace Verif.Lemmas

open Verif.Spec Verif.MathUtilities

variable {F : FloatFormat}

theorem sub_swap (a b : Flt) : Flt.sub F a b = (Flt.sub F b a).neg := by
  unfold Flt.sub
  rw [← add_neg_neg, neg_neg_flt, add_flt_comm]

/-- A difference of two products. -/
noncomputable def cross (F : FloatFormat) (a b c d : Flt) : Flt := Flt.sub F (Flt.mul F a b) (Flt.mul F c d)

theorem cross_swap (a b c d : Flt) : cross F a b c d = (cross F c d a b).neg := sub_swap _ _

theorem cross_comm (a b c d : Flt) : cross F a b c d = cross F b a d c := by
  unfold cross
  rw [mul_flt_comm a, mul_flt_comm c]

/-- The adjugate, as it is computed. -/
noncomputable def crosses (F : FloatFormat) (N : Matrix (Fin 3) (Fin 3) Flt) : Matrix (Fin 3) (Fin 3) Flt :=
  !![cross F (N 1 1) (N 2 2) (N 1 2) (N 2 1), cross F (N 0 2) (N 2 1) (N 0 1) (N 2 2), cross F (N 0 1) (N 1 2) (N 0 2) (N 1 1);
    cross F (N 1 2) (N 2 0) (N 1 0) (N 2 2), cross F (N 0 0) (N 2 2) (N 0 2) (N 2 0), cross F (N 0 2) (N 1 0) (N 0 0) (N 1 2);
    cross F (N 1 0) (N 2 1) (N 1 1) (N 2 0), cross F (N 0 1) (N 2 0) (N 0 0) (N 2 1), cross F (N 0 0) (N 1 1) (N 0 1) (N 1 0)]

/-- The determinant, as it is computed. -/
noncomputable def expansion (F : FloatFormat) (N : Matrix (Fin 3) (Fin 3) Flt) : Flt :=
  Flt.add F (Flt.add F (Flt.mul F (N 0 0) (crosses F N 0 0)) (Flt.mul F (N 1 0) (crosses F N 0 1))) (Flt.mul F (N 2 0) (crosses F N 0 2))

theorem inverse_form (N : Matrix (Fin 3) (Fin 3) Flt) : inverseNative (floatArith F) (matMem N)
    = .ok (expansion F N, Flt.div F ((floatArith F).lit 1) (expansion F N) >>= fun q => .ok (matMem fun i j => Flt.mul F (crosses F N i j) q)) := rfl

/-- What `inverse` leaves for the matrices with and without the exchange. -/
structure Exchanges (F : FloatFormat) (σ τ : Equiv.Perm (Fin 3)) : Prop where
  det : ∀ N, expansion F (N.submatrix σ τ) = signedFlt (Equiv.Perm.sign σ * Equiv.Perm.sign τ) (expansion F N)
  entries : ∀ N i j, crosses F (N.submatrix σ τ) i j = signedFlt (Equiv.Perm.sign σ * Equiv.Perm.sign τ) (crosses F N (τ i) (σ j))

theorem signed_mul (s t : ℤˣ) (a : Flt) : signedFlt s (signedFlt t a) = signedFlt (s * t) a := by
  rcases Int.units_eq_one_or s with rfl | rfl <;> rcases Int.units_eq_one_or t with rfl | rfl <;>
    simp [signedFlt, neg_neg_flt]

theorem exchanges_one : Exchanges F 1 1 := by
  constructor <;> intros <;> rw [Equiv.Perm.sign_one, mul_one, signedFlt, if_pos rfl] <;> rfl

theorem Exchanges.trans {σ τ σ' τ' : Equiv.Perm (Fin 3)} (h : Exchanges F σ τ) (h' : Exchanges F σ' τ') : Exchanges F (σ * σ') (τ * τ') := by
  have e : Equiv.Perm.sign σ' * Equiv.Perm.sign τ' * (Equiv.Perm.sign σ * Equiv.Perm.sign τ)
      = Equiv.Perm.sign (σ * σ') * Equiv.Perm.sign (τ * τ') := by
    rw [Equiv.Perm.sign_mul, Equiv.Perm.sign_mul]
    exact (mul_comm _ _).trans (mul_mul_mul_comm _ _ _ _)
  constructor
  · intro N
    rw [← e, ← signed_mul, ← h.det, ← h'.det]
    rfl
  · intro N i j
    rw [← e, ← signed_mul]
    exact (h'.entries (N.submatrix σ τ) i j).trans (congrArg _ (h.entries N _ _))

private theorem signed_swap {i j : Fin 3} (h : i ≠ j) (a : Flt) :
    signedFlt (Equiv.Perm.sign (Equiv.swap i j)) a = a.neg := by
  rw [Equiv.Perm.sign_swap h, signedFlt, if_neg (by decide)]

theorem exchanges_rows : Exchanges F (Equiv.swap 0 1) 1 := by
  have h : ∀ (N : Matrix (Fin 3) (Fin 3) Flt) i j, crosses F (N.submatrix (Equiv.swap 0 1) (1 : Equiv.Perm (Fin 3))) i j
      = (crosses F N i (Equiv.swap 0 1 j)).neg := by
    intro N i j
    fin_cases i <;> fin_cases j
    all_goals first | exact cross_swap _ _ _ _ | exact (cross_comm _ _ _ _).trans (cross_swap _ _ _ _)
  constructor
  · intro N
    rw [Equiv.Perm.sign_one, mul_one, signed_swap (by decide), expansion, h, h, h, mul_neg_right, mul_neg_right, mul_neg_right, add_neg_neg, add_neg_neg,
      add_flt_comm (Flt.mul _ _ _) (Flt.mul _ _ _)]
    rfl
  · intro N i j
    rw [Equiv.Perm.sign_one, mul_one, signed_swap (by decide), h]
    rfl

theorem exchanges_columns : Exchanges F 1 (Equiv.swap 1 2) := by
  have h : ∀ (N : Matrix (Fin 3) (Fin 3) Flt) i j, crosses F (N.submatrix (1 : Equiv.Perm (Fin 3)) (Equiv.swap 1 2)) i j
      = (crosses F N (Equiv.swap 1 2 i) j).neg := by
    intro N i j
    fin_cases i <;> fin_cases j
    all_goals exact cross_swap _ _ _ _
  constructor
  · intro N
    rw [Equiv.Perm.sign_one, one_mul, signed_swap (by decide), expansion, h, h, h, mul_neg_right, mul_neg_right, mul_neg_right, add_neg_neg, add_neg_neg]
    rfl
  · intro N i j
    rw [Equiv.Perm.sign_one, one_mul, signed_swap (by decide), h]
    rfl

theorem last_fixed : ∀ σ : Equiv.Perm (Fin 3), σ 2 = 2 → σ = 1 ∨ σ = Equiv.swap 0 1 := by decide

theorem first_fixed : ∀ τ : Equiv.Perm (Fin 3), τ 0 = 0 → τ = 1 ∨ τ = Equiv.swap 1 2 := by decide

theorem exchanges {σ τ : Equiv.Perm (Fin 3)} (hσ : σ 2 = 2) (hτ : τ 0 = 0) : Exchanges F σ τ := by
  have h : Exchanges F σ 1 := by
    rcases last_fixed σ hσ with rfl | rfl
    · exact exchanges_one
    · exact exchanges_rows
  have h' : Exchanges F 1 τ := by
    rcases first_fixed τ hτ with rfl | rfl
    · exact exchanges_one
    · exact exchanges_columns
  have := h.trans h'
  rwa [mul_one, one_mul] at this

private theorem div_neg_iff {a b z : Flt} : Flt.div F a b.neg = .ok z ↔ Flt.div F a b = .ok z.neg :=
  ⟨fun h => by have := div_neg_right h; rwa [neg_neg_flt] at this, fun h => by have := div_neg_right h; rwa [neg_neg_flt] at this⟩

/-- Dividing by a number with another sign. -/
theorem div_signed {a b z : Flt} (s : ℤˣ) : Flt.div F a (signedFlt s b) = .ok z ↔ Flt.div F a b = .ok (signedFlt s z) := by
  rcases Int.units_eq_one_or s with rfl | rfl
  · simp [signedFlt]
  · simpa [signedFlt] using div_neg_iff

theorem mul_signed (a b : Flt) (s : ℤˣ) : Flt.mul F (signedFlt s a) (signedFlt s b) = Flt.mul F a b := by
  rcases Int.units_eq_one_or s with rfl | rfl
  · simp [signedFlt]
  · simpa [signedFlt] using mul_neg_neg a b

theorem signed_signed (s : ℤˣ) (a : Flt) : signedFlt s (signedFlt s a) = a := by
  rw [signed_mul, Int.units_mul_self]
  rfl

theorem Exchanges.inverse {σ τ : Equiv.Perm (Fin 3)} (h : Exchanges F σ τ) (N : Matrix (Fin 3) (Fin 3) Flt) :
    ∃ (det : Flt) (after after' : Res (List Flt)), inverseNative (floatArith F) (matMem N) = .ok (det, after) ∧
      inverseNative (floatArith F) (matMem (N.submatrix σ τ)) = .ok (signedFlt (Equiv.Perm.sign σ * Equiv.Perm.sign τ) det, after') ∧
      ((∃ l, after = .ok l) ↔ ∃ l, after' = .ok l) ∧
      ∀ l l', after = .ok l → after' = .ok l' → ∃ Q : Matrix (Fin 3) (Fin 3) Flt, l = matMem Q ∧ l' = matMem (Q.submatrix τ σ) := by
  obtain ⟨s, hs⟩ : ∃ s, s = Equiv.Perm.sign σ * Equiv.Perm.sign τ := ⟨_, rfl⟩
  have hd := h.det N
  have he := h.entries N
  rw [← hs] at hd ⊢
  simp only [← hs] at he
  rw [inverse_form, inverse_form, hd]
  refine ⟨_, _, _, rfl, rfl, ⟨?_, ?_⟩, ?_⟩
  · rintro ⟨l, hl⟩
    obtain ⟨q, hq, -⟩ := Res.bind_eq_ok.1 hl
    refine ⟨_, Res.bind_eq_ok.2 ⟨signedFlt s q, (div_signed s).2 ?_, rfl⟩⟩
    rw [signed_signed, hq]
  · rintro ⟨l, hl⟩
    obtain ⟨q, hq, -⟩ := Res.bind_eq_ok.1 hl
    exact ⟨_, Res.bind_eq_ok.2 ⟨_, (div_signed s).1 hq, rfl⟩⟩
  · intro l l' hl hl'
    obtain ⟨q, hq, e⟩ := Res.bind_eq_ok.1 hl
    obtain ⟨q', hq', e'⟩ := Res.bind_eq_ok.1 hl'
    have := (div_signed s).1 hq'
    rw [hq] at this
    obtain rfl := Res.ok.inj this
    refine ⟨_, (Res.ok.inj e).symm, (Res.ok.inj e').symm.trans (congrArg _ ?_)⟩
    funext i j
    rw [he, ← signed_signed s q', mul_signed, signed_signed]
    rfl

end Verif.Lemmas
