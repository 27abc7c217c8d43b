import Verif.Spec.Degenerate
import Verif.Lemmas.ExchangeFloat

/-! # Determinants of matrices with dependent rows or columns -/

namespace Verif.Lemmas

open Verif.Spec Verif.MathUtilities

variable {F : FloatFormat}

theorem mul_finite_flt {a b : Flt} {z : ℝ} (h : (Flt.mul F a b).datum = .finite z) : ∃ x y, a.datum = .finite x ∧ b.datum = .finite y := by
  unfold Flt.mul at h
  cases ha : a.datum <;> cases hb : b.datum <;> simp only [ha, hb] at h
  · exact ⟨_, _, rfl, rfl⟩
  all_goals first | (split at h <;> cases h) | cases h

theorem add_finite_flt {a b : Flt} {z : ℝ} (h : (Flt.add F a b).datum = .finite z) : ∃ x y, a.datum = .finite x ∧ b.datum = .finite y := by
  unfold Flt.add at h
  cases ha : a.datum <;> cases hb : b.datum <;> simp only [ha, hb] at h
  · exact ⟨_, _, rfl, rfl⟩
  all_goals first | (split at h <;> cases h) | cases h

theorem round_zero_datum (r : Bool) : (Flt.round F r 0).datum = .finite 0 := by
  have := round_held (represents_zero F) r
  rw [this]

theorem vanish_add {a b : Flt} (ha : ZeroIfFinite a) (hb : ZeroIfFinite b) : ZeroIfFinite (Flt.add F a b) := by
  intro z h
  obtain ⟨x, y, hx, hy⟩ := add_finite_flt h
  unfold Flt.add at h
  rw [hx, hy, ha x hx, hb y hy] at h
  simp only [_root_.add_zero, round_zero_datum] at h
  cases h
  rfl

theorem vanish_mul_left {a b : Flt} (ha : ZeroIfFinite a) : ZeroIfFinite (Flt.mul F a b) := by
  intro z h
  obtain ⟨x, y, hx, hy⟩ := mul_finite_flt h
  unfold Flt.mul at h
  rw [hx, hy, ha x hx] at h
  simp only [MulZeroClass.zero_mul, round_zero_datum] at h
  cases h
  rfl

theorem vanish_mul_right {a b : Flt} (hb : ZeroIfFinite b) : ZeroIfFinite (Flt.mul F a b) := by
  rw [mul_flt_comm]
  exact vanish_mul_left hb

theorem vanish_neg {a : Flt} (ha : ZeroIfFinite a) : ZeroIfFinite a.neg := by
  intro z h
  unfold Flt.neg at h
  cases hx : a.datum with
  | finite x =>
    simp only [hx] at h
    cases h
    rw [ha x hx, _root_.neg_zero]
  | inf s => simp only [hx] at h; cases h
  | nan => simp only [hx] at h; cases h

theorem vanish_sub {a b : Flt} (ha : ZeroIfFinite a) (hb : ZeroIfFinite b) : ZeroIfFinite (Flt.sub F a b) := vanish_add ha (vanish_neg hb)

theorem vanish_sub_self (a : Flt) : ZeroIfFinite (Flt.sub F a a) := by
  intro z h
  unfold Flt.sub at h
  obtain ⟨x, y, hx, hy⟩ := add_finite_flt h
  unfold Flt.neg at hy h
  simp only [hx] at hy h
  unfold Flt.add at h
  simp only [hx, add_neg_cancel, round_zero_datum] at h
  cases h
  rfl

/-- Something, and then its opposite. -/
theorem vanish_cancel {a y : Flt} (ha : ZeroIfFinite a) (hy : Held F y) : ZeroIfFinite (Flt.add F (Flt.add F a y) y.neg) := by
  intro z h
  obtain ⟨u, v, hu, -⟩ := add_finite_flt h
  obtain ⟨x, w, hx, hw⟩ := add_finite_flt hu
  have h1 : (Flt.add F a y).datum = .finite w := by
    unfold Flt.add
    rw [hx, hw, ha x hx]
    simp only [_root_.zero_add]
    exact congrArg Flt.datum (round_held (hy w hw) _)
  obtain ⟨s, hs⟩ : ∃ s, s = Flt.add F a y := ⟨_, rfl⟩
  rw [← hs] at h h1
  unfold Flt.add at h
  rw [h1, show y.neg.datum = .finite (-w) by unfold Flt.neg; rw [hw]] at h
  simp only [add_neg_cancel, round_zero_datum] at h
  cases h
  rfl

theorem cross_zero (a b : Flt) : ZeroIfFinite (cross F a b b a) := by
  unfold cross
  rw [mul_flt_comm b a]
  exact vanish_sub_self _

theorem cross_zero_left {a b c d : Flt} (h : ZeroIfFinite a ∨ ZeroIfFinite b) (h' : ZeroIfFinite c ∨ ZeroIfFinite d) : ZeroIfFinite (cross F a b c d) :=
  vanish_sub (h.elim vanish_mul_left vanish_mul_right) (h'.elim vanish_mul_left vanish_mul_right)

theorem vanish_datum {a : Flt} (h : a.datum = .finite 0) : ZeroIfFinite a := fun x hx => by
  rw [h] at hx
  cases hx
  rfl

/-- A row of zeros. -/
theorem expansion_zero_row {N : Matrix (Fin 3) (Fin 3) Flt} (i : Fin 3) (h : ∀ k, ZeroIfFinite (N i k)) : ZeroIfFinite (expansion F N) := by
  unfold expansion
  fin_cases i
  · exact vanish_add (vanish_add (vanish_mul_left (h 0)) (vanish_mul_right (cross_zero_left (.inl (h 2)) (.inl (h 1)))))
      (vanish_mul_right (cross_zero_left (.inl (h 1)) (.inl (h 2))))
  · exact vanish_add (vanish_add (vanish_mul_right (cross_zero_left (.inl (h 1)) (.inl (h 2)))) (vanish_mul_left (h 0)))
      (vanish_mul_right (cross_zero_left (.inr (h 2)) (.inr (h 1))))
  · exact vanish_add (vanish_add (vanish_mul_right (cross_zero_left (.inr (h 2)) (.inr (h 1)))) (vanish_mul_right (cross_zero_left (.inr (h 1)) (.inr (h 2)))))
      (vanish_mul_left (h 0))

/-- A column of zeros. -/
theorem expansion_zero_column {N : Matrix (Fin 3) (Fin 3) Flt} (k : Fin 3) (h : ∀ i, ZeroIfFinite (N i k)) : ZeroIfFinite (expansion F N) := by
  unfold expansion
  fin_cases k
  · exact vanish_add (vanish_add (vanish_mul_left (h 0)) (vanish_mul_left (h 1))) (vanish_mul_left (h 2))
  · exact vanish_add (vanish_add (vanish_mul_right (cross_zero_left (.inl (h 1)) (.inr (h 2)))) (vanish_mul_right (cross_zero_left (.inr (h 2)) (.inl (h 0)))))
      (vanish_mul_right (cross_zero_left (.inl (h 0)) (.inr (h 1))))
  · exact vanish_add (vanish_add (vanish_mul_right (cross_zero_left (.inr (h 2)) (.inl (h 1)))) (vanish_mul_right (cross_zero_left (.inl (h 0)) (.inr (h 2)))))
      (vanish_mul_right (cross_zero_left (.inr (h 1)) (.inl (h 0))))

/-- The last two columns equal. -/
theorem expansion_equal_columns {N : Matrix (Fin 3) (Fin 3) Flt} (h : ∀ i, N i 1 = N i 2) : ZeroIfFinite (expansion F N) := by
  have hc : ∀ j, ZeroIfFinite (crosses F N 0 j) := by
    intro j
    fin_cases j
    · show ZeroIfFinite (cross F (N 1 1) (N 2 2) (N 1 2) (N 2 1))
      rw [h 1, h 2, cross]
      exact vanish_sub_self _
    · show ZeroIfFinite (cross F (N 0 2) (N 2 1) (N 0 1) (N 2 2))
      rw [h 0, h 2, cross]
      exact vanish_sub_self _
    · show ZeroIfFinite (cross F (N 0 1) (N 1 2) (N 0 2) (N 1 1))
      rw [h 0, h 1, cross]
      exact vanish_sub_self _
  exact vanish_add (vanish_add (vanish_mul_right (hc 0)) (vanish_mul_right (hc 1))) (vanish_mul_right (hc 2))

/-- Two equal rows. -/
theorem expansion_equal_rows {N : Matrix (Fin 3) (Fin 3) Flt} {i j : Fin 3} (hij : i ≠ j) (h : ∀ k, N i k = N j k) : ZeroIfFinite (expansion F N) := by
  have h01 : (∀ k, N 0 k = N 1 k) → ZeroIfFinite (expansion F N) := by
    intro h
    have e : crosses F N 0 1 = (crosses F N 0 0).neg := by
      show cross F (N 0 2) (N 2 1) (N 0 1) (N 2 2) = (cross F (N 1 1) (N 2 2) (N 1 2) (N 2 1)).neg
      rw [h 2, h 1]
      exact cross_swap _ _ _ _
    have z : ZeroIfFinite (crosses F N 0 2) := by
      show ZeroIfFinite (cross F (N 0 1) (N 1 2) (N 0 2) (N 1 1))
      rw [h 1, h 2]
      exact cross_zero _ _
    unfold expansion
    rw [e, h 0, mul_neg_right]
    refine vanish_add ?_ (vanish_mul_right z)
    exact vanish_sub_self _
  have h12 : (∀ k, N 1 k = N 2 k) → ZeroIfFinite (expansion F N) := by
    intro h
    have e : crosses F N 0 2 = (crosses F N 0 1).neg := by
      show cross F (N 0 1) (N 1 2) (N 0 2) (N 1 1) = (cross F (N 0 2) (N 2 1) (N 0 1) (N 2 2)).neg
      rw [h 2, h 1]
      exact cross_swap _ _ _ _
    have z : ZeroIfFinite (crosses F N 0 0) := by
      show ZeroIfFinite (cross F (N 1 1) (N 2 2) (N 1 2) (N 2 1))
      rw [h 1, h 2]
      exact cross_zero _ _
    unfold expansion
    rw [e, h 0, mul_neg_right]
    exact vanish_cancel (vanish_mul_right z) (mul_held _ _)
  have h02 : (∀ k, N 0 k = N 2 k) → ZeroIfFinite (expansion F N) := by
    intro h
    have e : crosses F N 0 2 = (crosses F N 0 0).neg := by
      show cross F (N 0 1) (N 1 2) (N 0 2) (N 1 1) = (cross F (N 1 1) (N 2 2) (N 1 2) (N 2 1)).neg
      rw [h 2, h 1, cross_comm (N 2 1)]
      exact cross_swap _ _ _ _
    have z : ZeroIfFinite (crosses F N 0 1) := by
      show ZeroIfFinite (cross F (N 0 2) (N 2 1) (N 0 1) (N 2 2))
      rw [h 1, h 2]
      exact cross_zero _ _
    unfold expansion
    rw [e, h 0, mul_neg_right, add_flt_comm (Flt.mul F (N 2 0) _)]
    exact vanish_cancel (vanish_mul_right z) (mul_held _ _)
  fin_cases i <;> fin_cases j <;> first
    | exact absurd rfl hij
    | exact h01 h
    | exact h12 h
    | exact h02 h
    | exact h01 fun k => (h k).symm
    | exact h12 fun k => (h k).symm
    | exact h02 fun k => (h k).symm

/-- One row with its signs changed. -/
theorem expansion_neg_row (N : Matrix (Fin 3) (Fin 3) Flt) (i : Fin 3) :
    expansion F (fun a b => if a = i then (N a b).neg else N a b) = (expansion F N).neg := by
  fin_cases i
  all_goals
    simp only [expansion, crosses, cross, Matrix.of_apply, Matrix.cons_val', Matrix.cons_val_zero, Matrix.cons_val_one, Matrix.cons_val, if_true, if_false,
      Fin.isValue, Fin.zero_eta, Fin.mk_one, Fin.reduceFinMk, Fin.reduceEq, one_ne_zero, zero_ne_one, mul_neg_left, mul_neg_right, sub_neg_neg, add_neg_neg]

/-- The last column with its signs changed. -/
theorem expansion_neg_column (N : Matrix (Fin 3) (Fin 3) Flt) :
    expansion F (fun a b => if b = 2 then (N a b).neg else N a b) = (expansion F N).neg := by
  simp only [expansion, crosses, cross, Matrix.of_apply, Matrix.cons_val', Matrix.cons_val_zero, Matrix.cons_val_one, Matrix.cons_val, if_true, if_false,
    Fin.isValue, Fin.reduceEq, mul_neg_left, mul_neg_right, sub_neg_neg, add_neg_neg]

theorem vanish_of_neg {a : Flt} (h : ZeroIfFinite a.neg) : ZeroIfFinite a := by
  have := vanish_neg h
  rwa [neg_neg_flt] at this

theorem expansion_rows {N : Matrix (Fin 3) (Fin 3) Flt} (h : (∃ i j, i ≠ j ∧ ((∀ k, N i k = N j k) ∨ ∀ k, N i k = (N j k).neg)) ∨
    ∃ i, ∀ k, ZeroIfFinite (N i k)) : ZeroIfFinite (expansion F N) := by
  rcases h with ⟨i, j, hij, h | h⟩ | ⟨i, h⟩
  · exact expansion_equal_rows hij h
  · refine vanish_of_neg ?_
    rw [← expansion_neg_row N j]
    refine expansion_equal_rows (i := i) (j := j) hij fun k => ?_
    rw [if_neg hij, if_pos rfl]
    exact h k
  · exact expansion_zero_row i h

theorem expansion_columns {N : Matrix (Fin 3) (Fin 3) Flt} (h : (∀ i, N i 1 = N i 2) ∨ (∀ i, N i 1 = (N i 2).neg) ∨ ∃ k, ∀ i, ZeroIfFinite (N i k)) :
    ZeroIfFinite (expansion F N) := by
  rcases h with h | h | ⟨k, h⟩
  · exact expansion_equal_columns h
  · refine vanish_of_neg ?_
    rw [← expansion_neg_column N]
    refine expansion_equal_columns fun i => ?_
    rw [if_neg (by decide), if_pos rfl]
    exact h i
  · exact expansion_zero_column k h

/-- A zero determinant leaves no inverse. -/
theorem inverse_degenerate {N : Matrix (Fin 3) (Fin 3) Flt} (h : ZeroIfFinite (expansion F N)) {l : ℝ} (hl : ((floatArith F).lit 1).datum = .finite l) :
    ∃ det after, inverseNative (floatArith F) (matMem N) = .ok (det, after) ∧ NoVolume det after := by
  refine ⟨_, _, inverse_form N, fun δ hδ => ?_⟩
  obtain rfl := h δ hδ
  refine ⟨rfl, ?_⟩
  have : Flt.div F ((floatArith F).lit 1) (expansion F N) = .nonfinite := by
    unfold Flt.div
    simp only [hl, hδ, if_true]
  rw [this]
  rfl

/-- A loop that treats entries separately. -/
theorem runCalls_folds {ι κ σ α : Type} {mk : (κ → α) → σ} {body : ι → σ → Res σ} {f : ι → κ → α → α}
    (hb : ∀ i r, body i (mk r) = .ok (mk fun k => f i k (r k))) :
    ∀ (L : List ι) (r : κ → α), runCalls L body (mk r) = .ok (mk fun k => L.foldl (fun a i => f i k a) (r k))
  | [], r => rfl
  | i :: L, r => by
    rw [runCalls_cons, hb, Res.ok_bind]
    exact runCalls_folds hb L _

end Verif.Lemmas
