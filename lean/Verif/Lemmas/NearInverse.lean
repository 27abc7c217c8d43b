import Verif.Lemmas.NearElement

/-! The 3x3 inverse in a binary format, with underflow. -/

namespace Verif.Lemmas

open Verif.Spec Verif.MathUtilities

variable {F : FloatFormat}

/-- Trading the cap against the number of underflows. -/
theorem Near.recap {k m m' : ℕ} {M C C' x : ℝ} {f : Flt} (h : Near F k m M C x f) (hM : M ≤ C') (hC : 1 ≤ C')
    (hm : (m : ℝ) * C ≤ m' * C') : Near F k m' M C' x f := by
  obtain ⟨y, hy, hb⟩ := h.ex
  refine ⟨h.le, hM, hC, y, hy, hb.trans ?_⟩
  have h0 : 0 ≤ (1 + unitRoundoff F) ^ k := by have := roundoff_nonneg F; positivity
  have h1 : (m : ℝ) * tiny F * C ≤ m' * tiny F * C' := by nlinarith [tiny_pos F]
  have := mul_le_mul_of_nonneg_left h1 h0
  nlinarith

/-- A difference of two products. -/
theorem cofactor_near {k m : ℕ} {C B₁ B₂ B₃ B₄ x₁ x₂ x₃ x₄ : ℝ} {a₁ a₂ a₃ a₄ : Flt} (h₁ : Near F k m B₁ C x₁ a₁)
    (h₂ : Near F k m B₂ C x₂ a₂) (h₃ : Near F k m B₃ C x₃ a₃) (h₄ : Near F k m B₄ C x₄ a₄)
    (hr : Room F (2 * k + 2) (3 * m + 2) (2 * C ^ 2)) :
    Near F (2 * k + 2) (3 * m + 2) (B₁ * B₂ + B₃ * B₄) (2 * C ^ 2) (x₁ * x₂ - x₃ * x₄)
      (Flt.sub F (Flt.mul F a₁ a₂) (Flt.mul F a₃ a₄)) := by
  have hC := h₁.one
  have hr1 : Room F (k + k + 1) (2 * m + m + 1) (C * C) := hr.mono (by omega) (by omega) (by nlinarith)
  have := (h₁.mul h₂ hr1).sub (h₃.mul h₄ hr1) (hr.mono (by omega) (by omega) (by nlinarith))
  exact this.mono (by omega) (by omega) (by nlinarith)

/-- What `inverse` leaves when its argument holds approximations `N` of the entries of `M`. -/
theorem inverse_near (hl : F.minExp ≤ 0) (hh : 0 ≤ F.maxExp) {k m : ℕ} {C Q : ℝ} {B M : Matrix (Fin 3) (Fin 3) ℝ}
    {N : Matrix (Fin 3) (Fin 3) Flt} (h : ∀ i j, Near F k m (B i j) C (M i j) (N i j)) (hQ : 1 ≤ Q)
    (hr : Room F (3 * k + 5) (6 * m + 6) (6 * C ^ 3)) (hrq : Room F (2 * k + 4) (6 * m + 6) (2 * C ^ 2 * Q)) :
    ∃ det after δ, inverseNative (floatArith F) (matMem N) = .ok (det, after) ∧ det.datum = .finite δ ∧
      Near F (3 * k + 5) (5 * m + 5) (detMagnitude B) (6 * C ^ 3) M.det det ∧
      (δ = 0 → after = .nonfinite) ∧
      (δ ≠ 0 → 1 / |δ| ≤ Q → ∃ P : Matrix (Fin 3) (Fin 3) Flt, after = .ok (matMem P) ∧
        ∀ i j, Near F (2 * k + 4) (6 * m + 6) (adjMagnitude B i j / |δ|) (2 * C ^ 2 * Q) (M.adjugate i j / δ) (P i j)) := by
  have hC : 1 ≤ C := (h 0 0).one
  have hC2 : 1 ≤ C ^ 2 := one_le_pow₀ hC
  have hC3 : C ^ 2 ≤ C ^ 3 := pow_le_pow_right₀ hC (by norm_num)
  have hB : ∀ i j, |B i j| = B i j := fun i j => abs_of_nonneg (h i j).mag_nonneg
  have hrc : Room F (2 * k + 2) (3 * m + 2) (2 * C ^ 2) := hr.mono (by omega) (by omega) (by linarith)
  have cof := fun (i j i' j' p q p' q' : Fin 3) => cofactor_near (h i j) (h i' j') (h p q) (h p' q') hrc
  obtain ⟨det, hdet⟩ : ∃ det, det = Flt.add F (Flt.add F
      (Flt.mul F (N 0 0) (Flt.sub F (Flt.mul F (N 1 1) (N 2 2)) (Flt.mul F (N 1 2) (N 2 1))))
      (Flt.mul F (N 1 0) (Flt.sub F (Flt.mul F (N 0 2) (N 2 1)) (Flt.mul F (N 0 1) (N 2 2)))))
      (Flt.mul F (N 2 0) (Flt.sub F (Flt.mul F (N 0 1) (N 1 2)) (Flt.mul F (N 0 2) (N 1 1)))) := ⟨_, rfl⟩
  have e := inverseNative_eq (floatArith F) (N 0 0) (N 0 1) (N 0 2) (N 1 0) (N 1 1) (N 1 2) (N 2 0) (N 2 1) (N 2 2)
  simp only [floatArith] at e
  rw [← hdet] at e
  have hd : Near F (3 * k + 5) (5 * m + 5) (detMagnitude B) (6 * C ^ 3) M.det det := by
    have e1 : M.det = M 0 0 * (M 1 1 * M 2 2 - M 1 2 * M 2 1) + M 1 0 * (M 0 2 * M 2 1 - M 0 1 * M 2 2)
        + M 2 0 * (M 0 1 * M 1 2 - M 0 2 * M 1 1) := by
      rw [Matrix.det_fin_three]; ring
    have e2 : detMagnitude B = B 0 0 * (B 1 1 * B 2 2 + B 1 2 * B 2 1)
        + B 1 0 * (B 0 2 * B 2 1 + B 0 1 * B 2 2) + B 2 0 * (B 0 1 * B 1 2 + B 0 2 * B 1 1) := by
      rw [detMagnitude_three]; simp only [hB]; ring
    rw [e1, e2, hdet]
    have hrt : Room F (k + (2 * k + 2) + 1) (2 * m + (3 * m + 2) + 1) (C * (2 * C ^ 2)) :=
      hr.mono (by omega) (by omega) (by nlinarith)
    have h1 := (h 0 0).mul (cof 1 1 2 2 1 2 2 1) hrt
    have h2 := (h 1 0).mul (cof 0 2 2 1 0 1 2 2) hrt
    have h3 := (h 2 0).mul (cof 0 1 1 2 0 2 1 1) hrt
    have h4 := h1.add h2 (hr.mono (by omega) (by omega) (by nlinarith))
    have h5 := h4.add (h3.mono (Nat.le_succ _) (Nat.le_succ _) le_rfl) (hr.mono (by omega) (by omega) (by nlinarith))
    exact h5.mono (by omega) (by omega) (by nlinarith)
  obtain ⟨δ, hδ, -⟩ := hd.ex
  have hdiv : ∀ r : Flt, Flt.div F ((floatArith F).lit 1) det
      = if δ = 0 then .nonfinite else .ok (Flt.round F (false || det.raised) (1 / δ)) := by
    intro _
    rw [lit_one_exact hl hh]
    obtain ⟨d, q⟩ := det
    simp only at hδ
    subst hδ
    simp only [Flt.div, Flt.ofReal]
  refine ⟨det, _, δ, (congrArg _ (matMem_three N)).trans e, hδ, hd, fun h0 => ?_, fun h0 hq => ?_⟩
  · have := hdiv det
    simp only [floatArith] at this
    rw [this, if_pos h0]; rfl
  · have hd' := hdiv det
    simp only [floatArith] at hd'
    rw [hd', if_neg h0]
    simp only [Res.ok_bind]
    obtain ⟨q, hqe⟩ : ∃ q, q = Flt.round F (false || det.raised) (1 / δ) := ⟨_, rfl⟩
    rw [← hqe]
    have hqn : Near F 1 1 |1 / δ| Q (1 / δ) q := by
      rw [hqe]
      exact near_round (k := 0) (m := 0) le_rfl (by rw [abs_div, abs_one]; exact hq) hQ (by simp)
        (hrq.mono (by omega) (by omega) (by nlinarith)) _
    have key : ∀ {B' x : ℝ} {r : Flt}, Near F (2 * k + 2) (3 * m + 2) B' (2 * C ^ 2) x r →
        Near F (2 * k + 4) (6 * m + 6) (B' / |δ|) (2 * C ^ 2 * Q) (x / δ) (Flt.mul F r q) := by
      intro B' x r hx
      have := hx.mul hqn (hrq.mono (by omega) (by omega) le_rfl)
      rw [abs_div, abs_one, mul_one_div, mul_one_div] at this
      exact this.mono (by omega) (by omega) le_rfl
    have nine : ∀ {a b c d e f g i j : Flt}, ∃ P : Matrix (Fin 3) (Fin 3) Flt,
        [a, b, c, d, e, f, g, i, j] = matMem P := fun {_ _ _ _ _ _ _ _ _} => exists_matMem rfl
    obtain ⟨P, hP⟩ := nine
    refine ⟨P, congrArg Res.ok hP, fun i j => ?_⟩
    rw [matMem_three] at hP
    simp only [List.cons.injEq, and_true] at hP
    obtain ⟨p1, p2, p3, p4, p5, p6, p7, p8, p9⟩ := hP
    rw [adjugate_entries, adjMagnitude_entries]
    simp only [hB]
    fin_cases i <;> fin_cases j
    · exact p1 ▸ key (cof 1 1 2 2 1 2 2 1)
    · exact p2 ▸ key (cof 0 2 2 1 0 1 2 2)
    · exact p3 ▸ key (cof 0 1 1 2 0 2 1 1)
    · exact p4 ▸ key (cof 1 2 2 0 1 0 2 2)
    · exact p5 ▸ key (cof 0 0 2 2 0 2 2 0)
    · exact p6 ▸ key (cof 0 2 1 0 0 0 1 2)
    · exact p7 ▸ key (cof 1 0 2 1 1 1 2 0)
    · exact p8 ▸ key (cof 0 1 2 0 0 0 2 1)
    · exact p9 ▸ key (cof 0 0 1 1 0 1 1 0)

end Verif.Lemmas
