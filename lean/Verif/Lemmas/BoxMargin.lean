import Mathlib.LinearAlgebra.Matrix.Determinant.Basic
import Mathlib.Data.Real.Basic
import Mathlib.Tactic.Linarith
import Mathlib.Tactic.Positivity
import Mathlib.Tactic.FinCases

/-! # Determinants of 3x3 matrices that are nearly diagonal -/

namespace Verif.Lemmas

/-- A determinant is at least the product of the margins by which the diagonal dominates the rows. -/
private theorem forests {a b c p₁ p₂ q₁ q₂ r₁ r₂ m₁ m₂ m₃ : ℝ} (hp₁ : 0 ≤ p₁) (hp₂ : 0 ≤ p₂) (hq₁ : 0 ≤ q₁) (hq₂ : 0 ≤ q₂) (hr₁ : 0 ≤ r₁)
    (hr₂ : 0 ≤ r₂) (hm₁ : 0 ≤ m₁) (hm₂ : 0 ≤ m₂) (hm₃ : 0 ≤ m₃) (ha : m₁ + p₁ + p₂ ≤ a) (hb : m₂ + q₁ + q₂ ≤ b) (hc : m₃ + r₁ + r₂ ≤ c) :
    m₁ * m₂ * m₃ ≤ a * b * c - a * q₂ * r₂ - c * p₁ * q₁ - b * p₂ * r₁ - p₁ * q₂ * r₁ - p₂ * q₁ * r₂ := by
  obtain ⟨s, hs, rfl⟩ : ∃ s, 0 ≤ s ∧ a = m₁ + p₁ + p₂ + s := ⟨a - (m₁ + p₁ + p₂), by linarith, by ring⟩
  obtain ⟨t, ht, rfl⟩ : ∃ t, 0 ≤ t ∧ b = m₂ + q₁ + q₂ + t := ⟨b - (m₂ + q₁ + q₂), by linarith, by ring⟩
  obtain ⟨u, hu, rfl⟩ : ∃ u, 0 ≤ u ∧ c = m₃ + r₁ + r₂ + u := ⟨c - (m₃ + r₁ + r₂), by linarith, by ring⟩
  rw [← sub_nonneg]
  ring_nf
  positivity

private theorem abs_three {x y z a b c : ℝ} (hx : |x| ≤ a) (hy : |y| ≤ b) (hz : |z| ≤ c) : |x * y * z| ≤ a * b * c := by
  rw [abs_mul, abs_mul]
  have ha := (abs_nonneg x).trans hx
  have hb := (abs_nonneg y).trans hy
  exact mul_le_mul (mul_le_mul hx hy (abs_nonneg y) ha) hz (abs_nonneg z) (mul_nonneg ha hb)

private theorem det_dominant {M : Matrix (Fin 3) (Fin 3) ℝ} {L δ : Fin 3 → ℝ} (h : ∀ i j, |M i j - if i = j then L i else 0| ≤ δ i)
    (hL : ∀ i, 3 * δ i < L i) : ∏ i, (L i - 3 * δ i) ≤ M.det ∧ M.det ≤ ∏ i, (L i + 3 * δ i) := by
  have hd : ∀ i, L i - δ i ≤ M i i ∧ M i i ≤ L i + δ i := fun i => by
    have := abs_le.1 (h i i)
    rw [if_pos rfl] at this
    constructor <;> linarith [this.1, this.2]
  have ho : ∀ i j, i ≠ j → |M i j| ≤ δ i := fun i j hij => by
    have := h i j
    rwa [if_neg hij, sub_zero] at this
  have h0 : ∀ i, 0 ≤ δ i := fun i => (abs_nonneg _).trans (h i i)
  have e := Matrix.det_fin_three M
  have hp := fun (i : Fin 3) => (show 0 ≤ M i i by linarith [(hd i).1, hL i, h0 i])
  have h01 := ho 0 1 (by decide)
  have h02 := ho 0 2 (by decide)
  have h10 := ho 1 0 (by decide)
  have h12 := ho 1 2 (by decide)
  have h20 := ho 2 0 (by decide)
  have h21 := ho 2 1 (by decide)
  have a0 := abs_of_nonneg (hp 0)
  have a1 := abs_of_nonneg (hp 1)
  have a2 := abs_of_nonneg (hp 2)
  have t1 := abs_le.1 (abs_three a0.le h12 h21)
  have t2 := abs_le.1 (abs_three h01 h10 a2.le)
  have t3 := abs_le.1 (abs_three h01 h12 h20)
  have t4 := abs_le.1 (abs_three h02 h10 h21)
  have t5 := abs_le.1 (abs_three h02 a1.le h20)
  rw [Fin.prod_univ_three, Fin.prod_univ_three]
  constructor
  · have := forests (h0 0) (h0 0) (h0 1) (h0 1) (h0 2) (h0 2) (show 0 ≤ L 0 - 3 * δ 0 by linarith [hL 0]) (show 0 ≤ L 1 - 3 * δ 1 by linarith [hL 1])
      (show 0 ≤ L 2 - 3 * δ 2 by linarith [hL 2]) (a := M 0 0) (b := M 1 1) (c := M 2 2) (by linarith [(hd 0).1]) (by linarith [(hd 1).1])
      (by linarith [(hd 2).1])
    rw [e]
    linarith [t1.1, t1.2, t2.1, t2.2, t3.1, t3.2, t4.1, t4.2, t5.1, t5.2]
  · have u0 : |M 0 0| ≤ L 0 + δ 0 := by rw [a0]; exact (hd 0).2
    have u1 : |M 1 1| ≤ L 1 + δ 1 := by rw [a1]; exact (hd 1).2
    have u2 : |M 2 2| ≤ L 2 + δ 2 := by rw [a2]; exact (hd 2).2
    have s0 := abs_le.1 (abs_three u0 u1 u2)
    have s1 := abs_le.1 (abs_three u0 h12 h21)
    have s2 := abs_le.1 (abs_three h01 h10 u2)
    have s5 := abs_le.1 (abs_three h02 u1 h20)
    have l0 := (h0 0).trans (show δ 0 ≤ L 0 by linarith [hL 0, h0 0])
    have l1 := (h0 1).trans (show δ 1 ≤ L 1 by linarith [hL 1, h0 1])
    have l2 := (h0 2).trans (show δ 2 ≤ L 2 by linarith [hL 2, h0 2])
    have : M.det ≤ (L 0 + δ 0) * (L 1 + δ 1) * (L 2 + δ 2) + (L 0 + δ 0) * δ 1 * δ 2 + δ 0 * δ 1 * (L 2 + δ 2) + δ 0 * δ 1 * δ 2 + δ 0 * δ 1 * δ 2
        + δ 0 * (L 1 + δ 1) * δ 2 := by
      rw [e]
      linarith [s0.1, s0.2, s1.1, s1.2, s2.1, s2.2, t3.1, t3.2, t4.1, t4.2, s5.1, s5.2]
    refine this.trans ?_
    have d0 := h0 0
    have d1 := h0 1
    have d2 := h0 2
    generalize L 0 = x at *
    generalize L 1 = y at *
    generalize L 2 = z at *
    generalize δ 0 = p at *
    generalize δ 1 = q at *
    generalize δ 2 = r at *
    rw [← sub_nonneg]
    ring_nf
    positivity

/-- Rows near those of a diagonal matrix: bounds and sign of the determinant. -/
theorem det_near_diagonal {M : Matrix (Fin 3) (Fin 3) ℝ} {L δ : Fin 3 → ℝ} (h : ∀ i j, |M i j - if i = j then L i else 0| ≤ δ i)
    (hL : ∀ i, 3 * δ i < |L i|) :
    ∏ i, (|L i| - 3 * δ i) ≤ |M.det| ∧ |M.det| ≤ ∏ i, (|L i| + 3 * δ i) ∧ 0 < (∏ i, L i) * M.det := by
  have h0 : ∀ i, 0 ≤ δ i := fun i => (abs_nonneg _).trans (h i i)
  have hL0 : ∀ i, 0 < |L i| := fun i => lt_of_le_of_lt (by have := h0 i; positivity) (hL i)
  obtain ⟨s, hs⟩ : ∃ s : Fin 3 → ℝ, s = fun i => if L i < 0 then -1 else 1 := ⟨_, rfl⟩
  have hs1 : ∀ i, |s i| = 1 := fun i => by rw [hs]; dsimp only; split <;> simp
  have hsL : ∀ i, s i * L i = |L i| := fun i => by
    rw [hs]; dsimp only
    split
    · next hn => rw [abs_of_neg hn, neg_one_mul]
    · next hn => rw [abs_of_nonneg (not_lt.1 hn), one_mul]
  have hdet : (Matrix.of fun i j => s i * M i j).det = (∏ i, s i) * M.det := Matrix.det_mul_column s M
  have hN := det_dominant (M := Matrix.of fun i j => s i * M i j) (L := fun i => |L i|) (δ := δ) (fun i j => by
    have e : (Matrix.of fun i j => s i * M i j) i j - (if i = j then |L i| else 0) = s i * (M i j - if i = j then L i else 0) := by
      rw [Matrix.of_apply, ← hsL i]
      split <;> ring
    rw [e, abs_mul, hs1, one_mul]
    exact h i j) hL
  have hpos : 0 < ∏ i, (|L i| - 3 * δ i) := Finset.prod_pos fun i _ => by linarith [hL i]
  have hps : |∏ i, s i| = 1 := by rw [Finset.abs_prod]; exact Finset.prod_eq_one fun i _ => hs1 i
  rw [hdet] at hN
  have hp : 0 < (∏ i, s i) * M.det := lt_of_lt_of_le hpos hN.1
  have ha : |M.det| = (∏ i, s i) * M.det := by
    rw [← abs_of_pos hp, abs_mul, hps, one_mul]
  refine ⟨by rw [ha]; exact hN.1, by rw [ha]; exact hN.2, ?_⟩
  have e : (∏ i, L i) = (∏ i, s i) * ∏ i, |L i| := by
    rw [← Finset.prod_mul_distrib]
    refine Finset.prod_congr rfl fun i _ => ?_
    rw [← hsL i, ← mul_assoc, ← abs_mul_abs_self, hs1]
    simp
  rw [e, mul_right_comm]
  exact mul_pos hp (Finset.prod_pos fun i _ => hL0 i)

end Verif.Lemmas
