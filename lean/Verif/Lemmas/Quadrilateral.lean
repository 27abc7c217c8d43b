import Verif.Lemmas.ControlValues
import Verif.Lemmas.TensorQuadrature
import Verif.Spec.Quadrilateral
import Mathlib.Analysis.Convex.Combination

/-! # Bilinear maps of the square -/

namespace Verif.Lemmas

open Verif.Spec MeasureTheory

variable {V : (Fin 2 → Fin 2) → Fin 2 → ℝ}

theorem two_indices (f : (Fin 2 → Fin 2) → ℝ) : ∑ idx, f idx = f ![0, 0] + f ![1, 0] + f ![0, 1] + f ![1, 1] := by
  rw [← Equiv.sum_comp (finTwoArrowEquiv (Fin 2)).symm f, Fintype.sum_prod_type]
  simp only [Fin.sum_univ_two, finTwoArrowEquiv_symm_apply]
  ring

/-- The bilinear interpolant. -/
theorem multi_two (Y : (Fin 2 → Fin 2) → ℝ) (ξ : Fin 2 → ℝ) : multi Y ξ =
    (1 - ξ 0) / 2 * ((1 - ξ 1) / 2) * Y ![0, 0] + (1 + ξ 0) / 2 * ((1 - ξ 1) / 2) * Y ![1, 0]
      + (1 - ξ 0) / 2 * ((1 + ξ 1) / 2) * Y ![0, 1] + (1 + ξ 0) / 2 * ((1 + ξ 1) / 2) * Y ![1, 1] := by
  rw [multi, two_indices]
  simp only [Fin.prod_univ_two, hat]
  simp

theorem slope_two_0 (Y : (Fin 2 → Fin 2) → ℝ) (ξ : Fin 2 → ℝ) : cellSlope Y ξ 0 =
    ((1 - ξ 1) / 2 * (Y ![1, 0] - Y ![0, 0]) + (1 + ξ 1) / 2 * (Y ![1, 1] - Y ![0, 1])) / 2 := by
  unfold cellSlope
  rw [multi_two, multi_two]
  simp only [Function.update_self, Function.update_of_ne (show (1 : Fin 2) ≠ 0 by decide)]
  ring

theorem slope_two_1 (Y : (Fin 2 → Fin 2) → ℝ) (ξ : Fin 2 → ℝ) : cellSlope Y ξ 1 =
    ((1 - ξ 0) / 2 * (Y ![0, 1] - Y ![0, 0]) + (1 + ξ 0) / 2 * (Y ![1, 1] - Y ![1, 0])) / 2 := by
  unfold cellSlope
  rw [multi_two, multi_two]
  simp only [Function.update_self, Function.update_of_ne (show (0 : Fin 2) ≠ 1 by decide)]
  ring

/-- The determinant of the derivative of the bilinear map. -/
noncomputable def quadDet (V : (Fin 2 → Fin 2) → Fin 2 → ℝ) (ξ : Fin 2 → ℝ) : ℝ :=
  (Matrix.of fun i j => cellSlope (fun idx => V idx i) ξ j).det

/-- The determinant is the bilinear interpolant of the turns at the corners. -/
theorem quadDet_eq (V : (Fin 2 → Fin 2) → Fin 2 → ℝ) (ξ : Fin 2 → ℝ) : quadDet V ξ =
    (1 - ξ 0) / 2 * ((1 - ξ 1) / 2) * (turn (corners V 3) (corners V 0) (corners V 1) / 4)
      + (1 + ξ 0) / 2 * ((1 - ξ 1) / 2) * (turn (corners V 0) (corners V 1) (corners V 2) / 4)
      + (1 - ξ 0) / 2 * ((1 + ξ 1) / 2) * (turn (corners V 2) (corners V 3) (corners V 0) / 4)
      + (1 + ξ 0) / 2 * ((1 + ξ 1) / 2) * (turn (corners V 1) (corners V 2) (corners V 3) / 4) := by
  rw [quadDet, Matrix.det_fin_two]
  simp only [Matrix.of_apply, slope_two_0, slope_two_1]
  show _ = (1 - ξ 0) / 2 * ((1 - ξ 1) / 2) * (turn (V ![0, 1]) (V ![0, 0]) (V ![1, 0]) / 4)
      + (1 + ξ 0) / 2 * ((1 - ξ 1) / 2) * (turn (V ![0, 0]) (V ![1, 0]) (V ![1, 1]) / 4)
      + (1 - ξ 0) / 2 * ((1 + ξ 1) / 2) * (turn (V ![1, 1]) (V ![0, 1]) (V ![0, 0]) / 4)
      + (1 + ξ 0) / 2 * ((1 + ξ 1) / 2) * (turn (V ![1, 0]) (V ![1, 1]) (V ![0, 1]) / 4)
  unfold turn
  ring

theorem leftTurns_iff {P : Fin 4 → Fin 2 → ℝ} : LeftTurns P ↔
    0 < turn (P 0) (P 1) (P 2) ∧ 0 < turn (P 1) (P 2) (P 3) ∧ 0 < turn (P 2) (P 3) (P 0) ∧ 0 < turn (P 3) (P 0) (P 1) :=
  ⟨fun h => ⟨h 0, h 1, h 2, h 3⟩, fun h i => by
    fin_cases i
    · exact h.1
    · exact h.2.1
    · exact h.2.2.1
    · exact h.2.2.2⟩

theorem leftTurns_corners : LeftTurns (corners V) ↔ 0 < turn (V ![0, 0]) (V ![1, 0]) (V ![1, 1]) ∧ 0 < turn (V ![1, 0]) (V ![1, 1]) (V ![0, 1]) ∧
    0 < turn (V ![1, 1]) (V ![0, 1]) (V ![0, 0]) ∧ 0 < turn (V ![0, 1]) (V ![0, 0]) (V ![1, 0]) := leftTurns_iff

/-- A weighted mean of four positive numbers. -/
private theorem mean_pos {x y a b c e : ℝ} (hx : -1 ≤ x ∧ x ≤ 1) (hy : -1 ≤ y ∧ y ≤ 1) (ha : 0 < a) (hb : 0 < b) (hc : 0 < c) (he : 0 < e) :
    0 < (1 - x) / 2 * ((1 - y) / 2) * a + (1 + x) / 2 * ((1 - y) / 2) * b + (1 - x) / 2 * ((1 + y) / 2) * c + (1 + x) / 2 * ((1 + y) / 2) * e := by
  obtain ⟨m, hm, h1, h2, h3, h4⟩ : ∃ m, 0 < m ∧ m ≤ a ∧ m ≤ b ∧ m ≤ c ∧ m ≤ e :=
    ⟨min (min a b) (min c e), lt_min (lt_min ha hb) (lt_min hc he), (min_le_left _ _).trans (min_le_left _ _), (min_le_left _ _).trans (min_le_right _ _),
      (min_le_right _ _).trans (min_le_left _ _), (min_le_right _ _).trans (min_le_right _ _)⟩
  have x0 : 0 ≤ (1 - x) / 2 := by linarith
  have x1 : 0 ≤ (1 + x) / 2 := by linarith
  have y0 : 0 ≤ (1 - y) / 2 := by linarith
  have y1 : 0 ≤ (1 + y) / 2 := by linarith
  have := mul_le_mul_of_nonneg_left h1 (mul_nonneg x0 y0)
  have := mul_le_mul_of_nonneg_left h2 (mul_nonneg x1 y0)
  have := mul_le_mul_of_nonneg_left h3 (mul_nonneg x0 y1)
  have := mul_le_mul_of_nonneg_left h4 (mul_nonneg x1 y1)
  have e : (1 - x) / 2 * ((1 - y) / 2) * m + (1 + x) / 2 * ((1 - y) / 2) * m + (1 - x) / 2 * ((1 + y) / 2) * m + (1 + x) / 2 * ((1 + y) / 2) * m = m := by ring
  linarith

theorem quadDet_pos (h : LeftTurns (corners V)) {ξ : Fin 2 → ℝ} (hξ : ξ ∈ cube 2) : 0 < quadDet V ξ := by
  obtain ⟨h0, h1, h2, h3⟩ := leftTurns_iff.1 h
  rw [quadDet_eq]
  exact mean_pos (hξ 0) (hξ 1) (by linarith) (by linarith) (by linarith) (by linarith)

/-- Conversely, positive determinants at the corners mean left turns. -/
theorem leftTurns_of_det (h : ∀ a ∈ [(-1 : ℝ), 1], ∀ b ∈ [(-1 : ℝ), 1], 0 < quadDet V ![a, b]) : LeftTurns (corners V) := by
  have h1 := h (-1) (by simp) (-1) (by simp)
  have h2 := h 1 (by simp) (-1) (by simp)
  have h3 := h (-1) (by simp) 1 (by simp)
  have h4 := h 1 (by simp) 1 (by simp)
  rw [quadDet_eq] at h1 h2 h3 h4
  norm_num at h1 h2 h3 h4
  exact leftTurns_iff.2 ⟨h2, h4, h3, h1⟩

/-- The difference of two values is the derivative at the middle applied to the difference of the points. -/
theorem multi_two_sub (Y : (Fin 2 → Fin 2) → ℝ) (p q : Fin 2 → ℝ) : multi Y p - multi Y q =
    cellSlope Y (fun k => (p k + q k) / 2) 0 * (p 0 - q 0) + cellSlope Y (fun k => (p k + q k) / 2) 1 * (p 1 - q 1) := by
  rw [multi_two, multi_two, slope_two_0, slope_two_1]
  ring

theorem quad_injOn (h : LeftTurns (corners V)) : Set.InjOn (fun (ξ : Fin 2 → ℝ) i => multi (fun idx => V idx i) ξ) (cube 2) := by
  intro p hp q hq e
  have hm : (fun k => (p k + q k) / 2) ∈ cube 2 := fun k => ⟨by linarith [(hp k).1, (hq k).1], by linarith [(hp k).2, (hq k).2]⟩
  have hd := quadDet_pos h hm
  have e0 := multi_two_sub (fun idx => V idx 0) p q
  have e1 := multi_two_sub (fun idx => V idx 1) p q
  rw [show multi (fun idx => V idx 0) p = multi (fun idx => V idx 0) q from congrFun e 0, sub_self] at e0
  rw [show multi (fun idx => V idx 1) p = multi (fun idx => V idx 1) q from congrFun e 1, sub_self] at e1
  rw [quadDet, Matrix.det_fin_two] at hd
  simp only [Matrix.of_apply] at hd
  generalize cellSlope (fun idx => V idx 0) (fun k => (p k + q k) / 2) 0 = a at *
  generalize cellSlope (fun idx => V idx 0) (fun k => (p k + q k) / 2) 1 = b at *
  generalize cellSlope (fun idx => V idx 1) (fun k => (p k + q k) / 2) 0 = c at *
  generalize cellSlope (fun idx => V idx 1) (fun k => (p k + q k) / 2) 1 = f at *
  have z0 : (a * f - b * c) * (p 0 - q 0) = 0 := by linear_combination -f * e0 + b * e1
  have z1 : (a * f - b * c) * (p 1 - q 1) = 0 := by linear_combination c * e0 - a * e1
  funext k
  fin_cases k
  · exact sub_eq_zero.1 ((mul_eq_zero.1 z0).resolve_left hd.ne')
  · exact sub_eq_zero.1 ((mul_eq_zero.1 z1).resolve_left hd.ne')

/-! ### the image is the convex hull of the corners -/

theorem quad_subset (V : (Fin 2 → Fin 2) → Fin 2 → ℝ) :
    (fun (ξ : Fin 2 → ℝ) i => multi (fun idx => V idx i) ξ) '' cube 2 ⊆ convexHull ℝ (Set.range (corners V)) := by
  rintro _ ⟨ξ, hξ, rfl⟩
  have hc : ∀ i, corners V i ∈ convexHull ℝ (Set.range (corners V)) := fun i => subset_convexHull ℝ _ ⟨i, rfl⟩
  have hV : ∀ idx, V idx ∈ convexHull ℝ (Set.range (corners V)) := by
    have : ∀ a b : Fin 2, V ![a, b] ∈ convexHull ℝ (Set.range (corners V)) := fun a b => by
      fin_cases a <;> fin_cases b
      · exact hc 0
      · exact hc 3
      · exact hc 1
      · exact hc 2
    intro idx
    rw [show idx = ![idx 0, idx 1] by funext k; fin_cases k <;> rfl]
    exact this _ _
  have e : (fun i => multi (fun idx => V idx i) ξ) = ∑ idx : Fin 2 → Fin 2, (∏ k, hat (idx k) (ξ k)) • V idx := by
    funext i
    simp [multi]
  show (fun i => multi (fun idx => V idx i) ξ) ∈ _
  rw [e]
  exact (convex_convexHull ℝ _).sum_mem (fun idx _ => Finset.prod_nonneg fun k _ => hat_nonneg _ (hξ k)) (sum_hat ξ) fun idx _ => hV idx

theorem turn_combination (p q a b : Fin 2 → ℝ) (s t : ℝ) (h : s + t = 1) : turn p q (s • a + t • b) = s * turn p q a + t * turn p q b := by
  obtain rfl : t = 1 - s := by linarith
  unfold turn
  simp only [Pi.add_apply, Pi.smul_apply, smul_eq_mul]
  ring

theorem turn_cycle (p q r : Fin 2 → ℝ) : turn p q r = turn q r p := by unfold turn; ring

theorem turn_self (p q : Fin 2 → ℝ) : turn p q p = 0 ∧ turn p q q = 0 := by unfold turn; constructor <;> ring

/-- The hull lies to the left of all four edges. -/
theorem hull_left {P : Fin 4 → Fin 2 → ℝ} (h : LeftTurns P) {x : Fin 2 → ℝ} (hx : x ∈ convexHull ℝ (Set.range P)) (i : Fin 4) :
    0 ≤ turn (P i) (P (i + 1)) x := by
  have hs : Convex ℝ {x | 0 ≤ turn (P i) (P (i + 1)) x} := by
    intro a ha b hb s t hs ht hst
    show 0 ≤ turn _ _ _
    rw [turn_combination _ _ _ _ _ _ hst]
    exact add_nonneg (mul_nonneg hs ha) (mul_nonneg ht hb)
  refine convexHull_min ?_ hs hx
  rintro _ ⟨j, rfl⟩
  show 0 ≤ turn _ _ _
  obtain ⟨k, rfl⟩ : ∃ k, j = i + k := ⟨j - i, by rw [add_sub_cancel]⟩
  have hk : k = 0 ∨ k = 1 ∨ k = 2 ∨ k = 3 := by revert k; decide
  rcases hk with rfl | rfl | rfl | rfl
  · rw [add_zero, (turn_self _ _).1]
  · rw [(turn_self _ _).2]
  · exact (h i).le
  · have := h (i + 3)
    rw [turn_cycle] at this
    rw [show i + 3 + 1 = i by rw [add_assoc]; exact add_zero i, show i + 3 + 2 = i + 1 by rw [add_assoc]; rfl] at this
    exact this.le

theorem quad_superset (h : LeftTurns (corners V)) :
    convexHull ℝ (Set.range (corners V)) ⊆ (fun (ξ : Fin 2 → ℝ) i => multi (fun idx => V idx i) ξ) '' cube 2 := by
  intro p hp
  have hl := hull_left h hp
  obtain ⟨t0, t1, t2, t3⟩ := leftTurns_iff.1 h
  obtain ⟨P, hP⟩ : ∃ P, P = corners V := ⟨_, rfl⟩
  rw [← hP] at hl t0 t1 t2 t3
  let A : ℝ → Fin 2 → ℝ := fun x => ((1 - x) / 2) • P 0 + ((1 + x) / 2) • P 1
  let B : ℝ → Fin 2 → ℝ := fun x => ((1 - x) / 2) • P 3 + ((1 + x) / 2) • P 2
  have hg : ContinuousOn (fun x => turn (A x) (B x) p) (Set.Icc (-1) 1) := by
    simp only [A, B, turn, Pi.add_apply, Pi.smul_apply, smul_eq_mul]
    fun_prop
  have g0 : turn (A (-1)) (B (-1)) p ≤ 0 := by
    have := hl 3
    rw [show (3 : Fin 4) + 1 = 0 from rfl] at this
    have e : turn (A (-1)) (B (-1)) p = -turn (P 3) (P 0) p := by
      simp only [A, B, turn, Pi.add_apply, Pi.smul_apply, smul_eq_mul]; ring
    linarith
  have g1 : 0 ≤ turn (A 1) (B 1) p := by
    have := hl 1
    rw [show (1 : Fin 4) + 1 = 2 from rfl] at this
    have e : turn (A 1) (B 1) p = turn (P 1) (P 2) p := by
      simp only [A, B, turn, Pi.add_apply, Pi.smul_apply, smul_eq_mul]; ring
    linarith
  obtain ⟨x, hx, gx⟩ := intermediate_value_Icc (by norm_num) hg ⟨g0, g1⟩
  have x0 : 0 ≤ (1 - x) / 2 := by linarith [hx.2]
  have x1 : 0 ≤ (1 + x) / 2 := by linarith [hx.1]
  have pos : ∀ {a b : ℝ}, 0 < a → 0 < b → 0 < (1 - x) / 2 * a + (1 + x) / 2 * b := fun {a b} ha hb => by
    rcases x0.lt_or_eq with h | h
    · exact add_pos_of_pos_of_nonneg (mul_pos h ha) (mul_nonneg x1 hb.le)
    · exact add_pos_of_nonneg_of_pos (mul_nonneg x0 ha.le) (mul_pos (by linarith) hb)
  have s1 : (1 - x) / 2 + (1 + x) / 2 = 1 := by ring
  have hβ : 0 < turn (P 0) (P 1) (B x) := by
    show 0 < turn (P 0) (P 1) (((1 - x) / 2) • P 3 + ((1 + x) / 2) • P 2)
    rw [turn_combination _ _ _ _ _ _ s1]
    exact pos (by rw [← turn_cycle]; exact t3) t0
  have hγ : 0 < turn (P 2) (P 3) (A x) := by
    show 0 < turn (P 2) (P 3) (((1 - x) / 2) • P 0 + ((1 + x) / 2) • P 1)
    rw [turn_combination _ _ _ _ _ _ s1]
    exact pos t2 (by rw [← turn_cycle]; exact t1)
  have hτ : 0 ≤ turn (P 0) (P 1) p := hl 0
  have hσ : 0 ≤ turn (P 2) (P 3) p := hl 2
  obtain ⟨s, hs⟩ : ∃ s, s = turn (P 0) (P 1) p / turn (P 0) (P 1) (B x) := ⟨_, rfl⟩
  have hsβ : s * turn (P 0) (P 1) (B x) = turn (P 0) (P 1) p := by rw [hs, div_mul_cancel₀ _ hβ.ne']
  have hp' : p = (1 - s) • A x + s • B x := by
    funext i
    have key : turn (P 0) (P 1) (B x) * (p i - A x i) = turn (P 0) (P 1) p * (B x i - A x i) := by
      have g : turn (A x) (B x) p = 0 := gx
      have : turn (P 0) (P 1) (B x) * (p i - A x i) - turn (P 0) (P 1) p * (B x i - A x i) = -(turn (A x) (B x) p) * (P 1 i - P 0 i) := by
        rcases (show ∀ i : Fin 2, i = 0 ∨ i = 1 by decide) i with rfl | rfl <;> simp only [A, B, turn, Pi.add_apply, Pi.smul_apply, smul_eq_mul] <;> ring
      rw [g] at this
      linarith
    rw [← hsβ] at key
    have : turn (P 0) (P 1) (B x) * (p i - A x i - s * (B x i - A x i)) = 0 := by linear_combination key
    have := (mul_eq_zero.1 this).resolve_left hβ.ne'
    simp only [Pi.add_apply, Pi.smul_apply, smul_eq_mul]
    linarith
  have hs0 : 0 ≤ s := hs ▸ div_nonneg hτ hβ.le
  have hs1 : s ≤ 1 := by
    have e : turn (P 2) (P 3) (B x) = 0 := by
      show turn (P 2) (P 3) (((1 - x) / 2) • P 3 + ((1 + x) / 2) • P 2) = 0
      rw [turn_combination _ _ _ _ _ _ s1, (turn_self _ _).1, (turn_self _ _).2]; ring
    rw [hp', turn_combination _ _ _ _ _ _ (by ring), e, mul_zero, add_zero] at hσ
    by_contra hlt
    have := mul_neg_of_neg_of_pos (show 1 - s < 0 by linarith [not_le.1 hlt]) hγ
    linarith
  refine ⟨![x, 2 * s - 1], fun k => ?_, ?_⟩
  · fin_cases k
    · exact hx
    · show -1 ≤ 2 * s - 1 ∧ 2 * s - 1 ≤ 1
      constructor <;> linarith
  · funext i
    show multi (fun idx => V idx i) ![x, 2 * s - 1] = p i
    rw [multi_two, hp']
    simp only [A, B, Pi.add_apply, Pi.smul_apply, smul_eq_mul, hP]
    show _ = (1 - s) * ((1 - x) / 2 * V ![0, 0] i + (1 + x) / 2 * V ![1, 0] i) + s * ((1 - x) / 2 * V ![0, 1] i + (1 + x) / 2 * V ![1, 1] i)
    simp only [Matrix.cons_val_zero, Matrix.cons_val_one]
    ring

theorem quad_image (h : LeftTurns (corners V)) :
    (fun (ξ : Fin 2 → ℝ) i => multi (fun idx => V idx i) ξ) '' cube 2 = convexHull ℝ (Set.range (corners V)) :=
  Set.Subset.antisymm (quad_subset V) (quad_superset h)

/-! ### area -/

theorem integral_hat (a : Fin 2) : ∫ x in (-1 : ℝ)..1, hat a x = 1 := by
  unfold hat
  split
  · rw [intervalIntegral.integral_div, intervalIntegral.integral_sub (by simp) (by simp)]
    simp
  · rw [intervalIntegral.integral_div, intervalIntegral.integral_add (by simp) (by simp)]
    simp

theorem integral_multi {d : ℕ} (Y : (Fin d → Fin 2) → ℝ) : ∫ ξ in cube d, multi Y ξ = ∑ idx, Y idx := by
  have hc : ∀ idx : Fin d → Fin 2, Continuous fun ξ : Fin d → ℝ => ∏ k, hat (idx k) (ξ k) := fun idx => by
    refine continuous_finsetProd _ fun k _ => ?_
    unfold hat
    split <;> fun_prop
  unfold multi
  rw [integral_finsetSum]
  swap
  · exact fun idx _ => ContinuousOn.integrableOn_compact cube_compact ((hc idx).mul continuous_const).continuousOn
  refine Finset.sum_congr rfl fun idx _ => ?_
  rw [integral_mul_const]
  have : ∫ ξ in cube d, ∏ k, hat (idx k) (ξ k) = 1 := by
    rw [cube_eq, volume_pi, Measure.restrict_pi_pi, integral_fintype_prod_eq_prod (f := fun k x => hat (idx k) x)]
    refine Finset.prod_eq_one fun k _ => ?_
    rw [integral_Icc_eq_integral_Ioc, ← intervalIntegral.integral_of_le (by norm_num)]
    exact integral_hat _
  rw [this, one_mul]

theorem integral_quadDet (V : (Fin 2 → Fin 2) → Fin 2 → ℝ) : ∫ ξ in cube 2, quadDet V ξ = quadrilateralArea (corners V) := by
  obtain ⟨P, hP⟩ : ∃ P, P = corners V := ⟨_, rfl⟩
  have e : (fun ξ => quadDet V ξ) = multi fun idx : Fin 2 → Fin 2 =>
      ![![turn (P 3) (P 0) (P 1) / 4, turn (P 2) (P 3) (P 0) / 4], ![turn (P 0) (P 1) (P 2) / 4, turn (P 1) (P 2) (P 3) / 4]] (idx 0) (idx 1) := by
    funext ξ
    rw [quadDet_eq, multi_two, hP]
    simp
  rw [e, integral_multi, two_indices, ← hP]
  simp [quadrilateralArea, turn]
  ring

/-! ### neighbours -/

/-- The distance of a point of the cell from an edge is interpolated. -/
theorem turn_multi (V : (Fin 2 → Fin 2) → Fin 2 → ℝ) (p q : Fin 2 → ℝ) (ξ : Fin 2 → ℝ) :
    turn p q (fun i => multi (fun idx => V idx i) ξ) = multi (fun idx => turn p q (V idx)) ξ := by
  rw [turn, multi_two, multi_two, multi_two]
  unfold turn
  ring

/-- Points of a segment are equal only if they divide it alike. -/
private theorem segment_eq {p q r : Fin 2 → ℝ} (hne : 0 < turn p q r) {s t : ℝ}
    (h : ∀ i, (1 - s) / 2 * p i + (1 + s) / 2 * q i = (1 - t) / 2 * p i + (1 + t) / 2 * q i) : s = t := by
  have h0 := h 0
  have h1 := h 1
  have e : (s - t) * turn p q r = 0 := by
    unfold turn
    linear_combination 2 * (r 1 - p 1) * h0 - 2 * (r 0 - p 0) * h1
  exact sub_eq_zero.1 ((mul_eq_zero.1 e).resolve_right hne.ne')

/-- A weighted mean of positive numbers that vanishes has weight zero. -/
private theorem edge_zero {s y a b : ℝ} (hy : -1 ≤ y ∧ y ≤ 1) (ha : 0 < a) (hb : 0 < b) (h : s * ((1 - y) / 2 * a + (1 + y) / 2 * b) = 0) : s = 0 := by
  refine (mul_eq_zero.1 h).resolve_right (ne_of_gt ?_)
  rcases hy.2.lt_or_eq with h' | rfl
  · exact add_pos_of_pos_of_nonneg (mul_pos (by linarith) ha) (mul_nonneg (by linarith [hy.1]) hb.le)
  · linarith

theorem edge_pos {s y a b : ℝ} (hs : 0 ≤ s) (hy : -1 ≤ y ∧ y ≤ 1) (ha : 0 < a) (hb : 0 < b) : 0 ≤ s * ((1 - y) / 2 * a + (1 + y) / 2 * b) :=
  mul_nonneg hs (add_nonneg (mul_nonneg (by linarith [hy.2]) ha.le) (mul_nonneg (by linarith [hy.1]) hb.le))

/-- Neighbours in direction 0 have only the shared edge in common. -/
theorem quad_beside {V W : (Fin 2 → Fin 2) → Fin 2 → ℝ} (hV : LeftTurns (corners V)) (hW : LeftTurns (corners W)) (hs : ∀ b, V ![1, b] = W ![0, b])
    {ξ η : Fin 2 → ℝ} (hξ : ξ ∈ cube 2) (hη : η ∈ cube 2) :
    (∀ i, multi (fun idx => V idx i) ξ = multi (fun idx => W idx i) η) ↔ ξ 0 = 1 ∧ η 0 = -1 ∧ ξ 1 = η 1 := by
  obtain ⟨-, v1, -, -⟩ := leftTurns_iff.1 hV
  obtain ⟨v0, -, -, -⟩ := leftTurns_iff.1 hV
  obtain ⟨-, -, w2, w3⟩ := leftTurns_iff.1 hW
  change 0 < turn (V ![1, 0]) (V ![1, 1]) (V ![0, 1]) at v1
  change 0 < turn (V ![0, 0]) (V ![1, 0]) (V ![1, 1]) at v0
  change 0 < turn (W ![1, 1]) (W ![0, 1]) (W ![0, 0]) at w2
  change 0 < turn (W ![0, 1]) (W ![0, 0]) (W ![1, 0]) at w3
  rw [turn_cycle] at v0 w2
  constructor
  · intro e
    have e1 : turn (V ![1, 0]) (V ![1, 1]) (fun i => multi (fun idx => V idx i) ξ)
        = (1 - ξ 0) / 2 * ((1 - ξ 1) / 2 * turn (V ![1, 0]) (V ![1, 1]) (V ![0, 0]) + (1 + ξ 1) / 2 * turn (V ![1, 0]) (V ![1, 1]) (V ![0, 1])) := by
      rw [turn_multi, multi_two, (turn_self _ _).1, (turn_self _ _).2]; ring
    have e2 : turn (W ![0, 1]) (W ![0, 0]) (fun i => multi (fun idx => W idx i) η)
        = (1 + η 0) / 2 * ((1 - η 1) / 2 * turn (W ![0, 1]) (W ![0, 0]) (W ![1, 0]) + (1 + η 1) / 2 * turn (W ![0, 1]) (W ![0, 0]) (W ![1, 1])) := by
      rw [turn_multi, multi_two, (turn_self _ _).1, (turn_self _ _).2]; ring
    rw [show (fun i => multi (fun idx => V idx i) ξ) = fun i => multi (fun idx => W idx i) η from funext e] at e1
    have e3 : turn (W ![0, 1]) (W ![0, 0]) (fun i => multi (fun idx => W idx i) η) = -turn (V ![1, 0]) (V ![1, 1]) (fun i => multi (fun idx => W idx i) η) := by
      rw [hs, hs]; unfold turn; ring
    have p1 := edge_pos (s := (1 - ξ 0) / 2) (by linarith [(hξ 0).2]) (hξ 1) v0 v1
    have p2 := edge_pos (s := (1 + η 0) / 2) (by linarith [(hη 0).1]) (hη 1) w3 w2
    rw [e3] at e2
    have z1 := edge_zero (hξ 1) v0 v1 (s := (1 - ξ 0) / 2) (by linarith)
    have z2 := edge_zero (hη 1) w3 w2 (s := (1 + η 0) / 2) (by linarith)
    have x1 : ξ 0 = 1 := by linarith
    have y1 : η 0 = -1 := by linarith
    refine ⟨x1, y1, segment_eq v1 fun i => ?_⟩
    have := e i
    rw [multi_two, multi_two, x1, y1, ← hs, ← hs] at this
    linarith
  · rintro ⟨h1, h2, h3⟩ i
    rw [multi_two, multi_two, h1, h2, h3, ← hs, ← hs]
    ring

/-- Exchanging the directions, and the sense of rotation with them. -/
theorem quad_above {V W : (Fin 2 → Fin 2) → Fin 2 → ℝ} (hV : LeftTurns (corners V)) (hW : LeftTurns (corners W)) (hs : ∀ a, V ![a, 1] = W ![a, 0])
    {ξ η : Fin 2 → ℝ} (hξ : ξ ∈ cube 2) (hη : η ∈ cube 2) :
    (∀ i, multi (fun idx => V idx i) ξ = multi (fun idx => W idx i) η) ↔ ξ 1 = 1 ∧ η 1 = -1 ∧ ξ 0 = η 0 := by
  obtain ⟨-, v1, v2, -⟩ := leftTurns_iff.1 hV
  obtain ⟨w0, -, -, w3⟩ := leftTurns_iff.1 hW
  change 0 < turn (V ![1, 0]) (V ![1, 1]) (V ![0, 1]) at v1
  change 0 < turn (V ![1, 1]) (V ![0, 1]) (V ![0, 0]) at v2
  change 0 < turn (W ![0, 0]) (W ![1, 0]) (W ![1, 1]) at w0
  change 0 < turn (W ![0, 1]) (W ![0, 0]) (W ![1, 0]) at w3
  rw [turn_cycle] at v1 w3
  constructor
  · intro e
    have e1 : turn (V ![1, 1]) (V ![0, 1]) (fun i => multi (fun idx => V idx i) ξ)
        = (1 - ξ 1) / 2 * ((1 - ξ 0) / 2 * turn (V ![1, 1]) (V ![0, 1]) (V ![0, 0]) + (1 + ξ 0) / 2 * turn (V ![1, 1]) (V ![0, 1]) (V ![1, 0])) := by
      rw [turn_multi, multi_two, (turn_self _ _).1, (turn_self _ _).2]; ring
    have e2 : turn (W ![0, 0]) (W ![1, 0]) (fun i => multi (fun idx => W idx i) η)
        = (1 + η 1) / 2 * ((1 - η 0) / 2 * turn (W ![0, 0]) (W ![1, 0]) (W ![0, 1]) + (1 + η 0) / 2 * turn (W ![0, 0]) (W ![1, 0]) (W ![1, 1])) := by
      rw [turn_multi, multi_two, (turn_self _ _).1, (turn_self _ _).2]; ring
    rw [show (fun i => multi (fun idx => V idx i) ξ) = fun i => multi (fun idx => W idx i) η from funext e] at e1
    have e3 : turn (W ![0, 0]) (W ![1, 0]) (fun i => multi (fun idx => W idx i) η) = -turn (V ![1, 1]) (V ![0, 1]) (fun i => multi (fun idx => W idx i) η) := by
      rw [hs, hs]; unfold turn; ring
    have p1 := edge_pos (s := (1 - ξ 1) / 2) (by linarith [(hξ 1).2]) (hξ 0) v2 v1
    have p2 := edge_pos (s := (1 + η 1) / 2) (by linarith [(hη 1).1]) (hη 0) w3 w0
    rw [e3] at e2
    have z1 := edge_zero (hξ 0) v2 v1 (s := (1 - ξ 1) / 2) (by linarith)
    have z2 := edge_zero (hη 0) w3 w0 (s := (1 + η 1) / 2) (by linarith)
    have x1 : ξ 1 = 1 := by linarith
    have y1 : η 1 = -1 := by linarith
    refine ⟨x1, y1, ?_⟩
    have := segment_eq (s := -ξ 0) (t := -η 0) v2 fun i => by
      have := e i
      rw [multi_two, multi_two, x1, y1, ← hs, ← hs] at this
      linarith
    linarith
  · rintro ⟨h1, h2, h3⟩ i
    rw [multi_two, multi_two, h1, h2, h3, ← hs, ← hs]
    ring

/-! ### quadrature -/

/-- The determinant as a polynomial. -/
noncomputable def quadPoly (V : (Fin 2 → Fin 2) → Fin 2 → ℝ) : MvPolynomial (Fin 2) ℝ :=
  MvPolynomial.C (quadDet V ![0, 0]) + MvPolynomial.C ((quadDet V ![1, 0] - quadDet V ![-1, 0]) / 2) * MvPolynomial.X 0
    + MvPolynomial.C ((quadDet V ![0, 1] - quadDet V ![0, -1]) / 2) * MvPolynomial.X 1

theorem eval_quadPoly (V : (Fin 2 → Fin 2) → Fin 2 → ℝ) (ξ : Fin 2 → ℝ) : MvPolynomial.eval ξ (quadPoly V) = quadDet V ξ := by
  simp only [quadPoly, map_add, map_mul, MvPolynomial.eval_C, MvPolynomial.eval_X, quadDet_eq]
  simp [turn]
  ring

theorem degreeOf_quadPoly (V : (Fin 2 → Fin 2) → Fin 2 → ℝ) (k : Fin 2) : (quadPoly V).degreeOf k ≤ 1 := by
  have hX : ∀ j : Fin 2, (MvPolynomial.X j : MvPolynomial (Fin 2) ℝ).degreeOf k ≤ 1 := fun j => by
    rw [MvPolynomial.degreeOf_X]; split <;> omega
  refine (MvPolynomial.degreeOf_add_le _ _ _).trans (max_le ((MvPolynomial.degreeOf_add_le _ _ _).trans (max_le ?_ ?_)) ?_)
  · rw [MvPolynomial.degreeOf_C]; exact Nat.zero_le _
  · exact (MvPolynomial.degreeOf_C_mul_le _ _ _).trans (hX 0)
  · exact (MvPolynomial.degreeOf_C_mul_le _ _ _).trans (hX 1)

/-- The coefficients of the determinant of a convex quadrilateral. -/
theorem coeffSum_quadPoly {V : (Fin 2 → Fin 2) → Fin 2 → ℝ} (h : LeftTurns (corners V)) : coeffSum (quadPoly V) ≤ quadrilateralArea (corners V) / 2 := by
  have hp : ∀ a b : ℝ, (-1 ≤ a ∧ a ≤ 1) → (-1 ≤ b ∧ b ≤ 1) → 0 < MvPolynomial.eval ![a, b] (quadPoly V) := fun a b ha hb => by
    rw [eval_quadPoly]
    refine quadDet_pos h fun k => ?_
    fin_cases k
    · exact ha
    · exact hb
  have hA : quadrilateralArea (corners V) = 4 * quadDet V ![0, 0] := by
    rw [quadDet_eq]
    simp [quadrilateralArea, turn]
    ring
  obtain ⟨α, hα⟩ : ∃ α, α = quadDet V ![0, 0] := ⟨_, rfl⟩
  obtain ⟨β, hβ⟩ : ∃ β, β = (quadDet V ![1, 0] - quadDet V ![-1, 0]) / 2 := ⟨_, rfl⟩
  obtain ⟨γ, hγ⟩ : ∃ γ, γ = (quadDet V ![0, 1] - quadDet V ![0, -1]) / 2 := ⟨_, rfl⟩
  have hq : quadPoly V = MvPolynomial.C α + MvPolynomial.C β * MvPolynomial.X 0 + MvPolynomial.C γ * MvPolynomial.X 1 := by rw [hα, hβ, hγ]; rfl
  have hc : coeffSum (quadPoly V) ≤ |α| + |β| + |γ| := by
    rw [hq]
    refine (coeffSum_add_le _ _).trans (add_le_add ((coeffSum_add_le _ _).trans (add_le_add (le_of_eq (coeffSum_C _)) ?_)) ?_)
    · exact (coeffSum_mul_le _ _).trans (by rw [coeffSum_C, coeffSum_X, mul_one])
    · exact (coeffSum_mul_le _ _).trans (by rw [coeffSum_C, coeffSum_X, mul_one])
  have h1 := hp 1 1 (by norm_num) (by norm_num)
  have h2 := hp 1 (-1) (by norm_num) (by norm_num)
  have h3 := hp (-1) 1 (by norm_num) (by norm_num)
  have h4 := hp (-1) (-1) (by norm_num) (by norm_num)
  rw [hq] at h1 h2 h3 h4
  simp at h1 h2 h3 h4
  rw [hA, ← hα]
  have ha : |α| = α := abs_of_pos (by linarith)
  have hbc : |β| + |γ| ≤ α := by
    rcases abs_cases β with ⟨e, -⟩ | ⟨e, -⟩ <;> rcases abs_cases γ with ⟨f, -⟩ | ⟨f, -⟩ <;> rw [e, f] <;> linarith
  linarith

/-! ### cells with vertical edges -/

theorem multi_three (Y : (Fin 3 → Fin 2) → ℝ) (ξ : Fin 3 → ℝ) : multi Y ξ =
    (1 - ξ 2) / 2 * multi (fun idx : Fin 2 → Fin 2 => Y ![idx 0, idx 1, 0]) ![ξ 0, ξ 1]
      + (1 + ξ 2) / 2 * multi (fun idx : Fin 2 → Fin 2 => Y ![idx 0, idx 1, 1]) ![ξ 0, ξ 1] := by
  have hb : Function.Bijective fun p : (Fin 2 → Fin 2) × Fin 2 => (![p.1 0, p.1 1, p.2] : Fin 3 → Fin 2) := by
    constructor <;> decide
  unfold multi
  rw [← Function.Bijective.sum_comp hb, Fintype.sum_prod_type, Finset.mul_sum, Finset.mul_sum, ← Finset.sum_add_distrib]
  refine Finset.sum_congr rfl fun idx _ => ?_
  simp only [Fin.sum_univ_two, Fin.prod_univ_three, Fin.prod_univ_two]
  have h0 : hat 0 (ξ 2) = (1 - ξ 2) / 2 := if_pos rfl
  have h1 : hat 1 (ξ 2) = (1 + ξ 2) / 2 := if_neg (by decide)
  simp [h0, h1]
  ring

section vertical
variable {V : (Fin 3 → Fin 2) → Fin 3 → ℝ}

/-- The base of a cell with vertical edges. -/
def base (V : (Fin 3 → Fin 2) → Fin 3 → ℝ) (idx : Fin 2 → Fin 2) : Fin 2 → ℝ := ![V ![idx 0, idx 1, 0] 0, V ![idx 0, idx 1, 0] 1]

/-- The heights of the bottom and of the top. -/
noncomputable def level (V : (Fin 3 → Fin 2) → Fin 3 → ℝ) (c : Fin 2) (ξ : Fin 2 → ℝ) : ℝ := multi (fun idx => V ![idx 0, idx 1, c] 2) ξ

theorem vertical_base (h : VerticalEdges V) (ξ : Fin 3 → ℝ) :
    multi (fun idx => V idx 0) ξ = multi (fun idx => base V idx 0) ![ξ 0, ξ 1] ∧
    multi (fun idx => V idx 1) ξ = multi (fun idx => base V idx 1) ![ξ 0, ξ 1] := by
  constructor
  · rw [multi_three]
    simp only [(h.vertical _ _).1]
    show _ = multi (fun idx : Fin 2 → Fin 2 => V ![idx 0, idx 1, 0] 0) _
    ring
  · rw [multi_three]
    simp only [(h.vertical _ _).2]
    show _ = multi (fun idx : Fin 2 → Fin 2 => V ![idx 0, idx 1, 0] 1) _
    ring

theorem vertical_height (V : (Fin 3 → Fin 2) → Fin 3 → ℝ) (ξ : Fin 3 → ℝ) :
    multi (fun idx => V idx 2) ξ = (1 - ξ 2) / 2 * level V 0 ![ξ 0, ξ 1] + (1 + ξ 2) / 2 * level V 1 ![ξ 0, ξ 1] :=
  multi_three _ _

theorem level_lt (h : VerticalEdges V) {ξ : Fin 2 → ℝ} (hξ : ξ ∈ cube 2) : level V 0 ξ < level V 1 ξ := by
  unfold level
  rw [multi_two, multi_two]
  have := mean_pos (hξ 0) (hξ 1) (sub_pos.2 (h.upward 0 0)) (sub_pos.2 (h.upward 1 0)) (sub_pos.2 (h.upward 0 1)) (sub_pos.2 (h.upward 1 1))
  simp only [Matrix.cons_val_zero, Matrix.cons_val_one]
  linarith

theorem square_mem {ξ : Fin 3 → ℝ} (hξ : ξ ∈ cube 3) : ![ξ 0, ξ 1] ∈ cube 2 := fun k => by
  fin_cases k
  · exact hξ 0
  · exact hξ 1

theorem vertical_det (h : VerticalEdges V) (ξ : Fin 3 → ℝ) : (Matrix.of fun i j => cellSlope (fun idx => V idx i) ξ j).det
    = quadDet (base V) ![ξ 0, ξ 1] * ((level V 1 ![ξ 0, ξ 1] - level V 0 ![ξ 0, ξ 1]) / 2) := by
  have u0 : ∀ s : ℝ, Function.update ![ξ 0, ξ 1] 0 s = ![s, ξ 1] := fun s => by funext k; fin_cases k <;> simp
  have u1 : ∀ s : ℝ, Function.update ![ξ 0, ξ 1] 1 s = ![ξ 0, s] := fun s => by funext k; fin_cases k <;> simp
  have n : ∀ {i j : Fin 3} (s : ℝ), i ≠ j → Function.update ξ j s i = ξ i := fun s h => Function.update_of_ne h _ _
  have a : ∀ i : Fin 2, cellSlope (fun idx => V idx i.castSucc) ξ 0 = cellSlope (fun idx => base V idx i) ![ξ 0, ξ 1] 0 := fun i => by
    rcases (show ∀ i : Fin 2, i = 0 ∨ i = 1 by decide) i with rfl | rfl
    · show cellSlope (fun idx => V idx 0) ξ 0 = _
      simp only [cellSlope, (vertical_base h _).1, u0, Function.update_self, n _ (show (1 : Fin 3) ≠ 0 by decide)]
    · show cellSlope (fun idx => V idx 1) ξ 0 = _
      simp only [cellSlope, (vertical_base h _).2, u0, Function.update_self, n _ (show (1 : Fin 3) ≠ 0 by decide)]
  have b : ∀ i : Fin 2, cellSlope (fun idx => V idx i.castSucc) ξ 1 = cellSlope (fun idx => base V idx i) ![ξ 0, ξ 1] 1 := fun i => by
    rcases (show ∀ i : Fin 2, i = 0 ∨ i = 1 by decide) i with rfl | rfl
    · show cellSlope (fun idx => V idx 0) ξ 1 = _
      simp only [cellSlope, (vertical_base h _).1, u1, Function.update_self, n _ (show (0 : Fin 3) ≠ 1 by decide)]
    · show cellSlope (fun idx => V idx 1) ξ 1 = _
      simp only [cellSlope, (vertical_base h _).2, u1, Function.update_self, n _ (show (0 : Fin 3) ≠ 1 by decide)]
  have c : ∀ i : Fin 2, cellSlope (fun idx => V idx i.castSucc) ξ 2 = 0 := fun i => by
    rcases (show ∀ i : Fin 2, i = 0 ∨ i = 1 by decide) i with rfl | rfl
    · show cellSlope (fun idx => V idx 0) ξ 2 = _
      simp only [cellSlope, (vertical_base h _).1, n _ (show (0 : Fin 3) ≠ 2 by decide), n _ (show (1 : Fin 3) ≠ 2 by decide), sub_self, zero_div]
    · show cellSlope (fun idx => V idx 1) ξ 2 = _
      simp only [cellSlope, (vertical_base h _).2, n _ (show (0 : Fin 3) ≠ 2 by decide), n _ (show (1 : Fin 3) ≠ 2 by decide), sub_self, zero_div]
  have e : cellSlope (fun idx => V idx 2) ξ 2 = (level V 1 ![ξ 0, ξ 1] - level V 0 ![ξ 0, ξ 1]) / 2 := by
    simp only [cellSlope, vertical_height, Function.update_self, n _ (show (0 : Fin 3) ≠ 2 by decide), n _ (show (1 : Fin 3) ≠ 2 by decide)]
    ring
  rw [Matrix.det_fin_three, quadDet, Matrix.det_fin_two]
  simp only [Matrix.of_apply]
  rw [e, ← a 0, ← a 1, ← b 0, ← b 1, show cellSlope (fun idx => V idx 0) ξ 2 = 0 from c 0, show cellSlope (fun idx => V idx 1) ξ 2 = 0 from c 1]
  show _ = (cellSlope (fun idx => V idx 0) ξ 0 * cellSlope (fun idx => V idx 1) ξ 1 - cellSlope (fun idx => V idx 0) ξ 1 * cellSlope (fun idx => V idx 1) ξ 0) * _
  ring

theorem vertical_pos (h : VerticalEdges V) {ξ : Fin 3 → ℝ} (hξ : ξ ∈ cube 3) : 0 < (Matrix.of fun i j => cellSlope (fun idx => V idx i) ξ j).det := by
  rw [vertical_det h]
  exact mul_pos (quadDet_pos h.base (square_mem hξ)) (half_pos (sub_pos.2 (level_lt h (square_mem hξ))))

theorem vertical_injOn (h : VerticalEdges V) : Set.InjOn (fun (ξ : Fin 3 → ℝ) i => multi (fun idx => V idx i) ξ) (cube 3) := by
  intro p hp q hq e
  have e0 : multi (fun idx => V idx 0) p = multi (fun idx => V idx 0) q := congrFun e 0
  have e1 : multi (fun idx => V idx 1) p = multi (fun idx => V idx 1) q := congrFun e 1
  have e2 : multi (fun idx => V idx 2) p = multi (fun idx => V idx 2) q := congrFun e 2
  rw [(vertical_base h p).1, (vertical_base h q).1] at e0
  rw [(vertical_base h p).2, (vertical_base h q).2] at e1
  have hb := quad_injOn (V := base V) h.base (square_mem hp) (square_mem hq) (by
    funext i
    rcases (show ∀ i : Fin 2, i = 0 ∨ i = 1 by decide) i with rfl | rfl
    · exact e0
    · exact e1)
  rw [vertical_height, vertical_height, hb] at e2
  have hl := level_lt h (square_mem hq)
  have e3 : (p 2 - q 2) * (level V 1 ![q 0, q 1] - level V 0 ![q 0, q 1]) = 0 := by linear_combination 2 * e2
  have e4 := (mul_eq_zero.1 e3).resolve_right (sub_pos.2 hl).ne'
  funext k
  have h0 : p 0 = q 0 := congrFun hb 0
  have h1 : p 1 = q 1 := congrFun hb 1
  fin_cases k
  · exact h0
  · exact h1
  · exact sub_eq_zero.1 e4

/-- Stacked cells have only the shared face in common. -/
theorem vertical_above {W : (Fin 3 → Fin 2) → Fin 3 → ℝ} (hV : VerticalEdges V) (hW : VerticalEdges W) (hs : ∀ a b, V ![a, b, 1] = W ![a, b, 0])
    {ξ η : Fin 3 → ℝ} (hξ : ξ ∈ cube 3) (hη : η ∈ cube 3) :
    (∀ i, multi (fun idx => V idx i) ξ = multi (fun idx => W idx i) η) ↔ ξ 2 = 1 ∧ η 2 = -1 ∧ ξ 0 = η 0 ∧ ξ 1 = η 1 := by
  have hb : base V = base W := by
    funext idx i
    have h0 := hV.vertical (idx 0) (idx 1)
    rw [hs] at h0
    rcases (show ∀ i : Fin 2, i = 0 ∨ i = 1 by decide) i with rfl | rfl
    · exact h0.1.symm
    · exact h0.2.symm
  have hl : level V 1 = level W 0 := by
    funext ζ
    show multi (fun idx : Fin 2 → Fin 2 => V ![idx 0, idx 1, 1] 2) ζ = _
    simp only [hs]
    rfl
  constructor
  · intro e
    have e0 := e 0
    have e1 := e 1
    rw [(vertical_base hV ξ).1, (vertical_base hW η).1, hb] at e0
    rw [(vertical_base hV ξ).2, (vertical_base hW η).2, hb] at e1
    have hq := quad_injOn (V := base W) hW.base (square_mem hξ) (square_mem hη) (by
      funext i
      rcases (show ∀ i : Fin 2, i = 0 ∨ i = 1 by decide) i with rfl | rfl
      · exact e0
      · exact e1)
    have e2 := e 2
    rw [vertical_height, vertical_height, hl, hq] at e2
    have l1 := level_lt hV (square_mem hξ)
    have l2 := level_lt hW (square_mem hη)
    rw [hl, hq] at l1
    have p1 : 0 ≤ (1 - ξ 2) / 2 * (level W 0 ![η 0, η 1] - level V 0 ![η 0, η 1]) := mul_nonneg (by linarith [(hξ 2).2]) (by linarith)
    have p2 : 0 ≤ (1 + η 2) / 2 * (level W 1 ![η 0, η 1] - level W 0 ![η 0, η 1]) := mul_nonneg (by linarith [(hη 2).1]) (by linarith)
    have z1 : (1 - ξ 2) / 2 * (level W 0 ![η 0, η 1] - level V 0 ![η 0, η 1]) = 0 := by linarith
    have z2 : (1 + η 2) / 2 * (level W 1 ![η 0, η 1] - level W 0 ![η 0, η 1]) = 0 := by linarith
    have z1 := (mul_eq_zero.1 z1).resolve_right (sub_pos.2 l1).ne'
    have z2 := (mul_eq_zero.1 z2).resolve_right (sub_pos.2 l2).ne'
    exact ⟨by linarith, by linarith, congrFun hq 0, congrFun hq 1⟩
  · rintro ⟨h2, h2', h0, h1⟩
    have : ∀ Y : (Fin 3 → Fin 2) → ℝ, ∀ Z : (Fin 3 → Fin 2) → ℝ, (∀ a b, Y ![a, b, 1] = Z ![a, b, 0]) → multi Y ξ = multi Z η := fun Y Z h => by
      rw [multi_three, multi_three, h2, h2', h0, h1]
      simp only [h]
      ring
    exact fun i => this _ _ fun a b => congrFun (hs a b) i

/-- Cells beside each other that share a face have only this face in common. -/
theorem vertical_beside {W : (Fin 3 → Fin 2) → Fin 3 → ℝ} (hV : VerticalEdges V) (hW : VerticalEdges W) (hs : ∀ b c, V ![1, b, c] = W ![0, b, c])
    {ξ η : Fin 3 → ℝ} (hξ : ξ ∈ cube 3) (hη : η ∈ cube 3) :
    (∀ i, multi (fun idx => V idx i) ξ = multi (fun idx => W idx i) η) ↔ ξ 0 = 1 ∧ η 0 = -1 ∧ ξ 1 = η 1 ∧ ξ 2 = η 2 := by
  have hb : ∀ b, base V ![1, b] = base W ![0, b] := fun b => by
    show ![V ![1, b, 0] 0, V ![1, b, 0] 1] = ![W ![0, b, 0] 0, W ![0, b, 0] 1]
    rw [hs]
  have hl : ∀ (c : Fin 2) (y : ℝ), level V c ![1, y] = level W c ![-1, y] := fun c y => by
    unfold level
    rw [multi_two, multi_two]
    simp [hs]
  have hq := quad_beside (V := base V) (W := base W) hV.base hW.base hb (square_mem hξ) (square_mem hη)
  constructor
  · intro e
    obtain ⟨q0, q0', q1⟩ := hq.1 (fun i => by
      have e0 := e 0
      have e1 := e 1
      rw [(vertical_base hV ξ).1, (vertical_base hW η).1] at e0
      rw [(vertical_base hV ξ).2, (vertical_base hW η).2] at e1
      rcases (show ∀ i : Fin 2, i = 0 ∨ i = 1 by decide) i with rfl | rfl
      · exact e0
      · exact e1)
    change ξ 0 = 1 at q0
    change η 0 = -1 at q0'
    change ξ 1 = η 1 at q1
    refine ⟨q0, q0', q1, ?_⟩
    have e2 := e 2
    have l := level_lt hW (square_mem hη)
    rw [vertical_height, vertical_height, q0, q0', q1, hl, hl] at e2
    rw [q0'] at l
    have e3 : (ξ 2 - η 2) * (level W 1 ![-1, η 1] - level W 0 ![-1, η 1]) = 0 := by linear_combination 2 * e2
    exact sub_eq_zero.1 ((mul_eq_zero.1 e3).resolve_right (sub_pos.2 l).ne')
  · rintro ⟨h0, h0', h1, h2⟩
    have : ∀ Y Z : (Fin 3 → Fin 2) → ℝ, (∀ b c, Y ![1, b, c] = Z ![0, b, c]) → multi Y ξ = multi Z η := fun Y Z h => by
      rw [multi_three, multi_three, multi_two, multi_two, multi_two, multi_two, h0, h0', h1, h2]
      simp [h]
    exact fun i => this _ _ fun b c => congrFun (hs b c) i

/-- The same in the other horizontal direction. -/
theorem vertical_behind {W : (Fin 3 → Fin 2) → Fin 3 → ℝ} (hV : VerticalEdges V) (hW : VerticalEdges W) (hs : ∀ a c, V ![a, 1, c] = W ![a, 0, c])
    {ξ η : Fin 3 → ℝ} (hξ : ξ ∈ cube 3) (hη : η ∈ cube 3) :
    (∀ i, multi (fun idx => V idx i) ξ = multi (fun idx => W idx i) η) ↔ ξ 1 = 1 ∧ η 1 = -1 ∧ ξ 0 = η 0 ∧ ξ 2 = η 2 := by
  have hb : ∀ b, base V ![b, 1] = base W ![b, 0] := fun b => by
    show ![V ![b, 1, 0] 0, V ![b, 1, 0] 1] = ![W ![b, 0, 0] 0, W ![b, 0, 0] 1]
    rw [hs]
  have hl : ∀ (c : Fin 2) (y : ℝ), level V c ![y, 1] = level W c ![y, -1] := fun c y => by
    unfold level
    rw [multi_two, multi_two]
    simp [hs]
  have hq := quad_above (V := base V) (W := base W) hV.base hW.base hb (square_mem hξ) (square_mem hη)
  constructor
  · intro e
    obtain ⟨q0, q0', q1⟩ := hq.1 (fun i => by
      have e0 := e 0
      have e1 := e 1
      rw [(vertical_base hV ξ).1, (vertical_base hW η).1] at e0
      rw [(vertical_base hV ξ).2, (vertical_base hW η).2] at e1
      rcases (show ∀ i : Fin 2, i = 0 ∨ i = 1 by decide) i with rfl | rfl
      · exact e0
      · exact e1)
    change ξ 1 = 1 at q0
    change η 1 = -1 at q0'
    change ξ 0 = η 0 at q1
    refine ⟨q0, q0', q1, ?_⟩
    have e2 := e 2
    have l := level_lt hW (square_mem hη)
    rw [vertical_height, vertical_height, q0, q0', q1, hl, hl] at e2
    rw [q0'] at l
    have e3 : (ξ 2 - η 2) * (level W 1 ![η 0, -1] - level W 0 ![η 0, -1]) = 0 := by linear_combination 2 * e2
    exact sub_eq_zero.1 ((mul_eq_zero.1 e3).resolve_right (sub_pos.2 l).ne')
  · rintro ⟨h0, h0', h1, h2⟩
    have : ∀ Y Z : (Fin 3 → Fin 2) → ℝ, (∀ a c, Y ![a, 1, c] = Z ![a, 0, c]) → multi Y ξ = multi Z η := fun Y Z h => by
      rw [multi_three, multi_three, multi_two, multi_two, multi_two, multi_two, h0, h0', h1, h2]
      simp [h]
    exact fun i => this _ _ fun a c => congrFun (hs a c) i

end vertical

end Verif.Lemmas
