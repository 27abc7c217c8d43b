import Verif.Lemmas.DistortedBox
import Verif.Spec.ControlValues
import Mathlib.LinearAlgebra.Matrix.Determinant.Basic
import Mathlib.Tactic.LinearCombination

/-! # Control values of determinants -/

namespace Verif.Lemmas

open Verif.Spec

/-- `f` is a polynomial of degree at most two, written with its values at -1, 0 and 1. -/
def IsQuad (f : ℝ → ℝ) : Prop := ∀ x, f x = f 0 + x * ((f 1 - f (-1)) / 2) + x ^ 2 * ((f 1 + f (-1)) / 2 - f 0)

theorem IsQuad.control {g : Fin 3 → ℝ → ℝ} (h : ∀ a, IsQuad (g a)) (i : Fin 3) : IsQuad fun x => Spec.control (fun a => g a x) i := by
  intro x
  have h0 := h 0 x
  have h1 := h 1 x
  have h2 := h 2 x
  fin_cases i
  · simpa [Spec.control] using h0
  · simp only [Spec.control, Fin.mk_one, Matrix.cons_val_one, Matrix.cons_val_zero]
    linear_combination 2 * h1 - (h0 + h2) / 2
  · simpa [Spec.control] using h2

/-- The Bernstein form. -/
theorem IsQuad.eq {f : ℝ → ℝ} (h : IsQuad f) (x : ℝ) :
    f x = (1 - x) ^ 2 / 4 * Spec.control (fun a => f (threePoints a)) 0 + (1 - x ^ 2) / 2 * Spec.control (fun a => f (threePoints a)) 1
      + (1 + x) ^ 2 / 4 * Spec.control (fun a => f (threePoints a)) 2 := by
  rw [h x]
  simp only [Spec.control, threePoints, Matrix.cons_val_zero, Matrix.cons_val_one, Matrix.cons_val]
  ring

theorem IsQuad.lower {f : ℝ → ℝ} (h : IsQuad f) {x : ℝ} (hx : -1 ≤ x ∧ x ≤ 1) {m : ℝ}
    (hm : ∀ i, m < Spec.control (fun a => f (threePoints a)) i) : m < f x := by
  obtain ⟨μ, h1, h2⟩ : ∃ μ, m < μ ∧ ∀ i, μ ≤ Spec.control (fun a => f (threePoints a)) i := by
    obtain ⟨i, hi⟩ := Finite.exists_min fun i => Spec.control (fun a => f (threePoints a)) i
    exact ⟨_, hm i, hi⟩
  refine lt_of_lt_of_le h1 ?_
  rw [h.eq x]
  have b0 : 0 ≤ (1 - x) ^ 2 / 4 := by positivity
  have b1 : 0 ≤ (1 - x ^ 2) / 2 := by nlinarith [hx.1, hx.2]
  have b2 : 0 ≤ (1 + x) ^ 2 / 4 := by positivity
  have := mul_le_mul_of_nonneg_left (h2 0) b0
  have := mul_le_mul_of_nonneg_left (h2 1) b1
  have := mul_le_mul_of_nonneg_left (h2 2) b2
  nlinarith

theorem control_neg (v : Fin 3 → ℝ) (i : Fin 3) : Spec.control (fun a => -v a) i = -Spec.control v i := by
  fin_cases i <;> simp [Spec.control]; ring

theorem control3_neg (v : Fin 3 → Fin 3 → Fin 3 → ℝ) (i j k : Fin 3) : control3 (fun a b c => -v a b c) i j k = -control3 v i j k := by
  simp only [control3, control_neg]

theorem control_near {v w : Fin 3 → ℝ} {E : ℝ} (h : ∀ a, |v a - w a| ≤ E) (i : Fin 3) : |Spec.control v i - Spec.control w i| ≤ 3 * E := by
  have h0 := abs_le.1 (h 0)
  have h1 := abs_le.1 (h 1)
  have h2 := abs_le.1 (h 2)
  rw [abs_le]
  fin_cases i <;> simp [Spec.control] <;> constructor <;> linarith [h0.1, h0.2, h1.1, h1.2, h2.1, h2.2]

theorem control3_near {v w : Fin 3 → Fin 3 → Fin 3 → ℝ} {E : ℝ} (h : ∀ a b c, |v a b c - w a b c| ≤ E) (i j k : Fin 3) :
    |control3 v i j k - control3 w i j k| ≤ 27 * E := by
  have := control_near (fun c => control_near (fun b => control_near (fun a => h a b c) i) j) k
  unfold control3
  linarith

/-- A function of three variables that is of degree two in each of them is bounded by its control values. -/
theorem control_lower {F : (Fin 3 → ℝ) → ℝ} (hF : ∀ ξ k, IsQuad fun x => F (Function.update ξ k x)) {m : ℝ}
    (hm : ∀ i j k, m < control3 (fun a b c => F ![threePoints a, threePoints b, threePoints c]) i j k) {ξ : Fin 3 → ℝ} (hξ : ξ ∈ cube 3) : m < F ξ := by
  have q0 : ∀ y z, IsQuad fun x => F ![x, y, z] := fun y z => by
    have := hF ![0, y, z] 0
    refine cast (congrArg IsQuad (funext fun x => congrArg F (funext fun k => ?_))) this
    fin_cases k <;> simp [Function.update]
  have q1 : ∀ x z, IsQuad fun y => F ![x, y, z] := fun x z => by
    have := hF ![x, 0, z] 1
    refine cast (congrArg IsQuad (funext fun y => congrArg F (funext fun k => ?_))) this
    fin_cases k <;> simp [Function.update]
  have q2 : ∀ x y, IsQuad fun z => F ![x, y, z] := fun x y => by
    have := hF ![x, y, 0] 2
    refine cast (congrArg IsQuad (funext fun z => congrArg F (funext fun k => ?_))) this
    fin_cases k <;> simp [Function.update]
  have e : ξ = ![ξ 0, ξ 1, ξ 2] := funext fun k => by fin_cases k <;> rfl
  rw [e]
  refine (q0 (ξ 1) (ξ 2)).lower (hξ 0) fun i => ?_
  refine (IsQuad.control (g := fun a y => F ![threePoints a, y, ξ 2]) (fun a => q1 _ _) i).lower (hξ 1) fun j => ?_
  exact (IsQuad.control (g := fun b z => Spec.control (fun a => F ![threePoints a, threePoints b, z]) i)
    (fun b => IsQuad.control (fun a => q2 _ _) i) j).lower (hξ 2) fun k => hm i j k

/-! ### the determinant of a trilinear map -/

/-- The derivative of the multilinear interpolant. -/
noncomputable def cellSlope {d : ℕ} (Y : (Fin d → Fin 2) → ℝ) (ξ : Fin d → ℝ) (j : Fin d) : ℝ :=
  (multi Y (Function.update ξ j 1) - multi Y (Function.update ξ j (-1))) / 2

/-- The derivative in a direction does not depend on the coordinate in that direction. -/
theorem cellSlope_const {d : ℕ} (Y : (Fin d → Fin 2) → ℝ) (ξ : Fin d → ℝ) (j : Fin d) (x : ℝ) : cellSlope Y (Function.update ξ j x) j = cellSlope Y ξ j := by
  unfold cellSlope
  rw [Function.update_idem, Function.update_idem]

theorem cellSlope_affine {d : ℕ} (Y : (Fin d → Fin 2) → ℝ) (ξ : Fin d → ℝ) (j k : Fin d) (x : ℝ) :
    cellSlope Y (Function.update ξ k x) j = (1 - x) / 2 * cellSlope Y (Function.update ξ k (-1)) j + (1 + x) / 2 * cellSlope Y (Function.update ξ k 1) j := by
  by_cases h : j = k
  · subst h
    simp only [cellSlope_const]
    ring
  · unfold cellSlope
    simp only [fun (a b : ℝ) => Function.update_comm (Ne.symm h) a b ξ]
    rw [multi_update Y (Function.update ξ j 1) k x, multi_update Y (Function.update ξ j (-1)) k x]
    ring

private theorem det_quad_aux {M : ℝ → Fin 3 → Fin 3 → ℝ} (ha : ∀ x i j, M x i j = (1 - x) / 2 * M (-1) i j + (1 + x) / 2 * M 1 i j) (k : Fin 3)
    (hk : ∀ i, M 1 i k = M (-1) i k) : IsQuad fun x => (Matrix.of fun i j => M x i j).det := by
  intro x
  simp only [Matrix.det_fin_three, Matrix.of_apply]
  simp only [ha x, ha 0]
  have h0 := hk 0
  have h1 := hk 1
  have h2 := hk 2
  fin_cases k <;> simp only [Fin.mk_one, Fin.zero_eta, Fin.reduceFinMk] at h0 h1 h2 <;> rw [h0, h1, h2] <;> ring

/-- The determinant of the derivative of a trilinear map is of degree two in each variable. -/
theorem det_quad (Y : Fin 3 → (Fin 3 → Fin 2) → ℝ) (ξ : Fin 3 → ℝ) (k : Fin 3) :
    IsQuad fun x => (Matrix.of fun i j => cellSlope (Y i) (Function.update ξ k x) j).det :=
  det_quad_aux (M := fun x i j => cellSlope (Y i) (Function.update ξ k x) j) (fun _ _ _ => cellSlope_affine _ _ _ _ _) k
    fun _ => (cellSlope_const _ _ _ _).trans (cellSlope_const _ _ _ _).symm

end Verif.Lemmas
