import Verif.Spec.Scaling
import Verif.Lemmas.Scaling
import Mathlib.Analysis.Calculus.FDeriv.Pi
import Mathlib.LinearAlgebra.Matrix.Determinant.Basic

/-! # Properties C46 and C47: scalings -/

namespace Verif.Props

open Verif.Spec Verif.Lemmas

variable {R : Type}

/-- **C46, data.** After any history of updates `getData()` gives, for every direction, the length last
given to it, and the initial 1 if there was none; in any arithmetic. -/
theorem C46_getData (A : Arith R) (history : List (ScalingUpdate R)) :
    ∃ s, runScaling (Scaling.init A) history = .ok s ∧
      s.getData = List.ofFn (lastLength (A.lit 1) history) := by
  have step : ∀ (g : Fin 3 → R) (u : ScalingUpdate R),
      u.run ⟨List.ofFn g⟩ = .ok ⟨List.ofFn fun k => (u.length k).getD (g k)⟩ := by
    intro g u
    cases u with
    | set h => rfl
    | assign k x => fin_cases k <;> rfl
  have key : ∀ (g : Fin 3 → R) (us : List (ScalingUpdate R)), ∃ s, runScaling ⟨List.ofFn g⟩ us = .ok s ∧
      s.getData = List.ofFn fun k => lastLength (g k) us k := by
    intro g us
    induction us generalizing g with
    | nil => exact ⟨_, rfl, rfl⟩
    | cons u us ih =>
      obtain ⟨s, h1, h2⟩ := ih fun k => (u.length k).getD (g k)
      refine ⟨s, ?_, h2.trans ?_⟩
      · rw [runScaling, step, Res.ok_bind, h1]
      · congr 1
        funext k
        unfold lastLength
        cases hu : u.length k with
        | none => simp [hu]
        | some x => simp [hu, List.getLast?_cons]
  exact key (fun _ => A.lit 1) history

/-- **C46, Jacobian.** `jacobian( s, J )` leaves `h k / 2` in `J( k )`, whatever `J` held before, and the
diagonal matrix of these numbers is the derivative of the map `ξ ↦ h ξ / 2` at every point. -/
theorem C46_jacobian (cfg : Config) (s : Scaling ℝ) (h : Fin 3 → ℝ) (hs : s.getData = List.ofFn h)
    (J : List ℝ) (hJ : J.length = 3) :
    ∃ j : Fin 3 → ℝ, s.jacobian cfg (exactArith ℝ) J = .ok (List.ofFn j) ∧
      s.jacobianValue cfg (exactArith ℝ) J = .ok (List.ofFn j) ∧
      (∀ k, j k = h k / 2) ∧
      ∀ ξ i, HasFDerivAt (fun ξ : Fin 3 → ℝ => h i * ξ i / 2)
        (∑ a, Matrix.diagonal j i a • (ContinuousLinearMap.proj a : (Fin 3 → ℝ) →L[ℝ] ℝ)) ξ := by
  refine ⟨fun k => (exactArith ℝ).mul ((exactArith ℝ).lit (1 / 2)) (h k),
    scaling_jacobian cfg _ s h hs hJ, scaling_jacobian cfg _ s h hs hJ, fun k => ?_, fun ξ i => ?_⟩
  · simp [exactArith]; ring
  · rw [Finset.sum_eq_single i (fun a _ ha => by rw [Matrix.diagonal_apply_ne' _ ha, zero_smul]) (by simp),
      Matrix.diagonal_apply_eq]
    have h1 := ((ContinuousLinearMap.proj i : (Fin 3 → ℝ) →L[ℝ] ℝ).hasFDerivAt (x := ξ)).const_mul (h i / 2)
    have e1 : (fun ξ : Fin 3 → ℝ => h i * ξ i / 2)
        = fun y => h i / 2 * (ContinuousLinearMap.proj i : (Fin 3 → ℝ) →L[ℝ] ℝ) y := by
      funext y; simp only [ContinuousLinearMap.proj_apply]; ring
    have e2 : (exactArith ℝ).mul ((exactArith ℝ).lit (1 / 2)) (h i) = h i / 2 := by
      simp [exactArith]; ring
    rw [e1, e2]
    exact h1

/-- **C46, inverse and determinant.** `inverseJacobian( s, invJ, detJ )` leaves in `detJ` the determinant
of the diagonal Jacobian matrix, for all side lengths.  If none is zero it leaves in `invJ` the diagonal
of the inverse of that matrix, whatever `invJ` held before; otherwise something not finite. -/
theorem C46_inverseJacobian (cfg : Config) (s : Scaling ℝ) (h : Fin 3 → ℝ) (hs : s.getData = List.ofFn h)
    (J : List ℝ) (hJ : J.length = 3) :
    ∃ (det : ℝ) (after : Res (List ℝ)), s.inverseJacobian cfg (exactArith ℝ) J = .ok (det, after) ∧
      s.inverseJacobianValue cfg (exactArith ℝ) J = .ok (det, after) ∧
      det = (Matrix.diagonal fun k => h k / 2).det ∧
      ((∀ k, h k ≠ 0) → ∃ j : Fin 3 → ℝ, after = .ok (List.ofFn j) ∧
        (∀ k, j k * (h k / 2) = 1) ∧
        Matrix.diagonal j * Matrix.diagonal (fun k => h k / 2) = 1 ∧
        Matrix.diagonal (fun k => h k / 2) * Matrix.diagonal j = 1) ∧
      ((∃ k, h k = 0) → det = 0 ∧ after = .nonfinite) := by
  obtain ⟨r, h1, h2, h3⟩ := scaling_inverseJacobian cfg (exactArith ℝ) s h hs hJ
  have hdet : (exactArith ℝ).mul ((exactArith ℝ).mul ((exactArith ℝ).mul ((exactArith ℝ).lit (1 / 8)) (h 0)) (h 1))
      (h 2) = (Matrix.diagonal fun k => h k / 2).det := by
    rw [Matrix.det_diagonal, Fin.prod_univ_three]
    simp [exactArith]; ring
  refine ⟨_, r, h1, h1, hdet, fun h0 => ?_, fun h0 => ⟨?_, ?_⟩⟩
  · refine ⟨fun k => 2 / h k, h2 _ fun k => by simp [exactArith, h0 k], fun k => ?_, ?_, ?_⟩
    · have := h0 k; field_simp
    · rw [Matrix.diagonal_mul_diagonal, ← Matrix.diagonal_one]
      congr 1; funext k; have := h0 k; field_simp
    · rw [Matrix.diagonal_mul_diagonal, ← Matrix.diagonal_one]
      congr 1; funext k; have := h0 k; field_simp
  · obtain ⟨k, hk⟩ := h0
    rw [hdet, Matrix.det_diagonal]
    exact Finset.prod_eq_zero (Finset.mem_univ k) (by rw [hk, zero_div])
  · obtain ⟨k, hk⟩ := h0
    refine h3 ⟨k, by simp [exactArith, hk]⟩ fun k => ?_
    by_cases h4 : h k = 0
    · exact .inl (by simp [exactArith, h4])
    · exact .inr ⟨2 / h k, by simp [exactArith, h4]⟩

/-- **C47, data.** After any history of updates `getData()` gives the length last set, and the initial 1 if
there was none; in any arithmetic. -/
theorem C47_getData (A : Arith R) (history : List (UniformUpdate R)) :
    (runUniform (UniformScaling.init A) history).getData
      = (match history.getLast? with
        | some (.set h) => h
        | some (.assign x) => x
        | none => A.lit 1) := by
  have key : ∀ (s : UniformScaling R) (us : List (UniformUpdate R)), (runUniform s us).getData
      = (match us.getLast? with
        | some (.set h) => h
        | some (.assign x) => x
        | none => s.getData) := by
    intro s us
    induction us generalizing s with
    | nil => rfl
    | cons u us ih =>
      cases u <;> simp only [runUniform, ih, List.getLast?_cons] <;>
        rcases us.getLast? with _ | (_ | _) <;> rfl
  exact key _ history

/-- **C47, Jacobian, inverse and determinant.** `jacobian` leaves `h / 2`; `inverseJacobian` leaves the
determinant of `(h / 2) I` in `detJ`, and in `invJ` the inverse of `h / 2` if `h` is not zero and
something not finite otherwise. -/
theorem C47_jacobian_and_inverse (cfg : Config) (s : UniformScaling ℝ) (J : List ℝ) (hJ : J.length = 1) :
    s.jacobian cfg (exactArith ℝ) J = .ok [s.getData / 2] ∧
    s.jacobianValue cfg (exactArith ℝ) J = .ok [s.getData / 2] ∧
    s.inverseJacobianValue cfg (exactArith ℝ) J = s.inverseJacobian cfg (exactArith ℝ) J ∧
    (s.inverseJacobian cfg (exactArith ℝ) J).1 = ((s.getData / 2) • (1 : Matrix (Fin 3) (Fin 3) ℝ)).det ∧
    (s.getData ≠ 0 → ∃ j : ℝ, (s.inverseJacobian cfg (exactArith ℝ) J).2 = .ok [j] ∧ j * (s.getData / 2) = 1) ∧
    (s.getData = 0 → (s.inverseJacobian cfg (exactArith ℝ) J).2 = .nonfinite) := by
  have e : s.jacobian cfg (exactArith ℝ) J = .ok [s.getData / 2] := by
    rw [uniform_jacobian cfg _ s hJ]
    simp [exactArith]; ring
  refine ⟨e, e, rfl, ?_, fun h => ?_, fun h => ?_⟩
  · rw [Matrix.det_smul]
    simp [UniformScaling.inverseJacobian, exactArith]; ring
  · refine ⟨2 / s.getData, ?_, by field_simp⟩
    rw [UniformScaling.inverseJacobian]
    show UniformScaling.inverseEntry _ _ _ _ = _
    rw [uniform_inverseEntry cfg _ _ hJ]
    simp [exactArith, h]
  · rw [UniformScaling.inverseJacobian]
    show UniformScaling.inverseEntry _ _ _ _ = _
    rw [uniform_inverseEntry cfg _ _ hJ]
    simp [exactArith, h]

/-- **C47, agreement with Scaling.** A `UniformScaling` and a `Scaling` with three equal lengths give the
same Jacobian, the same determinant and the same inverse; the first two in any arithmetic, and the third
in any arithmetic in which division either succeeds or gives something not finite. -/
theorem C47_agrees_with_scaling (cfg : Config) (A : Arith R) (u : UniformScaling R) (s : Scaling R)
    (hs : s.getData = [u.getData, u.getData, u.getData]) (J1 J3 : List R) (h1 : J1.length = 1)
    (h3 : J3.length = 3)
    (hdiv : A.div (A.lit 2) u.getData = .nonfinite ∨ ∃ q, A.div (A.lit 2) u.getData = .ok q) :
    ∃ (j det : R) (after1 after3 : Res (List R)),
      u.jacobian cfg A J1 = .ok [j] ∧ s.jacobian cfg A J3 = .ok [j, j, j] ∧
      u.inverseJacobian cfg A J1 = (det, after1) ∧ s.inverseJacobian cfg A J3 = .ok (det, after3) ∧
      ((after1 = .nonfinite ∧ after3 = .nonfinite) ∨ ∃ q, after1 = .ok [q] ∧ after3 = .ok [q, q, q]) := by
  have hs' : s.getData = List.ofFn fun _ : Fin 3 => u.getData := hs
  obtain ⟨r, e1, e2, e3⟩ := scaling_inverseJacobian cfg A s _ hs' h3
  refine ⟨_, _, _, r, uniform_jacobian cfg A u h1, scaling_jacobian cfg A s _ hs' h3, rfl, e1, ?_⟩
  rw [uniform_inverseEntry cfg A _ h1]
  rcases hdiv with h | ⟨q, h⟩
  · exact .inl ⟨by rw [h]; rfl, e3 ⟨0, h⟩ fun _ => .inl h⟩
  · exact .inr ⟨q, by rw [h]; rfl, e2 (fun _ => q) fun _ => h⟩

/-- Non-vacuity of C46 and C47: a history, and the Jacobian, inverse and determinant it leads to. -/
example :
    (do
      let s ← runScaling (Scaling.init ratArith) [.set ![2, 3, 4], .assign 1 5]
      let J ← s.jacobian checkedHost ratArith [9, 9, 9]
      let r ← s.inverseJacobian checkedHost ratArith [9, 9, 9]
      .ok (s.getData, J, r)) = .ok ([2, 5, 4], [1, 5 / 2, 2], (5, .ok [1, 2 / 5, 1 / 2])) ∧
    ((runUniform (UniformScaling.init ratArith) [.set 3, .assign 4]).inverseJacobian checkedHost ratArith [9])
      = (8, .ok [1 / 2]) := by
  decide +kernel

end Verif.Props
