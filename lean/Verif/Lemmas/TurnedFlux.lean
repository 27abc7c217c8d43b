import Verif.Lemmas.FaceFlux
import Verif.Lemmas.CellVolume
import Verif.Spec.GluedMesh
import Mathlib.LinearAlgebra.Matrix.Permutation

/-! # The flux through the faces of a cell whose nodes are numbered in another order -/

namespace Verif.Lemmas

open Verif.Spec MeasureTheory MvPolynomial

/-- The sign of coordinate `k` of the image of a point. -/
def flipSign (s : CubeSymmetry 3) (k : Fin 3) : ℝ := if s.flip k then -1 else 1

theorem flipSign_mul (s : CubeSymmetry 3) (k : Fin 3) : flipSign s k * flipSign s k = 1 := by
  unfold flipSign; split <;> norm_num

theorem point_eq (s : CubeSymmetry 3) (ξ : Fin 3 → ℝ) (k : Fin 3) : s.point ξ k = flipSign s k * ξ (s.axis k) := by
  simp only [CubeSymmetry.point, flipSign]; split <;> ring

/-- The matrix of a symmetry. -/
def turnMatrix (s : CubeSymmetry 3) : Matrix (Fin 3) (Fin 3) ℝ := Matrix.of fun k b => if s.axis k = b then flipSign s k else 0

theorem det_turnMatrix (s : CubeSymmetry 3) (h : s.Proper) : (turnMatrix s).det = 1 := by
  have e : turnMatrix s = Matrix.diagonal (flipSign s) * s.axis.permMatrix ℝ := by
    ext k b
    rw [Matrix.diagonal_mul]
    simp only [turnMatrix, Matrix.of_apply, Equiv.Perm.permMatrix, PEquiv.toMatrix_apply, Equiv.toPEquiv_apply,
      Option.mem_some_iff, mul_ite, mul_one, mul_zero]
  rw [e, Matrix.det_mul, Matrix.det_diagonal, Matrix.det_permutation]
  have := congrArg (Int.cast : ℤ → ℝ) h
  push_cast at this
  rw [mul_comm]
  simpa [flipSign] using this

theorem turnMatrix_mul (s : CubeSymmetry 3) : turnMatrix s * (turnMatrix s).transpose = 1 := by
  ext k l
  rw [Matrix.mul_apply]
  simp only [turnMatrix, Matrix.transpose_apply, Matrix.of_apply]
  rw [Finset.sum_eq_single (s.axis k)]
  · by_cases hkl : k = l
    · subst hkl; simp [flipSign_mul]
    · rw [Matrix.one_apply_ne hkl, if_neg (fun hh => hkl (s.axis.injective hh).symm), mul_zero]
  · intro b _ hb; rw [if_neg hb.symm, zero_mul]
  · simp

theorem adjugate_turnMatrix (s : CubeSymmetry 3) (h : s.Proper) : (turnMatrix s).adjugate = (turnMatrix s).transpose := by
  rw [← Matrix.mul_one (turnMatrix s).adjugate, ← turnMatrix_mul s, ← Matrix.mul_assoc, Matrix.adjugate_mul,
    det_turnMatrix s h, one_smul, Matrix.one_mul]

/-- A polynomial at the image of the point. -/
noncomputable def turned (s : CubeSymmetry 3) : MvPolynomial (Fin 3) ℝ →ₐ[ℝ] MvPolynomial (Fin 3) ℝ :=
  aeval fun k => C (flipSign s k) * X (s.axis k)

theorem eval_turned (s : CubeSymmetry 3) (P : MvPolynomial (Fin 3) ℝ) (ξ : Fin 3 → ℝ) :
    eval ξ (turned s P) = eval (s.point ξ) P := by
  induction P using MvPolynomial.induction_on with
  | C r => simp [turned]
  | add p q hp hq => simp only [map_add, hp, hq]
  | mul_X p k hp =>
    simp only [map_mul, hp]
    congr 1
    simp [turned, point_eq]

theorem pderiv_turned (s : CubeSymmetry 3) (P : MvPolynomial (Fin 3) ℝ) (b : Fin 3) :
    pderiv b (turned s P) = ∑ k, turned s (pderiv k P) * C (turnMatrix s k b) := by
  classical
  induction P using MvPolynomial.induction_on with
  | C r => simp [turned]
  | add p q hp hq => simp only [map_add, hp, hq, add_mul, Finset.sum_add_distrib]
  | mul_X p k hp =>
    have e1 : turned s (X k) = C (flipSign s k) * X (s.axis k) := by simp [turned]
    have e2 : pderiv b (turned s (X k)) = C (turnMatrix s k b) := by
      rw [e1, pderiv_mul, pderiv_C, zero_mul, zero_add, pderiv_X, Pi.single_apply, turnMatrix, Matrix.of_apply]
      by_cases hb : s.axis k = b
      · rw [if_pos hb, if_pos hb, mul_one]
      · rw [if_neg hb, if_neg hb, mul_zero, C_0]
    have e3 : ∀ l, turned s (pderiv l (X k)) = if l = k then 1 else 0 := fun l => by
      rw [pderiv_X, Pi.single_apply]
      by_cases hl : l = k
      · subst hl; simp
      · rw [if_neg (Ne.symm hl), if_neg hl, map_zero]
    simp only [map_mul, pderiv_mul, map_add, hp, e2, e3, add_mul, Finset.sum_add_distrib, Finset.sum_mul, mul_ite, mul_one,
      mul_zero, ite_mul, zero_mul, Finset.sum_ite_eq', Finset.mem_univ, if_true]
    congr 1
    exact Finset.sum_congr rfl fun l _ => by ring

theorem adjugate_turned (s : CubeSymmetry 3) (h : s.Proper) (x : Fin 3 → MvPolynomial (Fin 3) ℝ) (a : Fin 3) :
    (jacobianPoly fun i => turned s (x i)).adjugate a 0
      = C (flipSign s (s.axis.symm a)) * turned s ((jacobianPoly x).adjugate (s.axis.symm a) 0) := by
  have e1 : (jacobianPoly fun i => turned s (x i)) = (turned s).toRingHom.mapMatrix (jacobianPoly x) * C.mapMatrix (turnMatrix s) := by
    refine Matrix.ext fun i b => ?_
    rw [Matrix.mul_apply]
    exact pderiv_turned s (x i) b
  rw [e1, Matrix.adjugate_mul_distrib, ← RingHom.map_adjugate, ← RingHom.map_adjugate, adjugate_turnMatrix s h, Matrix.mul_apply,
    Finset.sum_eq_single (s.axis.symm a)]
  · simp [turnMatrix]
  · intro k _ hk
    have : s.axis k ≠ a := fun hh => hk (by rw [← hh, Equiv.symm_apply_apply])
    simp [turnMatrix, this]
  · simp

theorem integral_point (s : CubeSymmetry 3) (h : s.Proper) (f : (Fin 3 → ℝ) → ℝ) :
    ∫ ξ in cube 3, f (s.point ξ) = ∫ ξ in cube 3, f ξ := by
  classical
  let g : Fin 3 → MvPolynomial (Fin 3) ℝ := fun k => C (flipSign s k) * X (s.axis k)
  have e1 : ∀ ξ : Fin 3 → ℝ, (fun i => eval ξ (g i)) = s.point ξ := fun ξ => by
    funext k; simp [g, point_eq]
  have e2 : ∀ ξ : Fin 3 → ℝ, eval ξ (jacobianPoly g).det = 1 := fun ξ => by
    rw [eval_det, ← det_turnMatrix s h]
    congr 1
    ext k b
    simp only [g, turnMatrix, Matrix.of_apply, pderiv_mul, pderiv_C, zero_mul, zero_add, pderiv_X, Pi.single_apply]
    by_cases hb : s.axis k = b
    · simp [hb]
    · simp [hb]
  have hinj : Function.Injective s.point := fun ξ η he => by
    funext b
    have := congrFun he (s.axis.symm b)
    rw [point_eq, point_eq, Equiv.apply_symm_apply] at this
    refine mul_left_cancel₀ (a := flipSign s (s.axis.symm b)) (fun h0 => ?_) this
    have := flipSign_mul s (s.axis.symm b)
    rw [h0] at this
    norm_num at this
  have hmem : ∀ k (r : ℝ), -1 ≤ r ∧ r ≤ 1 → -1 ≤ flipSign s k * r ∧ flipSign s k * r ≤ 1 := fun k r hr => by
    unfold flipSign; split
    · constructor <;> linarith [hr.1, hr.2]
    · constructor <;> linarith [hr.1, hr.2]
  have himg : s.point '' cube 3 = cube 3 := by
    ext η
    constructor
    · rintro ⟨ξ, hξ, rfl⟩ k
      rw [point_eq]; exact hmem _ _ (hξ _)
    · intro hη
      refine ⟨fun b => flipSign s (s.axis.symm b) * η (s.axis.symm b), fun b => hmem _ _ (hη _), ?_⟩
      funext k
      rw [point_eq, Equiv.symm_apply_apply, ← mul_assoc, flipSign_mul, one_mul]
  have e3 : (fun (ξ : Fin 3 → ℝ) i => eval ξ (g i)) = s.point := funext e1
  have key := integral_image g (by rw [e3]; exact hinj.injOn) (fun ξ _ => by rw [e2]; norm_num) f
  rw [e3, himg] at key
  rw [← key]
  refine setIntegral_congr_fun measurable_cube fun ξ _ => ?_
  rw [e2, mul_one, ← e1]

/-- The flux through a face of a cell whose nodes are numbered in another order. -/
theorem faceFlux_turned (s : CubeSymmetry 3) (h : s.Proper) (x : Fin 3 → MvPolynomial (Fin 3) ℝ) (a : Fin 3) (r : ℝ) :
    faceFlux (fun i => turned s (x i)) a r
      = flipSign s (s.axis.symm a) * faceFlux x (s.axis.symm a) (flipSign s (s.axis.symm a) * r) := by
  have e1 : ∀ ξ : Fin 3 → ℝ, s.point (Function.update ξ a r)
      = Function.update (s.point ξ) (s.axis.symm a) (flipSign s (s.axis.symm a) * r) := fun ξ => by
    funext k
    by_cases hk : k = s.axis.symm a
    · subst hk; rw [Function.update_self, point_eq, Equiv.apply_symm_apply, Function.update_self]
    · rw [Function.update_of_ne hk, point_eq, point_eq, Function.update_of_ne fun hh => hk (by rw [← hh, Equiv.symm_apply_apply])]
  have e2 : ∀ ξ : Fin 3 → ℝ, eval (Function.update ξ a r) (turned s (x 0) * (jacobianPoly fun i => turned s (x i)).adjugate a 0)
      = flipSign s (s.axis.symm a) * eval (Function.update (s.point ξ) (s.axis.symm a) (flipSign s (s.axis.symm a) * r))
          (x 0 * (jacobianPoly x).adjugate (s.axis.symm a) 0) := fun ξ => by
    rw [adjugate_turned s h, map_mul, map_mul, eval_C, eval_turned, eval_turned, e1, map_mul]
    ring
  simp only [faceFlux, e2]
  rw [integral_const_mul, integral_point s h fun ξ => eval (Function.update ξ (s.axis.symm a) (flipSign s (s.axis.symm a) * r))
    (x 0 * (jacobianPoly x).adjugate (s.axis.symm a) 0)]
  ring

end Verif.Lemmas
