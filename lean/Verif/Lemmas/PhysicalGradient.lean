import Verif.Lemmas.CellVolume
import Verif.Spec.Mapping
import Mathlib.Analysis.Calculus.ContDiff.RCLike
import Mathlib.Analysis.Calculus.ContDiff.Operations
import Mathlib.Analysis.Calculus.InverseFunctionTheorem.FDeriv

/-! # Derivatives of a function carried along a map with an invertible derivative -/

namespace Verif.Lemmas

open Verif.Spec Filter Topology

variable {d : ℕ}

theorem contDiff_eval (p : MvPolynomial (Fin d) ℝ) :
    ContDiff ℝ 1 (fun ξ : Fin d → ℝ => MvPolynomial.eval ξ p) := by
  induction p using MvPolynomial.induction_on with
  | C a => simpa using contDiff_const
  | add p q hp hq => simpa using hp.add hq
  | mul_X p k hp => simpa using hp.mul (contDiff_apply ℝ ℝ k)

/-- The continuous linear map with a given matrix. -/
noncomputable def matMap (M : Matrix (Fin d) (Fin d) ℝ) : (Fin d → ℝ) →L[ℝ] (Fin d → ℝ) :=
  ContinuousLinearMap.pi fun i => ∑ j, M i j • (ContinuousLinearMap.proj j : (Fin d → ℝ) →L[ℝ] ℝ)

theorem matMap_apply (M : Matrix (Fin d) (Fin d) ℝ) (v : Fin d → ℝ) : matMap M v = M.mulVec v := by
  funext i
  simp [matMap, Matrix.mulVec, dotProduct]

/-- The linear equivalence with a given invertible matrix. -/
noncomputable def matEquiv {D N : Matrix (Fin d) (Fin d) ℝ} (h1 : N * D = 1) (h2 : D * N = 1) :
    (Fin d → ℝ) ≃L[ℝ] (Fin d → ℝ) :=
  ContinuousLinearEquiv.equivOfInverse (matMap D) (matMap N)
    (fun v => by rw [matMap_apply, matMap_apply, Matrix.mulVec_mulVec, h1, Matrix.one_mulVec])
    (fun v => by rw [matMap_apply, matMap_apply, Matrix.mulVec_mulVec, h2, Matrix.one_mulVec])

/-- If `x` has an invertible derivative at `ξ`, then near `x ξ` there is exactly one function carried by `x`
to `u`, and its derivative is that of `u` times the inverse of the derivative of `x`. -/
theorem pushforward {x : (Fin d → ℝ) → Fin d → ℝ} {D N : Matrix (Fin d) (Fin d) ℝ} {ξ : Fin d → ℝ}
    (hx : ContDiff ℝ 1 x) (hD : IsDerivative x D ξ) (h1 : N * D = 1) (h2 : D * N = 1)
    {u : (Fin d → ℝ) → ℝ} {g : Fin d → ℝ}
    (hu : HasFDerivAt u (∑ j, g j • (ContinuousLinearMap.proj j : (Fin d → ℝ) →L[ℝ] ℝ)) ξ) :
    (∃ F : (Fin d → ℝ) → ℝ, ∀ᶠ ζ in 𝓝 ξ, F (x ζ) = u ζ) ∧
    ∀ F : (Fin d → ℝ) → ℝ, (∀ᶠ ζ in 𝓝 ξ, F (x ζ) = u ζ) →
      HasFDerivAt F (∑ i, (∑ j, g j * N j i) • (ContinuousLinearMap.proj i : (Fin d → ℝ) →L[ℝ] ℝ)) (x ξ) := by
  have hd : HasFDerivAt x ((matEquiv h1 h2 : (Fin d → ℝ) ≃L[ℝ] (Fin d → ℝ)) : (Fin d → ℝ) →L[ℝ] (Fin d → ℝ)) ξ :=
    hasFDerivAt_pi'.2 fun i => (hD i).congr_fderiv (by ext v; simp [matEquiv, matMap])
  have hs := hx.contDiffAt.hasStrictFDerivAt' hd (by norm_num)
  refine ⟨⟨u ∘ hs.localInverse x _ ξ, hs.eventually_left_inverse.mono fun ζ e => by
    rw [Function.comp_apply, e]⟩, fun F hF => ?_⟩
  have hu' : HasFDerivAt u (∑ j, g j • (ContinuousLinearMap.proj j : (Fin d → ℝ) →L[ℝ] ℝ))
      (hs.localInverse x _ ξ (x ξ)) := by rw [hs.localInverse_apply_image]; exact hu
  have hc := hu'.comp (x ξ) hs.to_localInverse.hasFDerivAt
  have he : F =ᶠ[𝓝 (x ξ)] u ∘ hs.localInverse x _ ξ := by
    filter_upwards [hs.localInverse_tendsto.eventually hF, hs.eventually_right_inverse] with y a b
    rw [b] at a
    exact a
  refine (hc.congr_of_eventuallyEq he).congr_fderiv ?_
  ext v
  have e : (matEquiv h1 h2).symm v = N.mulVec v := matMap_apply N v
  simp only [ContinuousLinearMap.comp_apply, ContinuousLinearEquiv.coe_coe, e, _root_.sum_apply,
    _root_.smul_apply, ContinuousLinearMap.proj_apply, smul_eq_mul, Matrix.mulVec, dotProduct,
    Finset.mul_sum, Finset.sum_mul]
  rw [Finset.sum_comm]
  exact Finset.sum_congr rfl fun i _ => Finset.sum_congr rfl fun j _ => by ring

end Verif.Lemmas
