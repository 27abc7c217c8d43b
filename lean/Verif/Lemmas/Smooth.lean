import Verif.Spec.Smooth
import Mathlib.Analysis.Calculus.LocalExtr.Rolle
import Mathlib.Analysis.Calculus.Deriv.Polynomial
import Mathlib.Analysis.Calculus.Deriv.Add
import Mathlib.Analysis.Calculus.Deriv.Mul
import Mathlib.LinearAlgebra.Lagrange
import Mathlib.Order.Fin.Basic
import Mathlib.Data.Finset.Sort

/-! # Rolle's theorem repeated, and the interpolation error -/

namespace Verif.Lemmas

open Verif.Spec Polynomial

local notation "I" => Set.Icc (-1 : ℝ) 1

theorem HasDerivatives.shift {m : ℕ} {f : ℝ → ℝ} {D : ℕ → ℝ → ℝ} (h : HasDerivatives (m + 1) f D) :
    HasDerivatives m (D 1) (fun k => D (k + 1)) :=
  ⟨fun _ _ => rfl, fun k hk x hx => h.succ (k + 1) (by omega) x hx⟩

/-- Between consecutive zeros of a function there is a zero of its derivative. -/
theorem rolle_zeros {n : ℕ} {f : ℝ → ℝ} {D : ℕ → ℝ → ℝ} (h : HasDerivatives 1 f D) {z : Fin (n + 1) → ℝ}
    (hz : StrictMono z) (hI : ∀ i, z i ∈ I) (h0 : ∀ i, D 0 (z i) = 0) :
    ∃ y : Fin n → ℝ, StrictMono y ∧ (∀ i, y i ∈ I) ∧ (∀ i, D 1 (y i) = 0) := by
  have key : ∀ i : Fin n, ∃ y, y ∈ Set.Ioo (z i.castSucc) (z i.succ) ∧ D 1 y = 0 := by
    intro i
    have hlt : z i.castSucc < z i.succ := hz Fin.castSucc_lt_succ
    have hsub : Set.Icc (z i.castSucc) (z i.succ) ⊆ I := Set.Icc_subset_Icc (hI _).1 (hI _).2
    obtain ⟨y, hy, e⟩ := exists_hasDerivAt_eq_zero (f := D 0) (f' := D 1) hlt
      (fun x hx => ((h.succ 0 (by omega) x (hsub hx)).continuousWithinAt).mono hsub) ((h0 _).trans (h0 _).symm)
      (fun x hx => (h.succ 0 (by omega) x (hsub (Set.Ioo_subset_Icc_self hx))).hasDerivAt
        (Filter.mem_of_superset (Icc_mem_nhds hx.1 hx.2) hsub))
    exact ⟨y, hy, e⟩
  choose y hy e using key
  refine ⟨y, fun i j hij => ?_, fun i => ⟨?_, ?_⟩, e⟩
  · have h1 : z i.succ ≤ z j.castSucc := hz.monotone (Fin.succ_le_castSucc_iff.2 hij)
    exact (hy i).2.trans_le (h1.trans (hy j).1.le)
  · exact (hI _).1.trans (hy i).1.le
  · exact (hy i).2.le.trans (hI _).2

/-- A function with `n + 1` zeros has a zero of its `n`-th derivative. -/
theorem rolle_iterate {n : ℕ} : ∀ {f : ℝ → ℝ} {D : ℕ → ℝ → ℝ}, HasDerivatives n f D → ∀ {z : Fin (n + 1) → ℝ},
    StrictMono z → (∀ i, z i ∈ I) → (∀ i, D 0 (z i) = 0) → ∃ ξ ∈ I, D n ξ = 0 := by
  induction n with
  | zero => intro f D h z _ hI h0; exact ⟨z 0, hI 0, h0 0⟩
  | succ n ih =>
    intro f D h z hz hI h0
    obtain ⟨y, hy, hyI, hy0⟩ := rolle_zeros (f := f) (D := D) ⟨h.zero, fun k hk => h.succ k (by omega)⟩ hz hI h0
    exact ih (HasDerivatives.shift h) hy hyI hy0

/-- The same for zeros in any order. -/
theorem rolle_injective {n : ℕ} {f : ℝ → ℝ} {D : ℕ → ℝ → ℝ} (h : HasDerivatives n f D) {z : Fin (n + 1) → ℝ}
    (hz : Function.Injective z) (hI : ∀ i, z i ∈ I) (h0 : ∀ i, D 0 (z i) = 0) : ∃ ξ ∈ I, D n ξ = 0 := by
  have hc : (Finset.univ.image z).card = n + 1 := by
    rw [Finset.card_image_of_injective _ hz, Finset.card_univ, Fintype.card_fin]
  have hm : ∀ i, ∃ j, z j = (Finset.univ.image z).orderEmbOfFin hc i := fun i => by
    have := Finset.orderEmbOfFin_mem (Finset.univ.image z) hc i
    obtain ⟨j, -, hj⟩ := Finset.mem_image.1 this
    exact ⟨j, hj⟩
  refine rolle_iterate h (z := (Finset.univ.image z).orderEmbOfFin hc) (OrderEmbedding.strictMono _) (fun i => ?_) fun i => ?_
  · obtain ⟨j, hj⟩ := hm i; rw [← hj]; exact hI j
  · obtain ⟨j, hj⟩ := hm i; rw [← hj]; exact h0 j

/-- Subtracting a polynomial. -/
theorem HasDerivatives.sub_poly {m : ℕ} {f : ℝ → ℝ} {D : ℕ → ℝ → ℝ} (h : HasDerivatives m f D) (p : ℝ[X]) :
    HasDerivatives m (fun x => f x - p.eval x) (fun k x => D k x - (derivative^[k] p).eval x) := by
  refine ⟨fun x hx => by simp [h.zero x hx], fun k hk x hx => ?_⟩
  have h2 : HasDerivWithinAt (fun x => (derivative^[k] p).eval x) ((derivative^[k + 1] p).eval x) I x := by
    rw [Function.iterate_succ_apply']
    exact (Polynomial.hasDerivAt _ x).hasDerivWithinAt
  exact (h.succ k hk x hx).fun_sub h2

theorem iterate_derivative_monic {p : ℝ[X]} (hp : p.Monic) {n : ℕ} (hn : p.natDegree = n) :
    derivative^[n] p = C (n.factorial : ℝ) := by
  have h1 : (derivative^[n] p).natDegree = 0 := by
    have := natDegree_iterate_derivative p n
    omega
  rw [eq_C_of_natDegree_eq_zero h1, coeff_iterate_derivative, zero_add, Nat.descFactorial_self]
  have : p.coeff n = 1 := by rw [← hn]; exact hp
  rw [this]; simp

/-- A function with `n` zeros is its `n`-th derivative somewhere, over `n!`, times the product of the distances to the zeros. -/
theorem zeros_formula {n : ℕ} {f : ℝ → ℝ} {D : ℕ → ℝ → ℝ} (h : HasDerivatives n f D) {z : Fin n → ℝ}
    (hz : Function.Injective z) (hI : ∀ i, z i ∈ I) (h0 : ∀ i, f (z i) = 0) {x : ℝ} (hx : x ∈ I) :
    ∃ ξ ∈ I, f x = D n ξ / n.factorial * ∏ i, (x - z i) := by
  by_cases hxz : ∃ i, x = z i
  · obtain ⟨i, rfl⟩ := hxz
    refine ⟨z i, hx, ?_⟩
    rw [h0, Finset.prod_eq_zero (Finset.mem_univ i) (sub_self _), mul_zero]
  have hw : ∏ i, (x - z i) ≠ 0 := Finset.prod_ne_zero_iff.2 fun i _ hi => hxz ⟨i, sub_eq_zero.1 hi⟩
  have hnod : ∀ t, (Lagrange.nodal Finset.univ z).eval t = ∏ i, (t - z i) := fun t => Lagrange.eval_nodal
  have hs := HasDerivatives.sub_poly h (C (f x / ∏ i, (x - z i)) * Lagrange.nodal Finset.univ z)
  obtain ⟨ξ, hξ, e⟩ := rolle_injective hs (z := Fin.cons x z)
    (by
      rw [Fin.cons_injective_iff]
      exact ⟨fun ⟨i, hi⟩ => hxz ⟨i, hi.symm⟩, hz⟩)
    (fun i => by
      refine Fin.cases ?_ (fun i => ?_) i
      · exact hx
      · exact hI i)
    (fun i => by
      refine Fin.cases ?_ (fun i => ?_) i
      · rw [Fin.cons_zero, Function.iterate_zero_apply, eval_mul, eval_C, hnod, h.zero x hx, div_mul_cancel₀ _ hw, sub_self]
      · rw [Fin.cons_succ, Function.iterate_zero_apply, eval_mul, Lagrange.eval_nodal_at_node (Finset.mem_univ i), mul_zero,
          h.zero _ (hI i), h0 i, sub_zero])
  refine ⟨ξ, hξ, ?_⟩
  simp only [iterate_derivative_C_mul] at e
  rw [iterate_derivative_monic Lagrange.nodal_monic (by rw [Lagrange.natDegree_nodal, Finset.card_univ, Fintype.card_fin]),
    eval_mul, eval_C, eval_C] at e
  have hf : (n.factorial : ℝ) ≠ 0 := by exact_mod_cast n.factorial_ne_zero
  rw [sub_eq_zero.1 e]
  field_simp

/-- The same for zeros in increasing order of a function whose derivative is bounded. -/
theorem zeros_bound {n : ℕ} {f : ℝ → ℝ} {D : ℕ → ℝ → ℝ} (h : HasDerivatives n f D) {z : Fin n → ℝ}
    (hz : Function.Injective z) (hI : ∀ i, z i ∈ I) (h0 : ∀ i, f (z i) = 0) {M : ℝ} (hM : ∀ x ∈ I, |D n x| ≤ M)
    {x : ℝ} (hx : x ∈ I) : |f x| ≤ M / n.factorial * ∏ i, |x - z i| := by
  obtain ⟨ξ, hξ, e⟩ := zeros_formula h hz hI h0 hx
  rw [e, abs_mul, abs_div, Finset.abs_prod, Nat.abs_cast]
  gcongr
  exact hM ξ hξ

end Verif.Lemmas
