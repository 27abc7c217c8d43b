import Verif.Lemmas.InterpolationError
import Verif.Props.Element
import Mathlib.Analysis.Calculus.Deriv.Pow

/-! # Property C103: the error of interpolating a smooth function

Interpolation with a Lagrange basis of order `n` differs from the function by at most
`max |f^(n+1)| / (n+1)!` times the product of the distances to the support points, and its gradient differs from the
derivative by at most `max |f^(n+1)| / n! * 2^n`.  On tensor-product elements the errors of the directions add up. -/

namespace Verif.Props

open Verif.Spec Verif.Lemmas Polynomial

/-- **C103, one direction.** For a function with a bounded derivative of order `order + 1`. -/
theorem C103_line {S : Int → Spacing ℝ} {order : ℕ} {c : Fin (order + 1) → ℝ} (horder : order < 2147483647)
    (hc : Nodes (S ((order + 1 : ℕ) : Int)) (order + 1) c) (hI : ∀ i, c i ∈ Set.Icc (-1 : ℝ) 1)
    (f : ℝ → ℝ) (M : ℝ) (hf : DerivativeBounded (order + 1) f M) :
    ∃ b, lagrangeBasis (exactArith ℝ) S order = .ok b ∧
      ∀ x ∈ Set.Icc (-1 : ℝ) 1, ∃ φ γ : Fin (order + 1) → ℝ,
        (∀ j : Fin (order + 1), b.value (j : ℕ) x = .ok (φ j)) ∧
        (∀ j : Fin (order + 1), b.gradient (j : ℕ) x = .ok (γ j)) ∧
        |∑ j, φ j * f (c j) - f x| ≤ M / (order + 1).factorial * ∏ i, |x - c i| ∧
        ∀ g, HasDerivWithinAt f g (Set.Icc (-1) 1) x →
          |∑ j, γ j * f (c j) - g| ≤ M / order.factorial * 2 ^ order := by
  have h : iadd (order : Int) 1 = .ok ((order + 1 : ℕ) : Int) := by
    push_cast
    exact tnorm_ok ⟨by show (-2147483648 : Int) ≤ _; omega, by show _ ≤ (2147483647 : Int); omega⟩
  refine ⟨_, by rw [lagrangeBasis, h]; rfl, fun x hx => ⟨_, _, fun j => value_eq_basis hc j x, fun j => gradient_eq_basis hc j x,
    interpolation_error hc.distinct hI hf hx, fun g hg => gradient_error hc.distinct hI hf hx hg⟩⟩

variable {d : ℕ} {order : Fin d → ℕ} {c : (k : Fin d) → Fin (order k + 1) → ℝ} {e : Element ℝ}

/-- **C103, elements.** Interpolating the nodal values of `f`, which along direction `k` has a derivative of order
`order k + 1` bounded by `M k`: the error of each direction is multiplied by the sums of the absolute values of the basis
functions of the directions before it. -/
theorem C103_value (h : IsLagrange order c e) (hI : ∀ k i, c k i ∈ Set.Icc (-1 : ℝ) 1)
    (f : (Fin d → ℝ) → ℝ) (M : Fin d → ℝ)
    (hf : ∀ k, ∀ y ∈ cube d, DerivativeBounded (order k + 1) (fun t => f (Function.update y k t)) (M k))
    (var : List Int → Res ℝ)
    (hvar : ∀ idx : (k : Fin d) → Fin (order k + 1), var (tup idx) = .ok (f fun k => c k (idx k)))
    (ξ : Fin d → ℝ) (hξ : ξ ∈ cube d) :
    ∃ (b : Fin d → Basis ℝ) (L : Fin d → ℝ) (v : ℝ), e.bases = List.ofFn b ∧
      (∀ k, ValuesSumTo (b k) (order k + 1) (ξ k) (L k)) ∧
      ParentElement.value (exactArith ℝ) e (List.ofFn ξ) var = .ok v ∧
      |v - f ξ| ≤ ∑ k, (∏ j with j < k, L j) * (M k / (order k + 1).factorial * ∏ i, |ξ k - c k i|) := by
  obtain ⟨b, rfl, hr, hinj⟩ := isLagrange_realises h
  refine ⟨b, _, _, rfl, fun k => ⟨_, fun j => (hr k).value j (ξ k), rfl⟩, parent_value h.dims hr ξ var _ hvar, ?_⟩
  have := tensor_error (fun k j => (Lagrange.basis Finset.univ (c k) j).eval (ξ k)) c
    (fun k => M k / (order k + 1).factorial * ∏ i, |ξ k - c k i|) f ξ hI hξ
    (fun k y hy => interpolation_error (f := fun t => f (Function.update y k t)) (hinj k) (hI k) (hf k y hy) (hξ k))
  simp only [Finset.prod_filter]
  exact this

/-- **C103, gradients of elements.** Component `a` of the gradient against the derivative of `f` along direction `a`. -/
theorem C103_gradient (h : IsLagrange order c e) (hI : ∀ k i, c k i ∈ Set.Icc (-1 : ℝ) 1)
    (f : (Fin d → ℝ) → ℝ) (M : Fin d → ℝ)
    (hf : ∀ k, ∀ y ∈ cube d, DerivativeBounded (order k + 1) (fun t => f (Function.update y k t)) (M k))
    (var : List Int → Res ℝ)
    (hvar : ∀ idx : (k : Fin d) → Fin (order k + 1), var (tup idx) = .ok (f fun k => c k (idx k)))
    (ξ : Fin d → ℝ) (hξ : ξ ∈ cube d) :
    ∃ (b : Fin d → Basis ℝ) (L L' G : Fin d → ℝ), e.bases = List.ofFn b ∧
      (∀ k, ValuesSumTo (b k) (order k + 1) (ξ k) (L k)) ∧
      (∀ k, GradientsSumTo (b k) (order k + 1) (ξ k) (L' k)) ∧
      ParentElement.gradient (exactArith ℝ) e (List.ofFn ξ) var = .ok (List.ofFn G) ∧
      ∀ a g, HasDerivWithinAt (fun t => f (Function.update ξ a t)) g (Set.Icc (-1) 1) (ξ a) →
        |G a - g| ≤ M a / (order a).factorial * 2 ^ order a
          + L' a * ∑ k with k ≠ a, (∏ j with j < k ∧ j ≠ a, L j) * (M k / (order k + 1).factorial * ∏ i, |ξ k - c k i|) := by
  obtain ⟨b, rfl, hr, hinj⟩ := isLagrange_realises h
  refine ⟨b, _, _, _, rfl, fun k => ⟨_, fun j => (hr k).value j (ξ k), rfl⟩, fun k => ⟨_, fun j => (hr k).gradient j (ξ k), rfl⟩,
    parent_gradient h.dims hr ξ var _ hvar, fun a g hg => ?_⟩
  obtain ⟨d, rfl⟩ : ∃ d', d = d' + 1 := ⟨d - 1, by have := h.dims; omega⟩
  have := tensor_error_direction (fun k j => if a = k then (derivative (Lagrange.basis Finset.univ (c k) j)).eval (ξ k)
      else (Lagrange.basis Finset.univ (c k) j).eval (ξ k)) c
    (fun k => if a = k then M k / (order k).factorial * 2 ^ order k else M k / (order k + 1).factorial * ∏ i, |ξ k - c k i|) f ξ a g hI hξ
    (fun k hk y hy => by
      simp only [if_neg (Ne.symm hk)]
      exact interpolation_error (f := fun t => f (Function.update y k t)) (hinj k) (hI k) (hf k y hy) (hξ k))
    (by
      simp only [if_true]
      exact gradient_error (f := fun t => f (Function.update ξ a t)) (hinj a) (hI a) (hf a ξ hξ) (hξ a) hg)
  refine this.trans (le_of_eq ?_)
  simp only [if_true]
  congr 2
  rw [Finset.sum_filter]
  refine Finset.sum_congr rfl fun k _ => ?_
  by_cases hk : k = a
  · rw [if_pos hk, if_neg (by simpa using hk)]
  · rw [if_neg hk, if_pos hk, if_neg (Ne.symm hk), Finset.prod_filter]
    congr 1
    refine Finset.prod_congr rfl fun j _ => ?_
    by_cases hj : j < k ∧ j ≠ a
    · simp only [if_pos hj, if_neg (Ne.symm hj.2)]
    · simp only [if_neg hj]

private theorem linear_sum {t : ℝ} (ht : -1 ≤ t ∧ t ≤ 1) :
    ∑ j : Fin 2, |(Lagrange.basis Finset.univ (![-1, 1] : Fin 2 → ℝ) j).eval t| = 1 := by
  rw [Fin.sum_univ_two]
  simp only [← prod_factor_eq, Fin.prod_univ_two, factor, if_true, if_neg (show (0 : Fin 2) ≠ 1 by decide),
    if_neg (show (1 : Fin 2) ≠ 0 by decide), Matrix.cons_val_zero, Matrix.cons_val_one, one_mul, mul_one]
  rw [abs_of_nonneg (by linarith [ht.2]), abs_of_nonneg (by linarith [ht.1])]
  ring

/-- **C103, multilinear elements.** With the nodes -1 and 1 in every direction the basis functions are nonnegative, and the
error is at most the sum over the directions of `M k / 2 * (1 - ξ k ^ 2)`. -/
theorem C103_multilinear {e : Element ℝ} (h : IsLagrange (fun _ : Fin d => 1) (fun _ => ![-1, 1]) e)
    (f : (Fin d → ℝ) → ℝ) (M : Fin d → ℝ)
    (hf : ∀ k, ∀ y ∈ cube d, DerivativeBounded 2 (fun t => f (Function.update y k t)) (M k))
    (var : List Int → Res ℝ)
    (hvar : ∀ idx : Fin d → Fin 2, var (tup idx) = .ok (f fun k => (![-1, 1] : Fin 2 → ℝ) (idx k)))
    (ξ : Fin d → ℝ) (hξ : ξ ∈ cube d) :
    ∃ v, ParentElement.value (exactArith ℝ) e (List.ofFn ξ) var = .ok v ∧
      |v - f ξ| ≤ ∑ k, M k / 2 * (1 - ξ k ^ 2) := by
  obtain ⟨b, L, v, hb, hL, hv, hle⟩ := C103_value h
    (fun k i => by fin_cases i <;> constructor <;> norm_num) f M hf var hvar ξ hξ
  refine ⟨v, hv, hle.trans (le_of_eq ?_)⟩
  obtain ⟨b', hb', hr, -⟩ := isLagrange_realises h
  have hbb : b = b' := by
    have := hb.symm.trans (congrArg Element.bases hb')
    exact List.ofFn_injective this
  have hL1 : ∀ k, L k = 1 := by
    intro k
    obtain ⟨φ, hφ, e1⟩ := hL k
    have hφ' : ∀ j, φ j = (Lagrange.basis Finset.univ (![-1, 1] : Fin 2 → ℝ) j).eval (ξ k) := fun j => by
      have := hφ j
      rw [hbb, (hr k).value j (ξ k)] at this
      exact (Res.ok.inj this).symm
    rw [e1, ← linear_sum (hξ k)]
    exact Finset.sum_congr rfl fun j _ => by rw [hφ' j]
  refine Finset.sum_congr rfl fun k _ => ?_
  rw [Finset.prod_eq_one fun j _ => hL1 j, one_mul]
  have h0 := hξ k
  have e2 : ∏ i : Fin (1 + 1), |ξ k - (![-1, 1] : Fin 2 → ℝ) i| = 1 - ξ k ^ 2 := by
    rw [Fin.prod_univ_two]
    simp only [Matrix.cons_val_zero, Matrix.cons_val_one]
    rw [abs_of_nonneg (by linarith [h0.1]), abs_of_nonpos (by linarith [h0.2])]
    ring
  rw [e2]
  norm_num

/-- **C103, shipped spacings.** The hypothesis on the support points holds for every dimension, every choice of family and
supported order in each direction, on every cube or simplex class of that dimension. -/
theorem C103_supported_elements (hd : 0 < d) (fam : Fin d → Family) (order : Fin d → ℕ)
    (h : ∀ k, (fam k).Supports (order k)) (s : ShapeArgs) (hs : s.min < s.max ∧ s.divisor > 0)
    (hsn : s.n = d) :
    ∃ (b : Fin d → Basis ℝ) (c : (k : Fin d) → Fin (order k + 1) → ℝ),
      (∀ k, lagrangeBasis (exactArith ℝ) ((fam k).spacing (exactArith ℝ)) (order k) = .ok (b k)) ∧
      IsLagrange order c ⟨s.numDims, List.ofFn b⟩ ∧ ∀ k i, c k i ∈ Set.Icc (-1 : ℝ) 1 := by
  obtain ⟨b, -, hb, -⟩ := C38_supported_elements hd fam order h s hs hsn
  have hc : ∀ k, ∃ c : Fin (order k + 1) → ℝ,
      Nodes ((fam k).spacing (exactArith ℝ) ((order k + 1 : ℕ) : Int)) (order k + 1) c ∧ ∀ i, c i ∈ Set.Icc (-1 : ℝ) 1 := by
    intro k
    obtain ⟨n, hn⟩ : ∃ n, n = order k := ⟨_, rfl⟩
    have hk := h k
    rw [← hn] at hk ⊢
    by_cases h0 : n = 0
    · subst h0
      exact ⟨fun _ => 0, ⟨by omega, fun i j _ => Fin.ext (by omega)⟩, fun i => ⟨by norm_num, by norm_num⟩⟩
    cases hf : fam k with
    | equal =>
      rw [hf] at hk
      have h' : n < 2147483647 := by have := hk.2; omega
      obtain ⟨-, c, -, -, hct, -, hfirst, hlast, -, hmono, -⟩ :=
        C23_equalSpacing ((n + 1 : ℕ) : Int) (by omega) (by omega)
      refine ⟨fun i => c ((i : ℕ) : Int), ⟨fun _ i => hct _, fun i j hij => Fin.ext (by exact_mod_cast hmono.injective hij)⟩,
        fun i => ⟨?_, ?_⟩⟩
      · rw [← hfirst]; exact hmono.monotone (by omega)
      · rw [← hlast]; exact hmono.monotone (by have := i.2; omega)
    | gaussLegendre =>
      rw [hf] at hk
      obtain ⟨c, hct, hmono, -, hin⟩ := C24_gaussLegendre_coordinates (n + 1) (by omega) (by have := hk.2; omega)
      exact ⟨c, ⟨fun _ => hct, hmono.injective⟩, fun i => ⟨(hin i).1.le, (hin i).2.le⟩⟩
    | gaussLobatto =>
      rw [hf] at hk
      obtain ⟨c, hct, hmono, -, hin, -⟩ := C24_gaussLobatto_coordinates (n + 1) (by omega) (by have := hk.2; omega)
      exact ⟨c, ⟨fun _ => hct, hmono.injective⟩, hin⟩
  choose c hc hcI using hc
  refine ⟨b, c, hb, ⟨hd, ?_, b, rfl, fun k => ⟨?_, _, hc k, hb k⟩⟩, hcI⟩
  · show s.numDims = _
    rw [ShapeArgs.numDims, instantiate_ok ⟨hs.1, hs.2, by omega⟩, Res.ok_bind, hsn]
  · have := h k
    cases hf : fam k <;> rw [hf] at this <;> have h1 := this.1 <;> have h2 := this.2 <;> omega

/-- Non-vacuity of C103, and the bound is attained: on the line, `x ^ 2` interpolated linearly at 0 gives 1, and
`max |f''| / 2! * |0 + 1| * |0 - 1| = 1`. -/
example : DerivativeBounded 2 (fun x : ℝ => x ^ 2) 2 ∧
    (do
      let b ← lagrangeBasis ratArith (gaussLobattoSpacing ratArith) 1
      ParentElement.value ratArith ⟨ShapeArgs.numDims ⟨1, -1, 1, 1⟩, [b]⟩ [0] (fun _ => .ok 1)) = .ok 1 := by
  refine ⟨⟨fun k x => match k with | 0 => x ^ 2 | 1 => 2 * x | _ => 2, ⟨fun _ _ => rfl, fun k hk x _ => ?_⟩, fun x _ => ?_⟩, by decide +kernel⟩
  · rcases (show k = 0 ∨ k = 1 by omega) with rfl | rfl
    · have := (hasDerivAt_pow 2 x).hasDerivWithinAt (s := Set.Icc (-1) 1)
      simpa using this
    · have := ((hasDerivAt_id x).const_mul (2 : ℝ)).hasDerivWithinAt (s := Set.Icc (-1) 1)
      simpa using this
  · norm_num

end Verif.Props
