import Verif.Lemmas.Tensor
import Verif.Lemmas.CArrayAccess
import Verif.Props.Lagrange
import Mathlib.Algebra.MvPolynomial.Degrees
import Mathlib.Algebra.MvPolynomial.Eval

/-! # Properties C38–C43: tensor-product elements and interpolation -/

namespace Verif.Props

open Verif.Spec Verif.Lemmas

variable {d : ℕ} {order : Fin d → ℕ} {c : (k : Fin d) → Fin (order k + 1) → ℝ} {e : Element ℝ}

/-- **C38, product.** The value of a tensor basis function through each of the three classes is the
product of the values of the one-dimensional basis functions. -/
theorem C38_value_is_product (h : IsLagrange order c e) :
    ∃ (b : Fin d → Basis ℝ) (φ : (k : Fin d) → Fin (order k + 1) → ℝ → ℝ), e.bases = List.ofFn b ∧
      (∀ (k : Fin d) (j : Fin (order k + 1)) (x : ℝ), (b k).value (j : ℕ) x = .ok (φ k j x)) ∧
      ∀ (idx : (k : Fin d) → Fin (order k + 1)) (x : Fin d → ℝ),
        BasisProduct.value (exactArith ℝ) e.bases (tup idx) (List.ofFn x)
          = .ok (∏ k, φ k (idx k) (x k)) ∧
        InterpolatedShape.value (exactArith ℝ) e (tup idx) (List.ofFn x)
          = .ok (∏ k, φ k (idx k) (x k)) ∧
        ParentElement.basisValue (exactArith ℝ) e (tup idx) (List.ofFn x)
          = .ok (∏ k, φ k (idx k) (x k)) := by
  obtain ⟨b, rfl, hr, -⟩ := isLagrange_realises h
  refine ⟨b, _, rfl, fun k j x => (hr k).value j x, fun idx x => ?_⟩
  obtain ⟨h1, h2, -, -⟩ := basisValue_eq (exactArith ℝ) (elementOf_instantiate b)
    (idx := tup idx) (by simp [tup_length, elementOf]) (List.ofFn x)
  have h0 := product_value h.dims hr idx x
  exact ⟨h0, h2.trans h0, h1.trans h0⟩

/-- **C38, support points.** At the support point with indices `j`, the tensor basis function with indices
`i` is 1 if `i = j` and 0 otherwise. -/
theorem C38_nodal (h : IsLagrange order c e) (i j : (k : Fin d) → Fin (order k + 1)) :
    ParentElement.basisValue (exactArith ℝ) e (tup i) (List.ofFn fun k => c k (j k))
      = .ok (if i = j then 1 else 0) ∧
    InterpolatedShape.value (exactArith ℝ) e (tup i) (List.ofFn fun k => c k (j k))
      = .ok (if i = j then 1 else 0) := by
  obtain ⟨b, rfl, hr, hinj⟩ := isLagrange_realises h
  obtain ⟨h1, h2, -, -⟩ := basisValue_eq (exactArith ℝ) (elementOf_instantiate b)
    (idx := tup i) (by simp [tup_length, elementOf]) (List.ofFn fun k => c k (j k))
  have h0 := product_value h.dims hr i (fun k => c k (j k))
  have e1 : ∏ k, (Lagrange.basis Finset.univ (c k) (i k)).eval (c k (j k)) = if i = j then (1 : ℝ) else 0 := by
    by_cases hij : i = j
    · subst hij
      rw [if_pos rfl]
      exact Finset.prod_eq_one fun k _ => Lagrange.eval_basis_self (hinj k).injOn (Finset.mem_univ _)
    · rw [if_neg hij]
      obtain ⟨k, hk⟩ := Function.ne_iff.1 hij
      exact Finset.prod_eq_zero (Finset.mem_univ k) (Lagrange.eval_basis_of_ne hk (Finset.mem_univ _))
  rw [e1] at h0
  exact ⟨h1.trans h0, h2.trans h0⟩

private theorem sum_basis_eval {m : ℕ} {v : Fin (m + 1) → ℝ} (hv : Function.Injective v) (x : ℝ) :
    ∑ j, (Lagrange.basis Finset.univ v j).eval x = 1 := by
  rw [← Polynomial.eval_finsetSum, Lagrange.sum_basis hv.injOn Finset.univ_nonempty, Polynomial.eval_one]

private theorem sum_basis_deriv {m : ℕ} {v : Fin (m + 1) → ℝ} (hv : Function.Injective v) (x : ℝ) :
    ∑ j, (Polynomial.derivative (Lagrange.basis Finset.univ v j)).eval x = 0 := by
  rw [← Polynomial.eval_finsetSum, ← Polynomial.derivative_sum,
    Lagrange.sum_basis hv.injOn Finset.univ_nonempty, Polynomial.derivative_one, Polynomial.eval_zero]

private theorem sum_prod_pi (F : (k : Fin d) → Fin (order k + 1) → ℝ) :
    ∑ idx : (k : Fin d) → Fin (order k + 1), ∏ k, F k (idx k) = ∏ k, ∑ j, F k j := by
  rw [Finset.prod_univ_sum, Fintype.piFinset_univ]

/-- **C38, partition of unity.** Over all index tuples the values sum to 1 and the gradients to 0. -/
theorem C38_partition_of_unity (h : IsLagrange order c e) (x : Fin d → ℝ) :
    ∃ (v : ((k : Fin d) → Fin (order k + 1)) → ℝ) (g : ((k : Fin d) → Fin (order k + 1)) → Fin d → ℝ),
      (∀ idx, ParentElement.basisValue (exactArith ℝ) e (tup idx) (List.ofFn x) = .ok (v idx)) ∧
      (∀ idx, ParentElement.basisGradient (exactArith ℝ) e (tup idx) (List.ofFn x)
        = .ok (List.ofFn (g idx))) ∧
      ∑ idx, v idx = 1 ∧ ∀ a, ∑ idx, g idx a = 0 := by
  obtain ⟨b, rfl, hr, hinj⟩ := isLagrange_realises h
  have hb := fun idx : (k : Fin d) → Fin (order k + 1) => basisValue_eq (exactArith ℝ)
    (elementOf_instantiate b) (idx := tup idx) (by simp [tup_length, elementOf]) (List.ofFn x)
  refine ⟨_, _, fun idx => (hb idx).1.trans (product_value h.dims hr idx x),
    fun idx => (hb idx).2.2.1.trans (product_gradient h.dims hr idx x), ?_, fun a => ?_⟩
  · rw [sum_prod_pi (fun k j => (Lagrange.basis Finset.univ (c k) j).eval (x k))]
    exact Finset.prod_eq_one fun k _ => sum_basis_eval (hinj k) _
  · rw [sum_prod_pi (fun k j => if a = k
      then (Polynomial.derivative (Lagrange.basis Finset.univ (c k) j)).eval (x k)
      else (Lagrange.basis Finset.univ (c k) j).eval (x k))]
    refine Finset.prod_eq_zero (Finset.mem_univ a) ?_
    simp only [if_true]
    exact sum_basis_deriv (hinj a) _

/-- **C38, wrong use.** A number of indices different from the number of dimensions does not compile, nor
does an element on a shape of a different dimension. -/
theorem C38_mismatch {R : Type} (A : Arith R) (e : Element R) (idx : List Int) (x : List R) :
    (idx.length ≠ e.bases.length → BasisProduct.value A e.bases idx x = .illFormed ∧
      BasisProduct.gradient A e.bases idx x = .illFormed) ∧
    (∀ n : Int, e.shapeDims = .ok n → n ≠ e.bases.length →
      ParentElement.basisValue A e idx x = .illFormed ∧ InterpolatedShape.value A e idx x = .illFormed) := by
  constructor
  · intro h
    exact ⟨staticAssert_bind_false h _, staticAssert_bind_false h _⟩
  · intro n hn h
    have : e.instantiate = .illFormed := by
      rw [Element.instantiate, hn, Res.ok_bind]
      exact staticAssert_false (Ne.symm h)
    rw [ParentElement.basisValue, InterpolatedShape.value, this]
    exact ⟨rfl, rfl⟩

/-- **C39.** The gradient of a tensor basis function is its total derivative; component `a` belongs to
direction `a`. -/
theorem C39_gradient_is_derivative (h : IsLagrange order c e) (idx : (k : Fin d) → Fin (order k + 1)) :
    ∃ (F : (Fin d → ℝ) → ℝ) (G : (Fin d → ℝ) → Fin d → ℝ),
      (∀ x, ParentElement.basisValue (exactArith ℝ) e (tup idx) (List.ofFn x) = .ok (F x)) ∧
      (∀ x, ParentElement.basisGradient (exactArith ℝ) e (tup idx) (List.ofFn x)
        = .ok (List.ofFn (G x))) ∧
      (∀ x, InterpolatedShape.gradient (exactArith ℝ) e (tup idx) (List.ofFn x)
        = .ok (List.ofFn (G x))) ∧
      ∀ x, HasFDerivAt F (∑ a, G x a • (ContinuousLinearMap.proj a : (Fin d → ℝ) →L[ℝ] ℝ)) x := by
  obtain ⟨b, rfl, hr, -⟩ := isLagrange_realises h
  have hb := fun x : Fin d → ℝ => basisValue_eq (exactArith ℝ)
    (elementOf_instantiate b) (idx := tup idx) (by simp [tup_length, elementOf]) (List.ofFn x)
  refine ⟨_, _, fun x => (hb x).1.trans (product_value h.dims hr idx x),
    fun x => (hb x).2.2.1.trans (product_gradient h.dims hr idx x),
    fun x => (hb x).2.2.2.trans (product_gradient h.dims hr idx x), fun x => ?_⟩
  exact hasFDerivAt_product (F := fun k => fun t => (Lagrange.basis Finset.univ (c k) (idx k)).eval t)
    (F' := fun k => fun t => (Polynomial.derivative (Lagrange.basis Finset.univ (c k) (idx k))).eval t)
    (fun k t => Polynomial.hasDerivAt _ t) x

/-! ### interpolation -/

/-- **C40.** Interpolating at a support point returns the variable there. -/
theorem C40_interpolation_nodal (h : IsLagrange order c e) (var : List Int → Res ℝ)
    (y : ((k : Fin d) → Fin (order k + 1)) → ℝ) (hy : ∀ idx, var (tup idx) = .ok (y idx))
    (j : (k : Fin d) → Fin (order k + 1)) :
    ParentElement.value (exactArith ℝ) e (List.ofFn fun k => c k (j k)) var = .ok (y j) := by
  obtain ⟨b, he, hr, hinj⟩ := isLagrange_realises h
  rw [he, parent_value h.dims hr _ var y hy]
  congr 1
  rw [Finset.sum_eq_single j]
  · rw [Finset.prod_eq_one fun k _ => Lagrange.eval_basis_self (hinj k).injOn (Finset.mem_univ _), one_mul]
  · intro i _ hij
    obtain ⟨k, hk⟩ := Function.ne_iff.1 hij
    rw [Finset.prod_eq_zero (Finset.mem_univ k) (Lagrange.eval_basis_of_ne hk (Finset.mem_univ _)), zero_mul]
  · intro hj; exact absurd (Finset.mem_univ j) hj

/-- **C40 for a variable stored in an array.** Interpolating a `CArrayNd` of the element's shape at a
support point returns the array element with those indices, in every configuration. -/
theorem C40_array_variable (cfg : Config) (h : IsLagrange order c e) (mem : List ℝ)
    (hs : ValidShape (List.ofFn fun k => (((order k + 1 : ℕ)) : Int)))
    (hl : (mem.length : Int) = (List.ofFn fun k => (((order k + 1 : ℕ)) : Int)).prod)
    (j : (k : Fin d) → Fin (order k + 1)) :
    ∃ x, CArray.read cfg mem (CArray.whole (List.ofFn fun k => (((order k + 1 : ℕ)) : Int))) (tup j) = .ok x ∧
      ParentElement.value (exactArith ℝ) e (List.ofFn fun k => c k (j k))
        (CArray.read cfg mem (CArray.whole (List.ofFn fun k => (((order k + 1 : ℕ)) : Int)))) = .ok x := by
  have hread : ∀ idx : (k : Fin d) → Fin (order k + 1), ∃ x, CArray.read cfg mem
      (CArray.whole (List.ofFn fun k => (((order k + 1 : ℕ)) : Int))) (tup idx) = .ok x := by
    intro idx
    have hin : InBox (List.ofFn fun k => (((order k + 1 : ℕ)) : Int)) (tup idx) := by
      rw [InBox, List.forall₂_iff_get]
      refine ⟨by simp [tup], fun k h1 h2 => ?_⟩
      simp only [tup, List.get_ofFn]
      exact ⟨by omega, Int.ofNat_lt.2 (idx ⟨k, by simpa [tup] using h1⟩).2⟩
    have hb := rowMajor_bounds hin
    rw [read_eq cfg (mem := mem)
      (v := CArray.whole (List.ofFn fun k => (((order k + 1 : ℕ)) : Int))) hs ⟨le_rfl, by
        show 0 + (List.ofFn fun k => (((order k + 1 : ℕ)) : Int)).prod ≤ _
        omega⟩ hin]
    obtain ⟨x, -, hx⟩ := load_ok (mem := mem)
      (a := 0 + rowMajor (List.ofFn fun k => (((order k + 1 : ℕ)) : Int)) (tup idx)) (by omega) (by omega)
    exact ⟨x, hx⟩
  choose y hy using hread
  exact ⟨y j, hy j, C40_interpolation_nodal h _ y hy j⟩

/-- **C41, linearity.** Interpolation and its gradient are linear in the variable. -/
theorem C41_linear (h : IsLagrange order c e) (α β : ℝ) (u v w : List Int → Res ℝ)
    (y z : ((k : Fin d) → Fin (order k + 1)) → ℝ) (hu : ∀ idx, u (tup idx) = .ok (y idx))
    (hv : ∀ idx, v (tup idx) = .ok (z idx)) (hw : ∀ idx, w (tup idx) = .ok (α * y idx + β * z idx))
    (x : Fin d → ℝ) :
    ∃ (p q : ℝ) (P Q : Fin d → ℝ),
      ParentElement.value (exactArith ℝ) e (List.ofFn x) u = .ok p ∧
      ParentElement.value (exactArith ℝ) e (List.ofFn x) v = .ok q ∧
      ParentElement.value (exactArith ℝ) e (List.ofFn x) w = .ok (α * p + β * q) ∧
      ParentElement.gradient (exactArith ℝ) e (List.ofFn x) u = .ok (List.ofFn P) ∧
      ParentElement.gradient (exactArith ℝ) e (List.ofFn x) v = .ok (List.ofFn Q) ∧
      ParentElement.gradient (exactArith ℝ) e (List.ofFn x) w
        = .ok (List.ofFn fun a => α * P a + β * Q a) := by
  obtain ⟨b, rfl, hr, -⟩ := isLagrange_realises h
  refine ⟨_, _, _, _, parent_value h.dims hr x u y hu, parent_value h.dims hr x v z hv, ?_,
    parent_gradient h.dims hr x u y hu, parent_gradient h.dims hr x v z hv, ?_⟩
  · rw [parent_value h.dims hr x w _ hw]
    congr 1
    rw [Finset.mul_sum, Finset.mul_sum, ← Finset.sum_add_distrib]
    exact Finset.sum_congr rfl fun _ _ => by ring
  · rw [parent_gradient h.dims hr x w _ hw]
    congr 2
    funext a
    rw [Finset.mul_sum, Finset.mul_sum, ← Finset.sum_add_distrib]
    exact Finset.sum_congr rfl fun _ _ => by ring

/-- **C41, constants.** A constant variable is interpolated to that constant with gradient 0. -/
theorem C41_constant (h : IsLagrange order c e) (t : ℝ) (var : List Int → Res ℝ)
    (hvar : ∀ idx : (k : Fin d) → Fin (order k + 1), var (tup idx) = .ok t) (x : Fin d → ℝ) :
    ParentElement.value (exactArith ℝ) e (List.ofFn x) var = .ok t ∧
    ParentElement.gradient (exactArith ℝ) e (List.ofFn x) var = .ok (List.ofFn fun _ : Fin d => 0) := by
  obtain ⟨b, rfl, hr, hinj⟩ := isLagrange_realises h
  constructor
  · rw [parent_value h.dims hr x var _ hvar, ← Finset.sum_mul,
      sum_prod_pi (fun k j => (Lagrange.basis Finset.univ (c k) j).eval (x k)),
      Finset.prod_eq_one fun k _ => sum_basis_eval (hinj k) _, one_mul]
  · rw [parent_gradient h.dims hr x var _ hvar]
    congr 2
    funext a
    rw [← Finset.sum_mul, sum_prod_pi (fun k j => if a = k
      then (Polynomial.derivative (Lagrange.basis Finset.univ (c k) j)).eval (x k)
      else (Lagrange.basis Finset.univ (c k) j).eval (x k)),
      Finset.prod_eq_zero (Finset.mem_univ a), zero_mul]
    simp only [if_true]
    exact sum_basis_deriv (hinj a) _

/-- **C42.** The gradient of an interpolated variable is the total derivative of its interpolation. -/
theorem C42_interpolation_gradient (h : IsLagrange order c e) (var : List Int → Res ℝ)
    (y : ((k : Fin d) → Fin (order k + 1)) → ℝ) (hy : ∀ idx, var (tup idx) = .ok (y idx)) :
    ∃ (F : (Fin d → ℝ) → ℝ) (G : (Fin d → ℝ) → Fin d → ℝ),
      (∀ x, ParentElement.value (exactArith ℝ) e (List.ofFn x) var = .ok (F x)) ∧
      (∀ x, ParentElement.gradient (exactArith ℝ) e (List.ofFn x) var = .ok (List.ofFn (G x))) ∧
      ∀ x, HasFDerivAt F (∑ a, G x a • (ContinuousLinearMap.proj a : (Fin d → ℝ) →L[ℝ] ℝ)) x := by
  obtain ⟨b, rfl, hr, -⟩ := isLagrange_realises h
  refine ⟨_, _, fun x => parent_value h.dims hr x var y hy, fun x => parent_gradient h.dims hr x var y hy,
    fun x => ?_⟩
  have h1 : ∀ idx ∈ (Finset.univ : Finset ((k : Fin d) → Fin (order k + 1))), HasFDerivAt
      (fun x : Fin d → ℝ => (∏ k, (Lagrange.basis Finset.univ (c k) (idx k)).eval (x k)) * y idx)
      (y idx • (∑ a, (∏ k, if a = k
        then (Polynomial.derivative (Lagrange.basis Finset.univ (c k) (idx k))).eval (x k)
        else (Lagrange.basis Finset.univ (c k) (idx k)).eval (x k)) •
          (ContinuousLinearMap.proj a : (Fin d → ℝ) →L[ℝ] ℝ))) x := fun idx _ =>
    (hasFDerivAt_product (F := fun k => fun t => (Lagrange.basis Finset.univ (c k) (idx k)).eval t)
      (F' := fun k => fun t => (Polynomial.derivative (Lagrange.basis Finset.univ (c k) (idx k))).eval t)
      (fun k t => Polynomial.hasDerivAt _ t) x).mul_const (y idx)
  refine (HasFDerivAt.fun_sum h1).congr_fderiv ?_
  simp only [Finset.smul_sum, smul_smul, Finset.sum_smul]
  rw [Finset.sum_comm]
  exact Finset.sum_congr rfl fun a _ => Finset.sum_congr rfl fun idx _ => by rw [mul_comm]

/-- **C43.** If the variable holds the nodal values of a polynomial whose degree in direction `k` is at
most the order in that direction, then the interpolation is the polynomial and its gradient is the
total derivative of the polynomial. -/
theorem C43_polynomial_reproduction (h : IsLagrange order c e) (P : MvPolynomial (Fin d) ℝ)
    (hP : ∀ k, P.degreeOf k ≤ order k) (var : List Int → Res ℝ)
    (hvar : ∀ idx : (k : Fin d) → Fin (order k + 1),
      var (tup idx) = .ok (P.eval fun k => c k (idx k))) (x : Fin d → ℝ) :
    ParentElement.value (exactArith ℝ) e (List.ofFn x) var = .ok (P.eval x) ∧
    ∃ G : Fin d → ℝ, ParentElement.gradient (exactArith ℝ) e (List.ofFn x) var = .ok (List.ofFn G) ∧
      HasFDerivAt (fun x => P.eval x) (∑ a, G a • (ContinuousLinearMap.proj a : (Fin d → ℝ) →L[ℝ] ℝ)) x := by
  have hval : ∀ x : Fin d → ℝ,
      ParentElement.value (exactArith ℝ) e (List.ofFn x) var = .ok (P.eval x) := by
    intro x
    obtain ⟨b, rfl, hr, hinj⟩ := isLagrange_realises h
    rw [parent_value h.dims hr x var _ hvar]
    congr 1
    simp only [MvPolynomial.eval_eq', Finset.mul_sum]
    rw [Finset.sum_comm]
    refine Finset.sum_congr rfl fun m hm => ?_
    have e1 : ∀ idx : (k : Fin d) → Fin (order k + 1),
        (∏ k, (Lagrange.basis Finset.univ (c k) (idx k)).eval (x k)) *
          (P.coeff m * ∏ k, c k (idx k) ^ m k)
        = P.coeff m * ∏ k, (c k (idx k) ^ m k * (Lagrange.basis Finset.univ (c k) (idx k)).eval (x k)) := by
      intro idx; rw [Finset.prod_mul_distrib]; ring
    simp only [e1]
    rw [← Finset.mul_sum, sum_prod_pi (fun k j => c k j ^ m k *
      (Lagrange.basis Finset.univ (c k) j).eval (x k))]
    congr 1
    refine Finset.prod_congr rfl fun k _ => ?_
    have hmk : m k ≤ order k := (MvPolynomial.monomial_le_degreeOf k hm).trans (hP k)
    have hdeg : (Polynomial.X ^ m k : Polynomial ℝ).degree
        < (Finset.univ : Finset (Fin (order k + 1))).card := by
      rw [Polynomial.degree_X_pow, Finset.card_univ, Fintype.card_fin]
      exact_mod_cast Nat.lt_succ_of_le hmk
    have := Lagrange.eq_interpolate (v := c k) (hinj k).injOn hdeg
    rw [Lagrange.interpolate_apply] at this
    have := congrArg (Polynomial.eval (x k)) this
    simpa [Polynomial.eval_finsetSum] using this.symm
  refine ⟨hval x, ?_⟩
  obtain ⟨F, G, hF, hG, hFG⟩ := C42_interpolation_gradient h var _ hvar
  have : F = fun x => P.eval x := funext fun x => by
    have := (hF x).symm.trans (hval x); exact Res.ok.inj this
  exact ⟨G x, hG x, this ▸ hFG x⟩

/-- The hypothesis of C38–C43 holds for every dimension, every choice of family and supported order in
each direction, on every cube or simplex class of that dimension. -/
theorem C38_supported_elements (hd : 0 < d) (fam : Fin d → Family) (order : Fin d → ℕ)
    (h : ∀ k, (fam k).Supports (order k)) (s : ShapeArgs) (hs : s.min < s.max ∧ s.divisor > 0)
    (hsn : s.n = d) :
    ∃ (b : Fin d → Basis ℝ) (c : (k : Fin d) → Fin (order k + 1) → ℝ),
      (∀ k, lagrangeBasis (exactArith ℝ) ((fam k).spacing (exactArith ℝ)) (order k) = .ok (b k)) ∧
      IsLagrange order c ⟨s.numDims, List.ofFn b⟩ := by
  have hb : ∀ k, ∃ b, lagrangeBasis (exactArith ℝ) ((fam k).spacing (exactArith ℝ)) (order k) = .ok b := by
    intro k
    have hi : IsInt (order k) := by
      have := h k
      cases hf : fam k <;> rw [hf] at this <;> have h1 := this.1 <;> have h2 := this.2 <;>
        exact ⟨by omega, by omega⟩
    obtain ⟨b, hb, -⟩ := (C36_compiles_iff_supported (fam k) (order k) hi).1 (h k)
    exact ⟨b, hb⟩
  choose b hb using hb
  choose c hc using fun k => C36_supported_nodes (fam k) (order k) (h k)
  refine ⟨b, c, hb, hd, ?_, b, rfl, fun k => ⟨?_, _, (hc k).1, hb k⟩⟩
  · show s.numDims = _
    rw [ShapeArgs.numDims, instantiate_ok ⟨hs.1, hs.2, by omega⟩, Res.ok_bind, hsn]
  · have := h k
    cases hf : fam k <;> rw [hf] at this <;> have h1 := this.1 <;> have h2 := this.2 <;> omega

/-- Non-vacuity of C38–C43: a linear-by-quadratic element on a square, evaluated. -/
example :
    (do
      let b1 ← lagrangeBasis ratArith (equalSpacing ratArith) 1
      let b2 ← lagrangeBasis ratArith (gaussLobattoSpacing ratArith) 2
      ParentElement.value ratArith ⟨ShapeArgs.numDims ⟨2, -1, 1, 1⟩, [b1, b2]⟩ [1 / 2, 1 / 3]
        (fun idx => .ok (idx.getD 0 0 * 10 + idx.getD 1 0 : Int))) = .ok (53 / 6) ∧
    (do
      let b1 ← lagrangeBasis ratArith (equalSpacing ratArith) 1
      let b2 ← lagrangeBasis ratArith (gaussLobattoSpacing ratArith) 2
      ParentElement.gradient ratArith ⟨ShapeArgs.numDims ⟨2, -1, 1, 1⟩, [b1, b2]⟩ [1 / 2, 1 / 3]
        (fun idx => .ok (idx.getD 0 0 * 10 + idx.getD 1 0 : Int))) = .ok [5, 1] := by
  decide +kernel

end Verif.Props
