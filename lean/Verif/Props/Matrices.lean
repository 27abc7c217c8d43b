import Verif.Lemmas.TensorPoly
import Verif.Props.Element
import Verif.Spec.Grid
import Mathlib.LinearAlgebra.Matrix.NonsingularInverse
import Mathlib.LinearAlgebra.Matrix.DotProduct

/-!
# Properties C94 and C95: mass and stiffness matrices
-/

namespace Verif.Props

open Verif.Spec Verif.Lemmas Polynomial

variable {d : ℕ} {order : Fin d → ℕ} {c : (k : Fin d) → Fin (order k + 1) → ℝ} {e : Element ℝ}
  {F : Fin d → RuleFamily} {N : Fin d → ℕ} {p w : (k : Fin d) → Fin (N k) → ℝ}

theorem grid_facts (h : IsGrid F N p w) :
    (∀ k, 2 ≤ N k) ∧ (∀ k, Function.Injective (p k)) ∧ ∀ k i, 0 < w k i := by
  have key : ∀ k, 2 ≤ N k ∧ Function.Injective (p k) ∧ ∀ i, 0 < w k i := by
    intro k
    have hs := h.supported k
    have hp := h.points k
    have hw := h.weights k
    generalize F k = G at hs hp hw
    cases G with
    | gaussLegendre =>
      obtain ⟨c', h1, h2, -, -⟩ := C24_gaussLegendre_coordinates (N k) hs.1 hs.2
      obtain ⟨w', h3, h4, -⟩ := C28_partial.1 (N k) hs.1 hs.2
      have e1 : p k = c' := funext fun i => Res.ok.inj ((hp i).symm.trans (h1 i))
      have e2 : w k = w' := funext fun i => Res.ok.inj ((hw i).symm.trans (h3 i))
      exact ⟨hs.1, e1 ▸ h2.injective, e2 ▸ h4⟩
    | gaussLobatto =>
      obtain ⟨c', h1, h2, -, -⟩ := C24_gaussLobatto_coordinates (N k) hs.1 hs.2
      obtain ⟨w', h3, h4, -⟩ := C28_partial.2 (N k) hs.1 hs.2
      have e1 : p k = c' := funext fun i => Res.ok.inj ((hp i).symm.trans (h1 i))
      have e2 : w k = w' := funext fun i => Res.ok.inj ((hw i).symm.trans (h3 i))
      exact ⟨hs.1, e1 ▸ h2.injective, e2 ▸ h4⟩
  exact ⟨fun k => (key k).1, fun k => (key k).2.1, fun k => (key k).2.2⟩

/-- The polynomials of the basis. -/
private noncomputable def basisPoly (c : (k : Fin d) → Fin (order k + 1) → ℝ) :
    (k : Fin d) → Fin (order k + 1) → ℝ[X] := fun k j => Lagrange.basis Finset.univ (c k) j

private theorem basisPoly_degree (hc : ∀ k, Function.Injective (c k)) (k : Fin d) (j : Fin (order k + 1)) :
    (basisPoly c k j).natDegree ≤ order k := by
  unfold basisPoly
  refine natDegree_le_of_degree_le ?_
  rw [Lagrange.degree_basis (hc k).injOn (Finset.mem_univ j), Finset.card_univ, Fintype.card_fin]
  simp

private theorem degree_lt_of {P : ℝ[X]} {m M : ℕ} (h : P.natDegree ≤ m) (hm : m < M) : P.degree < (M : WithBot ℕ) :=
  lt_of_le_of_lt degree_le_natDegree (by exact_mod_cast lt_of_le_of_lt h hm)

private theorem form_eq {ι κ : Type} [Fintype ι] [Fintype κ] (a : κ → ℝ) (f : κ → ι → ℝ) (y : ι → ℝ) :
    quadraticForm (fun i j => ∑ q, a q * (f q i * f q j)) y = ∑ q, a q * (∑ i, f q i * y i) ^ 2 := by
  unfold quadraticForm
  simp only [Finset.mul_sum, Finset.sum_mul, pow_two]
  have : ∀ i : ι, ∑ j, ∑ q, y i * (a q * (f q i * f q j)) * y j = ∑ q, ∑ j, y i * (a q * (f q i * f q j)) * y j :=
    fun i => Finset.sum_comm
  simp only [this]
  rw [Finset.sum_comm]
  refine Finset.sum_congr rfl fun q _ => ?_
  rw [Finset.sum_comm]
  refine Finset.sum_congr rfl fun j _ => Finset.sum_congr rfl fun i _ => ?_
  ring

/-- The interpolant of the values of a product of polynomials. -/
private theorem interpolant (hc : ∀ k, Function.Injective (c k)) (g : Fin d → ℝ[X]) (hg : ∀ k, (g k).natDegree ≤ order k)
    (x : Fin d → ℝ) :
    tensorEval (basisPoly c) (fun idx => ∏ k, (g k).eval (c k (idx k))) x = ∏ k, (g k).eval (x k) ∧
    ∀ a, tensorEval (partialOf a (basisPoly c)) (fun idx => ∏ k, (g k).eval (c k (idx k))) x
      = ∏ k, (if a = k then derivative (g k) else g k).eval (x k) := by
  refine ⟨tensorEval_product c hc g hg _ (fun _ => LinearMap.id) (fun _ _ => rfl) x, fun a => ?_⟩
  rw [tensorEval_product c hc g hg _ (fun k => if a = k then derivative else LinearMap.id) (fun k j => ?_) x]
  · refine Finset.prod_congr rfl fun k _ => ?_
    split_ifs <;> rfl
  · simp only [partialOf, basisPoly]
    split_ifs <;> rfl

/-- The polynomial that vanishes at the points of direction `k`. -/
private noncomputable def omega (p : (k : Fin d) → Fin (N k) → ℝ) (k : Fin d) : ℝ[X] := ∏ i, (X - C (p k i))

private theorem omega_facts (p : (k : Fin d) → Fin (N k) → ℝ) (k : Fin d) :
    (omega p k).natDegree = N k ∧ omega p k ≠ 0 ∧ ∀ i, (omega p k).eval (p k i) = 0 := by
  refine ⟨?_, ?_, fun i => ?_⟩
  · rw [omega, natDegree_finsetProd_X_sub_C_eq_card, Finset.card_univ, Fintype.card_fin]
  · exact Finset.prod_ne_zero_iff.2 fun i _ => X_sub_C_ne_zero _
  · rw [omega, eval_prod]
    exact Finset.prod_eq_zero (Finset.mem_univ i) (by simp)

private theorem exists_eval_ne_zero {P : ℝ[X]} (h : P ≠ 0) : ∃ t, P.eval t ≠ 0 := by
  by_contra hc
  exact h (Polynomial.funext fun t => by rw [eval_zero]; exact not_not.1 fun h' => hc ⟨t, h'⟩)

/-- An antiderivative. -/
private theorem exists_antiderivative (P : ℝ[X]) : ∃ R : ℝ[X], derivative R = P ∧ R.natDegree ≤ P.natDegree + 1 := by
  refine ⟨P.sum fun m a => C (a / (m + 1)) * X ^ (m + 1), ?_, ?_⟩
  · conv_rhs => rw [← P.sum_C_mul_X_pow_eq]
    unfold Polynomial.sum
    rw [map_sum]
    refine Finset.sum_congr rfl fun m _ => ?_
    rw [derivative_C_mul_X_pow, Nat.add_sub_cancel]
    congr 2
    have : ((m : ℝ) + 1) ≠ 0 := by positivity
    push_cast
    field_simp
  · unfold Polynomial.sum
    refine natDegree_sum_le_of_forall_le _ _ fun m hm => ?_
    refine (natDegree_C_mul_X_pow_le _ _).trans ?_
    exact Nat.succ_le_succ (le_natDegree_of_mem_supp m hm)

private theorem tensorEval_const (hc : ∀ k, Function.Injective (c k)) (t : ℝ) (x : Fin d → ℝ) :
    tensorEval (basisPoly c) (fun _ => t) x = t := by
  have h := (interpolant hc (fun _ => (1 : ℝ[X])) (fun k => by simp) x).1
  simp only [eval_one, Finset.prod_const_one] at h
  unfold tensorEval at h ⊢
  rw [← Finset.sum_mul]
  simp only [mul_one] at h
  rw [h, one_mul]

private theorem single_product {M : Type} [CommMonoid M] (k : Fin d) (f : Fin d → M) (h : ∀ l, l ≠ k → f l = 1) :
    ∏ l, f l = f k := Finset.prod_eq_single k (fun l _ hl => h l hl) fun hk => absurd (Finset.mem_univ k) hk

/-- Values and gradients of the basis functions. -/
private theorem basis_values (h : IsLagrange order c e) :
    (∀ k, Function.Injective (c k)) ∧
    (∀ (idx : (k : Fin d) → Fin (order k + 1)) (x : Fin d → ℝ),
      ParentElement.basisValue (exactArith ℝ) e (tup idx) (List.ofFn x)
        = .ok (∏ k, (basisPoly c k (idx k)).eval (x k))) ∧
    ∀ (idx : (k : Fin d) → Fin (order k + 1)) (x : Fin d → ℝ),
      ParentElement.basisGradient (exactArith ℝ) e (tup idx) (List.ofFn x)
        = .ok (List.ofFn fun a => ∏ k, (partialOf a (basisPoly c) k (idx k)).eval (x k)) := by
  obtain ⟨b, rfl, hr, hinj⟩ := isLagrange_realises h
  have hb := fun (idx : (k : Fin d) → Fin (order k + 1)) (x : Fin d → ℝ) => basisValue_eq (exactArith ℝ)
    (elementOf_instantiate b) (idx := tup idx) (by simp [tup_length, elementOf]) (List.ofFn x)
  refine ⟨hinj, fun idx x => (hb idx x).1.trans (product_value h.dims hr idx x), fun idx x =>
    ((hb idx x).2.2.1.trans (product_gradient h.dims hr idx x)).trans ?_⟩
  congr 2
  funext a
  refine Finset.prod_congr rfl fun k _ => ?_
  simp only [partialOf, basisPoly]
  split_ifs <;> rfl

private theorem basisForm (f : (k : Fin d) → Fin (order k + 1) → ℝ[X]) (a : ((k : Fin d) → Fin (N k)) → ℝ)
    (y : ((k : Fin d) → Fin (order k + 1)) → ℝ) :
    quadraticForm (fun i j => ∑ q : (k : Fin d) → Fin (N k), a q *
      ((∏ k, (f k (i k)).eval (p k (q k))) * ∏ k, (f k (j k)).eval (p k (q k)))) y
      = ∑ q, a q * tensorEval f y (fun k => p k (q k)) ^ 2 := by
  unfold tensorEval
  have := form_eq a (fun q i => ∏ k, (f k (i k)).eval (p k (q k))) y
  beta_reduce at this
  exact this

private theorem weighted_zero {κ : Type} [Fintype κ] {a : κ → ℝ} (ha : ∀ q, 0 < a q) {v : κ → ℝ} :
    0 ≤ ∑ q, a q * v q ^ 2 ∧ (∑ q, a q * v q ^ 2 = 0 ↔ ∀ q, v q = 0) := by
  have h0 : ∀ q ∈ Finset.univ, 0 ≤ a q * v q ^ 2 := fun q _ => mul_nonneg (ha q).le (sq_nonneg _)
  refine ⟨Finset.sum_nonneg h0, ?_⟩
  rw [Finset.sum_eq_zero_iff_of_nonneg h0]
  refine ⟨fun h q => ?_, fun h q _ => by rw [h q]; ring⟩
  exact pow_eq_zero_iff two_ne_zero |>.1 ((mul_eq_zero.1 (h q (Finset.mem_univ q))).resolve_left (ha q).ne')

private theorem gradientForm (f : (k : Fin d) → Fin (order k + 1) → ℝ[X]) (a : ((k : Fin d) → Fin (N k)) → ℝ)
    (ha : ∀ q, 0 < a q) (B : ((k : Fin d) → Fin (N k)) → Matrix (Fin d) (Fin d) ℝ) (hB : ∀ q, (B q).det ≠ 0)
    (y : ((k : Fin d) → Fin (order k + 1)) → ℝ) :
    0 ≤ quadraticForm (fun i j => ∑ q : (k : Fin d) → Fin (N k), a q *
      ((B q).mulVec (fun b => ∏ k, (partialOf b f k (i k)).eval (p k (q k)))
        ⬝ᵥ (B q).mulVec fun b => ∏ k, (partialOf b f k (j k)).eval (p k (q k)))) y ∧
    (quadraticForm (fun i j => ∑ q : (k : Fin d) → Fin (N k), a q *
      ((B q).mulVec (fun b => ∏ k, (partialOf b f k (i k)).eval (p k (q k)))
        ⬝ᵥ (B q).mulVec fun b => ∏ k, (partialOf b f k (j k)).eval (p k (q k)))) y = 0 ↔
      ∀ (b : Fin d) (q : (k : Fin d) → Fin (N k)), tensorEval (partialOf b f) y (fun k => p k (q k)) = 0) := by
  have h1 := form_eq (κ := ((k : Fin d) → Fin (N k)) × Fin d) (fun qr => a qr.1)
    (fun qr i => (B qr.1).mulVec (fun b => ∏ k, (partialOf b f k (i k)).eval (p k (qr.1 k))) qr.2) y
  have h2 := weighted_zero (κ := ((k : Fin d) → Fin (N k)) × Fin d) (a := fun qr => a qr.1) (fun qr => ha qr.1)
    (v := fun qr => ∑ i, (B qr.1).mulVec (fun b => ∏ k, (partialOf b f k (i k)).eval (p k (qr.1 k))) qr.2 * y i)
  have h3 : ∀ q r, ∑ i, (B q).mulVec (fun b => ∏ k, (partialOf b f k (i k)).eval (p k (q k))) r * y i
      = (B q).mulVec (fun b => tensorEval (partialOf b f) y fun k => p k (q k)) r := by
    intro q r
    simp only [Matrix.mulVec, dotProduct, tensorEval, Finset.sum_mul, Finset.mul_sum]
    rw [Finset.sum_comm]
    refine Finset.sum_congr rfl fun b _ => Finset.sum_congr rfl fun i _ => ?_
    ring
  simp only [Fintype.sum_prod_type, ← Finset.mul_sum, Prod.forall] at h1 h2
  simp only [h3] at h1 h2
  unfold dotProduct
  rw [h1]
  refine ⟨h2.1, h2.2.trans ⟨fun h b q => ?_, fun h q r => ?_⟩⟩
  · exact congrFun (Matrix.eq_zero_of_mulVec_eq_zero (hB q) (funext fun r => h q r)) b
  · rw [show (fun b => tensorEval (partialOf b f) y fun k => p k (q k)) = 0 from funext fun b => h b q,
      Matrix.mulVec_zero]
    rfl

private theorem tensorEval_node (hc : ∀ k, Function.Injective (c k)) (y : ((k : Fin d) → Fin (order k + 1)) → ℝ)
    (j : (k : Fin d) → Fin (order k + 1)) : tensorEval (basisPoly c) y (fun k => c k (j k)) = y j := by
  unfold tensorEval
  rw [Finset.sum_eq_single j]
  · rw [Finset.prod_eq_one (fun k _ => ?_), one_mul]
    exact Lagrange.eval_basis_self (hc k).injOn (Finset.mem_univ _)
  · intro i _ hij
    obtain ⟨k, hk⟩ := Function.ne_iff.1 hij
    rw [Finset.prod_eq_zero (Finset.mem_univ k), zero_mul]
    exact Lagrange.eval_basis_of_ne hk (Finset.mem_univ _)
  · intro hj; exact absurd (Finset.mem_univ j) hj

/-- With too few points in direction `k` there is a function that vanishes at all of them. -/
private theorem exists_vanishing (hc : ∀ k, Function.Injective (c k)) (p : (k : Fin d) → Fin (N k) → ℝ) (k : Fin d)
    (hk : N k ≤ order k) : ∃ y : ((k : Fin d) → Fin (order k + 1)) → ℝ, y ≠ 0 ∧
      ∀ q : (k : Fin d) → Fin (N k), tensorEval (basisPoly c) y (fun k => p k (q k)) = 0 := by
  obtain ⟨o1, o2, o3⟩ := omega_facts p k
  obtain ⟨g, hgdef⟩ : ∃ g : Fin d → ℝ[X], g = fun l => if l = k then omega p k else 1 := ⟨_, rfl⟩
  have hgk : g k = omega p k := by simp [hgdef]
  have hgl : ∀ l, l ≠ k → g l = 1 := fun l hl => by simp [hgdef, hl]
  have hdeg : ∀ l, (g l).natDegree ≤ order l := by
    intro l
    by_cases hl : l = k
    · subst hl; rw [hgk, o1]; omega
    · rw [hgl l hl]; simp
  have hev : ∀ x : Fin d → ℝ, ∏ l, (g l).eval (x l) = (omega p k).eval (x k) := fun x => by
    rw [single_product k _ fun l hl => by rw [hgl l hl, eval_one], hgk]
  have hint := fun x => ((interpolant hc g hdeg x).1).trans (hev x)
  obtain ⟨t, ht⟩ := exists_eval_ne_zero o2
  refine ⟨_, fun h0 => ht ?_, fun q => (hint _).trans (o3 (q k))⟩
  have := hint fun _ => t
  rw [h0] at this
  exact this.symm.trans (by simp [tensorEval])

/-- **C94.** The mass matrix `M_ij = Σ_q w_q ρ_q φ_i(x_q) φ_j(x_q)` of a tensor-product element, formed with the library's
quadrature rules and any positive coefficient (density times Jacobian determinant, say), is positive semidefinite, and
it is positive definite exactly when every direction has more quadrature points than the order of its basis. -/
theorem C94_mass_matrix (h : IsLagrange order c e) (hg : IsGrid F N p w) (ρ : ((k : Fin d) → Fin (N k)) → ℝ)
    (hρ : ∀ q, 0 < ρ q) :
    ∃ φ : ((k : Fin d) → Fin (N k)) → ((k : Fin d) → Fin (order k + 1)) → ℝ,
      (∀ q i, ParentElement.basisValue (exactArith ℝ) e (tup i) (List.ofFn fun k => p k (q k)) = .ok (φ q i)) ∧
      ∃ M : ((k : Fin d) → Fin (order k + 1)) → ((k : Fin d) → Fin (order k + 1)) → ℝ,
        (∀ i j, M i j = ∑ q, (∏ k, w k (q k)) * ρ q * (φ q i * φ q j)) ∧
        (∀ y, 0 ≤ quadraticForm M y) ∧
        ((∀ y, y ≠ 0 → 0 < quadraticForm M y) ↔ ∀ k, order k < N k) := by
  obtain ⟨hc, hval, -⟩ := basis_values h
  obtain ⟨h2, hp, hw⟩ := grid_facts hg
  have hpos : ∀ q : (k : Fin d) → Fin (N k), 0 < (∏ k, w k (q k)) * ρ q := fun q =>
    mul_pos (Finset.prod_pos fun k _ => hw k _) (hρ q)
  have hform := fun y => basisForm (p := p) (basisPoly c) (fun q => (∏ k, w k (q k)) * ρ q) y
  refine ⟨_, fun q i => hval i _, _, fun i j => rfl, fun y => ?_, ⟨fun hdef k => ?_, fun hN y hy => ?_⟩⟩
  · exact (weighted_zero hpos).1.trans_eq (hform y).symm
  · by_contra hlt
    obtain ⟨y, hy, hz⟩ := exists_vanishing hc p k (by omega)
    exact (hdef y hy).ne' ((hform y).trans ((weighted_zero hpos).2.2 hz))
  · refine lt_of_le_of_ne ((weighted_zero hpos).1.trans_eq (hform y).symm) fun h0 => hy ?_
    have hgrid := (weighted_zero hpos).2.1 ((hform y).symm.trans h0.symm)
    have hall := tensorEval_zero_of_grid p hp (basisPoly c)
      (fun k j => degree_lt_of (basisPoly_degree hc k j) (hN k)) y hgrid
    funext j
    exact (tensorEval_node hc y j).symm.trans (hall _)

/-- Every choice of supported rules is a grid. -/
theorem C94_grids (F : Fin d → RuleFamily) (N : Fin d → ℕ) (h : ∀ k, (F k).Supports (N k)) :
    ∃ p w : (k : Fin d) → Fin (N k) → ℝ, IsGrid F N p w := by
  have key : ∀ k, ∃ p w : Fin (N k) → ℝ,
      (∀ i : Fin (N k), ((F k).rule (exactArith ℝ) (N k)).coordCT (i : ℕ) = .ok (p i)) ∧
      ∀ i : Fin (N k), ((F k).rule (exactArith ℝ) (N k)).weightCT (i : ℕ) = .ok (w i) := by
    intro k
    have hs := h k
    generalize F k = G at hs
    cases G with
    | gaussLegendre =>
      obtain ⟨p, h1, -⟩ := C24_gaussLegendre_coordinates (N k) hs.1 hs.2
      obtain ⟨w, h2, -⟩ := C28_partial.1 (N k) hs.1 hs.2
      exact ⟨p, w, h1, h2⟩
    | gaussLobatto =>
      obtain ⟨p, h1, -⟩ := C24_gaussLobatto_coordinates (N k) hs.1 hs.2
      obtain ⟨w, h2, -⟩ := C28_partial.2 (N k) hs.1 hs.2
      exact ⟨p, w, h1, h2⟩
  choose p w hp hw using key
  exact ⟨p, w, h, hp, hw⟩

/-- **C94, collocation.** When the quadrature points are the nodes of the basis (the spectral element method on
Gauss–Lobatto points), the mass matrix is diagonal, with positive entries. -/
theorem C94_lumped (h : IsLagrange order c e) {w : (k : Fin d) → Fin (order k + 1) → ℝ}
    (hg : IsGrid F (fun k => order k + 1) c w) (ρ : ((k : Fin d) → Fin (order k + 1)) → ℝ) (hρ : ∀ q, 0 < ρ q) :
    ∃ φ : ((k : Fin d) → Fin (order k + 1)) → ((k : Fin d) → Fin (order k + 1)) → ℝ,
      (∀ q i, ParentElement.basisValue (exactArith ℝ) e (tup i) (List.ofFn fun k => c k (q k)) = .ok (φ q i)) ∧
      ∀ i j, ∑ q, (∏ k, w k (q k)) * ρ q * (φ q i * φ q j) = (if i = j then (∏ k, w k (i k)) * ρ i else 0) ∧
        0 < (∏ k, w k (i k)) * ρ i := by
  obtain ⟨hc, hval, -⟩ := basis_values h
  obtain ⟨-, -, hw⟩ := grid_facts hg
  have hδ : ∀ q i : (k : Fin d) → Fin (order k + 1),
      ∏ k, (basisPoly c k (i k)).eval (c k (q k)) = if q = i then 1 else 0 := by
    intro q i
    have := tensorEval_node hc (fun j => if j = i then 1 else 0) q
    rw [← this]
    unfold tensorEval
    simp
  refine ⟨_, fun q i => hval i _, fun i j => ⟨?_, mul_pos (Finset.prod_pos fun k _ => hw k _) (hρ i)⟩⟩
  simp only [hδ]
  rw [Finset.sum_eq_single i]
  · simp
  · intro q _ hq; simp [hq]
  · intro hi; exact absurd (Finset.mem_univ i) hi

/-- The gradient of the function with nodal values `y` vanishes at every point of the grid. -/
private def GradientFree (c : (k : Fin d) → Fin (order k + 1) → ℝ) (p : (k : Fin d) → Fin (N k) → ℝ)
    (y : ((k : Fin d) → Fin (order k + 1)) → ℝ) : Prop :=
  ∀ (a : Fin d) (q : (k : Fin d) → Fin (N k)), tensorEval (partialOf a (basisPoly c)) y (fun k => p k (q k)) = 0

private theorem partial_degree (f : (k : Fin d) → Fin (order k + 1) → ℝ[X]) (a k : Fin d) (j : Fin (order k + 1))
    {m : ℕ} (h : (f k j).natDegree ≤ m) : (partialOf a f k j).natDegree ≤ m := by
  unfold partialOf
  split_ifs
  · exact (natDegree_derivative_le _).trans (by omega)
  · exact h

private theorem gradientFree_full (hc : ∀ k, Function.Injective (c k)) (hp : ∀ k, Function.Injective (p k))
    (hN : ∀ k, order k < N k) {y : ((k : Fin d) → Fin (order k + 1)) → ℝ} (h : GradientFree c p y) (i j) :
    y i = y j := by
  have hz : ∀ a x, tensorEval (partialOf a (basisPoly c)) y x = 0 := fun a =>
    tensorEval_zero_of_grid p hp _ (fun k j => degree_lt_of (partial_degree _ a k j (basisPoly_degree hc k j)) (hN k)) y
      (h a)
  rw [← tensorEval_node hc y i, ← tensorEval_node hc y j]
  exact tensorEval_constant _ _ hz _ _

/-- The polynomials with those of direction `a` frozen at `t`. -/
private noncomputable def freeze (a : Fin d) (t : ℝ) (f : (k : Fin d) → Fin (order k + 1) → ℝ[X]) :
    (k : Fin d) → Fin (order k + 1) → ℝ[X] := fun k j => if a = k then C ((f k j).eval t) else f k j

private theorem freeze_eval (a : Fin d) (t : ℝ) (f : (k : Fin d) → Fin (order k + 1) → ℝ[X])
    (y : ((k : Fin d) → Fin (order k + 1)) → ℝ) (x : Fin d → ℝ) :
    tensorEval (freeze a t f) y x = tensorEval f y (Function.update x a t) := by
  unfold tensorEval
  refine Finset.sum_congr rfl fun idx _ => ?_
  congr 1
  refine Finset.prod_congr rfl fun k _ => ?_
  by_cases hk : a = k
  · subst hk; simp [freeze]
  · simp [freeze, hk, Function.update_of_ne (Ne.symm hk)]

private theorem partial_freeze (a b : Fin d) (hab : b ≠ a) (t : ℝ) (f : (k : Fin d) → Fin (order k + 1) → ℝ[X]) :
    partialOf b (freeze a t f) = freeze a t (partialOf b f) := by
  funext k j
  by_cases hk : a = k
  · subst hk; simp [freeze, partialOf, hab]
  · simp [freeze, partialOf, hk]

private theorem gradientFree_reduced (hc : ∀ k, Function.Injective (c k)) (hp : ∀ k, Function.Injective (p k))
    (h2 : ∀ k, 2 ≤ N k) (k₀ : Fin d) (h₀ : N k₀ = order k₀) (hN : ∀ k, k ≠ k₀ → order k < N k)
    {y : ((k : Fin d) → Fin (order k + 1)) → ℝ} (h : GradientFree c p y) (i j) : y i = y j := by
  have hz₀ : ∀ x, tensorEval (partialOf k₀ (basisPoly c)) y x = 0 := by
    refine tensorEval_zero_of_grid p hp _ (fun k j => ?_) y (h k₀)
    by_cases hk : k₀ = k
    · subst hk
      have h1 : (partialOf k₀ (basisPoly c) k₀ j).natDegree ≤ order k₀ - 1 := by
        simp only [partialOf, if_true]
        exact (natDegree_derivative_le _).trans (Nat.sub_le_sub_right (basisPoly_degree hc k₀ j) 1)
      have := h2 k₀
      exact degree_lt_of h1 (by omega)
    · exact degree_lt_of (partial_degree _ k₀ k j (basisPoly_degree hc k j)) (hN k (Ne.symm hk))
  obtain ⟨q₀, hq₀⟩ : ∃ q₀ : Fin (N k₀), True := ⟨⟨0, by have := h2 k₀; omega⟩, trivial⟩
  have hfr : ∀ x, tensorEval (freeze k₀ (p k₀ q₀) (basisPoly c)) y x = tensorEval (basisPoly c) y x := fun x => by
    rw [freeze_eval]
    exact tensorEval_update _ _ k₀ hz₀ x _
  have hz : ∀ a x, tensorEval (partialOf a (freeze k₀ (p k₀ q₀) (basisPoly c))) y x = 0 := by
    intro a x
    by_cases ha : a = k₀
    · subst ha
      unfold tensorEval
      refine Finset.sum_eq_zero fun idx _ => ?_
      rw [Finset.prod_eq_zero (Finset.mem_univ a), zero_mul]
      simp [partialOf, freeze]
    · rw [partial_freeze k₀ a ha]
      refine tensorEval_zero_of_grid p hp _ (fun k j => ?_) y (fun q => ?_) x
      · by_cases hk : k₀ = k
        · subst hk
          have := h2 k₀
          simp only [freeze, if_true]
          exact degree_lt_of (m := 0) (natDegree_C _).le (by omega)
        · simp only [freeze, if_neg hk]
          exact degree_lt_of (partial_degree _ a k j (basisPoly_degree hc k j)) (hN k (Ne.symm hk))
      · rw [freeze_eval]
        have := h a (Function.update q k₀ q₀)
        rw [← this]
        congr 1
        funext k
        by_cases hk : k = k₀
        · subst hk; simp
        · simp [Function.update_of_ne hk]
  rw [← tensorEval_node hc y i, ← tensorEval_node hc y j, ← hfr, ← hfr]
  exact tensorEval_constant _ _ hz _ _

private theorem exists_hourglass_one (hc : ∀ k, Function.Injective (c k)) (k : Fin d) (hk : N k < order k) :
    ∃ y, GradientFree c p y ∧ ∀ t : ℝ, y ≠ fun _ => t := by
  obtain ⟨o1, o2, o3⟩ := omega_facts p k
  obtain ⟨R, hR, hRd⟩ := exists_antiderivative (omega p k)
  obtain ⟨g, hgdef⟩ : ∃ g : Fin d → ℝ[X], g = fun l => if l = k then R else 1 := ⟨_, rfl⟩
  have hgk : g k = R := by simp [hgdef]
  have hgl : ∀ l, l ≠ k → g l = 1 := fun l hl => by simp [hgdef, hl]
  have hdeg : ∀ l, (g l).natDegree ≤ order l := by
    intro l
    by_cases hl : l = k
    · subst hl; rw [hgk]; omega
    · rw [hgl l hl]; simp
  refine ⟨fun idx => ∏ l, (g l).eval (c l (idx l)), fun a q => ?_, fun t ht => ?_⟩
  · rw [(interpolant hc g hdeg _).2 a]
    by_cases ha : a = k
    · refine Finset.prod_eq_zero (Finset.mem_univ k) ?_
      rw [if_pos ha, hgk, hR, o3]
    · refine Finset.prod_eq_zero (Finset.mem_univ a) ?_
      rw [if_pos rfl, hgl a ha]; simp
  · have hall : ∀ s, R.eval s = t := fun s => by
      have h1 := (interpolant hc g hdeg fun _ => s).1
      rw [ht, tensorEval_const hc, single_product k _ fun l hl => by rw [hgl l hl, eval_one], hgk] at h1
      exact h1.symm
    have hRC : R = C t := Polynomial.funext fun s => by rw [hall, eval_C]
    exact o2 (by rw [← hR, hRC, derivative_C])

private theorem exists_hourglass_two (hc : ∀ k, Function.Injective (c k)) (h2 : ∀ k, 2 ≤ N k) (k l : Fin d)
    (hkl : k ≠ l) (hk : N k = order k) (hl : N l = order l) :
    ∃ y, GradientFree c p y ∧ ∀ t : ℝ, y ≠ fun _ => t := by
  obtain ⟨g, hgdef⟩ : ∃ g : Fin d → ℝ[X], g = fun m => if m = k ∨ m = l then omega p m else 1 := ⟨_, rfl⟩
  have hg1 : ∀ m, m = k ∨ m = l → g m = omega p m := fun m hm => by simp only [hgdef, if_pos hm]
  have hg0 : ∀ m, ¬ (m = k ∨ m = l) → g m = 1 := fun m hm => by simp only [hgdef, if_neg hm]
  have hdeg : ∀ m, (g m).natDegree ≤ order m := by
    intro m
    by_cases hm : m = k ∨ m = l
    · rw [hg1 m hm, (omega_facts p m).1]
      rcases hm with rfl | rfl <;> omega
    · rw [hg0 m hm]; simp
  have hne : ∀ m, ∃ t, (g m).eval t ≠ 0 := fun m => exists_eval_ne_zero (by
    by_cases hm : m = k ∨ m = l
    · rw [hg1 m hm]; exact (omega_facts p m).2.1
    · rw [hg0 m hm]; exact one_ne_zero)
  refine ⟨fun idx => ∏ l, (g l).eval (c l (idx l)), fun a q => ?_, fun t ht => ?_⟩
  · rw [(interpolant hc g hdeg _).2 a]
    by_cases ha : a = k
    · refine Finset.prod_eq_zero (Finset.mem_univ l) ?_
      rw [if_neg (by rw [ha]; exact hkl), hg1 l (.inr rfl), (omega_facts p l).2.2]
    · refine Finset.prod_eq_zero (Finset.mem_univ k) ?_
      rw [if_neg ha, hg1 k (.inl rfl), (omega_facts p k).2.2]
  · have hall : ∀ x : Fin d → ℝ, ∏ m, (g m).eval (x m) = t := fun x => by
      have h1 := (interpolant hc g hdeg x).1
      rw [ht, tensorEval_const hc] at h1
      exact h1.symm
    choose x hx using hne
    have h0 : t = 0 := by
      rw [← hall fun _ => p k ⟨0, by have := h2 k; omega⟩]
      refine Finset.prod_eq_zero (Finset.mem_univ k) ?_
      rw [hg1 k (.inl rfl), (omega_facts p k).2.2]
    exact Finset.prod_ne_zero_iff.2 (fun m _ => hx m) ((hall x).trans h0)

private theorem gradientFree_iff (hc : ∀ k, Function.Injective (c k)) (hp : ∀ k, Function.Injective (p k))
    (h2 : ∀ k, 2 ≤ N k) :
    (∀ y, GradientFree c p y → ∃ t : ℝ, y = fun _ => t) ↔
      (∀ k, order k ≤ N k) ∧ ∀ k l, N k = order k → N l = order l → k = l := by
  constructor
  · refine fun h => ⟨fun k => ?_, fun k l hk hl => ?_⟩
    · by_contra hlt
      obtain ⟨y, h1, h3⟩ := exists_hourglass_one (p := p) hc k (by omega)
      obtain ⟨t, ht⟩ := h y h1
      exact h3 t ht
    · by_contra hne
      obtain ⟨y, h1, h3⟩ := exists_hourglass_two (p := p) hc h2 k l hne hk hl
      obtain ⟨t, ht⟩ := h y h1
      exact h3 t ht
  · rintro ⟨hle, huniq⟩ y hy
    refine ⟨y fun _ => 0, funext fun i => ?_⟩
    by_cases hex : ∃ k₀, N k₀ = order k₀
    · obtain ⟨k₀, h₀⟩ := hex
      refine gradientFree_reduced hc hp h2 k₀ h₀ (fun k hk => ?_) hy i _
      have := hle k
      have : N k ≠ order k := fun h' => hk (huniq k k₀ h' h₀)
      omega
    · refine gradientFree_full hc hp (fun k => ?_) hy i _
      have := hle k
      have : N k ≠ order k := fun h' => hex ⟨k, h'⟩
      omega

/-- **C95.** The stiffness matrix `K_ij = Σ_q w_q ρ_q (B_q ∇φ_i(x_q)) · (B_q ∇φ_j(x_q))`, with any positive coefficients
and any invertible `B_q` (the inverse transposed Jacobian of a valid cell, say), is positive semidefinite and vanishes
on the constants.  It vanishes on nothing else, that is it has no hourglass modes, exactly when no direction has fewer
quadrature points than the order of its basis and at most one has as few. -/
theorem C95_stiffness_matrix (h : IsLagrange order c e) (hg : IsGrid F N p w) (ρ : ((k : Fin d) → Fin (N k)) → ℝ)
    (hρ : ∀ q, 0 < ρ q) (B : ((k : Fin d) → Fin (N k)) → Matrix (Fin d) (Fin d) ℝ) (hB : ∀ q, (B q).det ≠ 0) :
    ∃ G : ((k : Fin d) → Fin (N k)) → ((k : Fin d) → Fin (order k + 1)) → Fin d → ℝ,
      (∀ q i, ParentElement.basisGradient (exactArith ℝ) e (tup i) (List.ofFn fun k => p k (q k))
        = .ok (List.ofFn (G q i))) ∧
      ∃ K : ((k : Fin d) → Fin (order k + 1)) → ((k : Fin d) → Fin (order k + 1)) → ℝ,
        (∀ i j, K i j = ∑ q, (∏ k, w k (q k)) * ρ q * ((B q).mulVec (G q i) ⬝ᵥ (B q).mulVec (G q j))) ∧
        (∀ y, 0 ≤ quadraticForm K y) ∧
        (∀ t : ℝ, quadraticForm K (fun _ => t) = 0) ∧
        ((∀ y, quadraticForm K y = 0 → ∃ t : ℝ, y = fun _ => t) ↔
          (∀ k, order k ≤ N k) ∧ ∀ k l, N k = order k → N l = order l → k = l) := by
  obtain ⟨hc, -, hgrad⟩ := basis_values h
  obtain ⟨h2, hp, hw⟩ := grid_facts hg
  have hpos : ∀ q : (k : Fin d) → Fin (N k), 0 < (∏ k, w k (q k)) * ρ q := fun q =>
    mul_pos (Finset.prod_pos fun k _ => hw k _) (hρ q)
  have key := fun y => gradientForm (p := p) (basisPoly c) (fun q => (∏ k, w k (q k)) * ρ q) hpos B hB y
  refine ⟨_, fun q i => hgrad i _, _, fun i j => rfl, fun y => (key y).1, fun t => ?_, ?_⟩
  · refine (key _).2.2 fun a q => ?_
    have := (interpolant hc (fun k => if k = a then C t else 1) (fun k => by split_ifs <;> simp) fun k => p k (q k)).2 a
    have he : (fun idx : (k : Fin d) → Fin (order k + 1) => ∏ k, (if k = a then C t else (1 : ℝ[X])).eval (c k (idx k)))
        = fun _ => t := by
      funext idx
      rw [single_product a _ fun l hl => by rw [if_neg hl, eval_one], if_pos rfl, eval_C]
    rw [he] at this
    rw [this]
    exact Finset.prod_eq_zero (Finset.mem_univ a) (by simp)
  · rw [← gradientFree_iff hc hp h2]
    exact forall_congr' fun y => imp_congr_left (key y).2

/-- Non-vacuity of C94 and C95: trilinear, triquadratic and anisotropic elements with Gauss–Legendre rules. -/
private theorem matrices_examples (order N : Fin 3 → ℕ) (ho : ∀ k, 1 ≤ order k ∧ order k ≤ 4)
    (hN : ∀ k, 2 ≤ N k ∧ N k ≤ 4) :
    ∃ (c : (k : Fin 3) → Fin (order k + 1) → ℝ) (e : Element ℝ) (p w : (k : Fin 3) → Fin (N k) → ℝ),
      IsLagrange order c e ∧ IsGrid (fun _ => .gaussLegendre) N p w := by
  obtain ⟨b, c, -, h⟩ := C38_supported_elements (d := 3) (by norm_num) (fun _ => .gaussLobatto) order
    (fun k => ⟨by have := ho k; omega, by have := ho k; omega⟩) ⟨3, -1, 1, 1⟩ (by decide) rfl
  obtain ⟨p, w, hg⟩ := C94_grids (fun _ : Fin 3 => RuleFamily.gaussLegendre) N hN
  exact ⟨c, _, p, w, h, hg⟩

/-- Two points per direction suffice for the trilinear element; for the triquadratic one both matrices are singular;
an element of order two in one direction only keeps a stable stiffness matrix, but its mass matrix is singular. -/
example :
    (∃ c e p w, IsLagrange ![1, 1, 1] c e ∧ IsGrid (fun _ => .gaussLegendre) ![2, 2, 2] p w) ∧
    (∀ k, (![1, 1, 1] : Fin 3 → ℕ) k < ![2, 2, 2] k) ∧
    (∃ c e p w, IsLagrange ![2, 2, 2] c e ∧ IsGrid (fun _ => .gaussLegendre) ![2, 2, 2] p w) ∧
    ¬ (∀ k l, (![2, 2, 2] : Fin 3 → ℕ) k = ![2, 2, 2] k → (![2, 2, 2] : Fin 3 → ℕ) l = ![2, 2, 2] l → k = l) ∧
    (∃ c e p w, IsLagrange ![2, 1, 1] c e ∧ IsGrid (fun _ => .gaussLegendre) ![2, 2, 2] p w) ∧
    ¬ (∀ k, (![2, 1, 1] : Fin 3 → ℕ) k < ![2, 2, 2] k) ∧
    (∀ k, (![2, 1, 1] : Fin 3 → ℕ) k ≤ ![2, 2, 2] k) ∧
    ∀ k l, (![2, 2, 2] : Fin 3 → ℕ) k = ![2, 1, 1] k → (![2, 2, 2] : Fin 3 → ℕ) l = ![2, 1, 1] l → k = l :=
  ⟨matrices_examples _ _ (by decide) (by decide), by decide, matrices_examples _ _ (by decide) (by decide), by decide,
    matrices_examples _ _ (by decide) (by decide), by decide, by decide, by decide⟩

/-- Non-vacuity of collocation: the bases on Gauss–Lobatto points and the Gauss–Lobatto rules. -/
example : ∃ c e w, IsLagrange (fun _ : Fin 3 => 4) c e ∧ IsGrid (fun _ => .gaussLobatto) (fun _ => 4 + 1) c w := by
  obtain ⟨p, w, hg⟩ := C94_grids (fun _ : Fin 3 => RuleFamily.gaussLobatto) (fun _ => 4 + 1)
    fun _ => ⟨by norm_num, by norm_num⟩
  obtain ⟨b, hb, -⟩ := (C36_compiles_iff_supported .gaussLobatto 4 ⟨by norm_num, by norm_num⟩).1
    ⟨by norm_num, by norm_num⟩
  refine ⟨p, ⟨.ok 3, List.ofFn fun _ : Fin 3 => b⟩, w, ⟨by norm_num, rfl, fun _ => b, rfl, fun k => ⟨by norm_num,
    gaussLobattoSpacing (exactArith ℝ), ⟨fun _ i => hg.points k i, (grid_facts hg).2.1 k⟩, hb⟩⟩, hg⟩

end Verif.Props
