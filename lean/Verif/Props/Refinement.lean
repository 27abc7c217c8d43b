import Verif.Spec.Refinement
import Verif.Props.MappedCells

/-!
# C153: refining cells and fields

A field or a cell is represented on a part of the parent element, in an element of the same or higher order in each direction: its new nodal values (or positions) are what the
old interpolation gives at the new nodes.  Parts may be mirrored.
-/

namespace Verif.Props

open Verif.Spec Verif.Lemmas

variable {d : ℕ} {order order' : Fin d → ℕ} {c : (k : Fin d) → Fin (order k + 1) → ℝ} {c' : (k : Fin d) → Fin (order' k + 1) → ℝ}

/-- A Lagrange polynomial, moved to a part of the line, is the combination of the Lagrange polynomials of the part with its values at the nodes. -/
private theorem line_refined {n n' : ℕ} (hn : n ≤ n') (c : Fin (n + 1) → ℝ) (hc : Function.Injective c) (c' : Fin (n' + 1) → ℝ) (hc' : Function.Injective c')
    (a s x : ℝ) (j : Fin (n + 1)) :
    ∑ i, (Lagrange.basis Finset.univ c' i).eval x * (Lagrange.basis Finset.univ c j).eval (a + s * c' i)
      = (Lagrange.basis Finset.univ c j).eval (a + s * x) := by
  let Q : Polynomial ℝ := (Lagrange.basis Finset.univ c j).comp (Polynomial.C a + Polynomial.C s * Polynomial.X)
  have hQ : ∀ z, Q.eval z = (Lagrange.basis Finset.univ c j).eval (a + s * z) := fun z => by simp [Q, Polynomial.eval_comp]
  have hdeg : Q.degree < (Finset.univ : Finset (Fin (n' + 1))).card := by
    rw [Finset.card_univ, Fintype.card_fin]
    refine Polynomial.degree_le_natDegree.trans_lt ?_
    have h1 : (Lagrange.basis Finset.univ c j).natDegree ≤ n := by
      have := Lagrange.natDegree_basis (s := Finset.univ) hc.injOn (Finset.mem_univ j)
      rw [Finset.card_univ, Fintype.card_fin] at this
      omega
    have h2 : (Polynomial.C a + Polynomial.C s * Polynomial.X : Polynomial ℝ).natDegree ≤ 1 := by
      compute_degree
    have h3 : Q.natDegree ≤ n * 1 := Polynomial.natDegree_comp_le.trans (Nat.mul_le_mul h1 h2)
    exact_mod_cast Nat.lt_succ_of_le (by omega : Q.natDegree ≤ n')
  have := Lagrange.eq_interpolate (v := c') hc'.injOn hdeg
  rw [Lagrange.interpolate_apply] at this
  have := congrArg (Polynomial.eval x) this
  rw [Polynomial.eval_finsetSum] at this
  rw [← hQ x, this]
  exact Finset.sum_congr rfl fun i _ => by rw [Polynomial.eval_mul, Polynomial.eval_C, hQ, mul_comm]

private theorem sum_prod (F : (k : Fin d) → Fin (order k + 1) → ℝ) :
    ∑ idx : (k : Fin d) → Fin (order k + 1), ∏ k, F k (idx k) = ∏ k, ∑ j, F k j := by
  rw [Finset.prod_univ_sum, Fintype.piFinset_univ]

/-- The same for products of Lagrange polynomials. -/
private theorem sum_refined (hle : ∀ k, order k ≤ order' k) (hc : ∀ k, Function.Injective (c k)) (hc' : ∀ k, Function.Injective (c' k)) (a s x : Fin d → ℝ)
    (y : ((k : Fin d) → Fin (order k + 1)) → ℝ) :
    ∑ idx' : (k : Fin d) → Fin (order' k + 1), (∏ k, (Lagrange.basis Finset.univ (c' k) (idx' k)).eval (x k)) *
        ∑ idx : (k : Fin d) → Fin (order k + 1), (∏ k, (Lagrange.basis Finset.univ (c k) (idx k)).eval (inPart a s (fun k => c' k (idx' k)) k)) * y idx
      = ∑ idx : (k : Fin d) → Fin (order k + 1), (∏ k, (Lagrange.basis Finset.univ (c k) (idx k)).eval (inPart a s x k)) * y idx := by
  simp only [Finset.mul_sum]
  rw [Finset.sum_comm]
  refine Finset.sum_congr rfl fun idx _ => ?_
  simp only [← mul_assoc, ← Finset.sum_mul, ← Finset.prod_mul_distrib]
  congr 1
  have := sum_prod (fun k (j : Fin (order' k + 1)) => (Lagrange.basis Finset.univ (c' k) j).eval (x k) *
    (Lagrange.basis Finset.univ (c k) (idx k)).eval (a k + s k * c' k j))
  refine this.trans ?_
  exact Finset.prod_congr rfl fun k _ => line_refined (hle k) _ (hc k) _ (hc' k) (a k) (s k) (x k) (idx k)

/-- The derivative of a function on a part. -/
private theorem hasFDerivAt_inPart {F : (Fin d → ℝ) → ℝ} {g : Fin d → ℝ} {a s x : Fin d → ℝ}
    (h : HasFDerivAt F (∑ k, g k • (ContinuousLinearMap.proj k : (Fin d → ℝ) →L[ℝ] ℝ)) (inPart a s x)) :
    HasFDerivAt (fun x => F (inPart a s x)) (∑ k, (g k * s k) • (ContinuousLinearMap.proj k : (Fin d → ℝ) →L[ℝ] ℝ)) x := by
  have hp : HasFDerivAt (fun x => inPart a s x)
      (ContinuousLinearMap.pi fun k => s k • (ContinuousLinearMap.proj k : (Fin d → ℝ) →L[ℝ] ℝ)) x := by
    rw [hasFDerivAt_pi]
    intro k
    exact ((ContinuousLinearMap.proj k : (Fin d → ℝ) →L[ℝ] ℝ).hasFDerivAt.const_mul (s k)).const_add (a k)
  refine (h.comp x hp).congr_fderiv ?_
  ext v
  simp [mul_assoc]

private theorem unique_gradient {F : (Fin d → ℝ) → ℝ} {g g' : Fin d → ℝ} {x : Fin d → ℝ}
    (h : HasFDerivAt F (∑ k, g k • (ContinuousLinearMap.proj k : (Fin d → ℝ) →L[ℝ] ℝ)) x)
    (h' : HasFDerivAt F (∑ k, g' k • (ContinuousLinearMap.proj k : (Fin d → ℝ) →L[ℝ] ℝ)) x) (k : Fin d) : g k = g' k := by
  have := congrArg (fun L : (Fin d → ℝ) →L[ℝ] ℝ => L (Pi.single k 1)) (h.unique h')
  simpa [Pi.single_apply] using this

section fields
variable {e e' : Element ℝ}

/-- **C153, fields.** If the nodal values of the refined field are the interpolated values of the field at the new nodes, then at every point its interpolation is that of the
field, and its gradient is that of the field times the half lengths of the part. -/
theorem C153_field (h : IsLagrange order c e) (h' : IsLagrange order' c' e') (hle : ∀ k, order k ≤ order' k) (a s : Fin d → ℝ)
    (var var' : List Int → Res ℝ) (y : ((k : Fin d) → Fin (order k + 1)) → ℝ) (y' : ((k : Fin d) → Fin (order' k + 1)) → ℝ)
    (hy : ∀ idx, var (tup idx) = .ok (y idx)) (hy' : ∀ idx, var' (tup idx) = .ok (y' idx))
    (hnew : ∀ idx, ParentElement.value (exactArith ℝ) e (List.ofFn (inPart a s fun k => c' k (idx k))) var = .ok (y' idx)) (x : Fin d → ℝ) :
    (∃ v, ParentElement.value (exactArith ℝ) e (List.ofFn (inPart a s x)) var = .ok v ∧
      ParentElement.value (exactArith ℝ) e' (List.ofFn x) var' = .ok v) ∧
    ∃ g : Fin d → ℝ, ParentElement.gradient (exactArith ℝ) e (List.ofFn (inPart a s x)) var = .ok (List.ofFn g) ∧
      ParentElement.gradient (exactArith ℝ) e' (List.ofFn x) var' = .ok (List.ofFn fun k => g k * s k) := by
  have hval : ∀ x, ∃ v, ParentElement.value (exactArith ℝ) e (List.ofFn (inPart a s x)) var = .ok v ∧
      ParentElement.value (exactArith ℝ) e' (List.ofFn x) var' = .ok v := by
    intro x
    obtain ⟨b, rfl, hr, hinj⟩ := isLagrange_realises h
    obtain ⟨b', rfl, hr', hinj'⟩ := isLagrange_realises h'
    refine ⟨_, parent_value h.dims hr _ var y hy, ?_⟩
    rw [parent_value h.dims hr' x var' y' hy', ← sum_refined hle hinj hinj' a s x y]
    congr 1
    refine Finset.sum_congr rfl fun idx _ => ?_
    rw [← Res.ok.inj ((parent_value h.dims hr _ var y hy).symm.trans (hnew idx))]
  refine ⟨hval x, ?_⟩
  obtain ⟨F, G, hF, hG, hFG⟩ := C42_interpolation_gradient h var y hy
  obtain ⟨F', G', hF', hG', hFG'⟩ := C42_interpolation_gradient h' var' y' hy'
  have hFF : F' = fun x => F (inPart a s x) := by
    funext x
    obtain ⟨v, h1, h2⟩ := hval x
    rw [Res.ok.inj ((hF' x).symm.trans h2), Res.ok.inj ((hF _).symm.trans h1)]
  have h1 := hFG' x
  rw [hFF] at h1
  refine ⟨_, hG _, ?_⟩
  rw [hG' x]
  congr 2
  exact funext fun k => unique_gradient h1 (hasFDerivAt_inPart (hFG _)) k

/-- **C153, back again.** The old nodal values are the interpolated values of the refined field at the old nodes. -/
theorem C153_back (h : IsLagrange order c e) (h' : IsLagrange order' c' e') (hle : ∀ k, order k ≤ order' k) (a s : Fin d → ℝ) (hs : ∀ k, s k ≠ 0)
    (var var' : List Int → Res ℝ) (y : ((k : Fin d) → Fin (order k + 1)) → ℝ) (y' : ((k : Fin d) → Fin (order' k + 1)) → ℝ)
    (hy : ∀ idx, var (tup idx) = .ok (y idx)) (hy' : ∀ idx, var' (tup idx) = .ok (y' idx))
    (hnew : ∀ idx, ParentElement.value (exactArith ℝ) e (List.ofFn (inPart a s fun k => c' k (idx k))) var = .ok (y' idx))
    (idx : (k : Fin d) → Fin (order k + 1)) :
    ParentElement.value (exactArith ℝ) e' (List.ofFn fun k => (c k (idx k) - a k) / s k) var' = .ok (y idx) := by
  obtain ⟨⟨v, h1, h2⟩, -⟩ := C153_field h h' hle a s var var' y y' hy hy' hnew fun k => (c k (idx k) - a k) / s k
  have e1 : inPart a s (fun k => (c k (idx k) - a k) / s k) = fun k => c k (idx k) := by
    funext k
    simp only [inPart]
    rw [mul_div_cancel₀ _ (hs k), add_sub_cancel]
  rw [e1, C40_interpolation_nodal h var y hy idx] at h1
  rw [h2, Res.ok.inj h1]

/-- **C153, rounded.** In arithmetic with unit roundoff `u`: if the new nodal values are within `δ` of the interpolated values of the field, the computed value of the refined
field is within an explicit bound of the value of the field. -/
theorem C153_rounded {fl : ℝ → ℝ} {u : ℝ} (hr : Rounds fl u) (h : IsLagrange order c e) (h' : IsLagrangeIn (roundedArith fl) order' c' e')
    (hle : ∀ k, order k ≤ order' k) (a s : Fin d → ℝ)
    (var var' : List Int → Res ℝ) (y : ((k : Fin d) → Fin (order k + 1)) → ℝ) (y' w : ((k : Fin d) → Fin (order' k + 1)) → ℝ)
    (hy : ∀ idx, var (tup idx) = .ok (y idx)) (hy' : ∀ idx, var' (tup idx) = .ok (y' idx))
    (hw : ∀ idx, ParentElement.value (exactArith ℝ) e (List.ofFn (inPart a s fun k => c' k (idx k))) var = .ok (w idx))
    (δ : ℝ) (hnew : ∀ idx, |y' idx - w idx| ≤ δ) (x : Fin d → ℝ) :
    ∃ v r, ParentElement.value (exactArith ℝ) e (List.ofFn (inPart a s x)) var = .ok v ∧
      ParentElement.value (roundedArith fl) e' (List.ofFn x) var' = .ok r ∧
      let N := fun idx : (k : Fin d) → Fin (order' k + 1) =>
        ∏ k, ∏ t ∈ Finset.univ.erase (idx k), (x k - c' k t) / (c' k (idx k) - c' k t)
      |r - v| ≤ ∑ idx, |N idx| * (δ + errBound u (interpolationRoundings order') * |y' idx|) := by
  obtain ⟨b, rfl, hre, hinj⟩ := isLagrange_realises h
  have hinj' : ∀ k, Function.Injective (c' k) := by
    obtain ⟨b', -, hk⟩ := h'.bases
    exact fun k => (hk k).2.choose_spec.1.distinct
  obtain ⟨r, hrr, hb⟩ := C61_interpolation_error hr h' var' y' hy' x
  refine ⟨_, r, parent_value h.dims hre _ var y hy, hrr, ?_⟩
  dsimp only at hb ⊢
  rw [← sum_refined hle hinj hinj' a s x y]
  simp only [lagrange_quotients (c' _)]
  have hw' : ∀ idx, ∑ i : (k : Fin d) → Fin (order k + 1), (∏ k, (Lagrange.basis Finset.univ (c k) (i k)).eval (inPart a s (fun k => c' k (idx k)) k)) * y i = w idx :=
    fun idx => Res.ok.inj ((parent_value h.dims hre _ var y hy).symm.trans (hw idx))
  simp only [hw']
  have h2 : |∑ idx : (k : Fin d) → Fin (order' k + 1), (∏ k, ∏ t ∈ Finset.univ.erase (idx k), (x k - c' k t) / (c' k (idx k) - c' k t)) * y' idx
      - ∑ idx : (k : Fin d) → Fin (order' k + 1), (∏ k, ∏ t ∈ Finset.univ.erase (idx k), (x k - c' k t) / (c' k (idx k) - c' k t)) * w idx|
      ≤ ∑ idx : (k : Fin d) → Fin (order' k + 1), |∏ k, ∏ t ∈ Finset.univ.erase (idx k), (x k - c' k t) / (c' k (idx k) - c' k t)| * δ := by
    rw [← Finset.sum_sub_distrib]
    refine (Finset.abs_sum_le_sum_abs _ _).trans (Finset.sum_le_sum fun idx _ => ?_)
    rw [← mul_sub, abs_mul]
    exact mul_le_mul_of_nonneg_left (hnew idx) (abs_nonneg _)
  refine (abs_sub_le _ _ _).trans ((add_le_add hb h2).trans_eq ?_)
  rw [Finset.mul_sum, ← Finset.sum_add_distrib]
  exact Finset.sum_congr rfl fun idx _ => by ring

end fields

section cells
variable {t t' : LinearTransform ℝ} {X : ((k : Fin d) → Fin (order k + 1)) → Fin d → ℝ} {X' : ((k : Fin d) → Fin (order' k + 1)) → Fin d → ℝ}
  {N : ((k : Fin d) → Fin (order k + 1)) → (Fin d → ℝ) → ℝ} {N' : ((k : Fin d) → Fin (order' k + 1)) → (Fin d → ℝ) → ℝ}

private theorem shape_is (h : IsLagrange order c t.shape)
    (hN : ∀ idx ξ, InterpolatedShape.value (exactArith ℝ) t.shape (tup idx) (List.ofFn ξ) = .ok (N idx ξ)) (idx : (k : Fin d) → Fin (order k + 1)) (ξ : Fin d → ℝ) :
    N idx ξ = ∏ k, (Lagrange.basis Finset.univ (c k) (idx k)).eval (ξ k) := by
  obtain ⟨b, hb, hr, -⟩ := isLagrange_realises h
  have := hN idx ξ
  rw [hb, (basisValue_eq (exactArith ℝ) (elementOf_instantiate b) (idx := tup idx) (by simp [tup_length, elementOf]) _).2.1,
    show (elementOf b).bases = List.ofFn b from rfl, product_value h.dims hr] at this
  exact (Res.ok.inj this).symm

/-- **C153, positions.** If the nodes of the new cell are the positions that the old cell gives to the new nodes, then the new cell maps every point to where the old cell maps
it. -/
theorem C153_position (h : IsLagrange order c t.shape) (h' : IsLagrange order' c' t'.shape) (hle : ∀ k, order k ≤ order' k) (a s : Fin d → ℝ)
    (hN : ∀ idx ξ, InterpolatedShape.value (exactArith ℝ) t.shape (tup idx) (List.ofFn ξ) = .ok (N idx ξ))
    (hN' : ∀ idx ξ, InterpolatedShape.value (exactArith ℝ) t'.shape (tup idx) (List.ofFn ξ) = .ok (N' idx ξ))
    (hnew : ∀ idx i, X' idx i = ∑ j, N j (inPart a s fun k => c' k (idx k)) * X j i) (ξ : Fin d → ℝ) (i : Fin d) :
    ∑ idx, N' idx ξ * X' idx i = ∑ idx, N idx (inPart a s ξ) * X idx i := by
  obtain ⟨-, -, -, hinj⟩ := isLagrange_realises h
  obtain ⟨-, -, -, hinj'⟩ := isLagrange_realises h'
  simp only [hnew, shape_is h hN, shape_is h' hN']
  exact sum_refined hle hinj hinj' a s ξ fun idx => X idx i

/-- **C153, Jacobians.** The Jacobian of the new cell is that of the old cell times the diagonal matrix of the half lengths. -/
theorem C153_jacobian (h : IsLagrange order c t.shape) (h' : IsLagrange order' c' t'.shape) (hle : ∀ k, order k ≤ order' k) (a s : Fin d → ℝ) (hd : d ≤ 3)
    (hX : HoldsPoints t.data X) (hX' : HoldsPoints t'.data X')
    (hN : ∀ idx ξ, InterpolatedShape.value (exactArith ℝ) t.shape (tup idx) (List.ofFn ξ) = .ok (N idx ξ))
    (hnew : ∀ idx i, X' idx i = ∑ j, N j (inPart a s fun k => c' k (idx k)) * X j i)
    (cfg : Config) (ξ : Fin d → ℝ) (extra : List ℝ) (he : d + extra.length = 3) :
    ∃ (D : Matrix (Fin d) (Fin d) ℝ) (J J' : List ℝ),
      LinearTransform.jacobianValue cfg (exactArith ℝ) t (List.ofFn (inPart a s ξ) ++ extra) = .ok J ∧ HoldsMatrix J D ∧
      LinearTransform.jacobianValue cfg (exactArith ℝ) t' (List.ofFn ξ ++ extra) = .ok J' ∧ HoldsMatrix J' (D * Matrix.diagonal s) := by
  obtain ⟨M, D, J, hM, h1, h2, h3⟩ := C49_wrapper h hX hd cfg (inPart a s ξ) extra he
  obtain ⟨M', D', J', hM', h1', h2', h3'⟩ := C49_wrapper h' hX' hd cfg ξ extra he
  obtain rfl : M = N := by
    funext idx ξ
    exact Res.ok.inj ((hM idx ξ).symm.trans (hN idx ξ))
  refine ⟨D, J, J', h1, h2, h1', ?_⟩
  have : D' = D * Matrix.diagonal s := by
    refine isDerivative_unique h3' fun i => ?_
    have := hasFDerivAt_inPart (h3 i)
    simp only [Matrix.mul_diagonal]
    refine this.congr_of_eventuallyEq (Filter.Eventually.of_forall fun ζ => ?_)
    exact C153_position h h' hle a s hN hM' hnew ζ i
  rwa [← this]

/-- The parts below and above a plane. -/
private theorem low_part (k : Fin d) {τ : ℝ} (hτ : |τ| < 1) :
    (fun ξ => inPart (lowCentre k τ) (lowLength k τ) ξ) '' cube d = {ζ | ζ ∈ cube d ∧ ζ k ≤ τ} := by
  have h1 := (abs_lt.1 hτ).1
  have h2 := (abs_lt.1 hτ).2
  ext ζ
  constructor
  · rintro ⟨ξ, hξ, rfl⟩
    have hk : inPart (lowCentre k τ) (lowLength k τ) ξ k ≤ τ ∧ -1 ≤ inPart (lowCentre k τ) (lowLength k τ) ξ k := by
      have := hξ k
      simp only [inPart, lowCentre, lowLength, if_pos]
      constructor <;> nlinarith
    refine ⟨fun i => ?_, hk.1⟩
    by_cases hi : i = k
    · subst hi; exact ⟨hk.2, hk.1.trans h2.le⟩
    · have := hξ i
      simpa [inPart, lowCentre, lowLength, if_neg hi] using this
  · rintro ⟨hζ, hk⟩
    refine ⟨fun i => if i = k then (2 * ζ i + 1 - τ) / (τ + 1) else ζ i, fun i => ?_, funext fun i => ?_⟩
    · have := hζ i
      have h0 : 0 < τ + 1 := by linarith
      dsimp only
      split
      · rename_i hi
        subst hi
        rw [le_div_iff₀ h0, div_le_iff₀ h0]
        constructor <;> linarith
      · exact this
    · have h0 : τ + 1 ≠ 0 := by linarith
      simp only [inPart, lowCentre, lowLength]
      split
      · field_simp; ring
      · ring

private theorem up_part (k : Fin d) {τ : ℝ} (hτ : |τ| < 1) :
    (fun ξ => inPart (upCentre k τ) (upLength k τ) ξ) '' cube d = {ζ | ζ ∈ cube d ∧ τ ≤ ζ k} := by
  have h1 := (abs_lt.1 hτ).1
  have h2 := (abs_lt.1 hτ).2
  ext ζ
  constructor
  · rintro ⟨ξ, hξ, rfl⟩
    have hk : τ ≤ inPart (upCentre k τ) (upLength k τ) ξ k ∧ inPart (upCentre k τ) (upLength k τ) ξ k ≤ 1 := by
      have := hξ k
      simp only [inPart, upCentre, upLength, if_pos]
      constructor <;> nlinarith
    refine ⟨fun i => ?_, hk.1⟩
    by_cases hi : i = k
    · subst hi; exact ⟨h1.le.trans hk.1, hk.2⟩
    · have := hξ i
      simpa [inPart, upCentre, upLength, if_neg hi] using this
  · rintro ⟨hζ, hk⟩
    refine ⟨fun i => if i = k then (2 * ζ i - 1 - τ) / (1 - τ) else ζ i, fun i => ?_, funext fun i => ?_⟩
    · have := hζ i
      have h0 : 0 < 1 - τ := by linarith
      dsimp only
      split
      · rename_i hi
        subst hi
        rw [le_div_iff₀ h0, div_le_iff₀ h0]
        constructor <;> linarith
      · exact this
    · have h0 : 1 - τ ≠ 0 := by linarith
      simp only [inPart, upCentre, upLength]
      split
      · field_simp; ring
      · ring

/-- **C153, splitting a cell.** A cell is split along the plane `ξ_k = τ` of its parent element.  The two new cells together cover the old one.  If the old cell does not
overlap itself, they share only the image of the plane, and their volumes add up to that of the old cell. -/
theorem C153_split {t₁ t₂ : LinearTransform ℝ} {X₁ X₂ : ((k : Fin d) → Fin (order' k + 1)) → Fin d → ℝ}
    {N₁ N₂ : ((k : Fin d) → Fin (order' k + 1)) → (Fin d → ℝ) → ℝ}
    (h : IsLagrange order c t.shape) (h₁ : IsLagrange order' c' t₁.shape) (h₂ : IsLagrange order' c' t₂.shape) (hle : ∀ k, order k ≤ order' k)
    (k : Fin d) (τ : ℝ) (hτ : |τ| < 1)
    (hN : ∀ idx ξ, InterpolatedShape.value (exactArith ℝ) t.shape (tup idx) (List.ofFn ξ) = .ok (N idx ξ))
    (hN₁ : ∀ idx ξ, InterpolatedShape.value (exactArith ℝ) t₁.shape (tup idx) (List.ofFn ξ) = .ok (N₁ idx ξ))
    (hN₂ : ∀ idx ξ, InterpolatedShape.value (exactArith ℝ) t₂.shape (tup idx) (List.ofFn ξ) = .ok (N₂ idx ξ))
    (hlow : ∀ idx i, X₁ idx i = ∑ j, N j (inPart (lowCentre k τ) (lowLength k τ) fun k => c' k (idx k)) * X j i)
    (hup : ∀ idx i, X₂ idx i = ∑ j, N j (inPart (upCentre k τ) (upLength k τ) fun k => c' k (idx k)) * X j i) :
    let cell := fun ξ i => ∑ idx, N idx ξ * X idx i
    let low := (fun ξ i => ∑ idx, N₁ idx ξ * X₁ idx i) '' cube d
    let up := (fun ξ i => ∑ idx, N₂ idx ξ * X₂ idx i) '' cube d
    cell '' cube d = low ∪ up ∧
      (Set.InjOn cell (cube d) → low ∩ up = cell '' {ξ | ξ ∈ cube d ∧ ξ k = τ} ∧
        MeasureTheory.volume (cell '' cube d) = MeasureTheory.volume low + MeasureTheory.volume up) := by
  intro cell low up
  have hl : low = cell '' {ζ | ζ ∈ cube d ∧ ζ k ≤ τ} := by
    rw [← low_part k hτ, Set.image_image]
    exact Set.image_congr fun ξ _ => funext fun i => C153_position h h₁ hle _ _ hN hN₁ hlow ξ i
  have hu : up = cell '' {ζ | ζ ∈ cube d ∧ τ ≤ ζ k} := by
    rw [← up_part k hτ, Set.image_image]
    exact Set.image_congr fun ξ _ => funext fun i => C153_position h h₂ hle _ _ hN hN₂ hup ξ i
  have hcov : cell '' cube d = low ∪ up := by
    rw [hl, hu, ← Set.image_union]
    congr 1
    ext ζ
    constructor
    · intro hζ
      rcases le_total (ζ k) τ with h | h
      · exact .inl ⟨hζ, h⟩
      · exact .inr ⟨hζ, h⟩
    · rintro (h | h)
      · exact h.1
      · exact h.1
  refine ⟨hcov, fun hinj => ?_⟩
  have hcap : low ∩ up = cell '' {ξ | ξ ∈ cube d ∧ ξ k = τ} := by
    rw [hl, hu, ← hinj.image_inter (fun ζ h => h.1) (fun ζ h => h.1)]
    congr 1
    ext ζ
    exact ⟨fun ⟨⟨a, b⟩, _, c⟩ => ⟨a, le_antisymm b c⟩, fun ⟨a, b⟩ => ⟨⟨a, b.le⟩, a, b.ge⟩⟩
  refine ⟨hcap, ?_⟩
  have hdiff : Differentiable ℝ cell := by
    rw [differentiable_pi]
    intro i
    simp only [cell, shape_is h hN]
    refine Differentiable.fun_sum fun idx _ => Differentiable.mul_const ?_ _
    exact fun x => (hasFDerivAt_product (F := fun k => fun t => (Lagrange.basis Finset.univ (c k) (idx k)).eval t)
      (F' := fun k => fun t => (Polynomial.derivative (Lagrange.basis Finset.univ (c k) (idx k))).eval t)
      (fun k x => (Lagrange.basis Finset.univ (c k) (idx k)).hasDerivAt x) x).differentiableAt
  have hnull : MeasureTheory.volume (low ∩ up) = 0 := by
    rw [hcap]
    refine MeasureTheory.addHaar_image_eq_zero_of_differentiableOn_of_addHaar_eq_zero _ hdiff.differentiableOn ?_
    refine MeasureTheory.measure_mono_null (t := {ξ : Fin d → ℝ | ξ k = τ}) (fun ξ h => h.2) ?_
    rw [MeasureTheory.volume_pi]
    exact MeasureTheory.Measure.pi_hyperplane (fun _ : Fin d => (MeasureTheory.volume : MeasureTheory.Measure ℝ)) k τ
  have hcompact : IsCompact up := by
    rw [hu]
    refine IsCompact.image ?_ hdiff.continuous
    have e1 : {ζ : Fin d → ℝ | ζ ∈ cube d ∧ τ ≤ ζ k} = Set.Icc (fun _ => -1) (fun _ => 1) ∩ {ζ | τ ≤ ζ k} := by
      ext ζ
      exact ⟨fun h => ⟨⟨fun i => (h.1 i).1, fun i => (h.1 i).2⟩, h.2⟩, fun h => ⟨fun i => ⟨h.1.1 i, h.1.2 i⟩, h.2⟩⟩
    rw [e1]
    exact isCompact_Icc.inter_right (isClosed_le continuous_const (continuous_apply k))
  rw [hcov]
  exact MeasureTheory.measure_union₀ hcompact.measurableSet.nullMeasurableSet hnull

end cells

/-- **C153, determinants.** The determinant of the new cell is that of the old cell times the product of the half lengths: parts of valid cells are valid. -/
theorem C153_determinant {order order' : Fin 3 → ℕ} {c : (k : Fin 3) → Fin (order k + 1) → ℝ} {c' : (k : Fin 3) → Fin (order' k + 1) → ℝ}
    {t t' : LinearTransform ℝ} {X : ((k : Fin 3) → Fin (order k + 1)) → Fin 3 → ℝ} {X' : ((k : Fin 3) → Fin (order' k + 1)) → Fin 3 → ℝ}
    {N : ((k : Fin 3) → Fin (order k + 1)) → (Fin 3 → ℝ) → ℝ}
    (h : IsLagrange order c t.shape) (h' : IsLagrange order' c' t'.shape) (hle : ∀ k, order k ≤ order' k) (a s : Fin 3 → ℝ)
    (hX : HoldsPoints t.data X) (hX' : HoldsPoints t'.data X')
    (hN : ∀ idx ξ, InterpolatedShape.value (exactArith ℝ) t.shape (tup idx) (List.ofFn ξ) = .ok (N idx ξ))
    (hnew : ∀ idx i, X' idx i = ∑ j, N j (inPart a s fun k => c' k (idx k)) * X j i) (cfg : Config) (ξ : Fin 3 → ℝ) :
    ∃ (det : ℝ) (after after' : Res (List ℝ)),
      LinearTransform.inverseJacobianValue cfg (exactArith ℝ) t (List.ofFn (inPart a s ξ)) = .ok (det, after) ∧
      LinearTransform.inverseJacobianValue cfg (exactArith ℝ) t' (List.ofFn ξ) = .ok (det * (s 0 * s 1 * s 2), after') := by
  obtain ⟨D, J, J', e1, e2, e3, e4⟩ := C153_jacobian h h' hle a s le_rfl hX hX' hN hnew cfg ξ [] rfl
  rw [List.append_nil] at e1 e3
  obtain ⟨J1, D1, det1, after1, f1, f2, f3, f4, -⟩ := C52_inverseJacobian cfg h hX (inPart a s ξ)
  obtain ⟨J2, D2, det2, after2, g1, g2, g3, g4, -⟩ := C52_inverseJacobian cfg h' hX' ξ
  have hu : ∀ {J : List ℝ} {M M' : Matrix (Fin 3) (Fin 3) ℝ}, HoldsMatrix J M → HoldsMatrix J M' → M = M' := by
    intro J M M' hM hM'
    funext i j
    exact Res.ok.inj ((hM.2 cfg i j).symm.trans (hM'.2 cfg i j))
  obtain rfl := Res.ok.inj (e1.symm.trans f1)
  obtain rfl := Res.ok.inj (e3.symm.trans g1)
  obtain rfl := hu e2 f2
  obtain rfl := hu e4 g2
  refine ⟨det1, after1, after2, f3, ?_⟩
  rw [g3, g4, f4, Matrix.det_mul, Matrix.det_diagonal, Fin.prod_univ_three]

/-! ### the hypotheses can be met -/

private theorem some_var {n : Fin d → ℕ} (y : ((k : Fin d) → Fin (n k)) → ℝ) : ∃ var : List Int → Res ℝ, ∀ idx, var (tup idx) = .ok (y idx) := by
  classical
  refine ⟨fun l => if h : ∃ idx, tup idx = l then .ok (y h.choose) else .ub, fun idx => ?_⟩
  have h : ∃ j, tup j = tup idx := ⟨idx, rfl⟩
  dsimp only
  rw [dif_pos h, tup_injective h.choose_spec]

/-- Non-vacuity of the theorems on fields: for any two elements there is a refined field, on every part. -/
example {e e' : Element ℝ} (h : IsLagrange order c e) (_h' : IsLagrange order' c' e') (a s : Fin d → ℝ) (y : ((k : Fin d) → Fin (order k + 1)) → ℝ) :
    ∃ (var var' : List Int → Res ℝ) (y' : ((k : Fin d) → Fin (order' k + 1)) → ℝ), (∀ idx, var (tup idx) = .ok (y idx)) ∧ (∀ idx, var' (tup idx) = .ok (y' idx)) ∧
      ∀ idx, ParentElement.value (exactArith ℝ) e (List.ofFn (inPart a s fun k => c' k (idx k))) var = .ok (y' idx) := by
  obtain ⟨var, hvar⟩ := some_var y
  obtain ⟨F, -, hF, -⟩ := C42_interpolation_gradient h var y hvar
  obtain ⟨var', hvar'⟩ := some_var fun idx : (k : Fin d) → Fin (order' k + 1) => F (inPart a s fun k => c' k (idx k))
  exact ⟨var, var', _, hvar, hvar', fun idx => hF _⟩

/-- Non-vacuity of the theorems on cells: any hexahedron with trilinear map, and its lower and upper halves. -/
example (X : (Fin 3 → Fin 2) → Fin 3 → ℝ) : ∃ (e : Element ℝ) (t t₁ t₂ : LinearTransform ℝ) (N : (Fin 3 → Fin 2) → (Fin 3 → ℝ) → ℝ) (X₁ X₂ : (Fin 3 → Fin 2) → Fin 3 → ℝ),
    IsLagrange (fun _ : Fin 3 => 1) (fun _ => ![-1, 1]) e ∧ t.shape = e ∧ t₁.shape = e ∧ t₂.shape = e ∧
    HoldsPoints t.data X ∧ HoldsPoints t₁.data X₁ ∧ HoldsPoints t₂.data X₂ ∧
    (∀ (idx : Fin 3 → Fin 2) ξ, InterpolatedShape.value (exactArith ℝ) e (tup idx) (List.ofFn ξ) = .ok (N idx ξ)) ∧
    (∀ idx i, X₁ idx i = ∑ j, N j (inPart (lowCentre 2 0) (lowLength 2 0) fun k => (![-1, 1] : Fin 2 → ℝ) (idx k)) * X j i) ∧
    ∀ idx i, X₂ idx i = ∑ j, N j (inPart (upCentre 2 0) (upLength 2 0) fun k => (![-1, 1] : Fin 2 → ℝ) (idx k)) * X j i := by
  obtain ⟨e, he, hcell⟩ := trilinear_cell
  obtain ⟨t, h1, h2⟩ := hcell X
  obtain ⟨N, -, hN, -⟩ := C49_jacobian_is_derivative (t := t) (by rw [h1]; exact he) (by norm_num) h2
  rw [h1] at hN
  obtain ⟨t₁, h3, h4⟩ := hcell fun idx i => ∑ j, N j (inPart (lowCentre 2 0) (lowLength 2 0) fun k => (![-1, 1] : Fin 2 → ℝ) (idx k)) * X j i
  obtain ⟨t₂, h5, h6⟩ := hcell fun idx i => ∑ j, N j (inPart (upCentre 2 0) (upLength 2 0) fun k => (![-1, 1] : Fin 2 → ℝ) (idx k)) * X j i
  exact ⟨e, t, t₁, t₂, N, _, _, he, h1, h3, h5, h2, h4, h6, hN, fun _ _ => rfl, fun _ _ => rfl⟩

end Verif.Props
