import Verif.Lemmas.ExchangeFloat
import Verif.Lemmas.ExchangeKnown
import Verif.Spec.ExchangeFloat
import Verif.Props.NonFinite
import Verif.Props.Dyadic

/-!
# Property C144: the order of the axes in `float` and `double`

Exchanging rows or columns of a matrix, or renumbering the axes of space of a cell, only exchanges rows and columns of Jacobians and inverses and changes
at most the sign of determinants.  In exact arithmetic this is so.  In `float` and in `double` it is so for Jacobians, for exchanges of the first two rows and
of the last two columns of a matrix, and for no others.
-/

namespace Verif.Props

open Verif.Spec Verif.Lemmas Verif.MathUtilities

/-- **C144, built-in arrays, partial.** Any exchange among the first two rows and among the last two columns of a matrix, whatever numbers, infinities or NaN
it contains, only changes the sign of the determinant and exchanges columns and rows of the inverse. -/
theorem C144_inverse_partial (F : FloatFormat) {σ τ : Equiv.Perm (Fin 3)} (hσ : σ 2 = 2) (hτ : τ 0 = 0) : RespectsExchange F σ τ := by
  intro N m m' hm hm'
  have hm := holdsNative_iff.1 hm
  have hm' := holdsNative_iff.1 hm'
  subst hm hm'
  obtain ⟨det, after, after', h1, h2, h3, h4⟩ := (exchanges (F := F) hσ hτ).inverse N
  refine ⟨det, after, after', h1, h2, h3, fun l l' hl hl' => ?_⟩
  obtain ⟨Q, h5, h6⟩ := h4 l l' hl hl'
  exact ⟨Q, holdsNative_iff.2 h5, holdsNative_iff.2 h6⟩

/-- **C144, `CArrayNd`, partial.** The same for a `CArrayNd< REAL_TYPE, 3, 3 >`. -/
theorem C144_inverse_carray_partial (cfg : Config) (F : FloatFormat) {σ τ : Equiv.Perm (Fin 3)} (hσ : σ 2 = 2) (hτ : τ 0 = 0)
    (N : Matrix (Fin 3) (Fin 3) Flt) (m m' : List Flt) (hm : HoldsMatrix m N) (hm' : HoldsMatrix m' (N.submatrix σ τ)) :
    ∃ (det : Flt) (after after' : Res (List Flt)), inverse (floatArith F) (carray cfg (CArray.whole [3, 3])) m = .ok (det, after) ∧
      inverse (floatArith F) (carray cfg (CArray.whole [3, 3])) m'
        = .ok (signedFlt (Equiv.Perm.sign σ * Equiv.Perm.sign τ) det, after') ∧
      ((∃ l, after = .ok l) ↔ ∃ l, after' = .ok l) ∧
      ∀ l l', after = .ok l → after' = .ok l' → ∃ Q : Matrix (Fin 3) (Fin 3) Flt, HoldsMatrix l Q ∧ HoldsMatrix l' (Q.submatrix τ σ) := by
  have hm := (holds_iff (by norm_num) (by norm_num)).1 hm
  have hm' := (holds_iff (by norm_num) (by norm_num)).1 hm'
  subst hm hm'
  obtain ⟨det, after, after', h1, h2, h3, h4⟩ := (exchanges (F := F) hσ hτ).inverse N
  have e1 := inverse_carray cfg (floatArith F) [] [] (m := matMem N) (matMem_length _)
  have e2 := inverse_carray cfg (floatArith F) [] [] (m := matMem (N.submatrix σ τ)) (matMem_length _)
  rw [h1] at e1
  rw [h2] at e2
  have hid : ∀ r : Res (List Flt), (fun l => l) <$> r = r := fun r => by cases r <;> rfl
  simp only [List.nil_append, List.append_nil, hid] at e1 e2
  refine ⟨det, after, after', e1, e2, h3, fun l l' hl hl' => ?_⟩
  obtain ⟨Q, rfl, rfl⟩ := h4 l l' hl hl'
  exact ⟨Q, (holds_iff (by norm_num) (by norm_num)).2 rfl, (holds_iff (by norm_num) (by norm_num)).2 rfl⟩

private theorem abs_cast_ne {x y : ℚ} (h : |x| ≠ |y|) : |(x : ℝ)| ≠ |(y : ℝ)| := by
  rw [← Rat.cast_abs, ← Rat.cast_abs]
  exact_mod_cast h

private theorem signed_abs {s : ℤˣ} {x y : ℝ} (h : Flt.ofReal y = signedFlt s (Flt.ofReal x)) : |y| = |x| := by
  unfold signedFlt at h
  split at h
  · have : (Flt.ofReal y).datum = (Flt.ofReal x).datum := by rw [h]
    cases this
    rfl
  · have : (Flt.ofReal y).datum = (Flt.ofReal x).neg.datum := by rw [h]
    cases this
    exact abs_neg _

private def entryFits (T : RealType) (q : ℚ) : Bool :=
  decide (q = (q.num : ℚ)) && decide (0 < q.num) && decide (q.num < 2 ^ exchangeBits T) && decide (evalRound T.format q = some q)

private theorem entries_fit (T : RealType) : ∀ i j : Fin 3, entryFits T (exchangeMatrix T i j) = true := by
  cases T <;> decide +kernel

private theorem matrix_entries (T : RealType) (i j : Fin 3) : exchangeMatrix T i j = ((exchangeMatrix T i j).num : ℚ) ∧ 0 < (exchangeMatrix T i j).num ∧
    (exchangeMatrix T i j).num < 2 ^ exchangeBits T ∧ evalRound T.format (exchangeMatrix T i j) = some (exchangeMatrix T i j) := by
  have := entries_fit T i j
  simp only [entryFits, Bool.and_eq_true, decide_eq_true_eq] at this
  exact ⟨this.1.1.1, this.1.1.2, this.1.2, this.2⟩

/-- **C144, violated.** For all other exchanges of rows and columns, and for all of them combined with an exchange of rows for columns, one and the same matrix
of whole numbers shows that the determinant changes by more than its sign: there is a matrix, with entries less than `2^9` in `float` and less than `2^22` in
`double`, whose computed determinant `δ` and the determinant `δ'` computed after the exchange are finite with `|δ| ≠ |δ'|`. -/
theorem C144_violated (T : RealType) : ∃ M : Matrix (Fin 3) (Fin 3) ℝ,
    (∀ i j, ∃ n : ℤ, M i j = n ∧ 0 < n ∧ n < 2 ^ exchangeBits T ∧ Represents T.format (M i j)) ∧
    ∃ (δ : ℝ) (after : Res (List Flt)), inverseNative (floatArith T.format) (matMem (M.map Flt.ofReal)) = .ok (Flt.ofReal δ, after) ∧
      (∀ σ τ : Equiv.Perm (Fin 3), ¬ (σ 2 = 2 ∧ τ 0 = 0) → ∃ (δ' : ℝ) (after' : Res (List Flt)),
        inverseNative (floatArith T.format) (matMem ((M.submatrix σ τ).map Flt.ofReal)) = .ok (Flt.ofReal δ', after') ∧ |δ| ≠ |δ'|) ∧
      ∀ σ τ : Equiv.Perm (Fin 3), ∃ (δ' : ℝ) (after' : Res (List Flt)),
        inverseNative (floatArith T.format) (matMem ((M.transpose.submatrix σ τ).map Flt.ofReal)) = .ok (Flt.ofReal δ', after') ∧ |δ| ≠ |δ'| := by
  refine ⟨(exchangeMatrix T).map fun q : ℚ => (q : ℝ), fun i j => ?_, ?_⟩
  · obtain ⟨h1, h2, h3, h4⟩ := matrix_entries T i j
    exact ⟨_, by show ((exchangeMatrix T i j : ℚ) : ℝ) = _; exact_mod_cast congrArg (Rat.cast (K := ℝ)) h1, h2, h3, represents_rat h4⟩
  · obtain ⟨x, -, h1, -, -⟩ := detsDiffer_spec (dets_differ_transposed T 1 1)
    obtain ⟨after, h2⟩ := knownDet_sound h1
    refine ⟨x, after, h2, fun σ τ h => ?_, fun σ τ => ?_⟩
    · obtain ⟨x', y, h1', h3, h4⟩ := detsDiffer_spec (dets_differ T σ τ h)
      rw [h1] at h1'
      cases h1'
      obtain ⟨after', h5⟩ := knownDet_sound h3
      exact ⟨y, after', h5, abs_cast_ne h4⟩
    · obtain ⟨x', y, h1', h3, h4⟩ := detsDiffer_spec (dets_differ_transposed T σ τ)
      rw [h1] at h1'
      cases h1'
      obtain ⟨after', h5⟩ := knownDet_sound h3
      exact ⟨y, after', h5, abs_cast_ne h4⟩

/-- **C144, exactly which exchanges are respected**: those that leave the last row and the first column in place. -/
theorem C144_exchanges (T : RealType) (σ τ : Equiv.Perm (Fin 3)) : RespectsExchange T.format σ τ ↔ σ 2 = 2 ∧ τ 0 = 0 := by
  refine ⟨fun h => ?_, fun h => C144_inverse_partial T.format h.1 h.2⟩
  by_contra hn
  obtain ⟨M, -, δ, after, h1, h2, -⟩ := C144_violated T
  obtain ⟨δ', after', h3, h4⟩ := h2 σ τ hn
  obtain ⟨det, a, a', h5, h6, -⟩ := h (M.map Flt.ofReal) _ _ (holdsNative_iff.2 rfl) (holdsNative_iff.2 rfl)
  rw [h1] at h5
  cases h5
  exact h4 (signed_abs ((Prod.mk.inj (Res.ok.inj (h3.symm.trans h6))).1)).symm

private theorem magnitude_permute {n : ℕ} (M : Matrix (Fin n) (Fin n) ℝ) (σ τ : Equiv.Perm (Fin n)) :
    detMagnitude (M.submatrix σ τ) = detMagnitude M := by
  unfold detMagnitude
  refine Fintype.sum_equiv ((Equiv.mulRight τ⁻¹).trans (Equiv.mulLeft σ)) _ _ fun π => ?_
  refine Fintype.prod_equiv τ _ _ fun i => ?_
  simp

private theorem magnitude_transpose {n : ℕ} (M : Matrix (Fin n) (Fin n) ℝ) : detMagnitude M.transpose = detMagnitude M := by
  unfold detMagnitude
  refine Fintype.sum_equiv (Equiv.inv _) _ _ fun π => ?_
  refine Fintype.prod_equiv π _ _ fun i => ?_
  simp

/-- **C144, what differs is small.** For all exchanges of rows and columns of a matrix with entries of magnitude at most `C` the determinants computed, with the
sign of the exchange, differ by at most twice the error bound of C101. -/
theorem C144_difference_partial (T : RealType) (M : Matrix (Fin 3) (Fin 3) ℝ) {C : ℝ} (hC1 : 1 ≤ C) (hC : C ^ 3 ≤ 2 ^ 120) (hM : ∀ i j, |M i j| ≤ C)
    (σ τ : Equiv.Perm (Fin 3)) (m m' : List Flt) (hm : HoldsNative m (M.map Flt.ofReal)) (hm' : HoldsNative m' ((M.submatrix σ τ).map Flt.ofReal)) :
    ∃ (det det' : Flt) (after after' : Res (List Flt)) (δ δ' : ℝ), inverseNative (floatArith T.format) m = .ok (det, after) ∧
      inverseNative (floatArith T.format) m' = .ok (det', after') ∧ det.datum = .finite δ ∧ det'.datum = .finite δ' ∧
      |δ' - (((Equiv.Perm.sign σ * Equiv.Perm.sign τ : ℤˣ) : ℤ) : ℝ) * δ|
        ≤ 2 * (errBound (unitRoundoff T.format) 5 * detMagnitude M + 30 * C ^ 3 * smallestPositive T.format) := by
  have hC2 : C ^ 2 * 1 ≤ 2 ^ 120 := by
    have : C ^ 2 ≤ C ^ 3 := pow_le_pow_right₀ hC1 (by norm_num)
    linarith
  obtain ⟨det, after, h1, ⟨δ, h2, h3⟩, -⟩ := C101_inverse T M m hm hC1 hC hM le_rfl hC2
  obtain ⟨det', after', h1', ⟨δ', h2', h3'⟩, -⟩ := C101_inverse T (M.submatrix σ τ) m' hm' hC1 hC (fun i j => hM _ _) le_rfl hC2
  refine ⟨det, det', after, after', δ, δ', h1, h1', h2, h2', ?_⟩
  have hdet : (M.submatrix σ τ).det = (((Equiv.Perm.sign σ * Equiv.Perm.sign τ : ℤˣ) : ℤ) : ℝ) * M.det := by
    have : M.submatrix σ τ = (M.submatrix σ id).submatrix id τ := rfl
    rw [this, Matrix.det_permute', Matrix.det_permute]
    push_cast
    ring
  rw [magnitude_permute, hdet] at h3'
  rcases Int.units_eq_one_or (Equiv.Perm.sign σ * Equiv.Perm.sign τ) with hs | hs <;> rw [hs] at h3' ⊢ <;> push_cast at h3' ⊢ <;>
    rw [abs_le] at h3 h3' ⊢ <;> constructor <;> linarith [h3.1, h3.2, h3'.1, h3'.2]

/-- **C144, rows for columns.** The same for the transposed matrix. -/
theorem C144_transposed_partial (T : RealType) (M : Matrix (Fin 3) (Fin 3) ℝ) {C : ℝ} (hC1 : 1 ≤ C) (hC : C ^ 3 ≤ 2 ^ 120) (hM : ∀ i j, |M i j| ≤ C)
    (m m' : List Flt) (hm : HoldsNative m (M.map Flt.ofReal)) (hm' : HoldsNative m' (M.transpose.map Flt.ofReal)) :
    ∃ (det det' : Flt) (after after' : Res (List Flt)) (δ δ' : ℝ), inverseNative (floatArith T.format) m = .ok (det, after) ∧
      inverseNative (floatArith T.format) m' = .ok (det', after') ∧ det.datum = .finite δ ∧ det'.datum = .finite δ' ∧
      |δ' - δ| ≤ 2 * (errBound (unitRoundoff T.format) 5 * detMagnitude M + 30 * C ^ 3 * smallestPositive T.format) := by
  have hC2 : C ^ 2 * 1 ≤ 2 ^ 120 := by
    have : C ^ 2 ≤ C ^ 3 := pow_le_pow_right₀ hC1 (by norm_num)
    linarith
  obtain ⟨det, after, h1, ⟨δ, h2, h3⟩, -⟩ := C101_inverse T M m hm hC1 hC hM le_rfl hC2
  obtain ⟨det', after', h1', ⟨δ', h2', h3'⟩, -⟩ := C101_inverse T M.transpose m' hm' hC1 hC (fun i j => hM _ _) le_rfl hC2
  refine ⟨det, det', after, after', δ, δ', h1, h1', h2, h2', ?_⟩
  rw [magnitude_transpose, Matrix.det_transpose] at h3'
  rw [abs_le] at h3 h3' ⊢
  constructor <;> linarith [h3.1, h3.2, h3'.1, h3'.2]

section cells
variable {T : RealType} {d : ℕ} {order : Fin d → ℕ} {c : (k : Fin d) → Fin (order k + 1) → ℝ} {t t' : LinearTransform Flt}
  {X : ((k : Fin d) → Fin (order k + 1)) → Fin d → Flt}

/-- What a loop that only adds contributions leaves behind for two cells. -/
private theorem runCalls_exchanged {ι : Type} (A : Arith Flt) (σ : Equiv.Perm (Fin d)) {g : ι → Fin d → Flt} {Y : ι → Fin d → Flt}
    {body body' : ι → List Flt → Res (List Flt)} (hb : ∀ i M, body i (matMem M) = .ok (matMem (contribution A (g i) (Y i) M)))
    (hb' : ∀ i M, body' i (matMem M) = .ok (matMem (contribution A (g i) (fun a => Y i (σ a)) M))) :
    ∀ (L : List ι) (M : Matrix (Fin d) (Fin d) Flt), ∃ J : Matrix (Fin d) (Fin d) Flt, runCalls L body (matMem M) = .ok (matMem J) ∧
      runCalls L body' (matMem (M.submatrix σ id)) = .ok (matMem (J.submatrix σ id))
  | [], M => ⟨M, rfl, rfl⟩
  | i :: L, M => by
    obtain ⟨J, h1, h2⟩ := runCalls_exchanged A σ hb hb' L (contribution A (g i) (Y i) M)
    refine ⟨J, by rw [runCalls_cons, hb, Res.ok_bind, h1], ?_⟩
    rw [runCalls_cons, hb', Res.ok_bind]
    exact h2

private theorem cells_exchanged (h : IsShippedIn T order c t.shape) (hd : d ≤ 3) (hX : HoldsPoints t.data X) (ht : t'.shape = t.shape)
    (σ : Equiv.Perm (Fin d)) (hX' : HoldsPoints t'.data fun idx i => X idx (σ i)) (cfg : Config) (ξ : Fin d → Flt) (extra : List Flt)
    (he : d + extra.length = 3) : t.numDims = d ∧ t'.numDims = d ∧ ∃ J : Matrix (Fin d) (Fin d) Flt,
      LinearTransform.jacobianValue cfg (floatArith T.format) t (List.ofFn ξ ++ extra) = .ok (matMem J) ∧
      LinearTransform.jacobianValue cfg (floatArith T.format) t' (List.ofFn ξ ++ extra) = .ok (matMem (J.submatrix σ id)) := by
  obtain ⟨b, hb0, hc, hb, -⟩ := shipped_any h
  choose v hv using fun idx => (shipped_products h hd ξ hb0 hb idx).2
  obtain ⟨L, hL, hnd, hall⟩ := box_list fun k => order k + 1
  have hs : d * d ≤ 2147483647 := (Nat.mul_le_mul hd hd).trans (by norm_num)
  have hcell : Cell t b (fun k => order k + 1) X :=
    ⟨h.dims, hs, by rw [hb0]; rfl, by rw [hb0]; exact elementOf_instantiate b, hc, hX⟩
  have hcell' : Cell t' b (fun k => order k + 1) fun idx i => X idx (σ i) :=
    ⟨h.dims, hs, by rw [ht, hb0]; rfl, by rw [ht, hb0]; exact elementOf_instantiate b, hc, hX'⟩
  have hbl : t.shape.bases.length = d := by simp [hcell.bases]
  have hg : ∀ idx, InterpolatedShape.gradient (floatArith T.format) t.shape (tup idx) (List.ofFn ξ ++ extra) = .ok (List.ofFn (v idx)) := fun idx => by
    rw [gradient_append _ _ _ _ (by rw [hbl, List.length_ofFn]),
      (basisValue_eq _ hcell.inst (by rw [tup_length, hbl]) _).2.2.2, hcell.bases, hv]
  obtain ⟨J, h1, h2⟩ := runCalls_exchanged (floatArith T.format) σ
    (body := fun idx => LinearTransform.jacobianBody cfg (floatArith T.format) t (List.ofFn ξ ++ extra) (tup idx))
    (body' := fun idx => LinearTransform.jacobianBody cfg (floatArith T.format) t' (List.ofFn ξ ++ extra) (tup idx))
    (fun idx M => jacobianBody_ok hcell cfg (floatArith T.format) _ idx (hg idx) M)
    (fun idx M => jacobianBody_ok hcell' cfg (floatArith T.format) _ idx (by rw [ht]; exact hg idx) M) L
    (fun _ _ => (floatArith T.format).lit 0)
  refine ⟨hcell.numDims, hcell'.numDims, J, ?_, ?_⟩
  · rw [LinearTransform.jacobianValue, staticAssert_bind_true (by simp [he]), hcell.numDims, listInit_zero_float h.dims hs, Res.ok_bind,
      LinearTransform.jacobian, supportLoop_eq hcell hL]
    exact h1
  · rw [LinearTransform.jacobianValue, staticAssert_bind_true (by simp [he]), hcell'.numDims, listInit_zero_float h.dims hs, Res.ok_bind,
      LinearTransform.jacobian, supportLoop_eq hcell' hL]
    exact h2

/-- **C144, Jacobians.** For every cell with a shipped shape function, in `float` and in `double`, and whatever its vertices: renumbering the axes of space by any
permutation exchanges the rows of the Jacobian, and changes no entry. -/
theorem C144_jacobian (h : IsShippedIn T order c t.shape) (hd : d ≤ 3) (hX : HoldsPoints t.data X) (ht : t'.shape = t.shape)
    (σ : Equiv.Perm (Fin d)) (hX' : HoldsPoints t'.data fun idx i => X idx (σ i)) (cfg : Config) (ξ : Fin d → Flt) (extra : List Flt)
    (he : d + extra.length = 3) : ∃ (mem mem' : List Flt) (J : Matrix (Fin d) (Fin d) Flt),
      LinearTransform.jacobianValue cfg (floatArith T.format) t (List.ofFn ξ ++ extra) = .ok mem ∧ HoldsMatrix mem J ∧
      LinearTransform.jacobianValue cfg (floatArith T.format) t' (List.ofFn ξ ++ extra) = .ok mem' ∧ HoldsMatrix mem' (Matrix.of fun i j => J (σ i) j) := by
  have hs : d * d ≤ 2147483647 := (Nat.mul_le_mul hd hd).trans (by norm_num)
  obtain ⟨-, -, J, h1, h2⟩ := cells_exchanged h hd hX ht σ hX' cfg ξ extra he
  exact ⟨_, _, J, h1, (holds_iff h.dims hs).2 rfl, h2, (holds_iff h.dims hs).2 rfl⟩

end cells

private theorem inverse_of_jacobian {A : Arith Flt} {t : LinearTransform Flt} (hn : t.numDims = 3) {cfg : Config} {ξ : Fin 3 → Flt} {mem : List Flt}
    (h : LinearTransform.jacobianValue cfg A t (List.ofFn ξ) = .ok mem) :
    LinearTransform.inverseJacobianValue cfg A t (List.ofFn ξ) = inverse A (carray cfg (CArray.whole [3, 3])) mem := by
  rw [LinearTransform.jacobianValue, staticAssert_bind_true (by simp)] at h
  rw [LinearTransform.inverseJacobianValue, staticAssert_bind_true (by simp)]
  obtain ⟨J0, k1, k2⟩ := Res.bind_eq_ok.1 h
  rw [k1, Res.ok_bind, LinearTransform.inverseJacobian, k2, Res.ok_bind, LinearTransform.jacobianView, hn]

/-- **C144, inverse Jacobians, partial.** If the first two axes of space of a three-dimensional cell are exchanged (or none), the determinant only changes its
sign and the columns of the inverse are exchanged. -/
theorem C144_inverseJacobian_partial {T : RealType} {order : Fin 3 → ℕ} {c : (k : Fin 3) → Fin (order k + 1) → ℝ} {t t' : LinearTransform Flt}
    {X : ((k : Fin 3) → Fin (order k + 1)) → Fin 3 → Flt} (h : IsShippedIn T order c t.shape) (hX : HoldsPoints t.data X) (ht : t'.shape = t.shape)
    {σ : Equiv.Perm (Fin 3)} (hσ : σ 2 = 2) (hX' : HoldsPoints t'.data fun idx i => X idx (σ i)) (cfg : Config) (ξ : Fin 3 → Flt) :
    ∃ (det : Flt) (after after' : Res (List Flt)),
      LinearTransform.inverseJacobianValue cfg (floatArith T.format) t (List.ofFn ξ) = .ok (det, after) ∧
      LinearTransform.inverseJacobianValue cfg (floatArith T.format) t' (List.ofFn ξ) = .ok (signedFlt (Equiv.Perm.sign σ) det, after') ∧
      ((∃ l, after = .ok l) ↔ ∃ l, after' = .ok l) ∧
      ∀ l l', after = .ok l → after' = .ok l' →
        ∃ Q : Matrix (Fin 3) (Fin 3) Flt, HoldsMatrix l Q ∧ HoldsMatrix l' (Matrix.of fun i j => Q i (σ j)) := by
  obtain ⟨hn, hn', J, h1, h2⟩ := cells_exchanged h le_rfl hX ht σ hX' cfg ξ [] rfl
  rw [List.append_nil] at h1 h2
  rw [inverse_of_jacobian hn h1, inverse_of_jacobian hn' h2]
  obtain ⟨det, after, after', e1, e2, e3, e4⟩ := C144_inverse_carray_partial cfg T.format (σ := σ) (τ := 1) hσ rfl J (matMem J) (matMem (J.submatrix σ id))
    ((holds_iff (by norm_num) (by norm_num)).2 rfl) ((holds_iff (by norm_num) (by norm_num)).2 rfl)
  rw [Equiv.Perm.sign_one, mul_one] at e2
  exact ⟨det, after, after', e1, e2, e3, e4⟩

/-- The map of the cell that is the image of the cube under a matrix. -/
private theorem linear_slope (M : Matrix (Fin 3) (Fin 3) ℝ) (i j : Fin 3) (ξ : Fin 3 → ℝ) :
    cellSlope (fun idx : Fin 3 → Fin 2 => ∑ k, (if idx k = 0 then -1 else 1) * M i k) ξ j = M i j := by
  have h : ∀ ζ : Fin 3 → ℝ, multi (fun idx : Fin 3 → Fin 2 => ∑ k, (if idx k = 0 then -1 else 1) * M i k) ζ = ∑ k, M i k * ζ k := by
    intro ζ
    have e : (fun idx : Fin 3 → Fin 2 => ∑ k, (if idx k = 0 then -1 else 1) * M i k) = fun idx =>
        ((-M i 0 + if idx 0 = 0 then 0 else 2 * M i 0) + (-M i 1 + if idx 1 = 0 then 0 else 2 * M i 1)) + (-M i 2 + if idx 2 = 0 then 0 else 2 * M i 2) := by
      funext idx
      rw [Fin.sum_univ_three]
      congr 1
      · congr 1 <;> split <;> ring
      · split <;> ring
    rw [e, multi_add, multi_add, multi_coord, multi_coord, multi_coord, Fin.sum_univ_three]
    ring
  rw [cellSlope, h, h, Fin.sum_univ_three, Fin.sum_univ_three]
  fin_cases j <;> simp

/-- **C144, inverse Jacobians, violated.** There is a cell, the image of the cube under a matrix of whole numbers, for which every renumbering of the axes of space
that moves the last axis changes the determinant at the centre by more than its sign. -/
theorem C144_inverseJacobian_violated (T : RealType) (cfg : Config) : ∃ (t : LinearTransform Flt) (X : (Fin 3 → Fin 2) → Fin 3 → ℝ),
    IsShippedIn T (fun _ : Fin 3 => 1) (fun _ => ![-1, 1]) t.shape ∧ HoldsPoints t.data (fun idx i => Flt.ofReal (X idx i)) ∧
    (∀ idx i, ∃ n : ℤ, X idx i = n ∧ |n| < 2 ^ 24) ∧
    ∃ (δ : ℝ) (after : Res (List Flt)),
      LinearTransform.inverseJacobianValue cfg (floatArith T.format) t (List.ofFn fun _ : Fin 3 => Flt.ofReal 0) = .ok (Flt.ofReal δ, after) ∧
      ∀ σ : Equiv.Perm (Fin 3), σ 2 ≠ 2 → ∀ t' : LinearTransform Flt, t'.shape = t.shape → HoldsPoints t'.data (fun idx i => Flt.ofReal (X idx (σ i))) →
        ∃ (δ' : ℝ) (after' : Res (List Flt)),
          LinearTransform.inverseJacobianValue cfg (floatArith T.format) t' (List.ofFn fun _ : Fin 3 => Flt.ofReal 0) = .ok (Flt.ofReal δ', after') ∧
            |δ| ≠ |δ'| := by
  obtain ⟨M, hM, δ, after, h1, h2, -⟩ := C144_violated T
  obtain ⟨X, hX⟩ : ∃ X : (Fin 3 → Fin 2) → Fin 3 → ℝ, X = fun idx i => ∑ k, (if idx k = 0 then -1 else 1) * M i k := ⟨_, rfl⟩
  obtain ⟨t, s1, s2, s3⟩ := float_cell T X
  have hsize : ∀ idx i, ∃ n : ℤ, X idx i = n ∧ |n| < 3 * 2 ^ exchangeBits T := by
    intro idx i
    choose n a1 a2 a3 a4 using hM
    refine ⟨∑ k, (if idx k = 0 then -1 else 1) * n i k, by rw [hX]; push_cast; simp only [a1], ?_⟩
    have : ∀ k, |(if idx k = 0 then -1 else 1) * n i k| = n i k := fun k => by
      rw [abs_mul, abs_of_pos (a2 i k)]
      split <;> simp
    refine (Finset.abs_sum_le_sum_abs _ _).trans_lt ?_
    simp only [this]
    rw [Fin.sum_univ_three]
    linarith [a3 i 0, a3 i 1, a3 i 2]
  have hM' : (Matrix.of fun i j => cellSlope (fun idx => X idx i) (fun _ => 0) j) = M := by
    ext i j
    rw [Matrix.of_apply, hX]
    exact linear_slope M i j _
  obtain ⟨D, hD⟩ : ∃ D : Matrix (Fin 3) (Fin 3) ℝ, IsDerivative (cellMap (order := fun _ : Fin 3 => 1) (fun _ => ![-1, 1]) X) D fun _ => 0 :=
    ⟨_, cellMap_derivative _ _ _⟩
  have hDM : D = M := (derivative_slope (fun _ => ⟨rfl, rfl⟩) hD).trans hM'
  obtain ⟨J, hJ, hJD⟩ := C140_jacobian s1 (fun _ => ⟨rfl, rfl⟩) s2 s3 (s := 0) (m := 3 * 2 ^ exchangeBits T) (p := 0)
    (by simp) (by have := Nat.two_pow_pos (exchangeBits T); omega) (by norm_num) (by clear * -; cases T <;> norm_num [exchangeBits, gradientRoom])
    (fun idx i => by
      obtain ⟨n, a1, a2⟩ := hsize idx i
      exact ⟨n, by simp [a1], by push_cast; exact a2.le⟩) (fun _ => ⟨0, by simp, by simp⟩) cfg hD
  have hJM : J = matMem (M.map Flt.ofReal) := by
    rw [(holds_iff (by norm_num) (by norm_num)).1 hJD, hDM]
    rfl
  subst hJM
  have hcarray : ∀ {N : Matrix (Fin 3) (Fin 3) Flt} {det after}, inverseNative (floatArith T.format) (matMem N) = .ok (det, after) →
      ∃ after', inverse (floatArith T.format) (carray cfg (CArray.whole [3, 3])) (matMem N) = .ok (det, after') := by
    intro N det after h
    have e := inverse_carray cfg (floatArith T.format) [] [] (m := matMem N) (matMem_length _)
    rw [h] at e
    simp only [List.nil_append, List.append_nil] at e
    exact ⟨_, e⟩
  obtain ⟨after1, h3⟩ := hcarray h1
  have hn : t.numDims = 3 := (cells_exchanged s1 le_rfl s3 rfl 1 s3 cfg (fun _ => Flt.ofReal 0) [] rfl).1
  refine ⟨t, X, s1, s3, fun idx i => ?_, δ, after1, by rw [inverse_of_jacobian hn hJ, h3], fun σ hσ t' ht hX' => ?_⟩
  · obtain ⟨n, a1, a2⟩ := hsize idx i
    exact ⟨n, a1, a2.trans_le (by clear * -; cases T <;> norm_num [exchangeBits])⟩
  · obtain ⟨-, hn', J', k1, k2⟩ := cells_exchanged s1 le_rfl s3 ht σ hX' cfg (fun _ => Flt.ofReal 0) [] rfl
    rw [List.append_nil] at k1 k2
    obtain ⟨δ', after', h4, h5⟩ := h2 σ 1 fun hn => hσ hn.1
    have hJ' : J' = M.map Flt.ofReal := by
      have q1 : HoldsMatrix (matMem J') J' := (holds_iff (by norm_num) (by norm_num)).2 rfl
      have q2 : HoldsMatrix (matMem J') (M.map Flt.ofReal) := by
        rw [Res.ok.inj (k1.symm.trans hJ)]
        exact (holds_iff (by norm_num) (by norm_num)).2 rfl
      ext a b
      exact Res.ok.inj ((q1.2 cfg a b).symm.trans (q2.2 cfg a b))
    rw [hJ'] at k2
    obtain ⟨after2, h6⟩ := hcarray h4
    exact ⟨δ', after2, by rw [inverse_of_jacobian hn' k2]; exact h6, h5⟩

/-! ### the hypotheses can be met -/

/-- Non-vacuity of `C144_jacobian` and `C144_inverseJacobian_partial`: the box with edges 2, 4 and 6, and the same box with the first two axes exchanged. -/
example (T : RealType) : ∃ (t t' : LinearTransform Flt) (X : (Fin 3 → Fin 2) → Fin 3 → ℝ), IsShippedIn T (fun _ : Fin 3 => 1) (fun _ => ![-1, 1]) t.shape ∧
    t'.shape = t.shape ∧ HoldsPoints t.data (fun idx i => Flt.ofReal (X idx i)) ∧
    HoldsPoints t'.data (fun idx i => Flt.ofReal (X idx (Equiv.swap (0 : Fin 3) 1 i))) ∧ (Equiv.swap (0 : Fin 3) 1) 2 = 2 ∧
    Equiv.Perm.sign (Equiv.swap (0 : Fin 3) 1) = -1 ∧ X (fun _ => 1) 0 ≠ X (fun _ => 1) 1 := by
  obtain ⟨t, h1, -, h2⟩ := float_cell T fun idx i => (![1, 2, 3] : Fin 3 → ℝ) i * if idx i = 0 then -1 else 1
  obtain ⟨t', -, -, h3⟩ := float_cell T fun idx i => (![1, 2, 3] : Fin 3 → ℝ) (Equiv.swap 0 1 i) * if idx (Equiv.swap 0 1 i) = 0 then -1 else 1
  exact ⟨t, ⟨t.shape, t'.data⟩, _, h1, rfl, h2, h3, by decide, Equiv.Perm.sign_swap (by decide), by norm_num⟩

/-- Non-vacuity of `C144_inverse_partial`, `C144_inverse_carray_partial`, `C144_difference_partial` and `C144_transposed_partial`: matrices exist in memory, and the
exchanges that are respected are four, those of C144 the other 32. -/
example (M : Matrix (Fin 3) (Fin 3) Flt) : (∃ m, HoldsNative m M) ∧ (∃ m, HoldsMatrix m M) ∧
    (Finset.univ.filter fun p : Equiv.Perm (Fin 3) × Equiv.Perm (Fin 3) => p.1 2 = 2 ∧ p.2 0 = 0).card = 4 :=
  ⟨⟨_, holdsNative_iff.2 rfl⟩, ⟨_, (holds_iff (by norm_num) (by norm_num)).2 rfl⟩, by decide +kernel⟩

end Verif.Props
