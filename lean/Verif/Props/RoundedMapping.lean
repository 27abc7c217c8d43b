import Verif.Lemmas.RoundedMapping
import Verif.Props.Rounding
import Verif.Props.Mapping
import Verif.Props.RoundedNodes

/-! # Properties C73 to C75: the 3x3 inverse and Jacobians in rounded arithmetic -/

namespace Verif.Props

open Verif.Spec Verif.Lemmas Verif.MathUtilities

variable {fl : ℝ → ℝ} {u : ℝ}

theorem within_self (M : Matrix (Fin 3) (Fin 3) ℝ) (i j : Fin 3) :
    Within u 0 |M i j| (M i j) (M i j) := (Approx.refl _).within

theorem detMagnitude_abs {n : ℕ} (M : Matrix (Fin n) (Fin n) ℝ) :
    detMagnitude (fun i j => |M i j|) = detMagnitude M := by simp [detMagnitude]

theorem adjMagnitude_abs (M : Matrix (Fin 3) (Fin 3) ℝ) (i j : Fin 3) :
    adjMagnitude (fun i j => |M i j|) i j = adjMagnitude M i j := by
  simp [adjMagnitude, detMagnitude, Matrix.submatrix]

/-- From the determinant's error to the error of the inverse. -/
theorem inverse_close (hu : 0 ≤ u) {j k : ℕ} (hjk : j ≤ k) {Bd D d A a p : ℝ} (hd : Within u k Bd D d)
    (hD : D ≠ 0) (hc : errBound u k * Bd ≤ |D| / 2) (hp : Within u j (A / |d|) (a / d) p) :
    |p - a / D| ≤ 2 * errBound u k * (1 + Bd / |D|) * (A / |D|) := by
  have hD0 : 0 < |D| := abs_pos.2 hD
  have h1 : |D| / 2 ≤ |d| := by
    have h2 := abs_sub_abs_le_abs_sub D d
    rw [abs_sub_comm] at h2
    have := hd.2
    linarith
  have hd0 : 0 < |d| := by linarith
  have hdn : d ≠ 0 := abs_pos.1 hd0
  have haA : |a| ≤ A := by
    have := hp.1
    rw [abs_div, div_le_div_iff_of_pos_right hd0] at this
    exact this
  have hA : 0 ≤ A := (abs_nonneg _).trans haA
  have hBd : 0 ≤ Bd := (abs_nonneg _).trans hd.1
  have he := errBound_nonneg hu k
  have hinv : 1 / |d| ≤ 2 / |D| := by
    rw [div_le_div_iff₀ hd0 hD0]; linarith
  have e1 : |p - a / d| ≤ errBound u k * (A * (2 / |D|)) := by
    refine hp.2.trans ?_
    refine (mul_le_mul_of_nonneg_right (errBound_mono hu hjk) (by positivity)).trans ?_
    refine mul_le_mul_of_nonneg_left ?_ he
    rw [div_eq_mul_one_div]
    exact mul_le_mul_of_nonneg_left hinv hA
  have e2 : |a / d - a / D| ≤ A * (errBound u k * Bd) * ((2 / |D|) * (1 / |D|)) := by
    have : a / d - a / D = -(a * (d - D)) * (1 / d * (1 / D)) := by field_simp; ring
    rw [this, abs_mul, abs_neg, abs_mul, abs_mul (1 / d), abs_div, abs_div, abs_one]
    refine mul_le_mul (mul_le_mul haA hd.2 (abs_nonneg _) hA)
      (mul_le_mul_of_nonneg_right hinv (by positivity)) (by positivity) (by positivity)
  calc |p - a / D| ≤ |p - a / d| + |a / d - a / D| := by simpa using abs_add_le (p - a / d) (a / d - a / D)
    _ ≤ errBound u k * (A * (2 / |D|)) + A * (errBound u k * Bd) * ((2 / |D|) * (1 / |D|)) := add_le_add e1 e2
    _ = _ := by ring

/-- The determinant's sign is right when its error bound is below its size. -/
theorem sign_of_within {k : ℕ} {B x y : ℝ} (h : Within u k B x y) (hb : errBound u k * B < |x|) :
    (0 < y ↔ 0 < x) ∧ (y < 0 ↔ x < 0) := by
  have h1 := abs_le.1 h.2
  rcases lt_trichotomy x 0 with hx | hx | hx
  · rw [abs_of_neg hx] at hb
    exact ⟨⟨fun _ => by linarith, fun _ => by linarith⟩, ⟨fun _ => hx, fun _ => by linarith⟩⟩
  · subst hx
    rw [abs_zero] at hb
    have := (abs_nonneg _).trans h.2
    linarith
  · rw [abs_of_pos hx] at hb
    exact ⟨⟨fun _ => hx, fun _ => by linarith⟩, ⟨fun _ => by linarith, fun _ => by linarith⟩⟩

theorem inv_apply {M : Matrix (Fin 3) (Fin 3) ℝ} (i j : Fin 3) : M⁻¹ i j = M.adjugate i j / M.det := by
  rw [Matrix.inv_def, Matrix.smul_apply, Ring.inverse_eq_inv', smul_eq_mul, div_eq_inv_mul]

/-- **C73, built-in arrays.** With rounding after every operation, `inverse( m, det )` leaves in `det` a
number that differs from the determinant by at most five roundings' worth of the sum of the absolute values of
its terms.  If that number is zero, nothing finite is left in `m`.  Otherwise entry `(i,j)` left in `m`
differs from that entry of the adjugate divided by the computed determinant by at most five roundings' worth
of the sum of the absolute values of its terms. -/
theorem C73_inverse_native_error (hr : Rounds fl u) (M : Matrix (Fin 3) (Fin 3) ℝ) (m : List ℝ)
    (hm : HoldsNative m M) :
    ∃ (det : ℝ) (after : Res (List ℝ)), inverseNative (roundedArith fl) m = .ok (det, after) ∧
      |det - M.det| ≤ errBound u 5 * detMagnitude M ∧ (det = 0 → after = .nonfinite) ∧
      (det ≠ 0 → ∃ (m' : List ℝ) (P : Matrix (Fin 3) (Fin 3) ℝ), after = .ok m' ∧ HoldsNative m' P ∧
        ∀ i j, |P i j - M.adjugate i j / det| ≤ errBound u 5 * (adjMagnitude M i j / |det|)) := by
  rw [holdsNative_iff] at hm
  subst hm
  obtain ⟨det, after, h1, h2, h3, h4⟩ := inverse_within hr (within_self (u := u) M)
  simp only [detMagnitude_abs, adjMagnitude_abs] at h2 h4
  refine ⟨det, after, h1, h2.2, h3, fun h => ?_⟩
  obtain ⟨P, hP, h5⟩ := h4 h
  exact ⟨matMem P, P, hP, holdsNative_iff.2 rfl, fun i j => (h5 i j).2⟩

/-- **C73, sign and inverse.** If the determinant is larger than its error bound the computed one has the same
sign; if it is at least twice as large, `inverse` leaves an approximation of the inverse matrix, with an error
proportional to the ratio of the sum of absolute values of the determinant's terms to the determinant. -/
theorem C73_inverse_error (hr : Rounds fl u) (M : Matrix (Fin 3) (Fin 3) ℝ) (m : List ℝ)
    (hm : HoldsNative m M) :
    ∃ (det : ℝ) (after : Res (List ℝ)), inverseNative (roundedArith fl) m = .ok (det, after) ∧
      (errBound u 5 * detMagnitude M < |M.det| → (0 < det ↔ 0 < M.det) ∧ (det < 0 ↔ M.det < 0)) ∧
      (M.det ≠ 0 → errBound u 5 * detMagnitude M ≤ |M.det| / 2 →
        ∃ (m' : List ℝ) (P : Matrix (Fin 3) (Fin 3) ℝ), after = .ok m' ∧ HoldsNative m' P ∧
          ∀ i j, |P i j - M⁻¹ i j|
            ≤ 2 * errBound u 5 * (1 + detMagnitude M / |M.det|) * (adjMagnitude M i j / |M.det|)) := by
  rw [holdsNative_iff] at hm
  subst hm
  obtain ⟨det, after, h1, h2, h3, h4⟩ := inverse_within hr (within_self (u := u) M)
  simp only [detMagnitude_abs, adjMagnitude_abs] at h2 h4
  refine ⟨det, after, h1, sign_of_within h2, fun hD hc => ?_⟩
  have hdet : det ≠ 0 := by
    have hlt : errBound u (3 * 0 + 5) * detMagnitude M < |M.det| := by
      have := abs_pos.2 hD
      simp only [mul_zero, zero_add]
      linarith
    obtain ⟨s1, s2⟩ := sign_of_within h2 hlt
    rcases lt_or_gt_of_ne hD with h | h
    · exact ((s2.2 h)).ne
    · exact ((s1.2 h)).ne'
  obtain ⟨P, hP, h5⟩ := h4 hdet
  refine ⟨matMem P, P, hP, holdsNative_iff.2 rfl, fun i j => ?_⟩
  rw [inv_apply]
  exact inverse_close hr.nonneg le_rfl h2 hD hc (h5 i j)

/-- **C73, CArrays.** The generic overload leaves the same numbers, so the same bounds hold: what it leaves in
`det` and in the nine elements is what the built-in overload leaves for the same matrix. -/
theorem C73_inverse_carray_error (hr : Rounds fl u) (cfg : Config) (M : Matrix (Fin 3) (Fin 3) ℝ) (m : List ℝ)
    (hm : HoldsMatrix m M) :
    ∃ (det : ℝ) (after : Res (List ℝ)),
      inverse (roundedArith fl) (carray cfg (CArray.whole [3, 3])) m = .ok (det, after) ∧
      |det - M.det| ≤ errBound u 5 * detMagnitude M ∧ (det = 0 → after = .nonfinite) ∧
      (det ≠ 0 → ∃ (m' : List ℝ) (P : Matrix (Fin 3) (Fin 3) ℝ), after = .ok m' ∧ HoldsMatrix m' P ∧
        ∀ i j, |P i j - M.adjugate i j / det| ≤ errBound u 5 * (adjMagnitude M i j / |det|)) := by
  rw [holds_iff (by norm_num) (by norm_num)] at hm
  subst hm
  obtain ⟨det, after, h1, h2, h3, h4⟩ := C73_inverse_native_error hr M _ (holdsNative_iff.2 rfl)
  have e := inverse_carray cfg (roundedArith fl) [] [] (m := matMem M) (matMem_length M)
  rw [h1] at e
  simp only [List.nil_append, List.append_nil] at e
  refine ⟨_, _, e, h2, fun h => ?_, fun h => ?_⟩
  · rw [h3 h]; rfl
  · obtain ⟨m', P, hm', hP, h5⟩ := h4 h
    rw [holdsNative_iff] at hP
    subst hP
    exact ⟨matMem P, P, by rw [hm']; rfl, (holds_iff (by norm_num) (by norm_num)).2 rfl, h5⟩

/-! ### Jacobians -/

variable {d : ℕ} {order : Fin d → ℕ} {c : (k : Fin d) → Fin (order k + 1) → ℝ} {t : LinearTransform ℝ}
  {X : ((k : Fin d) → Fin (order k + 1)) → Fin d → ℝ}

/-- The zero matrix the wrappers start from. -/
theorem listInit_zero_rounded (hr : Rounds fl u) (hd : 0 < d) (hs : d * d ≤ 2147483647) :
    CArray.listInit ((roundedArith fl).lit 0) [(d : Int), (d : Int)] [(roundedArith fl).lit 0]
      = .ok (matMem (0 : Matrix (Fin d) (Fin d) ℝ)) := by
  have h0 : (roundedArith fl).lit 0 = (exactArith ℝ).lit 0 := by simp [roundedArith, exactArith, fl_zero hr]
  rw [h0, listInit_zero hd hs]

/-- The derivative of the map of a cell. -/
theorem cellMap_derivative (c : (k : Fin d) → Fin (order k + 1) → ℝ)
    (X : ((k : Fin d) → Fin (order k + 1)) → Fin d → ℝ) (ξ : Fin d → ℝ) :
    IsDerivative (cellMap c X) (fun i j => ∑ idx, (∏ k, if j = k then
      (Polynomial.derivative (Lagrange.basis Finset.univ (c k) (idx k))).eval (ξ k)
      else (Lagrange.basis Finset.univ (c k) (idx k)).eval (ξ k)) * X idx i) ξ := by
  intro i
  have h1 := fun idx : (k : Fin d) → Fin (order k + 1) => hasFDerivAt_product
    (F := fun k => fun t => (Lagrange.basis Finset.univ (c k) (idx k)).eval t)
    (F' := fun k => fun t => (Polynomial.derivative (Lagrange.basis Finset.univ (c k) (idx k))).eval t)
    (fun k t => Polynomial.hasDerivAt _ t) ξ
  have h2 := HasFDerivAt.fun_sum (u := Finset.univ) fun idx _ => (h1 idx).mul_const (X idx i)
  simp only [lagrange_quotients] at h2
  refine h2.congr_fderiv ?_
  simp only [Finset.smul_sum, smul_smul, Finset.sum_smul]
  rw [Finset.sum_comm]
  exact Finset.sum_congr rfl fun a _ => Finset.sum_congr rfl fun idx _ => by
    rw [mul_comm]; simp only [lagrange_quotients]

/-- What the Jacobian loop leaves in rounded arithmetic. -/
theorem lagrange_jacobian_within (hr : Rounds fl u) (h : IsLagrangeIn (roundedArith fl) order c t.shape)
    (hs : d * d ≤ 2147483647) (hX : HoldsPoints t.data X) (cfg : Config) (ξ : Fin d → ℝ) (extra : List ℝ) :
    ∃ D J : Matrix (Fin d) (Fin d) ℝ, IsDerivative (cellMap c X) D ξ ∧
      LinearTransform.jacobian cfg (roundedArith fl) t (List.ofFn ξ ++ extra)
        (matMem (0 : Matrix (Fin d) (Fin d) ℝ)) = .ok (matMem J) ∧
      ∀ i j, Within u (gradientRoundings order) (cellMagnitude c X ξ i j) (D i j) (J i j) := by
  obtain ⟨b, hb, hk⟩ := isLagrangeIn_realises hr (lit_one hr) h
  have hcell : Cell t b (fun k => order k + 1) X :=
    ⟨h.dims, hs, by rw [hb]; rfl, by rw [hb]; exact elementOf_instantiate b, fun k => (hk k).count, hX⟩
  obtain ⟨J, hJ, hw⟩ := jacobian_within hr hcell hk cfg ξ extra
  refine ⟨_, J, cellMap_derivative c X ξ, hJ, fun i j => ?_⟩
  have hw := hw i j
  simp only [derivMagnitude_eq, lagrange_quotients] at hw
  have e1 : ∑ k, (8 * order k + 12)
      = (∑ k, max (order k * (6 + 1) + 1) ((order k + 1) * (7 + 1) + 1 + 2)) + d :=
    sum_succ fun k => by rw [max_eq_right (by omega)]; ring
  have hw' := hw.mono hr.nonneg (k := gradientRoundings order) (by rw [gradientRoundings, e1])
  simp only [cellMagnitude, lagrange_quotients]
  exact hw'

/-- **C74.** With rounding after every operation, entry `(i,j)` of the matrix that `jacobian( t, ξ )` returns
differs from the derivative of component `i` of the cell map in direction `j` by at most an explicit number of
roundings' worth of the sum of the absolute values of its terms. -/
theorem C74_jacobian_error (hr : Rounds fl u) (h : IsLagrangeIn (roundedArith fl) order c t.shape)
    (hX : HoldsPoints t.data X) (hd : d ≤ 3) (cfg : Config) (ξ : Fin d → ℝ) (extra : List ℝ)
    (he : d + extra.length = 3) :
    ∃ (mem : List ℝ) (D J : Matrix (Fin d) (Fin d) ℝ), IsDerivative (cellMap c X) D ξ ∧
      LinearTransform.jacobianValue cfg (roundedArith fl) t (List.ofFn ξ ++ extra) = .ok mem ∧
      HoldsMatrix mem J ∧
      ∀ i j, |J i j - D i j| ≤ errBound u (gradientRoundings order) * cellMagnitude c X ξ i j := by
  have hs : d * d ≤ 2147483647 := (Nat.mul_le_mul hd hd).trans (by norm_num)
  obtain ⟨D, J, hD, hJ, hw⟩ := lagrange_jacobian_within hr h hs hX cfg ξ extra
  obtain ⟨b, hb, -⟩ := isLagrangeIn_realises hr (lit_one hr) h
  have hn : t.numDims = d := by rw [LinearTransform.numDims, hb]; simp [elementOf]
  refine ⟨matMem J, D, J, hD, ?_, (holds_iff h.dims hs).2 rfl, fun i j => (hw i j).2⟩
  rw [LinearTransform.jacobianValue, staticAssert_bind_true (by simp [he]), hn,
    listInit_zero_rounded hr h.dims hs, Res.ok_bind, hJ]

/-- **C75.** With rounding after every operation, `inverseJacobian( t, ξ )` returns as determinant a number
that differs from the determinant of the derivative of the cell map by at most an explicit number of roundings'
worth of the sum of the absolute values of its terms.  If that determinant is larger than this bound the
returned one has the same sign; if it is at least twice as large, the returned matrix approximates the inverse
of the derivative. -/
theorem C75_inverseJacobian_error {order : Fin 3 → ℕ} {c : (k : Fin 3) → Fin (order k + 1) → ℝ}
    {X : ((k : Fin 3) → Fin (order k + 1)) → Fin 3 → ℝ} (hr : Rounds fl u)
    (h : IsLagrangeIn (roundedArith fl) order c t.shape) (hX : HoldsPoints t.data X) (cfg : Config)
    (ξ : Fin 3 → ℝ) :
    ∃ (D : Matrix (Fin 3) (Fin 3) ℝ) (det : ℝ) (after : Res (List ℝ)), IsDerivative (cellMap c X) D ξ ∧
      LinearTransform.inverseJacobianValue cfg (roundedArith fl) t (List.ofFn ξ) = .ok (det, after) ∧
      let B := cellMagnitude c X ξ
      let ε := errBound u (3 * gradientRoundings order + 5)
      |det - D.det| ≤ ε * detMagnitude B ∧
      (ε * detMagnitude B < |D.det| → (0 < det ↔ 0 < D.det) ∧ (det < 0 ↔ D.det < 0)) ∧
      (D.det ≠ 0 → ε * detMagnitude B ≤ |D.det| / 2 →
        ∃ (m : List ℝ) (P : Matrix (Fin 3) (Fin 3) ℝ), after = .ok m ∧ HoldsMatrix m P ∧
          ∀ i j, |P i j - D⁻¹ i j|
            ≤ 2 * ε * (1 + detMagnitude B / |D.det|) * (adjMagnitude B i j / |D.det|)) := by
  obtain ⟨D, J, hD, hJ, hw⟩ := lagrange_jacobian_within hr h (by norm_num) hX cfg ξ []
  obtain ⟨b, hb, -⟩ := isLagrangeIn_realises hr (lit_one hr) h
  have hn : t.numDims = 3 := by rw [LinearTransform.numDims, hb]; simp [elementOf]
  obtain ⟨det, after, h1, h2, -, h4⟩ := inverse_within hr hw
  have e := inverse_carray cfg (roundedArith fl) [] [] (m := matMem J) (matMem_length J)
  rw [h1] at e
  simp only [List.nil_append, List.append_nil] at e
  have hz := listInit_zero_rounded hr (d := 3) (by norm_num) (by norm_num)
  refine ⟨D, det, (fun m' => m') <$> after, hD, ?_, h2.2, sign_of_within h2, fun hD0 hc => ?_⟩
  · rw [LinearTransform.inverseJacobianValue, staticAssert_bind_true (by simp), hn]
    refine (congrArg (· >>= _) hz).trans ?_
    rw [List.append_nil] at hJ
    simp only [Res.ok_bind]
    rw [LinearTransform.inverseJacobian, hJ, Res.ok_bind, LinearTransform.jacobianView, hn]
    exact e
  · have hdet : det ≠ 0 := by
      obtain ⟨s1, s2⟩ := sign_of_within h2 (by have := abs_pos.2 hD0; linarith)
      rcases lt_or_gt_of_ne hD0 with h | h
      · exact ((s2.2 h)).ne
      · exact ((s1.2 h)).ne'
    obtain ⟨P, hP, h5⟩ := h4 hdet
    refine ⟨matMem P, P, by rw [hP]; rfl, (holds_iff (by norm_num) (by norm_num)).2 rfl, fun i j => ?_⟩
    rw [inv_apply]
    exact inverse_close hr.nonneg (by omega) h2 hD0 hc (h5 i j)

/-! ### the hypotheses can be met -/

/-- Non-vacuity of C73: in `double` (without overflow and underflow) the matrix `!![2,0,0;0,4,0;1,0,1]` meets
all conditions. -/
example : Rounds (binaryRound 52) (1 / 2 ^ 53) ∧
    ∃ M : Matrix (Fin 3) (Fin 3) ℝ, HoldsNative [2, 0, 0, 0, 4, 0, 1, 0, 1] M ∧
      HoldsMatrix [2, 0, 0, 0, 4, 0, 1, 0, 1] M ∧ M.det ≠ 0 ∧
      errBound (1 / 2 ^ 53) 5 * detMagnitude M ≤ |M.det| / 2 := by
  have e : ([2, 0, 0, 0, 4, 0, 1, 0, 1] : List ℝ) = matMem (!![2, 0, 0; 0, 4, 0; 1, 0, 1]) := by
    rw [matMem_three]; simp
  have hd : (!![2, 0, 0; 0, 4, 0; 1, 0, 1] : Matrix (Fin 3) (Fin 3) ℝ).det = 8 := by
    rw [Matrix.det_fin_three]; simp; norm_num
  refine ⟨(C60_binaryRound 52).1, _, holdsNative_iff.2 e, (holds_iff (by norm_num) (by norm_num)).2 e, ?_, ?_⟩
  · rw [hd]; norm_num
  · rw [hd, detMagnitude_three]
    have := C60_bound_first_order (u := 1 / 2 ^ 53) (by norm_num) 5 (by norm_num)
    simp
    norm_num at this ⊢
    linarith

/-- A trilinear element with nodes -1 and 1, in `double`, set to the parent cube. -/
theorem sample_rounded_cell : ∃ t : LinearTransform ℝ,
    IsLagrangeIn (roundedArith (binaryRound 52)) (fun _ : Fin 3 => 1) (fun _ => ![-1, 1]) t.shape ∧
    HoldsPoints t.data (fun (idx : Fin 3 → Fin 2) i => (![-1, 1] : Fin 2 → ℝ) (idx i)) := by
  have hr := (C60_binaryRound 52).1
  have h1 : binaryRound 52 1 = 1 := (C60_binaryRound 52).2
  have h2 : binaryRound 52 2 = 2 := by
    have h : Int.log 2 (2 : ℝ) = 1 := by
      have := Int.log_zpow (R := ℝ) (b := 2) (by norm_num) 1
      simpa using this
    rw [binaryRound, abs_of_pos (by norm_num : (0 : ℝ) < 2), h,
      show (2 : ℝ) * 2 ^ (((52 : ℕ) : ℤ) - 1) = ((2 ^ 52 : ℤ) : ℝ) by norm_num, round_intCast]
    norm_num
  have h0 : binaryRound 52 0 = 0 := by simp [binaryRound]
  have h3 : binaryRound 52 (-1) = -1 := by
    rw [binaryRound, abs_neg, abs_one, Int.log_one_right,
      show (-1 : ℝ) * 2 ^ (((52 : ℕ) : ℤ) - 0) = ((-2 ^ 52 : ℤ) : ℝ) by norm_num, round_intCast]
    norm_num
  have hc : Nodes (gaussLobattoSpacing (roundedArith (binaryRound 52)) ((1 + 1 : ℕ) : Int)) (1 + 1) ![-1, 1] := by
    refine ⟨?_, ?_⟩
    · intro _ i
      fin_cases i
      · show Res.ok _ = _
        simp [roundedArith, h1, h0, h3]
      · show Res.ok _ = _
        simp [roundedArith, h1, h2]
        norm_num [h1]
    · intro i j hij
      fin_cases i <;> fin_cases j <;> first | rfl | (simp at hij; norm_num at hij)
  obtain ⟨b, hb, -⟩ := C60_value_error hr (by norm_num) hc
  have h : IsLagrangeIn (roundedArith (binaryRound 52)) (fun _ : Fin 3 => 1) (fun _ => ![-1, 1])
      ⟨.ok 3, List.ofFn fun _ : Fin 3 => b⟩ :=
    ⟨by norm_num, rfl, fun _ => b, rfl, fun k => ⟨by norm_num, _, hc, hb⟩⟩
  obtain ⟨bs, hbs, hk⟩ := isLagrangeIn_realises hr (lit_one hr) h
  obtain ⟨t', h1, h2, -, h3, -⟩ := C48_setData checkedHost
    ⟨⟨.ok 3, List.ofFn fun _ : Fin 3 => b⟩, List.replicate 24 0⟩ bs (by rw [hbs]; rfl)
    (by rw [hbs]; exact elementOf_instantiate bs) (fun k => (hk k).count) (by simp)
    (fun v i => (![-1, 1] : Fin 2 → ℝ) ⟨(v : ℕ) / 2 ^ (i : ℕ) % 2, Nat.mod_lt _ (by norm_num)⟩)
    (fun r i => .ok ((![-1, 1] : Fin 2 → ℝ) ⟨r.toNat / 2 ^ i.toNat % 2, Nat.mod_lt _ (by norm_num)⟩))
    (fun v i => by simp)
  refine ⟨t', by rw [h2]; exact h, ?_⟩
  convert h3 using 3 with idx i
  congr 1
  apply Fin.ext
  have a0 := (idx 0).2
  have a1 := (idx 1).2
  have a2 := (idx 2).2
  fin_cases i <;> simp [vertexNumber] <;> omega

/-- The map of that element is the identity. -/
theorem identity_cell_map (i : Fin 3) (ξ : Fin 3 → ℝ) : cellMap (order := fun _ : Fin 3 => 1) (fun _ => ![-1, 1])
    (fun (idx : Fin 3 → Fin 2) i => (![-1, 1] : Fin 2 → ℝ) (idx i)) ξ i = ξ i := by
  have h1 : ∀ idx : Fin 3 → Fin 2,
      (∏ k, ∏ t ∈ Finset.univ.erase (idx k), (ξ k - (![-1, 1] : Fin 2 → ℝ) t)
          / ((![-1, 1] : Fin 2 → ℝ) (idx k) - (![-1, 1] : Fin 2 → ℝ) t)) * (![-1, 1] : Fin 2 → ℝ) (idx i)
        = ∏ k, (∏ t ∈ Finset.univ.erase (idx k), (ξ k - (![-1, 1] : Fin 2 → ℝ) t)
          / ((![-1, 1] : Fin 2 → ℝ) (idx k) - (![-1, 1] : Fin 2 → ℝ) t))
            * (if k = i then (![-1, 1] : Fin 2 → ℝ) (idx k) else 1) := by
    intro idx
    rw [Finset.prod_mul_distrib, Finset.prod_ite_eq' Finset.univ i]
    simp
  unfold cellMap
  rw [Finset.sum_congr rfl fun idx _ => h1 idx]
  have h2 := (Finset.prod_univ_sum (fun _ : Fin 3 => (Finset.univ : Finset (Fin 2))) (fun k a =>
    (∏ t ∈ Finset.univ.erase a, (ξ k - (![-1, 1] : Fin 2 → ℝ) t)
          / ((![-1, 1] : Fin 2 → ℝ) a - (![-1, 1] : Fin 2 → ℝ) t))
            * (if k = i then (![-1, 1] : Fin 2 → ℝ) a else 1)))
  rw [Fintype.piFinset_univ] at h2
  refine h2.symm.trans ?_
  have h3 : ∀ k, (∑ a : Fin 2, (∏ t ∈ Finset.univ.erase a, (ξ k - (![-1, 1] : Fin 2 → ℝ) t)
          / ((![-1, 1] : Fin 2 → ℝ) a - (![-1, 1] : Fin 2 → ℝ) t))
            * (if k = i then (![-1, 1] : Fin 2 → ℝ) a else 1)) = if k = i then ξ k else 1 := by
    intro k
    rw [Fin.sum_univ_two, show (Finset.univ.erase (0 : Fin 2)) = {1} by decide,
      show (Finset.univ.erase (1 : Fin 2)) = {0} by decide]
    simp
    split <;> ring
  rw [Finset.prod_congr rfl fun k _ => h3 k, Finset.prod_ite_eq' Finset.univ i]
  simp

theorem identity_cell_derivative (ξ₀ : Fin 3 → ℝ) : IsDerivative (cellMap (order := fun _ : Fin 3 => 1) (fun _ => ![-1, 1])
    (fun (idx : Fin 3 → Fin 2) i => (![-1, 1] : Fin 2 → ℝ) (idx i))) 1 ξ₀ := by
  intro i
  rw [show (fun ξ => cellMap (order := fun _ : Fin 3 => 1) (fun _ => ![-1, 1])
      (fun (idx : Fin 3 → Fin 2) i => (![-1, 1] : Fin 2 → ℝ) (idx i)) ξ i) = fun ξ => ξ i from
    funext fun ξ => identity_cell_map i ξ]
  refine (hasFDerivAt_apply (𝕜 := ℝ) i ξ₀).congr_fderiv ?_
  simp [Matrix.one_apply]

theorem identity_cell_magnitude : cellMagnitude (order := fun _ : Fin 3 => 1) (fun _ => ![-1, 1])
    (fun (idx : Fin 3 → Fin 2) i => (![-1, 1] : Fin 2 → ℝ) (idx i)) 0 = Matrix.of fun _ _ => 1 := by
  have h1 : ∀ a : Fin 2, derivMagnitude (![-1, 1] : Fin 2 → ℝ) a 0 = 1 / 2 := by
    intro a; fin_cases a
    · simp [derivMagnitude, show (Finset.univ.erase (0 : Fin 2)) = {1} by decide]; norm_num
    · simp [derivMagnitude, show (Finset.univ.erase (1 : Fin 2)) = {0} by decide]; norm_num
  have h2 : ∀ a : Fin 2, |∏ t ∈ Finset.univ.erase a, ((0 : ℝ) - (![-1, 1] : Fin 2 → ℝ) t)
      / ((![-1, 1] : Fin 2 → ℝ) a - (![-1, 1] : Fin 2 → ℝ) t)| = 1 / 2 := by
    intro a; fin_cases a
    · simp [show (Finset.univ.erase (0 : Fin 2)) = {1} by decide]; norm_num
    · simp [show (Finset.univ.erase (1 : Fin 2)) = {0} by decide]; norm_num
  have h3 : ∀ a : Fin 2, |(![-1, 1] : Fin 2 → ℝ) a| = 1 := by
    intro a; fin_cases a <;> simp
  funext i j
  simp only [cellMagnitude, Pi.zero_apply, Matrix.of_apply]
  simp only [h1, h2, h3, ite_self]
  norm_num

/-- Non-vacuity of C74 and C75: for that element the map is the identity and at the centre every condition is
met. -/
example : ∃ (t : LinearTransform ℝ) (X : (Fin 3 → Fin 2) → Fin 3 → ℝ),
    Rounds (binaryRound 52) (1 / 2 ^ 53) ∧
    IsLagrangeIn (roundedArith (binaryRound 52)) (fun _ : Fin 3 => 1) (fun _ => ![-1, 1]) t.shape ∧
    HoldsPoints t.data X ∧ IsDerivative (cellMap (order := fun _ : Fin 3 => 1) (fun _ => ![-1, 1]) X) 1 0 ∧
    errBound (1 / 2 ^ 53) (3 * gradientRoundings (fun _ : Fin 3 => 1) + 5)
      * detMagnitude (cellMagnitude (order := fun _ : Fin 3 => 1) (fun _ => ![-1, 1]) X 0)
      ≤ |(1 : Matrix (Fin 3) (Fin 3) ℝ).det| / 2 := by
  obtain ⟨t, h, hX⟩ := sample_rounded_cell
  refine ⟨t, _, (C60_binaryRound 52).1, h, hX, identity_cell_derivative 0, ?_⟩
  rw [identity_cell_magnitude, detMagnitude_three]
  have := C60_bound_first_order (u := 1 / 2 ^ 53) (by norm_num) 209 (by norm_num)
  rw [show 3 * gradientRoundings (fun _ : Fin 3 => 1) + 5 = 209 by decide]
  simp
  norm_num at this ⊢
  linarith

end Verif.Props
