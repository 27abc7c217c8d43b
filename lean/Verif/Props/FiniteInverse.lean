import Verif.Props.Finite

/-!
# Property C101: finite and accurate inverses, with underflow

The bounds of C73 and C75 without the condition of C81 that no exception was raised, and without the lower bounds on
the entries that C83 needs.
-/

namespace Verif.Props

open Verif.Spec Verif.Lemmas Verif.MathUtilities

variable {F : FloatFormat}

private theorem sign_of_close {x y E : ℝ} (h : |y - x| ≤ E) (hb : E < |x|) : (0 < y ↔ 0 < x) ∧ (y < 0 ↔ x < 0) := by
  have h1 := abs_le.1 h
  rcases lt_trichotomy x 0 with hx | hx | hx
  · rw [abs_of_neg hx] at hb
    exact ⟨⟨fun _ => by linarith, fun _ => by linarith⟩, ⟨fun _ => hx, fun _ => by linarith⟩⟩
  · subst hx
    rw [abs_zero] at hb
    exact absurd (h.trans_lt hb) (not_lt.2 (abs_nonneg _))
  · rw [abs_of_pos hx] at hb
    exact ⟨⟨fun _ => hx, fun _ => by linarith⟩, ⟨fun _ => by linarith, fun _ => by linarith⟩⟩

/-- From the quotient by the computed determinant to the quotient by the exact one. -/
private theorem quotient_close {p a δ D E ε A s : ℝ} (hD : D ≠ 0) (h1 : |δ - D| ≤ E) (h2 : E ≤ |D| / 2) (hε : 0 ≤ ε)
    (ha : |a| ≤ A) (hp : |p - a / δ| ≤ ε * (A / |δ|) + s) :
    |p - a / D| ≤ 2 * (ε + E / |D|) * (A / |D|) + s := by
  have hDp : 0 < |D| := abs_pos.2 hD
  have hδ : |D| / 2 ≤ |δ| := by
    have := abs_sub_abs_le_abs_sub D δ
    rw [abs_sub_comm] at this
    linarith
  have hδp : 0 < |δ| := by linarith
  have hA : 0 ≤ A := (abs_nonneg _).trans ha
  have hE : 0 ≤ E := (abs_nonneg _).trans h1
  have q1 : A / |δ| ≤ 2 * (A / |D|) := by
    rw [div_le_iff₀ hδp]
    have : 2 * (A / |D|) * |δ| = A * (2 * |δ| / |D|) := by field_simp
    rw [this]
    have : 1 ≤ 2 * |δ| / |D| := by rw [le_div_iff₀ hDp]; linarith
    nlinarith
  have q2 : |a / δ - a / D| ≤ 2 * (E / |D|) * (A / |D|) := by
    have hδ0 : δ ≠ 0 := abs_pos.1 hδp
    have e : a / δ - a / D = a / δ * ((D - δ) / D) := by field_simp
    rw [e, abs_mul, abs_div, abs_div]
    have a1 : |a| / |δ| ≤ 2 * (A / |D|) := (div_le_div_of_nonneg_right ha hδp.le).trans q1
    have a2 : |D - δ| / |D| ≤ E / |D| := div_le_div_of_nonneg_right (by rwa [abs_sub_comm]) hDp.le
    calc |a| / |δ| * (|D - δ| / |D|) ≤ 2 * (A / |D|) * (E / |D|) :=
          mul_le_mul a1 a2 (by positivity) (by positivity)
      _ = _ := by ring
  have q3 := abs_sub_le p (a / δ) (a / D)
  have q4 := mul_le_mul_of_nonneg_left q1 hε
  nlinarith

/-- The inverse of a matrix of approximations. -/
theorem inverse_of_approximations (hl : F.minExp ≤ 0) (hh : 0 ≤ F.maxExp) {k m : ℕ} {C Q : ℝ} {B M : Matrix (Fin 3) (Fin 3) ℝ}
    {N : Matrix (Fin 3) (Fin 3) Flt} (h : ∀ i j, Near F k m (B i j) C (M i j) (N i j)) (hQ : 1 ≤ Q)
    (hr : Room F (3 * k + 5) (6 * m + 6) (6 * C ^ 3)) (hrq : Room F (2 * k + 4) (6 * m + 6) (2 * C ^ 2 * Q))
    {a a' : ℝ} (ha : ((5 * m + 5 : ℕ) : ℝ) * (6 * C ^ 3) ≤ a) (ha' : ((6 * m + 6 : ℕ) : ℝ) * (2 * C ^ 2 * Q) ≤ a') :
    ∃ (det : Flt) (after : Res (List Flt)), inverseNative (floatArith F) (matMem N) = .ok (det, after) ∧
      let ε := errBound (unitRoundoff F) (3 * k + 5)
      let E := ε * detMagnitude B + a * smallestPositive F
      FiniteWithin det M.det E ∧
      (E < |M.det| → ∀ δ, det.datum = .finite δ → (0 < δ ↔ 0 < M.det) ∧ (δ < 0 ↔ M.det < 0)) ∧
      (M.det ≠ 0 → E ≤ |M.det| / 2 → 2 / |M.det| ≤ Q →
        ∃ P : Matrix (Fin 3) (Fin 3) Flt, after = .ok (matMem P) ∧ ∀ i j, FiniteWithin (P i j) (M⁻¹ i j)
          (2 * (ε + E / |M.det|) * (adjMagnitude B i j / |M.det|) + a' * smallestPositive F)) := by
  obtain ⟨det, after, δ, h1, hδ, hd, -, hP⟩ := inverse_near hl hh h hQ hr hrq
  obtain ⟨δ', hδ', hb⟩ := near_within hd hr.rel le_rfl ha
  obtain rfl : δ = δ' := Datum.finite.inj (hδ.symm.trans hδ')
  refine ⟨det, after, h1, ⟨δ, hδ, hb⟩, ?_, fun hD hE hq => ?_⟩
  · intro hE δ' hδ'
    obtain rfl : δ = δ' := Datum.finite.inj (hδ.symm.trans hδ')
    exact sign_of_close hb hE
  have hDp : 0 < |M.det| := abs_pos.2 hD
  have hδl : |M.det| / 2 ≤ |δ| := by
    have := abs_sub_abs_le_abs_sub M.det δ
    rw [abs_sub_comm] at this
    linarith
  have hδp : 0 < |δ| := by linarith
  have h1q : 1 / |δ| ≤ Q := by
    refine le_trans ?_ hq
    rw [div_le_div_iff₀ hδp hDp]
    linarith
  obtain ⟨P, hP1, hP2⟩ := hP (abs_pos.1 hδp) h1q
  refine ⟨P, hP1, fun i j => ?_⟩
  obtain ⟨y, hy, hyb⟩ := near_within (hP2 i j) hrq.rel (show 2 * k + 4 ≤ 3 * k + 5 by omega) ha'
  refine ⟨y, hy, ?_⟩
  rw [inv_apply]
  have hle := (hP2 i j).le
  rw [abs_div, div_le_div_iff_of_pos_right hδp] at hle
  exact quotient_close hD hb hE (errBound_nonneg (roundoff_nonneg F) _) hle hyb

private theorem format_range (T : RealType) : T.format.minExp ≤ 0 ∧ 0 ≤ T.format.maxExp := by
  cases T <;> exact ⟨by decide, by decide⟩

private theorem native_finite (T : RealType) (M : Matrix (Fin 3) (Fin 3) ℝ) {C Q : ℝ} (hC1 : 1 ≤ C) (hC : C ^ 3 ≤ 2 ^ 120)
    (hM : ∀ i j, |M i j| ≤ C) (hQ1 : 1 ≤ Q) (hQ : C ^ 2 * Q ≤ 2 ^ 120) :
    ∃ (det : Flt) (after : Res (List Flt)),
      inverseNative (floatArith T.format) (matMem (M.map Flt.ofReal)) = .ok (det, after) ∧
      let ε := errBound (unitRoundoff T.format) 5
      let E := ε * detMagnitude M + 30 * C ^ 3 * smallestPositive T.format
      FiniteWithin det M.det E ∧
      (E < |M.det| → ∀ δ, det.datum = .finite δ → (0 < δ ↔ 0 < M.det) ∧ (δ < 0 ↔ M.det < 0)) ∧
      (M.det ≠ 0 → E ≤ |M.det| / 2 → 2 / |M.det| ≤ Q →
        ∃ P : Matrix (Fin 3) (Fin 3) Flt, after = .ok (matMem P) ∧ ∀ i j, FiniteWithin (P i j) (M⁻¹ i j)
          (2 * (ε + E / |M.det|) * (adjMagnitude M i j / |M.det|) + 12 * C ^ 2 * Q * smallestPositive T.format)) := by
  have h := inverse_of_approximations (F := T.format) (k := 0) (m := 0) (C := C) (Q := Q) (B := fun i j => |M i j|) (M := M)
    (N := M.map Flt.ofReal) (format_range T).1 (format_range T).2
    (fun i j => near_ofReal le_rfl (hM i j) hC1) hQ1
    (formats_room T (by norm_num) (by norm_num) (by norm_num at hC ⊢; linarith))
    (formats_room T (by norm_num) (by norm_num) (by norm_num at hQ ⊢; linarith))
    (a := 30 * C ^ 3) (a' := 12 * C ^ 2 * Q) (by norm_num; linarith) (by norm_num; linarith)
  simp only [detMagnitude_abs, adjMagnitude_abs] at h
  exact h

/-- **C101, built-in arrays.** In `float` and in `double`, `inverse( m, det )` of a matrix with entries of magnitude at
most `C` leaves in `det` a finite number within `E` of the determinant, where `E` is five roundings' worth of the sum of
the magnitudes of its terms plus `30 C³` times the smallest positive number.  If the determinant is at least `2 E` and at least
`2 / Q`, the entries left behind are finite numbers and close to those of the inverse.  `C³` and `C² Q` must be at most
`2^120`.  Nothing is assumed about underflow. -/
theorem C101_inverse (T : RealType) (M : Matrix (Fin 3) (Fin 3) ℝ) (m : List Flt)
    (hm : HoldsNative m (M.map Flt.ofReal)) {C Q : ℝ} (hC1 : 1 ≤ C) (hC : C ^ 3 ≤ 2 ^ 120) (hM : ∀ i j, |M i j| ≤ C)
    (hQ1 : 1 ≤ Q) (hQ : C ^ 2 * Q ≤ 2 ^ 120) :
    ∃ (det : Flt) (after : Res (List Flt)), inverseNative (floatArith T.format) m = .ok (det, after) ∧
      let ε := errBound (unitRoundoff T.format) 5
      let E := ε * detMagnitude M + 30 * C ^ 3 * smallestPositive T.format
      FiniteWithin det M.det E ∧
      (E < |M.det| → ∀ δ, det.datum = .finite δ → (0 < δ ↔ 0 < M.det) ∧ (δ < 0 ↔ M.det < 0)) ∧
      (M.det ≠ 0 → E ≤ |M.det| / 2 → 2 / |M.det| ≤ Q →
        ∃ (m' : List Flt) (P : Matrix (Fin 3) (Fin 3) Flt), after = .ok m' ∧ HoldsNative m' P ∧
          ∀ i j, FiniteWithin (P i j) (M⁻¹ i j)
            (2 * (ε + E / |M.det|) * (adjMagnitude M i j / |M.det|)
              + 12 * C ^ 2 * Q * smallestPositive T.format)) := by
  have hm := holdsNative_iff.1 hm
  subst hm
  obtain ⟨det, after, h1, h2, h3, h4⟩ := native_finite T M hC1 hC hM hQ1 hQ
  refine ⟨det, after, h1, h2, h3, fun hD hE hq => ?_⟩
  obtain ⟨P, hP, h5⟩ := h4 hD hE hq
  exact ⟨matMem P, P, hP, holdsNative_iff.2 rfl, h5⟩

/-- **C101, `CArrayNd`.** The same for a `CArrayNd< REAL_TYPE, 3, 3 >`. -/
theorem C101_inverse_carray (cfg : Config) (T : RealType) (M : Matrix (Fin 3) (Fin 3) ℝ) (m : List Flt)
    (hm : HoldsMatrix m (M.map Flt.ofReal)) {C Q : ℝ} (hC1 : 1 ≤ C) (hC : C ^ 3 ≤ 2 ^ 120) (hM : ∀ i j, |M i j| ≤ C)
    (hQ1 : 1 ≤ Q) (hQ : C ^ 2 * Q ≤ 2 ^ 120) :
    ∃ (det : Flt) (after : Res (List Flt)),
      inverse (floatArith T.format) (carray cfg (CArray.whole [3, 3])) m = .ok (det, after) ∧
      let ε := errBound (unitRoundoff T.format) 5
      let E := ε * detMagnitude M + 30 * C ^ 3 * smallestPositive T.format
      FiniteWithin det M.det E ∧
      (E < |M.det| → ∀ δ, det.datum = .finite δ → (0 < δ ↔ 0 < M.det) ∧ (δ < 0 ↔ M.det < 0)) ∧
      (M.det ≠ 0 → E ≤ |M.det| / 2 → 2 / |M.det| ≤ Q →
        ∃ (m' : List Flt) (P : Matrix (Fin 3) (Fin 3) Flt), after = .ok m' ∧ HoldsMatrix m' P ∧
          ∀ i j, FiniteWithin (P i j) (M⁻¹ i j)
            (2 * (ε + E / |M.det|) * (adjMagnitude M i j / |M.det|)
              + 12 * C ^ 2 * Q * smallestPositive T.format)) := by
  have hm := (holds_iff (by norm_num) (by norm_num)).1 hm
  subst hm
  obtain ⟨det, after, h1, h2, h3, h4⟩ := native_finite T M hC1 hC hM hQ1 hQ
  have e := inverse_carray cfg (floatArith T.format) [] [] (m := matMem (M.map Flt.ofReal)) (matMem_length _)
  rw [h1] at e
  simp only [List.nil_append, List.append_nil] at e
  refine ⟨det, (fun m' => m') <$> after, e, h2, h3, fun hD hE hq => ?_⟩
  obtain ⟨P, hP, h5⟩ := h4 hD hE hq
  exact ⟨matMem P, P, by rw [hP]; rfl, (holds_iff (by norm_num) (by norm_num)).2 rfl, h5⟩

/-- **C101, inverse Jacobians.** In `float` and in `double`, `inverseJacobian( t, ξ )` of a cell with a shipped shape
function, with vertices and derivative terms of magnitude at most `C`, returns a finite determinant and, unless the exact one is
too small for these bounds, an inverse with finite entries. -/
theorem C101_inverseJacobian {T : RealType} {order : Fin 3 → ℕ} {c : (k : Fin 3) → Fin (order k + 1) → ℝ}
    {t : LinearTransform Flt} {X : ((k : Fin 3) → Fin (order k + 1)) → Fin 3 → ℝ} (h : IsShippedIn T order c t.shape)
    (hX : HoldsPoints t.data fun idx i => Flt.ofReal (X idx i)) (cfg : Config) (ξ : Fin 3 → ℝ) (hξ : ∀ k, |ξ k| ≤ 1)
    {C Q : ℝ} (hC1 : 1 ≤ C) (hC : C ^ 3 ≤ 2 ^ 120) (hXC : ∀ idx i, |X idx i| ≤ C)
    (hB : ∀ i j, cellMagnitude c X ξ i j ≤ C) (hQ1 : 1 ≤ Q) (hQ : C ^ 2 * Q ≤ 2 ^ 120) :
    ∃ (D : Matrix (Fin 3) (Fin 3) ℝ) (det : Flt) (after : Res (List Flt)), IsDerivative (cellMap c X) D ξ ∧
      LinearTransform.inverseJacobianValue cfg (floatArith T.format) t (List.ofFn fun k => Flt.ofReal (ξ k)) = .ok (det, after) ∧
      let B := cellMagnitude c X ξ
      let ε := errBound (unitRoundoff T.format) (3 * gradientRoundings order + 5)
      let E := ε * detMagnitude B + 2 ^ 84 * C ^ 3 * smallestPositive T.format
      FiniteWithin det D.det E ∧
      (E < |D.det| → ∀ δ, det.datum = .finite δ → (0 < δ ↔ 0 < D.det) ∧ (δ < 0 ↔ D.det < 0)) ∧
      (D.det ≠ 0 → E ≤ |D.det| / 2 → 2 / |D.det| ≤ Q →
        ∃ (m : List Flt) (P : Matrix (Fin 3) (Fin 3) Flt), after = .ok m ∧ HoldsMatrix m P ∧
          ∀ i j, FiniteWithin (P i j) (D⁻¹ i j)
            (2 * (ε + E / |D.det|) * (adjMagnitude B i j / |D.det|)
              + 2 ^ 82 * C ^ 2 * Q * smallestPositive T.format)) := by
  have hC2 : C ≤ 2 ^ 40 := by
    by_contra hlt
    have := pow_lt_pow_left₀ (not_le.1 hlt) (by positivity) (show 3 ≠ 0 by norm_num)
    norm_num at this hC
    linarith
  obtain ⟨-, -, -, k2, -⟩ := counts (order := order) (fun k => (h.orders k).2) (by norm_num)
  obtain ⟨D, J, hD, hn, hJ, hw⟩ := shipped_jacobian h (by norm_num) hX hC1 (hC2.trans (by norm_num)) hXC cfg ξ hξ []
  have hw' : ∀ i j, Near T.format (gradientRoundings order) (2 ^ 78) (cellMagnitude c X ξ i j) C (D i j) (J i j) :=
    fun i j => (hw i j).recap (hB i j) hC1 (by push_cast; linarith)
  have hC3 : 0 ≤ C ^ 3 := by positivity
  have hCQ : 0 ≤ C ^ 2 * Q := by positivity
  obtain ⟨det, after, h1, h2, h3, h4⟩ := inverse_of_approximations (format_range T).1 (format_range T).2 hw' hQ1
    (formats_room T (by omega) (by norm_num) (by norm_num at hC ⊢; linarith))
    (formats_room T (by omega) (by norm_num) (by norm_num at hQ ⊢; linarith))
    (a := 2 ^ 84 * C ^ 3) (a' := 2 ^ 82 * C ^ 2 * Q) (by push_cast; nlinarith) (by push_cast; nlinarith)
  have e := inverse_carray cfg (floatArith T.format) [] [] (m := matMem J) (matMem_length J)
  rw [h1] at e
  simp only [List.nil_append, List.append_nil] at e
  have hz := listInit_zero_float (F := T.format) (d := 3) (by norm_num) (by norm_num)
  refine ⟨D, det, (fun m' => m') <$> after, hD, ?_, h2, h3, fun hD0 hE hq => ?_⟩
  · rw [LinearTransform.inverseJacobianValue, staticAssert_bind_true (by simp), hn]
    refine (congrArg (· >>= _) hz).trans ?_
    rw [List.append_nil] at hJ
    simp only [Res.ok_bind]
    rw [LinearTransform.inverseJacobian, hJ, Res.ok_bind, LinearTransform.jacobianView, hn]
    exact e
  · obtain ⟨P, hP, h5⟩ := h4 hD0 hE hq
    exact ⟨matMem P, P, by rw [hP]; rfl, (holds_iff (by norm_num) (by norm_num)).2 rfl, h5⟩

/-! ### the hypotheses can be met -/

private theorem underflow_raised {a b : ℝ} (h1 : |a * b| < 2 ^ F.minExp) (h2 : F.nearest (a * b) ≠ a * b) :
    (Flt.mul F (Flt.ofReal a) (Flt.ofReal b)).raised = true := by
  show (Flt.round F false (a * b)).raised = true
  unfold Flt.round
  split
  · rfl
  · exact (Bool.false_or _).trans (@decide_eq_true_iff _ (Classical.propDecidable _) |>.2 ⟨h1, h2⟩)

/-- Non-vacuity of `C101_inverse` and `C101_inverse_carray` in `float`: for the matrix
`!![2^-50, 2^-80, 0; 2^-80, 2^-50, 0; 0, 0, 1]` all conditions are met with `C = 1` and `Q = 2^102`, while the product of the
two entries off the diagonal underflows. -/
example : let M : Matrix (Fin 3) (Fin 3) ℝ := !![1 / 2 ^ 50, 1 / 2 ^ 80, 0; 1 / 2 ^ 80, 1 / 2 ^ 50, 0; 0, 0, 1]
    (∃ m, HoldsNative m (M.map Flt.ofReal)) ∧ (∃ m, HoldsMatrix m (M.map Flt.ofReal)) ∧ (∀ i j, |M i j| ≤ 1) ∧
    (1 : ℝ) ^ 2 * 2 ^ 102 ≤ 2 ^ 120 ∧ M.det ≠ 0 ∧
    errBound (unitRoundoff RealType.float.format) 5 * detMagnitude M
      + 30 * 1 ^ 3 * smallestPositive RealType.float.format ≤ |M.det| / 2 ∧
    2 / |M.det| ≤ 2 ^ 102 ∧ (Flt.mul binary32 (Flt.ofReal (M 0 1)) (Flt.ofReal (M 1 0))).raised = true := by
  intro M
  have hdet : M.det = 1 / 2 ^ 100 - 1 / 2 ^ 160 := by
    rw [Matrix.det_fin_three]; simp [M]; norm_num
  have hs : smallestPositive RealType.float.format = 1 / 2 ^ 149 := by
    norm_num [smallestPositive, RealType.format, binary32]
  have hu : unitRoundoff RealType.float.format = 1 / 2 ^ 24 := unitRoundoff_formats.2
  refine ⟨⟨_, holdsNative_iff.2 rfl⟩, ⟨_, (holds_iff (by norm_num) (by norm_num)).2 rfl⟩, ?_, by norm_num, ?_, ?_, ?_, ?_⟩
  · intro i j
    fin_cases i <;> fin_cases j <;> simp [M] <;> norm_num
  · rw [hdet]; norm_num
  · rw [hdet, hs, hu, detMagnitude_three, errBound]
    simp [M]
    norm_num
  · rw [hdet]; norm_num
  · have hn : binary32.nearest (1 / 2 ^ 80 * (1 / 2 ^ 80)) ≠ 1 / 2 ^ 80 * (1 / 2 ^ 80) := by
      intro e
      obtain ⟨n, hn⟩ := (onGrid_unit binary32 (1 / 2 ^ 80 * (1 / 2 ^ 80))).mono (h := -149) (by
        unfold FloatFormat.unitExp; simp only [binary32]; omega)
      rw [e] at hn
      have h2 : (1 : ℝ) = n * 2 ^ 11 := by
        have e3 : (2 : ℝ) ^ (-149 : ℤ) = 1 / 2 ^ 149 := by norm_num
        rw [e3] at hn
        linarith
      have h3 : (1 : ℤ) = n * 2 ^ 11 := by exact_mod_cast h2
      omega
    have hlt : |(1 / 2 ^ 80 * (1 / 2 ^ 80) : ℝ)| < 2 ^ binary32.minExp := by
      simp only [binary32]; norm_num
    have e1 : M 0 1 = 1 / 2 ^ 80 := rfl
    have e2 : M 1 0 = 1 / 2 ^ 80 := rfl
    rw [e1, e2]
    exact underflow_raised hlt hn

/-- Non-vacuity of `C101_inverseJacobian`: a cell that is the parent cube, at its centre, with `C = 1` and `Q = 2`. -/
example (T : RealType) : ∃ (t : LinearTransform Flt) (X : (Fin 3 → Fin 2) → Fin 3 → ℝ),
    IsShippedIn T (fun _ : Fin 3 => 1) (fun _ => ![-1, 1]) t.shape ∧
    HoldsPoints t.data (fun idx i => Flt.ofReal (X idx i)) ∧ (∀ idx i, |X idx i| ≤ 1) ∧
    IsDerivative (cellMap (order := fun _ : Fin 3 => 1) (fun _ => ![-1, 1]) X) 1 0 ∧
    (∀ i j, cellMagnitude (order := fun _ : Fin 3 => 1) (fun _ => ![-1, 1]) X 0 i j ≤ 1) ∧
    errBound (unitRoundoff T.format) (3 * gradientRoundings (fun _ : Fin 3 => 1) + 5)
      * detMagnitude (cellMagnitude (order := fun _ : Fin 3 => 1) (fun _ => ![-1, 1]) X 0)
      + 2 ^ 84 * 1 ^ 3 * smallestPositive T.format ≤ |(1 : Matrix (Fin 3) (Fin 3) ℝ).det| / 2 ∧
    2 / |(1 : Matrix (Fin 3) (Fin 3) ℝ).det| ≤ 2 := by
  obtain ⟨t, h, hX⟩ := sample_cell_in T
  refine ⟨t, _, h, hX, ?_, identity_cell_derivative 0, ?_, ?_, by simp⟩
  · intro idx i
    have : ∀ a : Fin 2, |(![-1, 1] : Fin 2 → ℝ) a| ≤ 1 := by intro a; fin_cases a <;> simp
    exact this _
  · rw [identity_cell_magnitude]; simp
  · rw [identity_cell_magnitude, detMagnitude_three, show 3 * gradientRoundings (fun _ : Fin 3 => 1) + 5 = 209 by decide]
    have h1 := formats_unit T
    have h2 := pow_roundoff_le (roundoff_nonneg T.format) 209 (by norm_num at h1 ⊢; linarith)
    have h3 := formats_tiny T
    have h4 := tiny_pos T.format
    rw [← tiny_smallest]
    unfold errBound
    simp
    norm_num at h1 h2 h3 ⊢
    linarith

end Verif.Props
