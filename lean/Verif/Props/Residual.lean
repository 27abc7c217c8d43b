import Verif.Lemmas.Residual
import Verif.Props.FiniteInverse

/-! # Property C149: in float and double, the product of a matrix and its inverse is close to the identity -/

namespace Verif.Props

open Verif.Spec Verif.Lemmas Verif.MathUtilities

private theorem choose_finite {N : Matrix (Fin 3) (Fin 3) Flt} {x b : Fin 3 → Fin 3 → ℝ} (h : ∀ i j, FiniteWithin (N i j) (x i j) (b i j)) :
    ∃ P : Matrix (Fin 3) (Fin 3) ℝ, (∀ i j, (N i j).datum = .finite (P i j)) ∧ ∀ i j, |P i j - x i j| ≤ b i j := by
  choose P h1 h2 using h
  exact ⟨P, h1, h2⟩

private theorem close_rewrite {B M P : Matrix (Fin 3) (Fin 3) ℝ} {a t : ℝ} (h : ∀ i j, |P i j - M⁻¹ i j| ≤ 2 * a * (adjMagnitude B i j / |M.det|) + t)
    (i j : Fin 3) : |P i j - M⁻¹ i j| ≤ 2 * a / |M.det| * adjMagnitude B i j + t := by
  have := h i j
  rwa [show 2 * a * (adjMagnitude B i j / |M.det|) = 2 * a / |M.det| * adjMagnitude B i j by ring] at this

private theorem derivative_unique {d : ℕ} {f : (Fin d → ℝ) → Fin d → ℝ} {M N : Matrix (Fin d) (Fin d) ℝ} {ξ : Fin d → ℝ} (h : IsDerivative f M ξ)
    (h' : IsDerivative f N ξ) : M = N := by
  funext i j
  have := congrArg (fun L : (Fin d → ℝ) →L[ℝ] ℝ => L (Pi.single j 1)) ((h i).unique (h' i))
  simpa [Pi.single_apply] using this

/-- The magnitudes of the terms on the diagonal are those of the determinant. -/
theorem C149_diagonal (M : Matrix (Fin 3) (Fin 3) ℝ) (i : Fin 3) : leftMagnitude M M i i = detMagnitude M ∧ rightMagnitude M M i i = detMagnitude M := by
  rw [leftMagnitude, rightMagnitude, adjMagnitude_entries, detMagnitude_three, Fin.sum_univ_three, Fin.sum_univ_three]
  fin_cases i <;> constructor <;> simp <;> ring

/-- **C149, built-in arrays.** In `float` and in `double`, for a matrix with entries of magnitude at most `C` and a determinant of at least twice its error bound
`E` and at least `2 / Q` (the conditions of C101): the entries `inverse( m, det )` leaves behind are finite numbers, and the product of the matrix of these numbers
with the given matrix, from either side, differs from the identity by at most `2 (ε + E / |det|) / |det|` times the sum of the magnitudes of the terms of
that entry, plus underflow. Here `ε` is five roundings' worth. -/
theorem C149_inverse (T : RealType) (M : Matrix (Fin 3) (Fin 3) ℝ) (m : List Flt) (hm : HoldsNative m (M.map Flt.ofReal)) {C Q : ℝ} (hC1 : 1 ≤ C)
    (hC : C ^ 3 ≤ 2 ^ 120) (hM : ∀ i j, |M i j| ≤ C) (hQ1 : 1 ≤ Q) (hQ : C ^ 2 * Q ≤ 2 ^ 120) :
    let ε := errBound (unitRoundoff T.format) 5
    let E := ε * detMagnitude M + 30 * C ^ 3 * smallestPositive T.format
    M.det ≠ 0 → E ≤ |M.det| / 2 → 2 / |M.det| ≤ Q →
    ∃ (det : Flt) (m' : List Flt) (N : Matrix (Fin 3) (Fin 3) Flt) (P : Matrix (Fin 3) (Fin 3) ℝ),
      inverseNative (floatArith T.format) m = .ok (det, .ok m') ∧ HoldsNative m' N ∧ (∀ i j, (N i j).datum = .finite (P i j)) ∧
      NearlyInverse M M P (2 * (ε + E / |M.det|) / |M.det|) (36 * C ^ 3 * Q * smallestPositive T.format) := by
  intro ε E hD hE hq
  obtain ⟨det, after, h1, -, -, h4⟩ := C101_inverse T M m hm hC1 hC hM hQ1 hQ
  obtain ⟨m', N, rfl, h5, h6⟩ := h4 hD hE hq
  obtain ⟨P, h7, h8⟩ := choose_finite h6
  have hs : 0 ≤ 12 * C ^ 2 * Q * smallestPositive T.format := mul_nonneg (by positivity) (by unfold smallestPositive; positivity)
  have := nearlyInverse hD hs hM (close_rewrite h8)
  rw [show 3 * C * (12 * C ^ 2 * Q * smallestPositive T.format) = 36 * C ^ 3 * Q * smallestPositive T.format by ring] at this
  exact ⟨det, m', N, P, h1, h5, h7, this⟩

/-- **C149, `CArrayNd`.** The same for a `CArrayNd< REAL_TYPE, 3, 3 >`. -/
theorem C149_inverse_carray (cfg : Config) (T : RealType) (M : Matrix (Fin 3) (Fin 3) ℝ) (m : List Flt) (hm : HoldsMatrix m (M.map Flt.ofReal)) {C Q : ℝ}
    (hC1 : 1 ≤ C) (hC : C ^ 3 ≤ 2 ^ 120) (hM : ∀ i j, |M i j| ≤ C) (hQ1 : 1 ≤ Q) (hQ : C ^ 2 * Q ≤ 2 ^ 120) :
    let ε := errBound (unitRoundoff T.format) 5
    let E := ε * detMagnitude M + 30 * C ^ 3 * smallestPositive T.format
    M.det ≠ 0 → E ≤ |M.det| / 2 → 2 / |M.det| ≤ Q →
    ∃ (det : Flt) (m' : List Flt) (N : Matrix (Fin 3) (Fin 3) Flt) (P : Matrix (Fin 3) (Fin 3) ℝ),
      inverse (floatArith T.format) (carray cfg (CArray.whole [3, 3])) m = .ok (det, .ok m') ∧ HoldsMatrix m' N ∧
      (∀ i j, (N i j).datum = .finite (P i j)) ∧
      NearlyInverse M M P (2 * (ε + E / |M.det|) / |M.det|) (36 * C ^ 3 * Q * smallestPositive T.format) := by
  intro ε E hD hE hq
  obtain ⟨det, after, h1, -, -, h4⟩ := C101_inverse_carray cfg T M m hm hC1 hC hM hQ1 hQ
  obtain ⟨m', N, rfl, h5, h6⟩ := h4 hD hE hq
  obtain ⟨P, h7, h8⟩ := choose_finite h6
  have hs : 0 ≤ 12 * C ^ 2 * Q * smallestPositive T.format := mul_nonneg (by positivity) (by unfold smallestPositive; positivity)
  have := nearlyInverse hD hs hM (close_rewrite h8)
  rw [show 3 * C * (12 * C ^ 2 * Q * smallestPositive T.format) = 36 * C ^ 3 * Q * smallestPositive T.format by ring] at this
  exact ⟨det, m', N, P, h1, h5, h7, this⟩

/-- **C149, inverse Jacobians.** In `float` and in `double`, for a cell with a shipped shape function with vertices and derivative terms of magnitude at most `C`
and, at the point `ξ`, a determinant large enough: the entries `inverseJacobian( t, ξ )` returns are finite numbers, and their product with the matrix of
partial derivatives of the map from the parent element to the cell, from either side, differs from the identity by at most `2 (ε + E / |det|) / |det|` times
the sum of the magnitudes of the terms, plus underflow. -/
theorem C149_inverseJacobian {T : RealType} {order : Fin 3 → ℕ} {c : (k : Fin 3) → Fin (order k + 1) → ℝ} {t : LinearTransform Flt}
    {X : ((k : Fin 3) → Fin (order k + 1)) → Fin 3 → ℝ} (h : IsShippedIn T order c t.shape) (hX : HoldsPoints t.data fun idx i => Flt.ofReal (X idx i))
    (cfg : Config) (ξ : Fin 3 → ℝ) (hξ : ∀ k, |ξ k| ≤ 1) {C Q : ℝ} (hC1 : 1 ≤ C) (hC : C ^ 3 ≤ 2 ^ 120) (hXC : ∀ idx i, |X idx i| ≤ C)
    (hB : ∀ i j, cellMagnitude c X ξ i j ≤ C) (hQ1 : 1 ≤ Q) (hQ : C ^ 2 * Q ≤ 2 ^ 120) :
    ∃ D : Matrix (Fin 3) (Fin 3) ℝ, IsDerivative (cellMap c X) D ξ ∧
      let B := cellMagnitude c X ξ
      let ε := errBound (unitRoundoff T.format) (3 * gradientRoundings order + 5)
      let E := ε * detMagnitude B + 2 ^ 84 * C ^ 3 * smallestPositive T.format
      (D.det ≠ 0 → E ≤ |D.det| / 2 → 2 / |D.det| ≤ Q →
        ∃ (det : Flt) (m : List Flt) (N : Matrix (Fin 3) (Fin 3) Flt) (P : Matrix (Fin 3) (Fin 3) ℝ),
          LinearTransform.inverseJacobianValue cfg (floatArith T.format) t (List.ofFn fun k => Flt.ofReal (ξ k)) = .ok (det, .ok m) ∧
          HoldsMatrix m N ∧ (∀ i j, (N i j).datum = .finite (P i j)) ∧
          NearlyInverse B D P (2 * (ε + E / |D.det|) / |D.det|) (3 * 2 ^ 82 * C ^ 3 * Q * smallestPositive T.format)) := by
  have hC2 : C ≤ 2 ^ 56 := by
    by_contra hlt
    have := pow_lt_pow_left₀ (not_le.1 hlt) (by positivity) (show 3 ≠ 0 by norm_num)
    norm_num at this hC
    linarith
  obtain ⟨D', J, hD', -, -, hw⟩ := shipped_jacobian h (by norm_num) hX hC1 hC2 hXC cfg ξ hξ []
  obtain ⟨D, det, after, hD, h1, -, -, h4⟩ := C101_inverseJacobian h hX cfg ξ hξ hC1 hC hXC hB hQ1 hQ
  have hDD : D' = D := derivative_unique hD' hD
  refine ⟨D, hD, ?_⟩
  intro B ε E hD0 hE hq
  obtain ⟨m, N, rfl, h5, h6⟩ := h4 hD0 hE hq
  obtain ⟨P, h7, h8⟩ := choose_finite h6
  have hs : 0 ≤ 2 ^ 82 * C ^ 2 * Q * smallestPositive T.format := mul_nonneg (by positivity) (by unfold smallestPositive; positivity)
  have := nearlyInverse hD0 hs (C := C) (fun i j => by rw [← hDD]; exact (hw i j).le.trans (hB i j)) (close_rewrite h8)
  rw [show 3 * C * (2 ^ 82 * C ^ 2 * Q * smallestPositive T.format) = 3 * 2 ^ 82 * C ^ 3 * Q * smallestPositive T.format by ring] at this
  exact ⟨det, m, N, P, h1, h5, h7, this⟩

/-! ### the hypotheses -/

/-- Non-vacuity: a matrix in `float` whose inverse is not representable, with `C = 4` and `Q = 1`. -/
example : let M : Matrix (Fin 3) (Fin 3) ℝ := !![2, 1, 0; 1, 3, 1; 0, 1, 4]
    (∃ m, HoldsNative m (M.map Flt.ofReal)) ∧ (∃ m, HoldsMatrix m (M.map Flt.ofReal)) ∧ (∀ i j, |M i j| ≤ 4) ∧ (4 : ℝ) ^ 3 ≤ 2 ^ 120 ∧
    (4 : ℝ) ^ 2 * 1 ≤ 2 ^ 120 ∧ M.det = 18 ∧
    errBound (unitRoundoff RealType.float.format) 5 * detMagnitude M + 30 * 4 ^ 3 * smallestPositive RealType.float.format ≤ |M.det| / 2 ∧ 2 / |M.det| ≤ 1 := by
  intro M
  have hdet : M.det = 18 := by
    rw [Matrix.det_fin_three]; simp [M]; norm_num
  have hs : smallestPositive RealType.float.format = 1 / 2 ^ 149 := by norm_num [smallestPositive, RealType.format, binary32]
  have hu : unitRoundoff RealType.float.format = 1 / 2 ^ 24 := unitRoundoff_formats.2
  refine ⟨⟨_, holdsNative_iff.2 rfl⟩, ⟨_, (holds_iff (by norm_num) (by norm_num)).2 rfl⟩, ?_, by norm_num, by norm_num, hdet, ?_, ?_⟩
  · intro i j
    fin_cases i <;> fin_cases j <;> simp [M] <;> norm_num
  · rw [hdet, hs, hu, detMagnitude_three, errBound]
    simp [M]
    norm_num
  · rw [hdet]; norm_num

/-- Non-vacuity of `C149_inverseJacobian`: a cell that is the parent cube, at its centre, with `C = 1` and `Q = 2`. -/
example (T : RealType) : ∃ (t : LinearTransform Flt) (X : (Fin 3 → Fin 2) → Fin 3 → ℝ),
    IsShippedIn T (fun _ : Fin 3 => 1) (fun _ => ![-1, 1]) t.shape ∧ HoldsPoints t.data (fun idx i => Flt.ofReal (X idx i)) ∧ (∀ idx i, |X idx i| ≤ 1) ∧
    IsDerivative (cellMap (order := fun _ : Fin 3 => 1) (fun _ => ![-1, 1]) X) 1 0 ∧
    (∀ i j, cellMagnitude (order := fun _ : Fin 3 => 1) (fun _ => ![-1, 1]) X 0 i j ≤ 1) ∧
    errBound (unitRoundoff T.format) (3 * gradientRoundings (fun _ : Fin 3 => 1) + 5)
      * detMagnitude (cellMagnitude (order := fun _ : Fin 3 => 1) (fun _ => ![-1, 1]) X 0)
      + 2 ^ 84 * 1 ^ 3 * smallestPositive T.format ≤ |(1 : Matrix (Fin 3) (Fin 3) ℝ).det| / 2 ∧
    2 / |(1 : Matrix (Fin 3) (Fin 3) ℝ).det| ≤ 2 := by
  obtain ⟨t, h, hX⟩ := sample_cell_in T
  refine ⟨t, _, h, hX, ?_, identity_cell_derivative 0, ?_, ?_, by simp⟩
  · intro idx i
    have : ∀ a : Fin 2, |(![-1, 1] : Fin 2 → ℝ) a| ≤ 1 := by intro a; fin_cases a <;> simp
    exact this _
  · rw [identity_cell_magnitude]; simp
  · rw [identity_cell_magnitude, detMagnitude_three, show 3 * gradientRoundings (fun _ : Fin 3 => 1) + 5 = 209 by decide]
    have h1 := formats_unit T
    have h2 := pow_roundoff_le (roundoff_nonneg T.format) 209 (by norm_num at h1 ⊢; linarith)
    have h3 := formats_tiny T
    have h4 := tiny_pos T.format
    rw [← tiny_smallest]
    unfold errBound
    simp
    norm_num at h1 h2 h3 ⊢
    linarith

end Verif.Props
