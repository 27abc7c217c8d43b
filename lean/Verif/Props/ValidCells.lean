import Verif.Props.FloatVolume
import Verif.Props.DistortedBox
import Verif.Spec.BoxMargin
import Verif.Lemmas.BoxMargin
import Verif.Lemmas.FarBox

/-!
# Property C136: in `float` and `double`, the sign of the determinant tells valid from inverted cells

A program that checks its cells looks at the sign of the determinant `inverseJacobian` returns.  The full claim is that for a box whose vertices are
displaced by less than a sixth of the edges it is positive, or negative if the box is inverted.  Without roundings this is true (`C136_exact`).
With roundings it is not: `C136_violated` has boxes far from the origin.  It is true if the box is not too small for its distance from the origin:
`C136_partial`, and then also the inverse Jacobian is computed (`C136_inverse_partial`).
-/

namespace Verif.Props

open Verif.Spec Verif.Lemmas

variable {c : (k : Fin 3) → Fin 2 → ℝ}

/-- The derivative of the map of a distorted box. -/
private theorem near_rows (hc : ∀ k, c k 0 = -1 ∧ c k 1 = 1) {o len δ : Fin 3 → ℝ} {X : (Fin 3 → Fin 2) → Fin 3 → ℝ} (hX : NearBox o len δ X)
    {ξ : Fin 3 → ℝ} (hξ : ξ ∈ cube 3) (i j : Fin 3) :
    |MvPolynomial.eval ξ (MvPolynomial.pderiv j (mapPoly (order := fun _ => 1) c X i)) - if i = j then len i / 2 else 0| ≤ δ i := by
  rw [pderiv_multi (eval_mapPoly hc X i) ξ j, multi_near o len, multi_near o len]
  have hs := abs_slope_le (Y := displacement o len X i) (fun idx => hX idx i) hξ j
  refine le_of_eq_of_le (congrArg abs ?_) hs
  by_cases h : i = j
  · subst h
    rw [if_pos rfl, Function.update_self, Function.update_self]
    ring
  · rw [if_neg h, Function.update_of_ne h, Function.update_of_ne h]
    ring

private theorem near_det {M : Matrix (Fin 3) (Fin 3) ℝ} {len δ : Fin 3 → ℝ} (hδ : ∀ i, 6 * δ i < |len i|)
    (h : ∀ i j, |M i j - if i = j then len i / 2 else 0| ≤ δ i) :
    0 < boxMargin len δ ∧ boxMargin len δ ≤ |M.det| ∧ |M.det| ≤ boxReach len δ ∧ 0 < (∏ i, len i) * M.det := by
  have ha : ∀ i, |len i / 2| = |len i| / 2 := fun i => by rw [abs_div, abs_of_pos (by norm_num : (0 : ℝ) < 2)]
  obtain ⟨h1, h2, h3⟩ := det_near_diagonal (L := fun i => len i / 2) (δ := δ) h fun i => by rw [ha]; linarith [hδ i]
  simp only [ha] at h1 h2
  refine ⟨Finset.prod_pos fun i _ => by linarith [hδ i], h1, h2, ?_⟩
  rw [Finset.prod_div_distrib, div_mul_eq_mul_div] at h3
  have h4 : 0 < ∏ _i : Fin 3, (2 : ℝ) := by positivity
  exact (div_pos_iff_of_pos_right h4).1 h3

/-- **C136 without roundings.** After `setData` of the vertices of a box with edges `len` (negative for an inverted direction), each displaced by at most
`δ`, less than a sixth of the edges, the determinant `inverseJacobian` returns has the sign of the product of the edges at every point of the cell, and its
magnitude is between the margin and the reach. The example of `C114` (`Props/DistortedBox.lean`) meets the hypotheses. -/
theorem C136_exact {t : LinearTransform ℝ} (h : IsLagrange (fun _ : Fin 3 => 1) c t.shape) (hc : ∀ k, c k 0 = -1 ∧ c k 1 = 1)
    (hl : t.data.length = 24) (o len δ : Fin 3 → ℝ) (V : Fin 8 → Fin 3 → ℝ) (hV : NearBox o len δ fun idx => V (vertexNumber idx))
    (hδ : ∀ i, 6 * δ i < |len i|) (coords : Int → Int → Res ℝ)
    (hv : ∀ (v : Fin 8) (i : Fin 3), coords ((v : ℕ) : Int) ((i : ℕ) : Int) = .ok (V v i)) (cfg : Config) :
    ∃ t', LinearTransform.setData cfg t coords = .ok t' ∧ ∀ ξ ∈ cube 3, ∃ detJ after,
      LinearTransform.inverseJacobianValue cfg (exactArith ℝ) t' (List.ofFn ξ) = .ok (detJ, after) ∧
      0 < (∏ i, len i) * detJ ∧ boxMargin len δ ≤ |detJ| ∧ |detJ| ≤ boxReach len δ := by
  obtain ⟨bs, hb, hr, -⟩ := isLagrange_realises h
  obtain ⟨t', h1, h2, -, h3, -⟩ := C48_setData cfg t bs (by rw [hb]; rfl)
    (by rw [hb]; exact elementOf_instantiate bs) (fun k => (hr k).count) hl V coords hv
  have h' : IsLagrange (fun _ : Fin 3 => 1) c t'.shape := by rw [h2]; exact h
  refine ⟨t', h1, fun ξ hξ => ?_⟩
  obtain ⟨after, g1⟩ := detJ_polynomial (X := fun (idx : Fin 3 → Fin 2) i => V (vertexNumber idx) i) h' h3 cfg ξ
  obtain ⟨-, k1, k2, k3⟩ := near_det hδ (near_rows hc hV hξ)
  rw [eval_det] at g1
  exact ⟨_, after, g1, k3, k1, k2⟩

theorem small_terms (T : RealType) {B : ℝ} (hB1 : 1 ≤ B) {M : Matrix (Fin 3) (Fin 3) ℝ} (h0 : ∀ i j, 0 ≤ M i j) (h : ∀ i j, M i j ≤ B) :
    errBound (unitRoundoff T.format) (3 * gradientRoundings (fun _ : Fin 3 => 1) + 5) ≤ 418 * unitRoundoff T.format ∧
    errBound (unitRoundoff T.format) (3 * gradientRoundings (fun _ : Fin 3 => 1) + 5) * detMagnitude M
      + 2 ^ 84 * B ^ 3 * smallestPositive T.format ≤ 2509 * unitRoundoff T.format * B ^ 3 := by
  have hu0 : 0 ≤ unitRoundoff T.format := roundoff_nonneg T.format
  have hu1 := formats_unit T
  have hr : errBound (unitRoundoff T.format) (3 * gradientRoundings (fun _ : Fin 3 => 1) + 5) ≤ 418 * unitRoundoff T.format := by
    rw [show 3 * gradientRoundings (fun _ : Fin 3 => 1) + 5 = 209 by decide, errBound]
    have := pow_roundoff_le hu0 209 (by norm_num at hu1 ⊢; linarith)
    norm_num at this ⊢
    linarith
  have hs : 2 ^ 84 * smallestPositive T.format ≤ unitRoundoff T.format := by
    have a1 := formats_tiny T
    have a2 : 1 / 2 ^ 53 ≤ unitRoundoff T.format := by
      cases T <;> norm_num [unitRoundoff, RealType.format, binary32, binary64]
    rw [← tiny_smallest]
    norm_num at a1 a2 ⊢
    linarith
  have hB3 : 0 ≤ B ^ 3 := by positivity
  have hd0 : 0 ≤ detMagnitude M := Finset.sum_nonneg fun σ _ => Finset.prod_nonneg fun i _ => abs_nonneg _
  have a1 := mul_le_mul hr (detMagnitude_le h0 h) hd0 (by positivity)
  have a2 := mul_le_mul_of_nonneg_right hs hB3
  exact ⟨hr, by linarith⟩

/-- The inverse Jacobian of a hexahedron whose determinant is large compared with its rounding error. -/
theorem hexahedron_inverse {T : RealType} {t : LinearTransform Flt} (h : IsShippedIn T (fun _ : Fin 3 => 1) c t.shape)
    (hc : ∀ k, c k 0 = -1 ∧ c k 1 = 1) {X : (Fin 3 → Fin 2) → Fin 3 → ℝ} (hX : HoldsPoints t.data fun idx i => Flt.ofReal (X idx i))
    {B : ℝ} (hB1 : 1 ≤ B) (hB : B ^ 3 ≤ 2 ^ 120) (hXB : ∀ idx i, |X idx i| ≤ B) (cfg : Config) {Δ : ℝ} (hΔ : 0 < Δ)
    (hm : 5018 * unitRoundoff T.format * B ^ 3 ≤ Δ) {ξ : Fin 3 → ℝ} (hξ : ξ ∈ cube 3)
    (hdet : ∀ D, IsDerivative (cellMap (order := fun _ : Fin 3 => 1) c X) D ξ → Δ ≤ |D.det|) :
    ∃ det m P D,
      LinearTransform.inverseJacobianValue cfg (floatArith T.format) t (List.ofFn fun k => Flt.ofReal (ξ k)) = .ok (det, .ok m) ∧
      HoldsMatrix m P ∧ IsDerivative (cellMap (order := fun _ : Fin 3 => 1) c X) D ξ ∧
      ∀ i j, FiniteWithin (P i j) (D⁻¹ i j)
        (2 * (418 * unitRoundoff T.format + 2509 * unitRoundoff T.format * B ^ 3 / Δ) * (2 * B ^ 2 / Δ)
          + 2 ^ 82 * B ^ 2 * max 1 (2 / Δ) * smallestPositive T.format) := by
  have hmag := fun i j => hexahedron_magnitude hc hXB hξ i j
  have hu0 : 0 ≤ unitRoundoff T.format := roundoff_nonneg T.format
  have hu53 : 1 / 2 ^ 53 ≤ unitRoundoff T.format := by
    cases T <;> norm_num [unitRoundoff, RealType.format, binary32, binary64]
  have hB2 : B ^ 2 ≤ B ^ 3 := pow_le_pow_right₀ hB1 (by norm_num)
  have hQ : B ^ 2 * max 1 (2 / Δ) ≤ 2 ^ 120 := by
    rw [mul_max_of_nonneg _ _ (by positivity)]
    refine max_le (by linarith) ?_
    rw [← mul_div_assoc, div_le_iff₀ hΔ]
    have h5 : B ^ 2 * (5018 / 2 ^ 53) ≤ Δ := by
      refine le_trans ?_ hm
      calc B ^ 2 * (5018 / 2 ^ 53) ≤ B ^ 3 * (5018 / 2 ^ 53) := mul_le_mul_of_nonneg_right hB2 (by positivity)
        _ = 5018 * (1 / 2 ^ 53) * B ^ 3 := by ring
        _ ≤ _ := mul_le_mul_of_nonneg_right (mul_le_mul_of_nonneg_left hu53 (by norm_num)) (by positivity)
    have := mul_le_mul_of_nonneg_left h5 (show (0 : ℝ) ≤ 2 ^ 120 by positivity)
    have h6 : 0 ≤ B ^ 2 := by positivity
    norm_num at this ⊢
    linarith
  obtain ⟨D, det, after, e1, e2, -, -, e5⟩ := C101_inverseJacobian h hX cfg ξ
    (fun k => abs_le.2 (hξ k)) hB1 hB hXB hmag (Q := max 1 (2 / Δ)) (le_max_left _ _) hQ
  obtain ⟨s1, s2⟩ := small_terms T hB1 (M := cellMagnitude (order := fun _ : Fin 3 => 1) c X ξ)
    (fun i j => cellMagnitude_nonneg i j) hmag
  have k1 := hdet D e1
  have hD : 0 < |D.det| := lt_of_lt_of_le hΔ k1
  obtain ⟨m, P, rfl, hP, hb⟩ := e5 (abs_pos.1 hD) (by linarith) ((div_le_div_of_nonneg_left (by norm_num) hΔ k1).trans (le_max_right _ _))
  refine ⟨det, m, P, D, e2, hP, e1, fun i j => ?_⟩
  obtain ⟨y, hy, hw⟩ := hb i j
  refine ⟨y, hy, hw.trans (add_le_add ?_ le_rfl)⟩
  have hadj : adjMagnitude (cellMagnitude (order := fun _ : Fin 3 => 1) c X ξ) i j ≤ 2 * B ^ 2 := by
    unfold adjMagnitude detMagnitude
    refine le_trans (Finset.sum_le_sum (g := fun _ => B ^ 2) fun σ _ => ?_) (le_of_eq ?_)
    swap
    · rw [Finset.sum_const, Finset.card_univ, Fintype.card_perm, Fintype.card_fin]
      norm_num [Nat.factorial]
    rw [Fin.prod_univ_two, sq]
    have := fun a b => (abs_of_nonneg (cellMagnitude_nonneg (order := fun _ : Fin 3 => 1) (c := c) (X := X) (ξ := ξ) a b)).trans_le (hmag a b)
    exact mul_le_mul (this _ _) (this _ _) (abs_nonneg _) (by linarith)
  have ha0 : 0 ≤ adjMagnitude (cellMagnitude (order := fun _ : Fin 3 => 1) c X ξ) i j := by
    unfold adjMagnitude detMagnitude
    exact Finset.sum_nonneg fun σ _ => Finset.prod_nonneg fun i _ => abs_nonneg _
  have hE0 : 0 ≤ 2509 * unitRoundoff T.format * B ^ 3 := by positivity
  refine mul_le_mul (mul_le_mul_of_nonneg_left (add_le_add s1 ?_) (by norm_num)) ?_ (by positivity) (by positivity)
  · exact div_le_div₀ hE0 s2 hΔ k1
  · exact div_le_div₀ (by positivity) hadj hΔ k1

section float
variable {T : RealType} {t : LinearTransform Flt} (h : IsShippedIn T (fun _ : Fin 3 => 1) c t.shape) (hc : ∀ k, c k 0 = -1 ∧ c k 1 = 1)
  (hl : t.data.length = 24) (o len δ : Fin 3 → ℝ) (V : Fin 8 → Fin 3 → ℝ) (hV : NearBox o len δ fun idx => V (vertexNumber idx))
  (hδ : ∀ i, 6 * δ i < |len i|) (coords : Int → Int → Res Flt)
  (hv : ∀ (v : Fin 8) (i : Fin 3), coords ((v : ℕ) : Int) ((i : ℕ) : Int) = .ok (Flt.ofReal (V v i)))
  {B : ℝ} (hB1 : 1 ≤ B) (hB : B ^ 3 ≤ 2 ^ 120) (hVB : ∀ v i, |V v i| ≤ B) (cfg : Config)

include h hc hl hV hδ hv hB1 hB hVB

/-- **C136, partial.** In `float` and `double`, with coordinates of magnitude at most `B`: if the margin is more than `2509 u B³` (`u` is `2^-24` or `2^-53`),
the determinant is finite and has the sign of the product of the edges at every point of the cell.
What is missing is shown by `C136_violated`: smaller boxes. -/
theorem C136_partial (hm : 2509 * unitRoundoff T.format * B ^ 3 < boxMargin len δ) :
    ∃ t', LinearTransform.setData cfg t coords = .ok t' ∧ ∀ ξ ∈ cube 3, ∃ det after x,
      LinearTransform.inverseJacobianValue cfg (floatArith T.format) t' (List.ofFn fun k => Flt.ofReal (ξ k)) = .ok (det, after) ∧
      det.datum = .finite x ∧ 0 < (∏ i, len i) * x ∧
      boxMargin len δ - 2509 * unitRoundoff T.format * B ^ 3 ≤ |x| ∧ |x| ≤ boxReach len δ + 2509 * unitRoundoff T.format * B ^ 3 := by
  obtain ⟨bs, hbs, hk⟩ := shipped_realises h
  obtain ⟨t', h1, h2, -, h3, -⟩ := C48_setData cfg t bs (by rw [hbs]; rfl)
    (by rw [hbs]; exact elementOf_instantiate bs) (fun k => (hk k).count) hl (fun v i => Flt.ofReal (V v i)) coords hv
  have h' : IsShippedIn T (fun _ : Fin 3 => 1) c t'.shape := by rw [h2]; exact h
  refine ⟨t', h1, fun ξ hξ => ?_⟩
  have hmag := fun i j => hexahedron_magnitude (X := fun (idx : Fin 3 → Fin 2) i => V (vertexNumber idx) i) hc (fun idx i => hVB _ i) hξ i j
  have hB2 : B ^ 2 * 1 ≤ 2 ^ 120 := by
    have : B ^ 2 ≤ B ^ 3 := pow_le_pow_right₀ hB1 (by norm_num)
    linarith
  obtain ⟨D, det, after, e1, e2, ⟨x, e3, e4⟩, -, -⟩ := C101_inverseJacobian (X := fun (idx : Fin 3 → Fin 2) i => V (vertexNumber idx) i) h' h3 cfg ξ
    (fun k => abs_le.2 (hξ k)) hB1 hB (fun idx i => hVB _ i) hmag (Q := 1) le_rfl hB2
  have e5 := e4.trans (small_terms T hB1 (fun i j => cellMagnitude_nonneg i j) hmag).2
  obtain ⟨-, k1, k2, k3⟩ := near_det (M := D) hδ fun i j => by rw [derivative_entry e1]; exact near_rows hc hV hξ i j
  refine ⟨det, after, x, e2, e3, ?_, ?_, ?_⟩
  · have hs : |x - D.det| < |D.det| := lt_of_le_of_lt e5 (lt_of_lt_of_le hm k1)
    have hp : (∏ i, len i) ≠ 0 := fun e => by rw [e, zero_mul] at k3; exact lt_irrefl _ k3
    rcases lt_or_gt_of_ne hp with hn | hn
    · have hd : D.det < 0 := by by_contra hd; exact absurd k3 (not_lt.2 (mul_nonpos_of_nonpos_of_nonneg hn.le (not_lt.1 hd)))
      rw [abs_of_neg hd, abs_lt] at hs
      exact mul_pos_of_neg_of_neg hn (by linarith [hs.2])
    · have hd : 0 < D.det := by by_contra hd; exact absurd k3 (not_lt.2 (mul_nonpos_of_nonneg_of_nonpos hn.le (not_lt.1 hd)))
      rw [abs_of_pos hd, abs_lt] at hs
      exact mul_pos hn (by linarith [hs.1])
  · have := abs_sub_abs_le_abs_sub D.det x
    rw [abs_sub_comm] at this
    linarith
  · have := abs_sub_abs_le_abs_sub x D.det
    linarith

/-- **C136, partial, the inverse.** If the margin is at least `5018 u B³`, the entries of the inverse Jacobian are finite and close to those of the inverse of
the derivative `D` of the map. -/
theorem C136_inverse_partial (hm : 5018 * unitRoundoff T.format * B ^ 3 ≤ boxMargin len δ) :
    ∃ t', LinearTransform.setData cfg t coords = .ok t' ∧ ∀ ξ ∈ cube 3, ∃ det m P D,
      LinearTransform.inverseJacobianValue cfg (floatArith T.format) t' (List.ofFn fun k => Flt.ofReal (ξ k)) = .ok (det, .ok m) ∧
      HoldsMatrix m P ∧ IsDerivative (cellMap (order := fun _ : Fin 3 => 1) c fun idx i => V (vertexNumber idx) i) D ξ ∧
      ∀ i j, FiniteWithin (P i j) (D⁻¹ i j)
        (2 * (418 * unitRoundoff T.format + 2509 * unitRoundoff T.format * B ^ 3 / boxMargin len δ) * (2 * B ^ 2 / boxMargin len δ)
          + 2 ^ 82 * B ^ 2 * max 1 (2 / boxMargin len δ) * smallestPositive T.format) := by
  obtain ⟨bs, hbs, hk⟩ := shipped_realises h
  obtain ⟨t', h1, h2, -, h3, -⟩ := C48_setData cfg t bs (by rw [hbs]; rfl)
    (by rw [hbs]; exact elementOf_instantiate bs) (fun k => (hk k).count) hl (fun v i => Flt.ofReal (V v i)) coords hv
  have h' : IsShippedIn T (fun _ : Fin 3 => 1) c t'.shape := by rw [h2]; exact h
  refine ⟨t', h1, fun ξ hξ => ?_⟩
  refine hexahedron_inverse h' hc h3 hB1 hB (fun idx i => hVB _ i) cfg (Finset.prod_pos fun i _ => by linarith [hδ i]) hm hξ fun D hD => ?_
  exact (near_det (M := D) hδ fun i j => by rw [derivative_entry hD]; exact near_rows hc hV hξ i j).2.1

end float

/-- The nodes of Gauss-Lobatto bases of order one. -/
theorem linear_nodes (T : RealType) (i : Fin (1 + 1)) :
    (Family.gaussLobatto.spacingIn T.arith ((1 + 1 : ℕ) : Int)).coordCT (i : ℕ) = .ok (Flt.ofReal ((![-1, 1] : Fin 2 → ℝ) i)) := by
  fin_cases i
  · have := knownFamily_sound (T := T) (fam := .gaussLobatto) (n := 2) (i := 0) (q := -1) (by cases T <;> decide +kernel)
    simpa using this
  · have := knownFamily_sound (T := T) (fam := .gaussLobatto) (n := 2) (i := 1) (q := 1) (by cases T <;> decide +kernel)
    simpa using this

/-- **C136 is violated.** In `float` and `double` there is a cube, with edges of length 1/4 and `2^-31` and coordinates between `2^20` and `2^21` that are
numbers of the type, and a point of the parent cell, where the determinant `inverseJacobian` returns is negative. -/
theorem C136_violated (T : RealType) : ∃ (t : LinearTransform Flt) (o len : Fin 3 → ℝ) (X : (Fin 3 → Fin 2) → Fin 3 → ℝ) (ξ : Fin 3 → ℝ),
    IsShippedIn T (fun _ : Fin 3 => 1) (fun _ => ![-1, 1]) t.shape ∧ HoldsPoints t.data (fun idx i => Flt.ofReal (X idx i)) ∧
    NearBox o len (fun _ => 0) X ∧ (∀ i, 0 < len i) ∧ (∀ idx i, Represents T.format (X idx i)) ∧
    (∀ k, Represents T.format (ξ k) ∧ |ξ k| ≤ 1) ∧
    ∀ cfg, ∃ x after, x < 0 ∧
      LinearTransform.inverseJacobianValue cfg (floatArith T.format) t (List.ofFn fun k => Flt.ofReal (ξ k)) = .ok (Flt.ofReal x, after) := by
  obtain ⟨b, hb, -⟩ := C100_basis T .gaussLobatto (order := 1) le_rfl (by norm_num) ⟨by norm_num, by norm_num⟩ (linear_nodes T)
  refine ⟨⟨⟨.ok (3 : ℕ), List.ofFn fun _ : Fin 3 => b⟩, (farData T).map fun q : ℚ => Flt.ofReal q⟩, fun i => farCorner T i, fun _ => farEdge T,
    fun idx i => farVertex T idx i, fun k => farPoint T k,
    ⟨by norm_num, rfl, fun _ => ⟨le_rfl, by norm_num⟩, fun _ => .gaussLobatto, fun _ => b, rfl,
      fun _ => ⟨⟨by norm_num, by norm_num⟩, linear_nodes T, hb⟩⟩,
    far_points T, fun idx i => ?_, fun i => ?_, (far_represented T).1, (far_represented T).2, fun cfg => ?_⟩
  · refine le_of_eq (abs_eq_zero.2 (sub_eq_zero.2 ?_))
    unfold farVertex
    split <;> simp [*]
  · cases T <;> norm_num [farEdge]
  · rw [C88_basis, lagrangeBasis_ok _ _ (order := 1) (by norm_num)] at hb
    exact far_negative T (Res.ok.inj hb).symm cfg

/-- Non-vacuity of the partial theorems in `float` and `double`: the parent cube, inverted in the second direction. -/
example (T : RealType) : ∃ (t : LinearTransform Flt) (V : Fin 8 → Fin 3 → ℝ) (coords : Int → Int → Res Flt),
    IsShippedIn T (fun _ : Fin 3 => 1) (fun _ => ![-1, 1]) t.shape ∧ t.data.length = 24 ∧
    NearBox ![-1, 1, -1] ![2, -2, 2] (fun _ => 1 / 10) (fun idx => V (vertexNumber idx)) ∧ (∀ i, 6 * (1 / 10 : ℝ) < |(![2, -2, 2] : Fin 3 → ℝ) i|) ∧
    (∀ (v : Fin 8) (i : Fin 3), coords ((v : ℕ) : Int) ((i : ℕ) : Int) = .ok (Flt.ofReal (V v i))) ∧ (∀ v i, |V v i| ≤ 1) ∧
    5018 * unitRoundoff T.format * 1 ^ 3 ≤ boxMargin ![2, -2, 2] (fun _ => 1 / 10) := by
  obtain ⟨t, h, -⟩ := sample_cell_in T
  refine ⟨⟨t.shape, List.replicate 24 (Flt.ofReal 0)⟩,
    fun v i => (if i = 1 then -1 else 1) * (![-1, 1] : Fin 2 → ℝ) ⟨(v : ℕ) / 2 ^ (i : ℕ) % 2, Nat.mod_lt _ (by norm_num)⟩,
    fun r i => .ok (Flt.ofReal ((if i = 1 then -1 else 1) * (![-1, 1] : Fin 2 → ℝ) ⟨r.toNat / 2 ^ i.toNat % 2, Nat.mod_lt _ (by norm_num)⟩)),
    h, by simp, fun idx i => ?_, fun i => ?_, fun v i => ?_, fun v i => ?_, ?_⟩
  · have a : ∀ a : Fin 2, a = 0 ∨ a = 1 := by decide
    rcases a (idx 0) with h0 | h0 <;> rcases a (idx 1) with h1 | h1 <;> rcases a (idx 2) with h2 | h2 <;> fin_cases i <;>
      simp [vertexNumber, h0, h1, h2] <;> norm_num
  · fin_cases i <;> norm_num
  · have : ((i : ℕ) : Int) = 1 ↔ i = 1 := by fin_cases i <;> simp
    simp [this]
  · have : ∀ a : Fin 2, |(![-1, 1] : Fin 2 → ℝ) a| = 1 := by intro a; fin_cases a <;> simp
    rw [abs_mul, this, mul_one]
    split <;> simp
  · have e : boxMargin ![2, -2, 2] (fun _ => 1 / 10) = 343 / 1000 := by
      unfold boxMargin
      rw [Fin.prod_univ_three]
      simp
      norm_num
    rw [e]
    cases T <;> norm_num [unitRoundoff, RealType.format, binary32, binary64]

end Verif.Props
