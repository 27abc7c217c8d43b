import Verif.Lemmas.Quadrilateral
import Verif.Props.PointChecks

/-! # Property C148: convex quadrilaterals and hexahedra with vertical edges are valid cells -/

namespace Verif.Props

open Verif.Spec Verif.Lemmas MeasureTheory

/-! ### quadrilaterals -/

section square

variable {c : (k : Fin 2) → Fin 2 → ℝ} {t : LinearTransform ℝ} {X : (Fin 2 → Fin 2) → Fin 2 → ℝ}

/-- **C148, quadrilaterals.** Two dimensions, elements of order one with nodes at -1 and 1, any quadrilateral `X`. The Jacobians `jacobian` computes at the
four vertices have positive determinants exactly when going round the quadrilateral one turns left at every corner, that is, when it is strictly convex and
its corners are numbered counter-clockwise. Then the determinant is positive at every point of the parent element, and the map onto the cell, whose components
are the interpolated vertex coordinates, is one-to-one onto the convex hull of the four vertices. -/
theorem C148_quadrilateral (hc : ∀ k, c k 0 = -1 ∧ c k 1 = 1) (h : IsLagrange (fun _ : Fin 2 => 1) c t.shape) (hX : HoldsPoints t.data X) (cfg : Config) :
    ∃ (N : (Fin 2 → Fin 2) → (Fin 2 → ℝ) → ℝ) (J : (Fin 2 → ℝ) → List ℝ) (D : (Fin 2 → ℝ) → Matrix (Fin 2) (Fin 2) ℝ),
      (∀ (idx : Fin 2 → Fin 2) ξ, InterpolatedShape.value (exactArith ℝ) t.shape (tup idx) (List.ofFn ξ) = .ok (N idx ξ)) ∧
      (∀ ξ : Fin 2 → ℝ, LinearTransform.jacobianValue cfg (exactArith ℝ) t (List.ofFn ξ ++ [0]) = .ok (J ξ) ∧ HoldsMatrix (J ξ) (D ξ)) ∧
      ((∀ a ∈ [(-1 : ℝ), 1], ∀ b ∈ [(-1 : ℝ), 1], 0 < (D ![a, b]).det) ↔ LeftTurns (corners X)) ∧
      (LeftTurns (corners X) → (∀ ξ ∈ cube 2, 0 < (D ξ).det) ∧ Set.InjOn (fun ξ i => ∑ idx, N idx ξ * X idx i) (cube 2) ∧
        (fun ξ i => ∑ idx, N idx ξ * X idx i) '' cube 2 = convexHull ℝ (Set.range (corners X))) := by
  obtain ⟨N, f1, f2, -⟩ := lagrange_polynomial h (by norm_num) hX
  simp only [eval_mapPoly hc] at f2
  refine ⟨N, _, fun ξ => Matrix.of fun i j => cellSlope (fun idx => X idx i) ξ j, f1,
    fun ξ => ⟨square_jacobian hc h hX cfg ξ, (holds_iff (by norm_num) (by norm_num)).2 rfl⟩, ⟨leftTurns_of_det, fun hL a ha b hb => ?_⟩, fun hL => ?_⟩
  · refine quadDet_pos hL fun k => ?_
    have : ∀ x ∈ [(-1 : ℝ), 1], -1 ≤ x ∧ x ≤ 1 := fun x hx => by
      rcases List.mem_cons.1 hx with rfl | hx
      · norm_num
      · rw [List.mem_singleton.1 hx]; norm_num
    fin_cases k
    · exact this a ha
    · exact this b hb
  · simp only [f2]
    exact ⟨fun ξ hξ => quadDet_pos hL hξ, quad_injOn hL, quad_image hL⟩

/-- **C148, the area.** For a strictly convex quadrilateral the area of the cell is the one given by the corners, and the sum over the quadrature points of the
product of the weights times the determinant of the Jacobian, with any supported rules and numbers of points in the two directions, is this area up to a
relative error of the accuracy of the decimals of the rules. -/
theorem C148_area (hc : ∀ k, c k 0 = -1 ∧ c k 1 = 1) (h : IsLagrange (fun _ : Fin 2 => 1) c t.shape) (hX : HoldsPoints t.data X)
    (hL : LeftTurns (corners X)) (F : Fin 2 → RuleFamily) (n : Fin 2 → ℕ) (hS : ∀ k, (F k).Supports (n k)) (ε : ℝ) (htol : ∀ k, (F k).tolerance (n k) ≤ ε)
    (cfg : Config) :
    ∃ (q w : (k : Fin 2) → Fin (n k) → ℝ) (N : (Fin 2 → Fin 2) → (Fin 2 → ℝ) → ℝ) (J : (Fin 2 → ℝ) → List ℝ) (D : (Fin 2 → ℝ) → Matrix (Fin 2) (Fin 2) ℝ),
      (∀ k (i : Fin (n k)), ((F k).rule (exactArith ℝ) (n k)).coordCT (i : ℕ) = .ok (q k i)) ∧
      (∀ k (i : Fin (n k)), ((F k).rule (exactArith ℝ) (n k)).weightCT (i : ℕ) = .ok (w k i)) ∧
      (∀ (idx : Fin 2 → Fin 2) ξ, InterpolatedShape.value (exactArith ℝ) t.shape (tup idx) (List.ofFn ξ) = .ok (N idx ξ)) ∧
      (∀ ξ : Fin 2 → ℝ, LinearTransform.jacobianValue cfg (exactArith ℝ) t (List.ofFn ξ ++ [0]) = .ok (J ξ) ∧ HoldsMatrix (J ξ) (D ξ)) ∧
      (volume ((fun ξ i => ∑ idx, N idx ξ * X idx i) '' cube 2)).toReal = quadrilateralArea (corners X) ∧
      |∑ p : (k : Fin 2) → Fin (n k), (∏ k, w k (p k)) * (D fun k => q k (p k)).det - quadrilateralArea (corners X)|
        ≤ ((2 + ε) ^ 2 - 2 ^ 2) / 2 * quadrilateralArea (corners X) := by
  obtain ⟨N, f1, f2, -⟩ := lagrange_polynomial h (by norm_num) hX
  have hε : 0 ≤ ε := by
    refine le_trans ?_ (htol 0)
    cases F 0 <;> simp only [RuleFamily.tolerance]
    · positivity
    · split <;> positivity
  obtain ⟨q, w, h1, h2, h3⟩ := C65_tensor_rule F n hS ε hε htol
  refine ⟨q, w, N, _, fun ξ => Matrix.of fun i j => cellSlope (fun idx => X idx i) ξ j, h1, h2, f1,
    fun ξ => ⟨square_jacobian hc h hX cfg ξ, (holds_iff (by norm_num) (by norm_num)).2 rfl⟩, ?_, ?_⟩
  · have hdet : ∀ ξ : Fin 2 → ℝ, MvPolynomial.eval ξ (jacobianPoly (mapPoly (order := fun _ => 1) c X)).det = quadDet X ξ := fun ξ => by
      rw [eval_det]
      simp only [pderiv_slope hc]
      rfl
    have := volume_image (mapPoly (order := fun _ => 1) c X) (by simp only [eval_mapPoly hc]; exact quad_injOn hL)
      (fun ξ hξ => by rw [hdet]; exact (quadDet_pos hL hξ).le)
    simp only [hdet, integral_quadDet] at this
    simp only [f2]
    exact this.symm
  · have := h3 (quadPoly X) fun k => (degreeOf_quadPoly X k).trans (by
      have := hS k
      cases hF : F k <;> rw [hF] at this <;> simp only [RuleFamily.Supports, RuleFamily.degree] at this ⊢ <;> omega)
    simp only [eval_quadPoly, integral_quadDet] at this
    refine this.trans ?_
    have hp : (0 : ℝ) ≤ (2 + ε) ^ 2 - 2 ^ 2 := by nlinarith
    have := mul_le_mul_of_nonneg_left (coeffSum_quadPoly hL) hp
    linarith

/-- **C148, neighbours.** Two strictly convex quadrilaterals that share the edge between their vertices in direction 0, or in direction 1, have no other point
in common: `value` gives the same point in both only on the shared edge, at the same position along it. -/
theorem C148_neighbours {e : Element ℝ} (hc : ∀ k, c k 0 = -1 ∧ c k 1 = 1) (h : IsLagrange (fun _ : Fin 2 => 1) c e) (V W : (Fin 2 → Fin 2) → Fin 2 → ℝ)
    (hV : LeftTurns (corners V)) (hW : LeftTurns (corners W)) (left right : Fin 2 → List Int → Res ℝ)
    (hl : ∀ i (idx : Fin 2 → Fin 2), left i (tup idx) = .ok (V idx i)) (hr : ∀ i (idx : Fin 2 → Fin 2), right i (tup idx) = .ok (W idx i)) :
    ∃ x y : (Fin 2 → ℝ) → Fin 2 → ℝ,
      (∀ ξ i, ParentElement.value (exactArith ℝ) e (List.ofFn ξ) (left i) = .ok (x ξ i)) ∧
      (∀ ξ i, ParentElement.value (exactArith ℝ) e (List.ofFn ξ) (right i) = .ok (y ξ i)) ∧
      ((∀ b, V ![1, b] = W ![0, b]) → ∀ ξ ∈ cube 2, ∀ η ∈ cube 2, x ξ = y η ↔ ξ 0 = 1 ∧ η 0 = -1 ∧ ξ 1 = η 1) ∧
      ((∀ a, V ![a, 1] = W ![a, 0]) → ∀ ξ ∈ cube 2, ∀ η ∈ cube 2, x ξ = y η ↔ ξ 1 = 1 ∧ η 1 = -1 ∧ ξ 0 = η 0) := by
  refine ⟨fun ξ i => multi (fun idx => V idx i) ξ, fun ξ i => multi (fun idx => W idx i) ξ, fun ξ i => ?_, fun ξ i => ?_, fun hs ξ hξ η hη => ?_,
    fun hs ξ hξ η hη => ?_⟩
  · exact (value_mapPoly h i (left i) (hl i) ξ).trans (congrArg Res.ok (eval_mapPoly hc V i ξ))
  · exact (value_mapPoly h i (right i) (hr i) ξ).trans (congrArg Res.ok (eval_mapPoly hc W i ξ))
  · exact funext_iff.trans (quad_beside hV hW hs hξ hη)
  · exact funext_iff.trans (quad_above hV hW hs hξ hη)

end square

/-! ### cells with vertical edges -/

section cube

variable {c : (k : Fin 3) → Fin 2 → ℝ} {t : LinearTransform ℝ}

/-- **C148, cells with vertical edges.** End to end in three dimensions: after `setData` of the eight vertices of a cell with vertical edges, whatever the
slopes of its top and bottom, `inverseJacobian` returns at every point of the parent element a positive `detJ` and the inverse of the matrix of partial
derivatives of the map from the parent element to the cell, and the map is one-to-one. -/
theorem C148_vertical (h : IsLagrange (fun _ : Fin 3 => 1) c t.shape) (hc : ∀ k, c k 0 = -1 ∧ c k 1 = 1) (hl : t.data.length = 24) (V : Fin 8 → Fin 3 → ℝ)
    (hV : VerticalEdges fun idx => V (vertexNumber idx)) (coords : Int → Int → Res ℝ)
    (hv : ∀ (v : Fin 8) (i : Fin 3), coords ((v : ℕ) : Int) ((i : ℕ) : Int) = .ok (V v i)) (cfg : Config) :
    ∃ (t' : LinearTransform ℝ) (N : (Fin 3 → Fin 2) → (Fin 3 → ℝ) → ℝ), LinearTransform.setData cfg t coords = .ok t' ∧
      (∀ (idx : Fin 3 → Fin 2) ξ, InterpolatedShape.value (exactArith ℝ) t'.shape (tup idx) (List.ofFn ξ) = .ok (N idx ξ)) ∧
      Set.InjOn (fun ξ i => ∑ idx, N idx ξ * V (vertexNumber idx) i) (cube 3) ∧
      ∀ ξ ∈ cube 3, ∃ (detJ : ℝ) (m : List ℝ) (I D : Matrix (Fin 3) (Fin 3) ℝ),
        LinearTransform.inverseJacobianValue cfg (exactArith ℝ) t' (List.ofFn ξ) = .ok (detJ, .ok m) ∧
        0 < detJ ∧ detJ = D.det ∧ HoldsMatrix m I ∧ I * D = 1 ∧ D * I = 1 ∧
        IsDerivative (fun ξ i => ∑ idx, N idx ξ * V (vertexNumber idx) i) D ξ := by
  obtain ⟨bs, hb, hr, -⟩ := isLagrange_realises h
  obtain ⟨t', h1, h2, -, h3, -⟩ := C48_setData cfg t bs (by rw [hb]; rfl) (by rw [hb]; exact elementOf_instantiate bs) (fun k => (hr k).count) hl V coords hv
  have h' : IsLagrange (fun _ : Fin 3 => 1) c t'.shape := by rw [h2]; exact h
  obtain ⟨N, Jm, e1, e2, e3⟩ := lagrange_jacobian (X := fun (idx : Fin 3 → Fin 2) i => V (vertexNumber idx) i) h' (by norm_num) h3
  obtain ⟨N', f1, f2, -⟩ := lagrange_polynomial (X := fun (idx : Fin 3 → Fin 2) i => V (vertexNumber idx) i) h' (by norm_num) h3
  have hN : N' = N := by
    funext idx ξ
    exact Res.ok.inj ((f1 idx ξ).symm.trans (e1 idx ξ))
  subst hN
  refine ⟨t', N', h1, f1, ?_, fun ξ hξ => ?_⟩
  · simp only [f2, eval_mapPoly hc]
    exact vertical_injOn hV
  · obtain ⟨after, g1⟩ := detJ_polynomial (X := fun (idx : Fin 3 → Fin 2) i => V (vertexNumber idx) i) h' h3 cfg ξ
    have hpos : 0 < MvPolynomial.eval ξ (jacobianPoly (mapPoly (order := fun _ => 1) c fun (idx : Fin 3 → Fin 2) i => V (vertexNumber idx) i)).det := by
      rw [eval_det]
      simp only [pderiv_slope hc]
      exact vertical_pos hV hξ
    obtain ⟨J, D, det, after', k1, k2, k3, rfl, -, k5⟩ := C52_inverseJacobian cfg h' h3 ξ
    have hd := (Prod.mk.inj (Res.ok.inj (g1.symm.trans k3))).1
    obtain ⟨m, I, rfl, m2, m3, m4⟩ := k5 (by rw [← hd]; exact hpos.ne')
    refine ⟨D.det, m, I, D, k3, by rw [← hd]; exact hpos, rfl, m2, m3, m4, ?_⟩
    have hn : t'.numDims = 3 := by
      obtain ⟨bs, hb, -⟩ := isLagrange_realises h'
      rw [LinearTransform.numDims, hb]; simp [elementOf]
    have hz := listInit_zero (d := 3) (by norm_num) (by norm_num)
    have e := e3 cfg ξ [] 0
    rw [List.append_nil, zero_add] at e
    rw [LinearTransform.jacobianValue, staticAssert_bind_true (by simp), hn] at k1
    have hJ := k1.symm.trans ((congrArg (· >>= _) hz).trans e)
    have hD : D = Jm ξ := by
      funext i j
      have := k2.2 checkedHost i j
      rw [Res.ok.inj hJ, read_matMem checkedHost (by norm_num) (by norm_num)] at this
      exact (Res.ok.inj this).symm
    rw [hD]
    exact e2 ξ

/-- **C148, the volume of cells with vertical edges.** The sum over the quadrature points of the product of the weights times `detJ` is the volume of the cell,
up to the accuracy of the decimals of the rules. -/
theorem C148_vertical_volume (h : IsLagrange (fun _ : Fin 3 => 1) c t.shape) (hc : ∀ k, c k 0 = -1 ∧ c k 1 = 1) (hl : t.data.length = 24)
    (V : Fin 8 → Fin 3 → ℝ) (hV : VerticalEdges fun idx => V (vertexNumber idx)) (coords : Int → Int → Res ℝ)
    (hv : ∀ (v : Fin 8) (i : Fin 3), coords ((v : ℕ) : Int) ((i : ℕ) : Int) = .ok (V v i)) (B : ℝ) (hB : ∀ v i, |V v i| ≤ B)
    (F : Fin 3 → RuleFamily) (n : Fin 3 → ℕ) (hS : ∀ k, (F k).Supports (n k)) (hdeg : ∀ k, ¬ (F k = .gaussLobatto ∧ n k = 2)) (ε : ℝ)
    (htol : ∀ k, (F k).tolerance (n k) ≤ ε) (cfg : Config) :
    ∃ (t' : LinearTransform ℝ) (q w : (k : Fin 3) → Fin (n k) → ℝ) (N : (Fin 3 → Fin 2) → (Fin 3 → ℝ) → ℝ) (detJ : (Fin 3 → ℝ) → ℝ),
      LinearTransform.setData cfg t coords = .ok t' ∧
      (∀ k (i : Fin (n k)), ((F k).rule (exactArith ℝ) (n k)).coordCT (i : ℕ) = .ok (q k i)) ∧
      (∀ k (i : Fin (n k)), ((F k).rule (exactArith ℝ) (n k)).weightCT (i : ℕ) = .ok (w k i)) ∧
      (∀ (idx : Fin 3 → Fin 2) ξ, InterpolatedShape.value (exactArith ℝ) t'.shape (tup idx) (List.ofFn ξ) = .ok (N idx ξ)) ∧
      (∀ ξ, ∃ after, LinearTransform.inverseJacobianValue cfg (exactArith ℝ) t' (List.ofFn ξ) = .ok (detJ ξ, after)) ∧
      |∑ p : (k : Fin 3) → Fin (n k), (∏ k, w k (p k)) * detJ (fun k => q k (p k))
          - (volume ((fun ξ i => ∑ idx, N idx ξ * V (vertexNumber idx) i) '' cube 3)).toReal|
        ≤ ((2 + ε) ^ 3 - 2 ^ 3) * (3072 * B ^ 3) := by
  obtain ⟨t', q, w, N, detJ, h1, h2, h3, h4, h5, h6⟩ := C66_trilinear h hc hl V coords hv B hB F n hS hdeg ε htol cfg
  obtain ⟨t'', N', g1, g2, g3, g4⟩ := C148_vertical h hc hl V hV coords hv cfg
  obtain rfl := Res.ok.inj (h1.symm.trans g1)
  have hN : N' = N := by
    funext idx ξ
    exact Res.ok.inj ((g2 idx ξ).symm.trans (h4 idx ξ))
  subst hN
  refine ⟨t', q, w, N', detJ, h1, h2, h3, h4, h5, h6 g3 fun ξ hξ => ?_⟩
  obtain ⟨det, m, -, -, k1, k2, -⟩ := g4 ξ hξ
  obtain ⟨after, k3⟩ := h5 ξ
  rw [← (Prod.mk.inj (Res.ok.inj (k1.symm.trans k3))).1]
  exact k2.le

/-- **C148, neighbours with vertical edges.** Two cells with vertical edges that share a face, one above the other or one beside the other in either horizontal
direction, have no other point in common, although the top and bottom faces are curved: `value` gives the same point in both only on the shared face, at
the same position on it. -/
theorem C148_vertical_neighbours {e : Element ℝ} (h : IsLagrange (fun _ : Fin 3 => 1) c e) (hc : ∀ k, c k 0 = -1 ∧ c k 1 = 1)
    (V W : (Fin 3 → Fin 2) → Fin 3 → ℝ) (hV : VerticalEdges V) (hW : VerticalEdges W) (one other : Fin 3 → List Int → Res ℝ)
    (h1 : ∀ i (idx : Fin 3 → Fin 2), one i (tup idx) = .ok (V idx i)) (h2 : ∀ i (idx : Fin 3 → Fin 2), other i (tup idx) = .ok (W idx i)) :
    ∃ x y : (Fin 3 → ℝ) → Fin 3 → ℝ,
      (∀ ξ i, ParentElement.value (exactArith ℝ) e (List.ofFn ξ) (one i) = .ok (x ξ i)) ∧
      (∀ ξ i, ParentElement.value (exactArith ℝ) e (List.ofFn ξ) (other i) = .ok (y ξ i)) ∧
      ((∀ a b, V ![a, b, 1] = W ![a, b, 0]) → ∀ ξ ∈ cube 3, ∀ η ∈ cube 3, x ξ = y η ↔ ξ 2 = 1 ∧ η 2 = -1 ∧ ξ 0 = η 0 ∧ ξ 1 = η 1) ∧
      ((∀ b g, V ![1, b, g] = W ![0, b, g]) → ∀ ξ ∈ cube 3, ∀ η ∈ cube 3, x ξ = y η ↔ ξ 0 = 1 ∧ η 0 = -1 ∧ ξ 1 = η 1 ∧ ξ 2 = η 2) ∧
      ((∀ a g, V ![a, 1, g] = W ![a, 0, g]) → ∀ ξ ∈ cube 3, ∀ η ∈ cube 3, x ξ = y η ↔ ξ 1 = 1 ∧ η 1 = -1 ∧ ξ 0 = η 0 ∧ ξ 2 = η 2) := by
  refine ⟨fun ξ i => multi (fun idx => V idx i) ξ, fun ξ i => multi (fun idx => W idx i) ξ, fun ξ i => ?_, fun ξ i => ?_, fun hs ξ hξ η hη => ?_,
    fun hs ξ hξ η hη => ?_, fun hs ξ hξ η hη => ?_⟩
  · exact (value_mapPoly h i (one i) (h1 i) ξ).trans (congrArg Res.ok (eval_mapPoly hc V i ξ))
  · exact (value_mapPoly h i (other i) (h2 i) ξ).trans (congrArg Res.ok (eval_mapPoly hc W i ξ))
  · exact funext_iff.trans (vertical_above hV hW hs hξ hη)
  · exact funext_iff.trans (vertical_beside hV hW hs hξ hη)
  · exact funext_iff.trans (vertical_behind hV hW hs hξ hη)

end cube

/-! ### the hypotheses -/

/-- Non-vacuity: a quadrilateral that is not a parallelogram, with its area. -/
example : ∃ (t : LinearTransform ℝ) (X : (Fin 2 → Fin 2) → Fin 2 → ℝ), IsLagrange (fun _ : Fin 2 => 1) (fun _ => ![-1, 1]) t.shape ∧ HoldsPoints t.data X ∧
    LeftTurns (corners X) ∧ quadrilateralArea (corners X) = 8 := by
  obtain ⟨b, hb, -⟩ := (C36_compiles_iff_supported .gaussLobatto 1 ⟨by norm_num, by norm_num⟩).1 ⟨by norm_num, by norm_num⟩
  refine ⟨⟨⟨.ok 2, List.ofFn fun _ : Fin 2 => b⟩, quadData.map fun q : ℚ => (q : ℝ)⟩, fun idx i => (quadVertex idx i : ℝ), ?_, quad_holds, ?_, ?_⟩
  · refine ⟨by norm_num, rfl, fun _ => b, rfl, fun k => ⟨by norm_num, gaussLobattoSpacing (exactArith ℝ), ⟨?_, ?_⟩, hb⟩⟩
    · intro _ i
      fin_cases i
      · show Res.ok _ = _
        simp [exactArith]
      · show Res.ok _ = _
        norm_num [exactArith]
    · intro i j hij
      fin_cases i <;> fin_cases j <;> first | rfl | (simp at hij; norm_num at hij)
  · rw [leftTurns_corners]
    norm_num [turn, quadVertex]
  · show turn (fun i => (quadVertex ![0, 0] i : ℝ)) (fun i => (quadVertex ![1, 0] i : ℝ)) (fun i => (quadVertex ![1, 1] i : ℝ)) / 2
      + turn (fun i => (quadVertex ![0, 0] i : ℝ)) (fun i => (quadVertex ![1, 1] i : ℝ)) (fun i => (quadVertex ![0, 1] i : ℝ)) / 2 = _
    norm_num [turn, quadVertex]

/-- Two quadrilaterals that share an edge in direction 0, and two that share one in direction 1. -/
example : ∃ U V W : (Fin 2 → Fin 2) → Fin 2 → ℝ, LeftTurns (corners U) ∧ LeftTurns (corners V) ∧ LeftTurns (corners W) ∧
    (∀ b, U ![1, b] = V ![0, b]) ∧ (∀ a, U ![a, 1] = W ![a, 0]) := by
  refine ⟨fun idx => ![![![-1, -1], ![-1, 2]], ![![1, -1], ![3, 1]]] (idx 0) (idx 1), fun idx => ![![![1, -1], ![3, 1]], ![![4, -2], ![4, 1]]] (idx 0) (idx 1),
    fun idx => ![![![-1, 2], ![-2, 3]], ![![3, 1], ![3, 4]]] (idx 0) (idx 1), leftTurns_corners.2 ?_, leftTurns_corners.2 ?_, leftTurns_corners.2 ?_, fun b => rfl, fun a => ?_⟩
  · norm_num [turn]
  · norm_num [turn]
  · norm_num [turn]
  · fin_cases a <;> rfl

/-- A cell whose top is twisted, far from a box. -/
private def twisted (g : ℕ) (idx : Fin 3 → Fin 2) : Fin 3 → ℝ :=
  ![![![0, -1], ![3, 0]] (idx 0) (idx 1), ![![0, 2], ![0, 3]] (idx 0) (idx 1), if idx 2 = 0 then g else g + 1 + 5 * ((idx 0 : ℕ) * (idx 1 : ℕ) : ℕ)]

private theorem twisted_vertical (g : ℕ) : VerticalEdges (twisted g) where
  vertical a b := ⟨rfl, rfl⟩
  upward a b := by
    show (g : ℝ) < g + 1 + 5 * (((a : ℕ) * (b : ℕ) : ℕ) : ℝ)
    have : (0 : ℝ) ≤ (((a : ℕ) * (b : ℕ) : ℕ) : ℝ) := Nat.cast_nonneg _
    linarith
  base := leftTurns_corners.2 (by norm_num [turn, twisted])

private theorem top_corner : twisted 0 ![1, 1, 1] 2 = 6 := by
  show ((0 : ℕ) : ℝ) + 1 + 5 * ((1 * 1 : ℕ) : ℝ) = 6
  norm_num

/-- Non-vacuity for cells with vertical edges: the vertices of a cell whose top is twisted, in the order of `setData`. -/
example : ∃ (c : (k : Fin 3) → Fin 2 → ℝ) (t : LinearTransform ℝ) (V : Fin 8 → Fin 3 → ℝ) (coords : Int → Int → Res ℝ),
    IsLagrange (fun _ : Fin 3 => 1) c t.shape ∧ (∀ k, c k 0 = -1 ∧ c k 1 = 1) ∧ t.data.length = 24 ∧ VerticalEdges (fun idx => V (vertexNumber idx)) ∧
    (∀ (v : Fin 8) (i : Fin 3), coords ((v : ℕ) : Int) ((i : ℕ) : Int) = .ok (V v i)) ∧ V 7 = ![0, 3, 6] := by
  obtain ⟨e, he, -⟩ := trilinear_cell
  have hsurj : Function.Surjective vertexNumber := by decide
  have hinj : Function.Injective vertexNumber := by decide
  choose inv hinv using hsurj
  have h7 : inv 7 = fun _ => 1 := hinj ((hinv 7).trans (by decide))
  obtain ⟨V, hV⟩ : ∃ V : Fin 8 → Fin 3 → ℝ, V = fun v => twisted 0 (inv v) := ⟨_, rfl⟩
  refine ⟨fun _ => ![-1, 1], ⟨e, List.replicate 24 0⟩, V,
    fun r i => if hr : r.toNat < 8 ∧ i.toNat < 3 then .ok (V ⟨r.toNat, hr.1⟩ ⟨i.toNat, hr.2⟩) else .ub,
    he, fun k => ⟨rfl, rfl⟩, by simp, ?_, fun v i => ?_, ?_⟩
  · have h4 : (fun idx => V (vertexNumber idx)) = twisted 0 := by
      funext idx
      rw [hV]
      show twisted 0 (inv (vertexNumber idx)) = _
      rw [show inv (vertexNumber idx) = idx from hinj (hinv _)]
    rw [h4]
    exact twisted_vertical 0
  · have := v.2
    have := i.2
    simp
  · rw [hV]
    show twisted 0 (inv 7) = _
    rw [h7]
    funext i
    fin_cases i <;> norm_num [twisted]

/-- A cell on top of the twisted one: its bottom is the twisted top. -/
example : ∃ V W : (Fin 3 → Fin 2) → Fin 3 → ℝ, VerticalEdges V ∧ VerticalEdges W ∧ (∀ a b, V ![a, b, 1] = W ![a, b, 0]) ∧ V ![1, 1, 1] 2 = 6 := by
  refine ⟨twisted 0, fun idx => ![twisted 0 idx 0, twisted 0 idx 1, twisted 0 ![idx 0, idx 1, 1] 2 + ((idx 2 : ℕ) : ℝ)], twisted_vertical 0,
    ⟨fun a b => ⟨rfl, rfl⟩, fun a b => ?_, leftTurns_corners.2 ?_⟩, fun a b => ?_, ?_⟩
  · show twisted 0 ![a, b, 1] 2 + (((0 : Fin 2) : ℕ) : ℝ) < twisted 0 ![a, b, 1] 2 + (((1 : Fin 2) : ℕ) : ℝ)
    norm_num
  · norm_num [turn, twisted]
  · funext i
    rcases (show ∀ i : Fin 3, i = 0 ∨ i = 1 ∨ i = 2 by decide) i with rfl | rfl | rfl
    · rfl
    · rfl
    · show twisted 0 ![a, b, 1] 2 = twisted 0 ![a, b, 1] 2 + (((0 : Fin 2) : ℕ) : ℝ)
      simp
  · exact top_corner

/-- A cell beside another one, in direction 0. -/
example : ∃ V W : (Fin 3 → Fin 2) → Fin 3 → ℝ, VerticalEdges V ∧ VerticalEdges W ∧ (∀ b g, V ![1, b, g] = W ![0, b, g]) ∧ V ![1, 1, 1] 2 = 6 := by
  refine ⟨twisted 0, fun idx => ![![![3, 0], ![4, 4]] (idx 0) (idx 1), ![![0, 3], ![0, 5]] (idx 0) (idx 1), if idx 2 = 0 then 0 else 1 + 5 * ((idx 1 : ℕ) : ℝ)],
    twisted_vertical 0, ⟨fun a b => ⟨rfl, rfl⟩, fun a b => ?_, leftTurns_corners.2 ?_⟩, fun b g => ?_, ?_⟩
  · show (0 : ℝ) < 1 + 5 * ((b : ℕ) : ℝ)
    have : (0 : ℝ) ≤ ((b : ℕ) : ℝ) := Nat.cast_nonneg _
    linarith
  · norm_num [turn]
  · funext i
    fin_cases b <;> fin_cases g <;> fin_cases i <;> norm_num [twisted] <;> rfl
  · exact top_corner

/-- A cell beside another one, in direction 1. -/
example : ∃ V W : (Fin 3 → Fin 2) → Fin 3 → ℝ, VerticalEdges V ∧ VerticalEdges W ∧ (∀ a g, V ![a, 1, g] = W ![a, 0, g]) ∧ V ![1, 1, 1] 2 = 6 := by
  refine ⟨twisted 0, fun idx => ![![![-1, -2], ![0, 0]] (idx 0) (idx 1), ![![2, 4], ![3, 5]] (idx 0) (idx 1), if idx 2 = 0 then 0 else 1 + 5 * ((idx 0 : ℕ) : ℝ)],
    twisted_vertical 0, ⟨fun a b => ⟨rfl, rfl⟩, fun a b => ?_, leftTurns_corners.2 ?_⟩, fun b g => ?_, ?_⟩
  · show (0 : ℝ) < 1 + 5 * ((a : ℕ) : ℝ)
    have : (0 : ℝ) ≤ ((a : ℕ) : ℝ) := Nat.cast_nonneg _
    linarith
  · norm_num [turn]
  · funext i
    fin_cases b <;> fin_cases g <;> fin_cases i <;> norm_num [twisted] <;> rfl
  · exact top_corner

end Verif.Props
