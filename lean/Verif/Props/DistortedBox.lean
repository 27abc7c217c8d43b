import Verif.Lemmas.DistortedBox
import Verif.Props.Conformity
import Verif.Props.PhysicalGradient

/-! # Property C114: slightly distorted boxes are valid cells -/

namespace Verif.Props

open Verif.Spec Verif.Lemmas MeasureTheory

variable {d : ℕ}

private theorem basis_hat {v : Fin 2 → ℝ} (h0 : v 0 = -1) (h1 : v 1 = 1) (j : Fin 2) (x : ℝ) :
    (Lagrange.basis Finset.univ v j).eval x = hat j x := by
  rw [← prod_factor_eq, Fin.prod_univ_two]
  fin_cases j
  · simp [factor, hat, h0, h1]; ring
  · simp [factor, hat, h0, h1]; ring

/-- The map of a cell of order one. -/
theorem eval_mapPoly {c : (k : Fin d) → Fin 2 → ℝ} (hc : ∀ k, c k 0 = -1 ∧ c k 1 = 1)
    (V : (Fin d → Fin 2) → Fin d → ℝ) (i : Fin d) (ξ : Fin d → ℝ) :
    MvPolynomial.eval ξ (mapPoly (order := fun _ => 1) c V i) = multi (fun idx => V idx i) ξ := by
  simp only [mapPoly, map_sum, map_mul, map_prod, eval_inVar, MvPolynomial.eval_C, multi]
  refine Finset.sum_congr rfl fun idx _ => ?_
  rw [mul_comm]
  congr 1
  exact Finset.prod_congr rfl fun k _ => basis_hat (hc k).1 (hc k).2 _ _

private theorem detJ_pos {c : (k : Fin d) → Fin 2 → ℝ} (hc : ∀ k, c k 0 = -1 ∧ c k 1 = 1)
    {o len δ : Fin d → ℝ} {V : (Fin d → Fin 2) → Fin d → ℝ} (hV : NearBox o len δ V)
    (hδ : ∀ i, 2 * d * δ i < len i) {ξ : Fin d → ℝ} (hξ : ξ ∈ cube d) :
    0 < MvPolynomial.eval ξ (jacobianPoly (mapPoly (order := fun _ => 1) c V)).det := by
  rw [eval_det]
  refine lt_of_lt_of_eq (det_near hV hδ hξ) (congrArg Matrix.det ?_)
  funext i j
  exact (pderiv_multi (eval_mapPoly hc V i) ξ j).symm

/-- **C114, one-to-one.** In any number `d` of dimensions, for elements of order one with nodes at -1 and 1:
if the vertices are those of a box, each coordinate displaced by less than `1 / (2 d)` of the edge in its
direction, the map from the parent element to the cell, whose components are the interpolated vertex
coordinates, is one-to-one. -/
theorem C114_one_to_one {c : (k : Fin d) → Fin 2 → ℝ} {e : Element ℝ} (h : IsLagrange (fun _ : Fin d => 1) c e)
    (hc : ∀ k, c k 0 = -1 ∧ c k 1 = 1) (o len δ : Fin d → ℝ) (V : (Fin d → Fin 2) → Fin d → ℝ)
    (hV : NearBox o len δ V) (hδ : ∀ i, 2 * d * δ i < len i) (coord : Fin d → List Int → Res ℝ)
    (hv : ∀ i (idx : Fin d → Fin 2), coord i (tup idx) = .ok (V idx i)) :
    ∃ x : (Fin d → ℝ) → Fin d → ℝ,
      (∀ ξ i, ParentElement.value (exactArith ℝ) e (List.ofFn ξ) (coord i) = .ok (x ξ i)) ∧
      Set.InjOn x (cube d) := by
  refine ⟨fun ξ i => MvPolynomial.eval ξ (mapPoly (order := fun _ => 1) c V i),
    fun ξ i => value_mapPoly h i (coord i) (hv i) ξ, ?_⟩
  simp only [eval_mapPoly hc]
  exact injOn_near hV hδ

/-- **C114, the Jacobian.** End to end in three dimensions: after `setData` of eight vertices that are those
of a box, each coordinate displaced by less than a sixth of the edge in its direction, `inverseJacobian`
returns at every point of the parent element a positive `detJ` and the inverse of the matrix of partial
derivatives of the map from the parent element to the cell. -/
theorem C114_cell {c : (k : Fin 3) → Fin 2 → ℝ} {t : LinearTransform ℝ}
    (h : IsLagrange (fun _ : Fin 3 => 1) c t.shape) (hc : ∀ k, c k 0 = -1 ∧ c k 1 = 1)
    (hl : t.data.length = 24) (o len δ : Fin 3 → ℝ) (V : Fin 8 → Fin 3 → ℝ)
    (hV : NearBox o len δ fun idx => V (vertexNumber idx)) (hδ : ∀ i, 6 * δ i < len i)
    (coords : Int → Int → Res ℝ)
    (hv : ∀ (v : Fin 8) (i : Fin 3), coords ((v : ℕ) : Int) ((i : ℕ) : Int) = .ok (V v i)) (cfg : Config) :
    ∃ (t' : LinearTransform ℝ) (N : (Fin 3 → Fin 2) → (Fin 3 → ℝ) → ℝ),
      LinearTransform.setData cfg t coords = .ok t' ∧
      (∀ (idx : Fin 3 → Fin 2) ξ,
        InterpolatedShape.value (exactArith ℝ) t'.shape (tup idx) (List.ofFn ξ) = .ok (N idx ξ)) ∧
      Set.InjOn (fun ξ i => ∑ idx, N idx ξ * V (vertexNumber idx) i) (cube 3) ∧
      ∀ ξ ∈ cube 3, ∃ (detJ : ℝ) (m : List ℝ) (I D : Matrix (Fin 3) (Fin 3) ℝ),
        LinearTransform.inverseJacobianValue cfg (exactArith ℝ) t' (List.ofFn ξ) = .ok (detJ, .ok m) ∧
        0 < detJ ∧ detJ = D.det ∧ HoldsMatrix m I ∧ I * D = 1 ∧ D * I = 1 ∧
        IsDerivative (fun ξ i => ∑ idx, N idx ξ * V (vertexNumber idx) i) D ξ := by
  obtain ⟨bs, hb, hr, -⟩ := isLagrange_realises h
  obtain ⟨t', h1, h2, -, h3, -⟩ := C48_setData cfg t bs (by rw [hb]; rfl)
    (by rw [hb]; exact elementOf_instantiate bs) (fun k => (hr k).count) hl V coords hv
  have h' : IsLagrange (fun _ : Fin 3 => 1) c t'.shape := by rw [h2]; exact h
  have hδ' : ∀ i, 2 * ((3 : ℕ) : ℝ) * δ i < len i := fun i => by have := hδ i; push_cast; linarith
  obtain ⟨N, Jm, e1, e2, e3⟩ := lagrange_jacobian
    (X := fun (idx : Fin 3 → Fin 2) i => V (vertexNumber idx) i) h' (by norm_num) h3
  obtain ⟨N', f1, f2, -⟩ := lagrange_polynomial
    (X := fun (idx : Fin 3 → Fin 2) i => V (vertexNumber idx) i) h' (by norm_num) h3
  have hN : N' = N := by
    funext idx ξ
    exact Res.ok.inj ((f1 idx ξ).symm.trans (e1 idx ξ))
  subst hN
  refine ⟨t', N', h1, f1, ?_, fun ξ hξ => ?_⟩
  · have := injOn_near hV hδ'
    simp only [← eval_mapPoly hc] at this
    simp only [f2]
    exact this
  · obtain ⟨after, g1⟩ := detJ_polynomial (X := fun (idx : Fin 3 → Fin 2) i => V (vertexNumber idx) i)
      h' h3 cfg ξ
    have hpos := detJ_pos hc hV hδ' hξ
    obtain ⟨J, D, det, after', k1, k2, k3, rfl, -, k5⟩ := C52_inverseJacobian cfg h' h3 ξ
    have hd := (Prod.mk.inj (Res.ok.inj (g1.symm.trans k3))).1
    obtain ⟨m, I, rfl, m2, m3, m4⟩ := k5 (by rw [← hd]; exact hpos.ne')
    refine ⟨D.det, m, I, D, k3, by rw [← hd]; exact hpos, rfl, m2, m3, m4, ?_⟩
    have hn : t'.numDims = 3 := by
      obtain ⟨bs, hb, -⟩ := isLagrange_realises h'
      rw [LinearTransform.numDims, hb]; simp [elementOf]
    have hz := listInit_zero (d := 3) (by norm_num) (by norm_num)
    have e := e3 cfg ξ [] 0
    rw [List.append_nil, zero_add] at e
    rw [LinearTransform.jacobianValue, staticAssert_bind_true (by simp), hn] at k1
    have hJ := k1.symm.trans ((congrArg (· >>= _) hz).trans e)
    have hD : D = Jm ξ := by
      funext i j
      have := k2.2 checkedHost i j
      rw [Res.ok.inj hJ, read_matMem checkedHost (by norm_num) (by norm_num)] at this
      exact (Res.ok.inj this).symm
    rw [hD]
    exact e2 ξ

/-- **C114, the volume.** After `setData` of the vertices of such a cell, the sum over the quadrature points
of the product of the weights times `detJ` is the volume of the cell, up to the accuracy of the decimals of
the rules. -/
theorem C114_volume {c : (k : Fin 3) → Fin 2 → ℝ} {t : LinearTransform ℝ}
    (h : IsLagrange (fun _ : Fin 3 => 1) c t.shape) (hc : ∀ k, c k 0 = -1 ∧ c k 1 = 1)
    (hl : t.data.length = 24) (o len δ : Fin 3 → ℝ) (V : Fin 8 → Fin 3 → ℝ)
    (hV : NearBox o len δ fun idx => V (vertexNumber idx)) (hδ : ∀ i, 6 * δ i < len i)
    (coords : Int → Int → Res ℝ)
    (hv : ∀ (v : Fin 8) (i : Fin 3), coords ((v : ℕ) : Int) ((i : ℕ) : Int) = .ok (V v i))
    (B : ℝ) (hB : ∀ v i, |V v i| ≤ B)
    (F : Fin 3 → RuleFamily) (n : Fin 3 → ℕ) (hS : ∀ k, (F k).Supports (n k))
    (hdeg : ∀ k, ¬ (F k = .gaussLobatto ∧ n k = 2)) (ε : ℝ) (htol : ∀ k, (F k).tolerance (n k) ≤ ε)
    (cfg : Config) :
    ∃ (t' : LinearTransform ℝ) (q w : (k : Fin 3) → Fin (n k) → ℝ)
      (N : (Fin 3 → Fin 2) → (Fin 3 → ℝ) → ℝ) (detJ : (Fin 3 → ℝ) → ℝ),
      LinearTransform.setData cfg t coords = .ok t' ∧
      (∀ k (i : Fin (n k)), ((F k).rule (exactArith ℝ) (n k)).coordCT (i : ℕ) = .ok (q k i)) ∧
      (∀ k (i : Fin (n k)), ((F k).rule (exactArith ℝ) (n k)).weightCT (i : ℕ) = .ok (w k i)) ∧
      (∀ (idx : Fin 3 → Fin 2) ξ,
        InterpolatedShape.value (exactArith ℝ) t'.shape (tup idx) (List.ofFn ξ) = .ok (N idx ξ)) ∧
      (∀ ξ, ∃ after, LinearTransform.inverseJacobianValue cfg (exactArith ℝ) t' (List.ofFn ξ)
        = .ok (detJ ξ, after)) ∧
      |∑ p : (k : Fin 3) → Fin (n k), (∏ k, w k (p k)) * detJ (fun k => q k (p k))
          - (volume ((fun ξ i => ∑ idx, N idx ξ * V (vertexNumber idx) i) '' cube 3)).toReal|
        ≤ ((2 + ε) ^ 3 - 2 ^ 3) * (3072 * B ^ 3) := by
  obtain ⟨t', q, w, N, detJ, h1, h2, h3, h4, h5, h6⟩ :=
    C66_trilinear h hc hl V coords hv B hB F n hS hdeg ε htol cfg
  obtain ⟨t'', N', g1, g2, g3, g4⟩ := C114_cell h hc hl o len δ V hV hδ coords hv cfg
  obtain rfl := Res.ok.inj (h1.symm.trans g1)
  have hN : N' = N := by
    funext idx ξ
    exact Res.ok.inj ((g2 idx ξ).symm.trans (h4 idx ξ))
  subst hN
  refine ⟨t', q, w, N', detJ, h1, h2, h3, h4, h5, h6 g3 fun ξ hξ => ?_⟩
  obtain ⟨det, m, -, -, k1, k2, -⟩ := g4 ξ hξ
  obtain ⟨after, k3⟩ := h5 ξ
  rw [← (Prod.mk.inj (Res.ok.inj (k1.symm.trans k3))).1]
  exact k2.le

/-- The vertices of the unit cube, the vertex at the origin and its three neighbours moved by a sixth
towards each other. -/
private noncomputable def pinched (v : Fin 8) : Fin 3 → ℝ :=
  ![fun _ => 1 / 6, ![5 / 6, -1 / 6, -1 / 6], ![-1 / 6, 5 / 6, -1 / 6], ![1, 1, 0],
    ![-1 / 6, -1 / 6, 5 / 6], ![1, 0, 1], ![0, 1, 1], ![1, 1, 1]] v

private theorem pinched_near :
    NearBox (fun _ => 0) (fun _ => 1) (fun _ => 1 / 6) fun idx => pinched (vertexNumber idx) := by
  intro idx i
  obtain ⟨a, ha⟩ : ∃ a, a = idx 0 := ⟨_, rfl⟩
  obtain ⟨b, hb⟩ : ∃ b, b = idx 1 := ⟨_, rfl⟩
  obtain ⟨e, he⟩ : ∃ e, e = idx 2 := ⟨_, rfl⟩
  have hi : idx = ![a, b, e] := by
    funext k
    fin_cases k <;> simp [ha, hb, he]
  rw [hi]
  clear hi ha hb he
  fin_cases a <;> fin_cases b <;> fin_cases e <;> fin_cases i <;>
    · simp [pinched, vertexNumber]
      try norm_num [abs_le]

theorem multi_vertex (Y : (Fin d → Fin 2) → ℝ) (v : Fin d → Fin 2) :
    multi Y (fun k => if v k = 0 then -1 else 1) = Y v := by
  have hh : ∀ a b : Fin 2, hat a (if b = 0 then -1 else 1) = if a = b then 1 else 0 := by
    intro a b
    fin_cases a <;> fin_cases b <;> simp [hat]
  rw [multi, Finset.sum_eq_single v]
  · simp [hh]
  · intro idx _ hne
    obtain ⟨k, hk⟩ : ∃ k, idx k ≠ v k := by
      by_contra hall
      push Not at hall
      exact hne (funext hall)
    rw [Finset.prod_eq_zero (Finset.mem_univ k) (by rw [hh, if_neg hk]), zero_mul]
  · simp

private theorem pinched_corner (i j : Fin 3) :
    (multi (fun idx => pinched (vertexNumber idx) i) (Function.update (fun _ => (-1 : ℝ)) j 1)
      - multi (fun idx => pinched (vertexNumber idx) i) (Function.update (fun _ => (-1 : ℝ)) j (-1))) / 2
      = if i = j then 1 / 3 else -1 / 6 := by
  have h1 : Function.update (fun _ : Fin 3 => (-1 : ℝ)) j 1
      = fun k => if (fun k => if k = j then (1 : Fin 2) else 0) k = 0 then -1 else 1 := by
    funext k
    by_cases hk : k = j
    · subst hk; simp
    · simp [hk]
  have h2 : Function.update (fun _ : Fin 3 => (-1 : ℝ)) j (-1)
      = fun k => if (fun _ : Fin 3 => (0 : Fin 2)) k = 0 then -1 else 1 := by
    funext k
    by_cases hk : k = j
    · subst hk; simp
    · simp [hk]
  rw [h1, h2, multi_vertex, multi_vertex]
  fin_cases i <;> fin_cases j <;> simp [pinched, vertexNumber] <;> norm_num

/-- **C114, the bound is sharp.** With displacements of exactly a sixth of the edges a cell can be invalid:
there are eight vertices, each coordinate within a sixth of that of the unit cube, for which after `setData`
the Jacobian is singular at a vertex: `detJ` is zero there and `inverseJacobian` divides by it. -/
theorem C114_sharp : ∃ V : Fin 8 → Fin 3 → ℝ,
    NearBox (fun _ => 0) (fun _ => 1) (fun _ => 1 / 6) (fun idx => V (vertexNumber idx)) ∧
    ∀ {c : (k : Fin 3) → Fin 2 → ℝ} {t : LinearTransform ℝ}, IsLagrange (fun _ : Fin 3 => 1) c t.shape →
      (∀ k, c k 0 = -1 ∧ c k 1 = 1) → t.data.length = 24 → ∀ coords : Int → Int → Res ℝ,
      (∀ (v : Fin 8) (i : Fin 3), coords ((v : ℕ) : Int) ((i : ℕ) : Int) = .ok (V v i)) → ∀ cfg,
      ∃ t', LinearTransform.setData cfg t coords = .ok t' ∧
        LinearTransform.inverseJacobianValue cfg (exactArith ℝ) t' [-1, -1, -1] = .ok (0, .nonfinite) := by
  refine ⟨pinched, pinched_near, ?_⟩
  intro c t h hc hl coords hv cfg
  obtain ⟨bs, hb, hr, -⟩ := isLagrange_realises h
  obtain ⟨t', h1, h2, -, h3, -⟩ := C48_setData cfg t bs (by rw [hb]; rfl)
    (by rw [hb]; exact elementOf_instantiate bs) (fun k => (hr k).count) hl pinched coords hv
  have h' : IsLagrange (fun _ : Fin 3 => 1) c t'.shape := by rw [h2]; exact h
  obtain ⟨after, g1⟩ := detJ_polynomial (X := fun (idx : Fin 3 → Fin 2) i => pinched (vertexNumber idx) i)
    h' h3 cfg (fun _ => -1)
  obtain ⟨J, D, det, after', k1, k2, k3, rfl, k4, -⟩ := C52_inverseJacobian cfg h' h3 (fun _ => -1)
  have hd := (Prod.mk.inj (Res.ok.inj (g1.symm.trans k3))).1
  have hz : D.det = 0 := by
    rw [← hd, eval_det]
    have : (Matrix.of fun i j => MvPolynomial.eval (fun _ => (-1 : ℝ)) (MvPolynomial.pderiv j
        (mapPoly (order := fun _ => 1) c (fun (idx : Fin 3 → Fin 2) i => pinched (vertexNumber idx) i) i)))
        = Matrix.of fun i j : Fin 3 => if i = j then (1 / 3 : ℝ) else -1 / 6 := by
      funext i j
      exact (pderiv_multi (eval_mapPoly hc _ i) _ j).trans (pinched_corner i j)
    refine (congrArg Matrix.det this).trans ?_
    simp [Matrix.det_fin_three]
    norm_num
  refine ⟨t', h1, ?_⟩
  rw [hz, k4 hz] at k3
  simpa using k3

/-! ### the hypotheses -/

/-- Non-vacuity: a box of edges 1, 2 and 3 whose vertices are displaced by different amounts, so that it is
not a parallelepiped. -/
example : ∃ (c : (k : Fin 3) → Fin 2 → ℝ) (t : LinearTransform ℝ) (V : Fin 8 → Fin 3 → ℝ)
    (coords : Int → Int → Res ℝ),
    IsLagrange (fun _ : Fin 3 => 1) c t.shape ∧ (∀ k, c k 0 = -1 ∧ c k 1 = 1) ∧ t.data.length = 24 ∧
    NearBox (fun _ => 5) ![1, 2, 3] (fun _ => 1 / 7) (fun idx => V (vertexNumber idx)) ∧
    (∀ i, 6 * (1 / 7 : ℝ) < (![1, 2, 3] : Fin 3 → ℝ) i) ∧
    (∀ (v : Fin 8) (i : Fin 3), coords ((v : ℕ) : Int) ((i : ℕ) : Int) = .ok (V v i)) ∧
    V 0 = ![5 + 1 / 7, 5 - 1 / 7, 5] ∧ V 1 = ![6, 5, 5] := by
  obtain ⟨e, he, -⟩ := trilinear_cell
  have hsurj : Function.Surjective vertexNumber := by decide
  have hinj : Function.Injective vertexNumber := by decide
  choose inv hinv using hsurj
  have h0 : inv 0 = fun _ => 0 := hinj ((hinv 0).trans (by decide))
  have h1 : inv 1 = ![1, 0, 0] := hinj ((hinv 1).trans (by decide))
  obtain ⟨V, hV⟩ : ∃ V : Fin 8 → Fin 3 → ℝ, V = fun v i => (5 + if inv v i = 0 then 0 else (![1, 2, 3] : Fin 3 → ℝ) i)
    + if v = 0 then (![1 / 7, -1 / 7, 0] : Fin 3 → ℝ) i else 0 := ⟨_, rfl⟩
  refine ⟨fun _ => ![-1, 1], ⟨e, List.replicate 24 0⟩, V,
    fun r i => if hr : r.toNat < 8 ∧ i.toNat < 3 then .ok (V ⟨r.toNat, hr.1⟩ ⟨i.toNat, hr.2⟩) else .ub,
    he, fun k => ⟨rfl, rfl⟩, by simp, fun idx i => ?_, fun i => ?_, fun v i => ?_, ?_, ?_⟩
  · have h4 : inv (vertexNumber idx) = idx := hinj (hinv _)
    simp only [hV, h4, add_sub_cancel_left]
    split
    · fin_cases i <;> norm_num [abs_le]
    · norm_num
  · fin_cases i <;> norm_num
  · have := v.2
    have := i.2
    simp
  · funext i
    rw [hV]
    fin_cases i <;> simp [h0]
    ring
  · funext i
    rw [hV]
    fin_cases i <;> simp [h1]
    norm_num

end Verif.Props
