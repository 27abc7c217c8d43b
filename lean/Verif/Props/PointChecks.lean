import Verif.Props.ValidCells
import Verif.Lemmas.ControlValues
import Mathlib.Order.Interval.Set.Infinite

/-!
# Property C137: checking the determinant at the quadrature points is enough

A program that checks its cells evaluates `inverseJacobian` at the quadrature points, and takes a cell for valid if all determinants are positive.  The
full claim is that the determinant is then positive in the whole cell.  It is false for every finite set of points (`C137_violated`).  What can be
concluded from finitely many points is `C137_partial`: if the 27 control values, computed from the determinants at the vertices, the midpoints of edges and
faces and the centre, are positive, the cell is valid; in `float` and `double` if they are larger than the rounding error (`C137_float_partial`).  For
quadrilaterals the vertices are enough (`C137_square_partial`).
-/

namespace Verif.Props

open Verif.Spec Verif.Lemmas

/-- The derivative of the map of a linear element. -/
theorem pderiv_slope {d : ℕ} {c : (k : Fin d) → Fin 2 → ℝ} (hc : ∀ k, c k 0 = -1 ∧ c k 1 = 1) (X : (Fin d → Fin 2) → Fin d → ℝ) (ξ : Fin d → ℝ)
    (i j : Fin d) :
    MvPolynomial.eval ξ (MvPolynomial.pderiv j (mapPoly (order := fun _ => 1) c X i)) = cellSlope (fun idx => X idx i) ξ j :=
  pderiv_multi (eval_mapPoly hc X i) ξ j

variable {c : (k : Fin 3) → Fin 2 → ℝ}

theorem hexahedron_determinant (hc : ∀ k, c k 0 = -1 ∧ c k 1 = 1) {t : LinearTransform ℝ} (h : IsLagrange (fun _ : Fin 3 => 1) c t.shape)
    {X : (Fin 3 → Fin 2) → Fin 3 → ℝ} (hX : HoldsPoints t.data X) (cfg : Config) (ξ : Fin 3 → ℝ) :
    ∃ after, LinearTransform.inverseJacobianValue cfg (exactArith ℝ) t (List.ofFn ξ)
      = .ok ((Matrix.of fun i j => cellSlope (fun idx => X idx i) ξ j).det, after) := by
  obtain ⟨after, g1⟩ := detJ_polynomial h hX cfg ξ
  rw [eval_det] at g1
  simp only [pderiv_slope hc] at g1
  exact ⟨after, g1⟩

private theorem det_lower (X : (Fin 3 → Fin 2) → Fin 3 → ℝ) {m : ℝ}
    (hm : ∀ i j k, m < control3 (fun a b c => (Matrix.of fun i j => cellSlope (fun idx => X idx i) ![threePoints a, threePoints b, threePoints c] j).det) i j k)
    {ξ : Fin 3 → ℝ} (hξ : ξ ∈ cube 3) : m < (Matrix.of fun i j => cellSlope (fun idx => X idx i) ξ j).det :=
  control_lower (F := fun ξ => (Matrix.of fun i j => cellSlope (fun idx => X idx i) ξ j).det) (fun ξ k => det_quad (fun i idx => X idx i) ξ k) hm hξ

/-- **C137, partial.** For a linear element with any vertices, let `v` be the determinants `inverseJacobian` returns at the 27 points with
coordinates -1, 0 and 1.  Bounds of the control values of `v` are bounds of the determinant at every point of the cell; in particular if the control values
are positive, the determinant is positive in the whole cell.
What is missing: the control values of a valid cell need not be positive, and positive determinants at finitely many points are not
enough (`C137_violated`). -/
theorem C137_partial (hc : ∀ k, c k 0 = -1 ∧ c k 1 = 1) {t : LinearTransform ℝ} (h : IsLagrange (fun _ : Fin 3 => 1) c t.shape)
    {X : (Fin 3 → Fin 2) → Fin 3 → ℝ} (hX : HoldsPoints t.data X) (cfg : Config) (v : Fin 3 → Fin 3 → Fin 3 → ℝ)
    (hv : ∀ a b c, ∃ after, LinearTransform.inverseJacobianValue cfg (exactArith ℝ) t [threePoints a, threePoints b, threePoints c] = .ok (v a b c, after))
    (ξ : Fin 3 → ℝ) (hξ : ξ ∈ cube 3) : ∃ detJ after,
      LinearTransform.inverseJacobianValue cfg (exactArith ℝ) t (List.ofFn ξ) = .ok (detJ, after) ∧
      (∀ lo, (∀ i j k, lo < control3 v i j k) → lo < detJ) ∧ (∀ hi, (∀ i j k, control3 v i j k < hi) → detJ < hi) := by
  obtain ⟨after, h1⟩ := hexahedron_determinant hc h hX cfg ξ
  have e : v = fun a b c => (Matrix.of fun i j => cellSlope (fun idx => X idx i) ![threePoints a, threePoints b, threePoints c] j).det := by
    funext a b c'
    obtain ⟨_, g1⟩ := hv a b c'
    obtain ⟨_, g2⟩ := hexahedron_determinant hc h hX cfg ![threePoints a, threePoints b, threePoints c']
    have : List.ofFn ![threePoints a, threePoints b, threePoints c'] = [threePoints a, threePoints b, threePoints c'] := by simp [List.ofFn_succ]
    rw [this] at g2
    exact (Prod.mk.inj (Res.ok.inj (g1.symm.trans g2))).1
  subst e
  refine ⟨_, after, h1, fun lo hlo => det_lower X hlo hξ, fun hi hhi => ?_⟩
  have hq : ∀ (ξ : Fin 3 → ℝ) k, IsQuad fun x => -(Matrix.of fun i j => cellSlope (fun idx => X idx i) (Function.update ξ k x) j).det := fun ξ k x => by
    have := det_quad (fun i idx => X idx i) ξ k x
    linear_combination -this
  have := control_lower (F := fun ξ => -(Matrix.of fun i j => cellSlope (fun idx => X idx i) ξ j).det) hq (m := -hi)
    (fun i j k => by rw [control3_neg]; exact neg_lt_neg (hhi i j k)) hξ
  linarith

/-- **C137, partial, `float` and `double`.** Let all coordinates be of magnitude at most `B`, and `v` the determinants computed at the 27 points.  They are
finite and within `2509 u B³` of the exact determinants, and if their control values are larger than `67743 u B³` (`u` is `2^-24` or `2^-53`), the exact determinant of the derivative of the map is positive
in the whole cell. -/
theorem C137_float_partial {T : RealType} (hc : ∀ k, c k 0 = -1 ∧ c k 1 = 1) {t : LinearTransform Flt} (h : IsShippedIn T (fun _ : Fin 3 => 1) c t.shape)
    {X : (Fin 3 → Fin 2) → Fin 3 → ℝ} (hX : HoldsPoints t.data fun idx i => Flt.ofReal (X idx i)) {B : ℝ} (hB1 : 1 ≤ B) (hB : B ^ 3 ≤ 2 ^ 120)
    (hXB : ∀ idx i, |X idx i| ≤ B) (cfg : Config) :
    ∃ v : Fin 3 → Fin 3 → Fin 3 → ℝ,
      (∀ a b c, ∃ det after, LinearTransform.inverseJacobianValue cfg (floatArith T.format) t
          [Flt.ofReal (threePoints a), Flt.ofReal (threePoints b), Flt.ofReal (threePoints c)] = .ok (det, after) ∧ det.datum = .finite (v a b c)) ∧
      (∀ a b c' D, IsDerivative (cellMap (order := fun _ : Fin 3 => 1) c X) D ![threePoints a, threePoints b, threePoints c'] →
        |v a b c' - D.det| ≤ 2509 * unitRoundoff T.format * B ^ 3) ∧
      ((∀ i j k, 67743 * unitRoundoff T.format * B ^ 3 < control3 v i j k) →
        ∀ ξ ∈ cube 3, ∀ D, IsDerivative (cellMap (order := fun _ : Fin 3 => 1) c X) D ξ → 0 < D.det) := by
  have hB2 : B ^ 2 * 1 ≤ 2 ^ 120 := by
    have : B ^ 2 ≤ B ^ 3 := pow_le_pow_right₀ hB1 (by norm_num)
    linarith
  have hp : ∀ a b c : Fin 3, ![threePoints a, threePoints b, threePoints c] ∈ cube 3 := by
    have hp : ∀ a : Fin 3, -1 ≤ threePoints a ∧ threePoints a ≤ 1 := fun a => by fin_cases a <;> simp [threePoints]
    intro a b c k
    fin_cases k
    · exact hp a
    · exact hp b
    · exact hp c
  have key : ∀ a b c' : Fin 3, ∃ x : ℝ, (∃ det after, LinearTransform.inverseJacobianValue cfg (floatArith T.format) t
        [Flt.ofReal (threePoints a), Flt.ofReal (threePoints b), Flt.ofReal (threePoints c')] = .ok (det, after) ∧ det.datum = .finite x) ∧
      |x - (Matrix.of fun i j => cellSlope (fun idx => X idx i) ![threePoints a, threePoints b, threePoints c'] j).det| ≤ 2509 * unitRoundoff T.format * B ^ 3 := by
    intro a b c'
    have hmag := fun i j => hexahedron_magnitude hc hXB (hp a b c') i j
    obtain ⟨D, det, after, e1, e2, ⟨x, e3, e4⟩, -, -⟩ := C101_inverseJacobian h hX cfg ![threePoints a, threePoints b, threePoints c']
      (fun k => abs_le.2 (hp a b c' k)) hB1 hB hXB hmag (Q := 1) le_rfl hB2
    have e5 := e4.trans (small_terms T hB1 (fun i j => cellMagnitude_nonneg i j) hmag).2
    have hD : D = Matrix.of fun i j => cellSlope (fun idx => X idx i) ![threePoints a, threePoints b, threePoints c'] j := by
      funext i j
      rw [derivative_entry e1, pderiv_slope hc]
      rfl
    rw [hD] at e5
    refine ⟨x, ⟨det, after, ?_, e3⟩, e5⟩
    have : (List.ofFn fun k => Flt.ofReal (![threePoints a, threePoints b, threePoints c'] k))
      = [Flt.ofReal (threePoints a), Flt.ofReal (threePoints b), Flt.ofReal (threePoints c')] := by simp [List.ofFn_succ]
    rw [← this]
    exact e2
  choose v hv1 hv2 using key
  have e : ∀ ξ D, IsDerivative (cellMap (order := fun _ : Fin 3 => 1) c X) D ξ → D = Matrix.of fun i j => cellSlope (fun idx => X idx i) ξ j := by
    intro ξ D hD
    funext i j
    rw [derivative_entry hD, pderiv_slope hc]
    rfl
  refine ⟨v, hv1, fun a b c' D hD => by rw [e _ D hD]; exact hv2 a b c', fun hm ξ hξ D hD => ?_⟩
  rw [e ξ D hD]
  refine det_lower X (fun i j k => ?_) hξ
  have h1 := (abs_le.1 (control3_near hv2 i j k)).2
  have h2 := hm i j k
  linarith

theorem square_jacobian {c : (k : Fin 2) → Fin 2 → ℝ} (hc : ∀ k, c k 0 = -1 ∧ c k 1 = 1) {t : LinearTransform ℝ}
    (h : IsLagrange (fun _ : Fin 2 => 1) c t.shape) {X : (Fin 2 → Fin 2) → Fin 2 → ℝ} (hX : HoldsPoints t.data X) (cfg : Config) (ξ : Fin 2 → ℝ) :
    LinearTransform.jacobianValue cfg (exactArith ℝ) t (List.ofFn ξ ++ [0]) = .ok (matMem (Matrix.of fun i j => cellSlope (fun idx => X idx i) ξ j)) := by
  obtain ⟨N, -, -, h3⟩ := lagrange_polynomial h (by norm_num) hX
  obtain ⟨bs, hb, -, -⟩ := isLagrange_realises h
  have hn : t.numDims = 2 := by rw [LinearTransform.numDims, hb]; simp [elementOf]
  have hz := listInit_zero (d := 2) (by norm_num) (by norm_num)
  have e := h3 cfg ξ [0] 0
  rw [zero_add] at e
  simp only [pderiv_slope hc] at e
  rw [LinearTransform.jacobianValue, staticAssert_bind_true (by simp), hn]
  exact (congrArg (· >>= _) hz).trans e

/-- **C137, partial, quadrilaterals.** In two dimensions, if the determinants of the Jacobians at the four vertices are positive, the determinant of the
Jacobian `jacobian` computes is positive at every point of the cell. -/
theorem C137_square_partial {c : (k : Fin 2) → Fin 2 → ℝ} (hc : ∀ k, c k 0 = -1 ∧ c k 1 = 1) {t : LinearTransform ℝ}
    (h : IsLagrange (fun _ : Fin 2 => 1) c t.shape) {X : (Fin 2 → Fin 2) → Fin 2 → ℝ} (hX : HoldsPoints t.data X) (cfg : Config)
    (hv : ∀ a ∈ [(-1 : ℝ), 1], ∀ b ∈ [(-1 : ℝ), 1], ∃ J M, LinearTransform.jacobianValue cfg (exactArith ℝ) t [a, b, 0] = .ok J ∧
      HoldsMatrix J (M : Matrix (Fin 2) (Fin 2) ℝ) ∧ 0 < M.det) (ξ : Fin 2 → ℝ) (hξ : ξ ∈ cube 2) :
    ∃ J M, LinearTransform.jacobianValue cfg (exactArith ℝ) t (List.ofFn ξ ++ [0]) = .ok J ∧ HoldsMatrix J (M : Matrix (Fin 2) (Fin 2) ℝ) ∧ 0 < M.det := by
  obtain ⟨F, hF⟩ : ∃ F : (Fin 2 → ℝ) → ℝ, F = fun ξ => (Matrix.of fun i j => cellSlope (fun idx => X idx i) ξ j).det := ⟨_, rfl⟩
  have hJ := square_jacobian hc h hX cfg
  have hpos : ∀ a ∈ [(-1 : ℝ), 1], ∀ b ∈ [(-1 : ℝ), 1], 0 < F ![a, b] := by
    intro a ha b hb
    obtain ⟨J, M, h1, h2, h3⟩ := hv a ha b hb
    have h4 := hJ ![a, b]
    rw [show List.ofFn ![a, b] ++ [0] = [a, b, 0] by simp [List.ofFn_succ], h1] at h4
    have h5 := Res.ok.inj h4
    rw [(holds_iff (by norm_num) (by norm_num)).1 h2] at h5
    have h6 : HoldsMatrix (matMem M) (Matrix.of fun i j => cellSlope (fun idx => X idx i) ![a, b] j) :=
      (holds_iff (by norm_num) (by norm_num)).2 h5
    have h7 : M = Matrix.of fun i j => cellSlope (fun idx => X idx i) ![a, b] j := by
      funext i j
      have := h6.2 checkedHost i j
      rw [read_matMem checkedHost (by norm_num) (by norm_num)] at this
      exact Res.ok.inj this
    rw [hF]
    show 0 < (Matrix.of fun i j => cellSlope (fun idx => X idx i) ![a, b] j).det
    rw [← h7]
    exact h3
  have s0 : ∀ x y, F ![x, y] = (1 - x) / 2 * F ![-1, y] + (1 + x) / 2 * F ![1, y] := by
    intro x y
    have hu : ∀ x : ℝ, ![x, y] = Function.update ![0, y] 0 x := fun x => by funext k; fin_cases k <;> simp
    rw [hF]
    simp only [Matrix.det_fin_two, Matrix.of_apply]
    rw [hu x, hu (-1), hu 1]
    simp only [cellSlope_const]
    rw [cellSlope_affine (fun idx => X idx 1) _ 1 0 x, cellSlope_affine (fun idx => X idx 0) _ 1 0 x]
    ring
  have s1 : ∀ x y, F ![x, y] = (1 - y) / 2 * F ![x, -1] + (1 + y) / 2 * F ![x, 1] := by
    intro x y
    have hu : ∀ y : ℝ, ![x, y] = Function.update ![x, 0] 1 y := fun y => by funext k; fin_cases k <;> simp
    rw [hF]
    simp only [Matrix.det_fin_two, Matrix.of_apply]
    rw [hu y, hu (-1), hu 1]
    simp only [cellSlope_const]
    rw [cellSlope_affine (fun idx => X idx 0) _ 0 1 y, cellSlope_affine (fun idx => X idx 1) _ 0 1 y]
    ring
  have conv : ∀ {x p q : ℝ}, -1 ≤ x → x ≤ 1 → 0 < p → 0 < q → 0 < (1 - x) / 2 * p + (1 + x) / 2 * q := by
    intro x p q h1 h2 hp hq
    rcases eq_or_lt_of_le h2 with rfl | h2
    · linarith
    · have := mul_pos (show 0 < (1 - x) / 2 by linarith) hp
      have := mul_nonneg (show 0 ≤ (1 + x) / 2 by linarith) hq.le
      linarith
  refine ⟨_, _, hJ ξ, (holds_iff (by norm_num) (by norm_num)).2 rfl, ?_⟩
  have e : ξ = ![ξ 0, ξ 1] := funext fun k => by fin_cases k <;> rfl
  have : 0 < F ξ := by
    rw [e, s0]
    refine conv (hξ 0).1 (hξ 0).2 ?_ ?_
    · rw [s1]
      exact conv (hξ 1).1 (hξ 1).2 (hpos _ (by simp) _ (by simp)) (hpos _ (by simp) _ (by simp))
    · rw [s1]
      exact conv (hξ 1).1 (hξ 1).2 (hpos _ (by simp) _ (by simp)) (hpos _ (by simp) _ (by simp))
  rw [hF] at this
  exact this

/-! ### the violation -/

private noncomputable def twisted (κ p : ℝ) (ξ : Fin 3 → ℝ) : Fin 3 → ℝ :=
  ![ξ 0, ξ 1 + κ * (1 - (ξ 0 - p)) * ξ 2, (1 + (ξ 0 - p)) * ξ 1 + ξ 2]

private noncomputable def twistedVertex (κ p : ℝ) (idx : Fin 3 → Fin 2) : Fin 3 → ℝ := twisted κ p fun k => if idx k = 0 then -1 else 1

private theorem twisted_multi (κ p : ℝ) (i : Fin 3) (ξ : Fin 3 → ℝ) : multi (fun idx => twistedVertex κ p idx i) ξ = twisted κ p ξ i := by
  obtain ⟨G, hG⟩ : ∃ G : ℝ → ℝ → ℝ → ℝ, G = fun x y z => multi (fun idx => twistedVertex κ p idx i) ![x, y, z] := ⟨_, rfl⟩
  have s0 : ∀ x y z, G x y z = (1 - x) / 2 * G (-1) y z + (1 + x) / 2 * G 1 y z := fun x y z => by
    have := multi_update (fun idx => twistedVertex κ p idx i) ![0, y, z] 0 x
    rw [hG]
    simpa [Function.update, funext_iff, Fin.forall_fin_succ, show ∀ x : ℝ, Function.update ![0, y, z] 0 x = ![x, y, z] from
      fun x => funext fun k => by fin_cases k <;> simp] using this
  have s1 : ∀ x y z, G x y z = (1 - y) / 2 * G x (-1) z + (1 + y) / 2 * G x 1 z := fun x y z => by
    have := multi_update (fun idx => twistedVertex κ p idx i) ![x, 0, z] 1 y
    rw [hG]
    simpa only [show ∀ y : ℝ, Function.update ![x, 0, z] 1 y = ![x, y, z] from
      fun y => funext fun k => by fin_cases k <;> simp] using this
  have s2 : ∀ x y z, G x y z = (1 - z) / 2 * G x y (-1) + (1 + z) / 2 * G x y 1 := fun x y z => by
    have := multi_update (fun idx => twistedVertex κ p idx i) ![x, y, 0] 2 z
    rw [hG]
    simpa only [show ∀ z : ℝ, Function.update ![x, y, 0] 2 z = ![x, y, z] from
      fun z => funext fun k => by fin_cases k <;> simp] using this
  have hw : ∀ a b c : Fin 2, G (if a = 0 then -1 else 1) (if b = 0 then -1 else 1) (if c = 0 then -1 else 1)
      = twisted κ p ![if a = 0 then -1 else 1, if b = 0 then -1 else 1, if c = 0 then -1 else 1] i := fun a b c => by
    have e : (fun k => if ![a, b, c] k = 0 then (-1 : ℝ) else 1) = ![if a = 0 then -1 else 1, if b = 0 then -1 else 1, if c = 0 then -1 else 1] := by
      funext k; fin_cases k <;> rfl
    have := multi_vertex (fun idx => twistedVertex κ p idx i) ![a, b, c]
    rw [e] at this
    rw [hG]
    refine this.trans ?_
    rw [twistedVertex, e]
  have w1 := hw 0 0 0
  have w2 := hw 0 0 1
  have w3 := hw 0 1 0
  have w4 := hw 0 1 1
  have w5 := hw 1 0 0
  have w6 := hw 1 0 1
  have w7 := hw 1 1 0
  have w8 := hw 1 1 1
  simp only [if_true, one_ne_zero, if_false] at w1 w2 w3 w4 w5 w6 w7 w8
  have e : ξ = ![ξ 0, ξ 1, ξ 2] := funext fun k => by fin_cases k <;> rfl
  have : multi (fun idx => twistedVertex κ p idx i) ξ = G (ξ 0) (ξ 1) (ξ 2) := by rw [hG]; exact congrArg _ e
  rw [this, s0, s1 (-1), s1 1, s2 (-1) (-1), s2 (-1) 1, s2 1 (-1), s2 1 1, w1, w2, w3, w4, w5, w6, w7, w8]
  fin_cases i <;> simp [twisted] <;> ring

private theorem exists_gap (p : ℝ) (S : Finset (Fin 3 → ℝ)) (h : ∀ s ∈ S, s 0 ≠ p) : ∃ δ, 0 < δ ∧ ∀ s ∈ S, δ ≤ |s 0 - p| := by
  induction S using Finset.induction_on with
  | empty => exact ⟨1, one_pos, by simp⟩
  | insert a S _ ih =>
    obtain ⟨δ, h1, h2⟩ := ih fun s hs => h s (Finset.mem_insert_of_mem hs)
    refine ⟨min δ |a 0 - p|, lt_min h1 (abs_pos.2 (sub_ne_zero.2 (h a (Finset.mem_insert_self _ _)))), fun s hs => ?_⟩
    rcases Finset.mem_insert.1 hs with rfl | hs
    · exact min_le_right _ _
    · exact (min_le_left _ _).trans (h2 s hs)

/-- **C137 is violated.** For every finite set of points, for example the points of a quadrature rule with the vertices of the cell, there are eight
vertices for which `inverseJacobian` returns a positive determinant at all these points but a negative one at another point of the cell. -/
theorem C137_violated (S : Finset (Fin 3 → ℝ)) : ∃ V : Fin 8 → Fin 3 → ℝ,
    ∀ {c : (k : Fin 3) → Fin 2 → ℝ} {t : LinearTransform ℝ}, IsLagrange (fun _ : Fin 3 => 1) c t.shape → (∀ k, c k 0 = -1 ∧ c k 1 = 1) →
      t.data.length = 24 → ∀ coords : Int → Int → Res ℝ,
      (∀ (v : Fin 8) (i : Fin 3), coords ((v : ℕ) : Int) ((i : ℕ) : Int) = .ok (V v i)) → ∀ cfg,
      ∃ t', LinearTransform.setData cfg t coords = .ok t' ∧
        (∀ ξ ∈ S, ∃ detJ after, LinearTransform.inverseJacobianValue cfg (exactArith ℝ) t' (List.ofFn ξ) = .ok (detJ, after) ∧ 0 < detJ) ∧
        ∃ ξ ∈ cube 3, ∃ detJ after, LinearTransform.inverseJacobianValue cfg (exactArith ℝ) t' (List.ofFn ξ) = .ok (detJ, after) ∧ detJ < 0 := by
  obtain ⟨p, hp, hS⟩ : ∃ p ∈ Set.Ioo (-1 : ℝ) 1, p ∉ S.image fun s : Fin 3 → ℝ => s 0 := (Set.Ioo_infinite (by norm_num)).exists_notMem_finset _
  obtain ⟨δ, hδ, hgap⟩ := exists_gap p S fun s hs e => hS (Finset.mem_image.2 ⟨s, hs, e⟩)
  have hsurj : Function.Surjective vertexNumber := by decide
  have hinj : Function.Injective vertexNumber := by decide
  choose inv hinv using hsurj
  refine ⟨fun v => twistedVertex (1 + δ ^ 2) p (inv v), ?_⟩
  intro c t h hc hl coords hv cfg
  obtain ⟨bs, hb, hr, -⟩ := isLagrange_realises h
  obtain ⟨t', h1, h2, -, h3, -⟩ := C48_setData cfg t bs (by rw [hb]; rfl)
    (by rw [hb]; exact elementOf_instantiate bs) (fun k => (hr k).count) hl _ coords hv
  have h' : IsLagrange (fun _ : Fin 3 => 1) c t'.shape := by rw [h2]; exact h
  have hi : ∀ idx, inv (vertexNumber idx) = idx := fun idx => hinj (hinv _)
  simp only [hi] at h3
  have hdet : ∀ ξ : Fin 3 → ℝ, ∃ after, LinearTransform.inverseJacobianValue cfg (exactArith ℝ) t' (List.ofFn ξ)
      = .ok (1 - (1 + δ ^ 2) * (1 - (ξ 0 - p) ^ 2), after) := by
    intro ξ
    obtain ⟨after, g⟩ := hexahedron_determinant hc h' h3 cfg ξ
    refine ⟨after, g.trans ?_⟩
    congr 2
    simp only [cellSlope, twisted_multi, Matrix.det_fin_three, Matrix.of_apply]
    simp [twisted, Function.update]
    ring
  refine ⟨t', h1, fun ξ hξ => ?_, fun _ => p, fun _ => ⟨hp.1.le, hp.2.le⟩, ?_⟩
  · obtain ⟨after, g⟩ := hdet ξ
    refine ⟨_, after, g, ?_⟩
    have : δ ^ 2 ≤ (ξ 0 - p) ^ 2 := by rw [← sq_abs (ξ 0 - p)]; exact pow_le_pow_left₀ hδ.le (hgap ξ hξ) 2
    have h4 : 0 < δ ^ 2 * δ ^ 2 := by positivity
    nlinarith [sq_nonneg δ]
  · obtain ⟨after, g⟩ := hdet fun _ => p
    refine ⟨_, after, g, ?_⟩
    have : 0 < δ ^ 2 := by positivity
    simp only [sub_self]
    linarith

/-! ### the hypotheses -/

private theorem twisted_det (κ p : ℝ) (ξ : Fin 3 → ℝ) :
    (Matrix.of fun i j => cellSlope (fun idx => twistedVertex κ p idx i) ξ j).det = 1 - κ * (1 - (ξ 0 - p) ^ 2) := by
  simp only [cellSlope, twisted_multi, Matrix.det_fin_three, Matrix.of_apply]
  simp [twisted, Function.update]
  ring

private theorem control_const (x : ℝ) (i : Fin 3) : Spec.control (fun _ => x) i = x := by
  fin_cases i
  · rfl
  · show 2 * x - (x + x) / 2 = x
    ring
  · rfl

/-- Non-vacuity of the partial theorem: a twisted cell, whose determinant is not constant, with positive control values. -/
example : ∃ (t : LinearTransform ℝ) (X : (Fin 3 → Fin 2) → Fin 3 → ℝ) (v : Fin 3 → Fin 3 → Fin 3 → ℝ),
    IsLagrange (fun _ : Fin 3 => 1) (fun _ => ![-1, 1]) t.shape ∧ HoldsPoints t.data X ∧
    (∀ cfg a b c, ∃ after, LinearTransform.inverseJacobianValue cfg (exactArith ℝ) t [threePoints a, threePoints b, threePoints c] = .ok (v a b c, after)) ∧
    (∀ i j k, 0 < control3 v i j k) ∧ v 1 0 0 ≠ v 0 0 0 := by
  obtain ⟨e, he, hX⟩ := trilinear_cell
  obtain ⟨t, rfl, ht⟩ := hX (twistedVertex (1 / 4) 0)
  refine ⟨t, _, fun a _ _ => 1 - 1 / 4 * (1 - (threePoints a) ^ 2), he, ht, fun cfg a b c => ?_, fun i j k => ?_, by norm_num [threePoints]⟩
  · obtain ⟨after, g⟩ := hexahedron_determinant (fun k => ⟨rfl, rfl⟩) he ht cfg ![threePoints a, threePoints b, threePoints c]
    rw [twisted_det] at g
    refine ⟨after, ?_⟩
    simpa [List.ofFn_succ] using g
  · simp only [control3, control_const]
    fin_cases i <;> norm_num [Spec.control, show threePoints 0 = -1 from rfl, show threePoints 1 = 0 from rfl, show threePoints 2 = 1 from rfl]

/-- Non-vacuity in `float` and `double`: the control values of the parent cube are large enough. -/
example (T : RealType) (cfg : Config) : ∃ (t : LinearTransform Flt) (X : (Fin 3 → Fin 2) → Fin 3 → ℝ) (v : Fin 3 → Fin 3 → Fin 3 → ℝ),
    IsShippedIn T (fun _ : Fin 3 => 1) (fun _ => ![-1, 1]) t.shape ∧ HoldsPoints t.data (fun idx i => Flt.ofReal (X idx i)) ∧ (∀ idx i, |X idx i| ≤ 1) ∧
    (∀ a b c, ∃ det after, LinearTransform.inverseJacobianValue cfg (floatArith T.format) t
          [Flt.ofReal (threePoints a), Flt.ofReal (threePoints b), Flt.ofReal (threePoints c)] = .ok (det, after) ∧ det.datum = .finite (v a b c)) ∧
    ∀ i j k, 67743 * unitRoundoff T.format * 1 ^ 3 < control3 v i j k := by
  obtain ⟨t, h, hX⟩ := sample_cell_in T
  have h1 : ∀ (idx : Fin 3 → Fin 2) (i : Fin 3), |(![-1, 1] : Fin 2 → ℝ) (idx i)| ≤ 1 := by
    intro idx i
    have a : ∀ a : Fin 2, a = 0 ∨ a = 1 := by decide
    rcases a (idx i) with e | e <;> simp [e]
  obtain ⟨v, hv1, hv2, -⟩ := C137_float_partial (fun k => ⟨rfl, rfl⟩) h hX le_rfl (by norm_num) h1 cfg
  refine ⟨t, _, v, h, hX, h1, hv1, fun i j k => ?_⟩
  have hd : ∀ ξ : Fin 3 → ℝ, IsDerivative (cellMap (order := fun _ : Fin 3 => 1) (fun _ => ![-1, 1])
      fun (idx : Fin 3 → Fin 2) i => (![-1, 1] : Fin 2 → ℝ) (idx i)) 1 ξ := identity_cell_derivative
  have h3 := (abs_le.1 (control3_near (w := fun _ _ _ => 1) (fun a b c => by simpa using hv2 a b c 1 (hd _)) i j k)).1
  have h4 : control3 (fun _ _ _ => (1 : ℝ)) i j k = 1 := by simp only [control3, control_const]
  rw [h4] at h3
  have hu := formats_unit T
  norm_num at hu h3 ⊢
  linarith

def quadData : List ℚ := [-1, -1, -1, 2, 1, -1, 3, 1]

def quadVertex (idx : Fin 2 → Fin 2) (i : Fin 2) : ℚ := ![![![-1, -1], ![-1, 2]], ![![1, -1], ![3, 1]]] (idx 0) (idx 1) i

theorem quad_holds : HoldsPoints (n := fun _ : Fin 2 => 2) (quadData.map fun q : ℚ => (q : ℝ)) fun idx i => (quadVertex idx i : ℝ) := by
  intro cfg idx i
  have h1 : ∀ (a b c : Bool) (idx : Fin 2 → Fin 2) (i : Fin 2), CArray.read ⟨a, b, c⟩ quadData
      (CArray.whole ((List.ofFn fun _ : Fin 2 => ((2 : ℕ) : Int)) ++ [((2 : ℕ) : Int)])) (tup idx ++ [((i : ℕ) : Int)]) = .ok (quadVertex idx i) := by
    decide +kernel
  have h2 : List.Forall₂ (fun (q : ℚ) (x : ℝ) => x = q) quadData (quadData.map fun q : ℚ => (q : ℝ)) :=
    List.forall₂_map_right_iff.2 (List.forall₂_same.2 fun _ _ => rfl)
  rcases read_rel (p := False) cfg h2 _ _ _ (h1 cfg.boundsCheck cfg.constEval cfg.device idx i) with ⟨x, h3, rfl⟩ | h3
  · exact h3
  · exact h3.1.elim

/-- Non-vacuity for quadrilaterals: one that is not a parallelogram. -/
example (cfg : Config) : ∃ (t : LinearTransform ℝ) (X : (Fin 2 → Fin 2) → Fin 2 → ℝ),
    IsLagrange (fun _ : Fin 2 => 1) (fun _ => ![-1, 1]) t.shape ∧ HoldsPoints t.data X ∧
    ∀ a ∈ [(-1 : ℝ), 1], ∀ b ∈ [(-1 : ℝ), 1], ∃ J M, LinearTransform.jacobianValue cfg (exactArith ℝ) t [a, b, 0] = .ok J ∧
      HoldsMatrix J (M : Matrix (Fin 2) (Fin 2) ℝ) ∧ 0 < M.det := by
  obtain ⟨b, hb, -⟩ := (C36_compiles_iff_supported .gaussLobatto 1 ⟨by norm_num, by norm_num⟩).1 ⟨by norm_num, by norm_num⟩
  have h : IsLagrange (fun _ : Fin 2 => 1) (fun _ => ![-1, 1]) ⟨.ok 2, List.ofFn fun _ : Fin 2 => b⟩ := by
    refine ⟨by norm_num, rfl, fun _ => b, rfl, fun k => ⟨by norm_num, gaussLobattoSpacing (exactArith ℝ), ⟨?_, ?_⟩, hb⟩⟩
    · intro _ i
      fin_cases i
      · show Res.ok _ = _
        simp [exactArith]
      · show Res.ok _ = _
        norm_num [exactArith]
    · intro i j hij
      fin_cases i <;> fin_cases j <;> first | rfl | (simp at hij; norm_num at hij)
  refine ⟨⟨⟨.ok 2, List.ofFn fun _ : Fin 2 => b⟩, quadData.map fun q : ℚ => (q : ℝ)⟩, fun idx i => (quadVertex idx i : ℝ), h, quad_holds, fun x hx y hy => ?_⟩
  refine ⟨_, _, square_jacobian (c := fun _ => ![-1, 1]) (fun k => ⟨rfl, rfl⟩) h quad_holds cfg ![x, y], (holds_iff (by norm_num) (by norm_num)).2 rfl, ?_⟩
  obtain ⟨α, rfl⟩ : ∃ α : Fin 2, x = if α = 0 then -1 else 1 := by
    rcases List.mem_cons.1 hx with rfl | hx
    · exact ⟨0, rfl⟩
    · exact ⟨1, by simpa using hx⟩
  obtain ⟨β, rfl⟩ : ∃ β : Fin 2, y = if β = 0 then -1 else 1 := by
    rcases List.mem_cons.1 hy with rfl | hy
    · exact ⟨0, rfl⟩
    · exact ⟨1, by simpa using hy⟩
  have hs : ∀ (Y : (Fin 2 → Fin 2) → ℝ) (j : Fin 2), cellSlope Y ![if α = 0 then -1 else 1, if β = 0 then -1 else 1] j
      = (Y (Function.update ![α, β] j 1) - Y (Function.update ![α, β] j 0)) / 2 := by
    intro Y j
    rw [cellSlope, ← multi_vertex Y (Function.update ![α, β] j 1), ← multi_vertex Y (Function.update ![α, β] j 0)]
    congr 3 <;> (funext k; fin_cases j <;> fin_cases k <;> simp)
  simp only [Matrix.det_fin_two, Matrix.of_apply, hs]
  fin_cases α <;> fin_cases β <;> norm_num [quadVertex, Function.update]

end Verif.Props
