import Verif.Lemmas.DyadicData
import Verif.Spec.Dyadic
import Verif.Props.MixedBasis
import Verif.Props.PointChecks

/-!
# Property C140: in `float` and `double`, results for data with few digits are exact

Values of fields, their gradients, Jacobians and determinants of trilinear elements are computed without any rounding, if the numbers that are put in have
few enough binary digits: coordinates and nodal values that are whole multiples of a unit, at points with few binary places.
-/

namespace Verif.Props

open Verif.Spec Verif.Lemmas

variable {T : RealType} {c : (k : Fin 3) → Fin 2 → ℝ}

private theorem small_place {m p a b n : ℕ} (hm : 1 ≤ m) (h : m * (2 ^ a) ^ p < 2 ^ n) (hb : n ≤ a * b) : p < b ∧ m ≤ 2 ^ (n - a * p) - 1 := by
  rw [← pow_mul] at h
  have h1 : a * p < n := by
    by_contra hn
    have := Nat.pow_le_pow_right (show 0 < 2 by norm_num) (not_lt.1 hn)
    have := Nat.le_mul_of_pos_left (2 ^ (a * p)) hm
    omega
  have h2 : m * 2 ^ (a * p) < 2 ^ (n - a * p) * 2 ^ (a * p) := by
    rw [← pow_add, Nat.sub_add_cancel h1.le]; exact h
  have h3 := Nat.lt_of_mul_lt_mul_right h2
  refine ⟨?_, by omega⟩
  by_contra hn
  have := Nat.mul_le_mul_left a (not_lt.1 hn)
  omega

private theorem units_mono {s : ℤ} {m n : ℕ} (h : m ≤ n) {x : ℝ} (hx : InUnits s m x) : InUnits s n x := by
  obtain ⟨k, h1, h2⟩ := hx
  exact ⟨k, h1, h2.trans (by exact_mod_cast h)⟩

private theorem trilinear_multi (y : (Fin 3 → Fin 2) → ℝ) (x : Fin 3 → ℝ) : trilinear y x = multi y x := rfl

section fields
variable {e : Element Flt}

/-- The exact value. -/
private theorem exact_value {e' : Element ℝ} (h : IsLagrange (fun _ : Fin 3 => 1) c e') (hc : ∀ k, c k 0 = -1 ∧ c k 1 = 1) {y : (Fin 3 → Fin 2) → ℝ}
    {var : List Int → Res ℝ} (hv : ∀ idx : Fin 3 → Fin 2, var (tup idx) = .ok (y idx)) (x : Fin 3 → ℝ) :
    ParentElement.value (exactArith ℝ) e' (List.ofFn x) var = .ok (trilinear y x) := by
  obtain ⟨b, rfl, hr, -⟩ := isLagrange_realises h
  have := eval_mapPoly hc (fun idx _ => y idx) 0 x
  simp only [mapPoly, map_sum, map_mul, map_prod, eval_inVar, MvPolynomial.eval_C] at this
  rw [parent_value h.dims hr x var y hv, trilinear_multi, ← this]
  exact congrArg Res.ok (Finset.sum_congr rfl fun idx _ => mul_comm _ _)

private theorem exact_field (y : (Fin 3 → Fin 2) → ℝ) : ∃ var : List Int → Res ℝ, ∀ idx : Fin 3 → Fin 2, var (tup idx) = .ok (y idx) := by
  classical
  refine ⟨fun l => if h : ∃ idx : Fin 3 → Fin 2, tup idx = l then .ok (y h.choose) else .ub, fun idx => ?_⟩
  have hex : ∃ j : Fin 3 → Fin 2, tup j = tup idx := ⟨idx, rfl⟩
  exact (dif_pos hex).trans (by rw [tup_injective hex.choose_spec])

/-- **C140, values.** For a trilinear element, nodal values that are whole numbers of a unit `2^s`, at most `m` units, and a point with at most `p` binary
places, the interpolated value is exact, if `m 8^p` is less than `2^18` in `float`, `2^47` in `double`. -/
theorem C140_value (h : IsShippedIn T (fun _ : Fin 3 => 1) c e) (hc : ∀ k, c k 0 = -1 ∧ c k 1 = 1) {s : ℤ} (hs : |s| ≤ unitRange T) {m p : ℕ} (hm : 1 ≤ m)
    (hmp : m * 8 ^ p < valueRoom T) {x : Fin 3 → ℝ} (hx : ∀ k, BinaryPoint p (x k)) {y : (Fin 3 → Fin 2) → ℝ}
    (hy : ∀ idx, InUnits s m (y idx)) {var : List Int → Res Flt} (hv : ∀ idx : Fin 3 → Fin 2, var (tup idx) = .ok (Flt.ofReal (y idx))) :
    ParentElement.value (floatArith T.format) e (List.ofFn fun k => Flt.ofReal (x k)) var = .ok (Flt.ofReal (trilinear y x)) := by
  obtain ⟨P, e', h', h0, h1, h2⟩ := dyadic_element h hc (fun S order => C88_basis T S order) hs
  obtain ⟨var', hv'⟩ := exact_field y
  have key : ∃ n, m ≤ n ∧ valueKnown T.format (unitRange T) n p = true := by
    clear h hs h0 h1 h2
    cases T with
    | float =>
      obtain ⟨k1, k2⟩ := small_place (a := 3) (b := 6) (n := 18) hm hmp (by norm_num)
      exact ⟨_, k2, value_known_float p k1⟩
    | double =>
      obtain ⟨k1, k2⟩ := small_place (a := 3) (b := 16) (n := 47) hm hmp (by norm_num)
      exact ⟨_, k2, value_known_double p k1⟩
  obtain ⟨n, hn, hk⟩ := key
  obtain ⟨v, e1, e2⟩ := dyadic_value hs h0 h1 h2 hx (fun idx => units_mono hn (hy idx)) hk hv hv'
  rw [e1, Res.ok.inj (e2.symm.trans (exact_value h' hc hv' x))]

/-- **C140, gradients.** Under the same conditions, with `m 4^p` less than `2^19` in `float`, `2^48` in `double`, and at most 15 binary places, the gradient
is exactly the derivative of the interpolant. -/
theorem C140_gradient (h : IsShippedIn T (fun _ : Fin 3 => 1) c e) (hc : ∀ k, c k 0 = -1 ∧ c k 1 = 1) {s : ℤ} (hs : |s| ≤ unitRange T) {m p : ℕ} (hm : 1 ≤ m)
    (hp : p ≤ 15) (hmp : m * 4 ^ p < gradientRoom T) {x : Fin 3 → ℝ} (hx : ∀ k, BinaryPoint p (x k)) {y : (Fin 3 → Fin 2) → ℝ}
    (hy : ∀ idx, InUnits s m (y idx)) {var : List Int → Res Flt} (hv : ∀ idx : Fin 3 → Fin 2, var (tup idx) = .ok (Flt.ofReal (y idx))) :
    ∃ g : Fin 3 → ℝ, HasFDerivAt (trilinear y) (∑ a, g a • (ContinuousLinearMap.proj a : (Fin 3 → ℝ) →L[ℝ] ℝ)) x ∧
      ParentElement.gradient (floatArith T.format) e (List.ofFn fun k => Flt.ofReal (x k)) var = .ok (List.ofFn fun a => Flt.ofReal (g a)) := by
  obtain ⟨P, e', h', h0, h1, h2⟩ := dyadic_element h hc (fun S order => C88_basis T S order) hs
  obtain ⟨var', hv'⟩ := exact_field y
  have key : ∃ n, m ≤ n ∧ gradientKnown T.format (unitRange T) n p = true := by
    clear h hs h0 h1 h2
    cases T with
    | float =>
      obtain ⟨k1, k2⟩ := small_place (a := 2) (b := 10) (n := 19) hm hmp (by norm_num)
      exact ⟨_, k2, gradient_known_float p k1⟩
    | double =>
      obtain ⟨k1, k2⟩ := small_place (a := 2) (b := 24) (n := 48) hm hmp (by norm_num)
      exact ⟨_, k2, gradient_known_double p (by omega)⟩
  obtain ⟨n, hn, hk⟩ := key
  obtain ⟨v, e1, e2⟩ := dyadic_gradient hs h0 h1 h2 hx (fun idx => units_mono hn (hy idx)) hk hv hv'
  obtain ⟨G, H, f1, f2, f3⟩ := C42_interpolation_gradient h' var' y hv'
  have hG : G = trilinear y := funext fun z => Res.ok.inj ((f1 z).symm.trans (exact_value h' hc hv' z))
  subst hG
  refine ⟨H x, f3 x, ?_⟩
  rw [e1, Res.ok.inj (e2.symm.trans (f2 x)), List.map_ofFn]
  rfl

end fields

/-! ### cells -/

variable {t : LinearTransform Flt} {X : (Fin 3 → Fin 2) → Fin 3 → ℝ}

/-- In memory, coordinate `i` of vertex `(a, b, c)` is the element `12 a + 6 b + 3 c + i`. -/
private theorem cell_address : ∀ n : Fin 24, ∃ (a b c : Fin 2) (i : Fin 3),
    CArray.parenRT ⟨false, false, false⟩ 24 (CArray.whole ((List.ofFn fun _ : Fin 3 => ((2 : ℕ) : Int)) ++ [((3 : ℕ) : Int)])) (tup ![a, b, c] ++ [((i : ℕ) : Int)])
      = .ok (((n : ℕ) : Int)) := by decide +kernel

private theorem cell_data (hl : t.data.length = 24) (hX : HoldsPoints t.data fun idx i => Flt.ofReal (X idx i)) :
    ∃ D : List ℝ, t.data = D.map Flt.ofReal ∧ D.length = 24 ∧ (∀ y ∈ D, ∃ idx i, y = X idx i) ∧ HoldsPoints D X := by
  have key : ∀ n : Fin 24, ∃ idx i, t.data[(n : ℕ)]'(by rw [hl]; exact n.2) = Flt.ofReal (X idx i) := by
    intro n
    obtain ⟨a, b, c, i, h⟩ := cell_address n
    have h1 := hX ⟨false, false, false⟩ ![a, b, c] i
    unfold CArray.read at h1
    rw [hl] at h1
    have h2 := (congrArg (· >>= fun a => CArray.load t.data a) h).symm.trans h1
    refine ⟨![a, b, c], i, ?_⟩
    have h3 : CArray.load t.data ((n : ℕ) : Int) = .ok (t.data[(n : ℕ)]'(by rw [hl]; exact n.2)) := by
      unfold CArray.load
      exact dif_pos ⟨by omega, by rw [hl]; omega⟩
    exact Res.ok.inj (h3.symm.trans h2)
  choose idx i hn using key
  obtain ⟨D, hD⟩ : ∃ D : List ℝ, D = List.ofFn fun n : Fin 24 => X (idx n) (i n) := ⟨_, rfl⟩
  have e : t.data = D.map Flt.ofReal := by
    rw [hD]
    refine List.ext_getElem (by simp [hl]) fun k h1 h2 => ?_
    rw [hl] at h1
    simp only [List.getElem_map, List.getElem_ofFn]
    exact hn ⟨k, h1⟩
  refine ⟨D, e, by rw [hD]; simp, fun y hy => ?_, fun cfg idx i => ?_⟩
  · rw [hD, List.mem_ofFn] at hy
    obtain ⟨n, rfl⟩ := hy
    exact ⟨_, _, rfl⟩
  · have hr : List.Forall₂ (fun (f : Flt) (x : ℝ) => f = Flt.ofReal x) t.data D := by
      rw [e]
      clear e hD
      induction D with
      | nil => exact .nil
      | cons y D ih => exact .cons rfl ih
    obtain ⟨y, h1, h2⟩ := (read_rel (p := False) cfg hr _ _).total (hX cfg idx i)
    rw [h1]
    have : X idx i = y := by
      have := congrArg Flt.datum h2
      exact Datum.finite.inj this
    rw [this]

/-- The Jacobian of the code and of the exact computation. -/
private theorem cell_jacobian (h : IsShippedIn T (fun _ : Fin 3 => 1) c t.shape) (hc : ∀ k, c k 0 = -1 ∧ c k 1 = 1) (hl : t.data.length = 24)
    (hX : HoldsPoints t.data fun idx i => Flt.ofReal (X idx i)) {s : ℤ} (hs : |s| ≤ unitRange T) {m p : ℕ} (hm : 1 ≤ m) (hp : p ≤ 15)
    (hmp : m * 4 ^ p < gradientRoom T) (hXm : ∀ idx i, InUnits s m (X idx i)) {ξ : Fin 3 → ℝ} (hξ : ∀ k, BinaryPoint p (ξ k)) (cfg : Config) :
    LinearTransform.jacobianValue cfg (floatArith T.format) t (List.ofFn fun k => Flt.ofReal (ξ k))
        = .ok ((matMem (Matrix.of fun i j => cellSlope (fun idx => X idx i) ξ j)).map Flt.ofReal) := by
  obtain ⟨P, e', h', h0, h1, h2⟩ := dyadic_element h hc (fun S order => C88_basis T S order) hs
  obtain ⟨D, hD, hl', hDX, hDP⟩ := cell_data hl hX
  have key : ∃ n, m ≤ n ∧ jacobianKnown T.format (unitRange T) n p cfg = true := by
    clear h hs h0 h1 h2
    cases T with
    | float =>
      obtain ⟨k1, k2⟩ := small_place (a := 2) (b := 10) (n := 19) hm hmp (by norm_num)
      exact ⟨_, k2, jacobian_known_float p k1 cfg.boundsCheck cfg.constEval cfg.device⟩
    | double =>
      obtain ⟨k1, k2⟩ := small_place (a := 2) (b := 24) (n := 48) hm hmp (by norm_num)
      exact ⟨_, k2, jacobian_known_double p (by omega) cfg.boundsCheck cfg.constEval cfg.device⟩
  obtain ⟨n, hn, hk⟩ := key
  obtain ⟨J, e1, e2⟩ := dyadic_jacobian hs h0 h1 h2 hξ hl' (m := n) (fun y hy => by
    obtain ⟨idx, i, rfl⟩ := hDX y hy
    exact units_mono hn (hXm idx i)) cfg hk
  have et : t = ⟨t.shape, D.map Flt.ofReal⟩ := by rw [← hD]
  rw [et, e1]
  have hdet : J = matMem (Matrix.of fun i j => cellSlope (fun idx => X idx i) ξ j) := by
    have h3 := (lagrange_polynomial (t := ⟨e', D⟩) h' (by norm_num) hDP)
    obtain ⟨N, -, -, h3⟩ := h3
    obtain ⟨bs, hb, -, -⟩ := isLagrange_realises h'
    have hn : (⟨e', D⟩ : LinearTransform ℝ).numDims = 3 := by rw [LinearTransform.numDims, hb]; simp [elementOf]
    have hz := listInit_zero (d := 3) (by norm_num) (by norm_num)
    have e := h3 cfg ξ [] 0
    rw [List.append_nil, zero_add] at e
    simp only [pderiv_slope hc] at e
    rw [LinearTransform.jacobianValue, staticAssert_bind_true (by simp), hn] at e2
    exact Res.ok.inj (e2.symm.trans ((congrArg (· >>= _) hz).trans e))
  rw [hdet]

theorem derivative_slope (hc : ∀ k, c k 0 = -1 ∧ c k 1 = 1) {D : Matrix (Fin 3) (Fin 3) ℝ} {ξ : Fin 3 → ℝ}
    (hD : IsDerivative (cellMap (order := fun _ : Fin 3 => 1) c X) D ξ) : D = Matrix.of fun i j => cellSlope (fun idx => X idx i) ξ j := by
  funext i j
  rw [derivative_entry hD, pderiv_slope hc]
  rfl

/-- **C140, Jacobians.** For a cell with vertices whose coordinates are whole numbers of a unit `2^s`, at most `m` units, and a point with at most `p` binary
places, `m 4^p` less than `2^19` in `float`, `2^48` in `double`, the entries `jacobian` computes are exactly the derivatives of the map of the cell. -/
theorem C140_jacobian (h : IsShippedIn T (fun _ : Fin 3 => 1) c t.shape) (hc : ∀ k, c k 0 = -1 ∧ c k 1 = 1) (hl : t.data.length = 24)
    (hX : HoldsPoints t.data fun idx i => Flt.ofReal (X idx i)) {s : ℤ} (hs : |s| ≤ unitRange T) {m p : ℕ} (hm : 1 ≤ m) (hp : p ≤ 15)
    (hmp : m * 4 ^ p < gradientRoom T) (hXm : ∀ idx i, InUnits s m (X idx i)) {ξ : Fin 3 → ℝ} (hξ : ∀ k, BinaryPoint p (ξ k)) (cfg : Config)
    {D : Matrix (Fin 3) (Fin 3) ℝ} (hD : IsDerivative (cellMap (order := fun _ : Fin 3 => 1) c X) D ξ) :
    ∃ J, LinearTransform.jacobianValue cfg (floatArith T.format) t (List.ofFn fun k => Flt.ofReal (ξ k)) = .ok J ∧
      HoldsMatrix J (Matrix.of fun i j => Flt.ofReal (D i j)) := by
  refine ⟨_, cell_jacobian h hc hl hX hs hm hp hmp hXm hξ cfg, ?_⟩
  rw [holds_iff (by norm_num) (by norm_num), derivative_slope hc hD, matMem, matMem, List.map_ofFn]
  rfl

/-- **C140, determinants.** If in addition the entries of the derivative are whole numbers of a unit `2^r`, at most 140 units in `float`, 114500 in `double`,
the determinant `inverseJacobian` returns is exact. -/
theorem C140_determinant (h : IsShippedIn T (fun _ : Fin 3 => 1) c t.shape) (hc : ∀ k, c k 0 = -1 ∧ c k 1 = 1) (hl : t.data.length = 24)
    (hX : HoldsPoints t.data fun idx i => Flt.ofReal (X idx i)) {s : ℤ} (hs : |s| ≤ unitRange T) {m p : ℕ} (hm : 1 ≤ m) (hp : p ≤ 15)
    (hmp : m * 4 ^ p < gradientRoom T) (hXm : ∀ idx i, InUnits s m (X idx i)) {ξ : Fin 3 → ℝ} (hξ : ∀ k, BinaryPoint p (ξ k)) (cfg : Config)
    {D : Matrix (Fin 3) (Fin 3) ℝ} (hD : IsDerivative (cellMap (order := fun _ : Fin 3 => 1) c X) D ξ) {r : ℤ} (hr : |r| ≤ unitRange T)
    (hDr : ∀ i j, InUnits r (detRoom T) (D i j)) :
    ∃ after, LinearTransform.inverseJacobianValue cfg (floatArith T.format) t (List.ofFn fun k => Flt.ofReal (ξ k)) = .ok (Flt.ofReal D.det, after) := by
  have hJ := cell_jacobian h hc hl hX hs hm hp hmp hXm hξ cfg
  rw [← derivative_slope hc hD] at hJ
  have hk : detKnown T.format (unitRange T) (detRoom T) cfg = true := by
    clear h hs hmp hr hDr hJ
    cases T with
    | float => exact det_known_float cfg.boundsCheck cfg.constEval cfg.device
    | double => exact det_known_double cfg.boundsCheck cfg.constEval cfg.device
  obtain ⟨det, after, after', e1, e2⟩ := dyadic_det hr (J := matMem D) (by simp) (fun y hy => by
    rw [matMem, List.mem_ofFn] at hy
    obtain ⟨k, rfl⟩ := hy
    exact hDr _ _) cfg hk
  obtain ⟨det', after'', e3, rfl, -⟩ := C44_inverse_carray cfg D (matMem D) ((holds_iff (by norm_num) (by norm_num)).2 rfl)
  have e4 := (Prod.mk.inj (Res.ok.inj (e2.symm.trans e3))).1
  refine ⟨after, ?_⟩
  obtain ⟨b, hb, -⟩ := shipped_realises h
  have hn : t.numDims = 3 := by rw [LinearTransform.numDims, hb]; simp [elementOf]
  rw [LinearTransform.jacobianValue, staticAssert_bind_true (by simp)] at hJ
  rw [LinearTransform.inverseJacobianValue, staticAssert_bind_true (by simp)]
  obtain ⟨J0, k1, k2⟩ := Res.bind_eq_ok.1 hJ
  rw [k1, Res.ok_bind, LinearTransform.inverseJacobian, k2, Res.ok_bind, LinearTransform.jacobianView, hn, ← e4]
  exact e1

/-! ### cells on a lattice -/

/-- A whole multiple of `2^-e`. -/
private def Frac (e : ℕ) (x : ℝ) : Prop := ∃ k : ℤ, x = k / 2 ^ e

private theorem Frac.mul {a b : ℕ} {x y : ℝ} (hx : Frac a x) (hy : Frac b y) : Frac (a + b) (x * y) := by
  obtain ⟨k, rfl⟩ := hx
  obtain ⟨l, rfl⟩ := hy
  exact ⟨k * l, by push_cast; rw [pow_add]; field_simp⟩

private theorem hat_half {x : ℝ} (hx : BinaryPoint 0 x) (a : Fin 2) : Frac 1 (hat a x) := by
  obtain ⟨k, rfl, -⟩ := hx
  unfold hat
  split
  · exact ⟨1 - k, by push_cast; simp⟩
  · exact ⟨1 + k, by push_cast; simp⟩

private theorem hat_whole (a : Fin 2) : Frac 0 (hat a 1) ∧ Frac 0 (hat a (-1)) := by
  unfold hat
  split
  · exact ⟨⟨0, by norm_num⟩, ⟨1, by norm_num⟩⟩
  · exact ⟨⟨1, by norm_num⟩, ⟨0, by norm_num⟩⟩

private theorem prod_quarter {ξ : Fin 3 → ℝ} (hξ : ∀ k, BinaryPoint 0 (ξ k)) (idx : Fin 3 → Fin 2) (j : Fin 3) {v : ℝ} (hv : ∀ a, Frac 0 (hat a v)) :
    Frac 2 (∏ k, hat (idx k) (Function.update ξ j v k)) := by
  rw [Fin.prod_univ_three]
  have q := fun k => hat_half (hξ k) (idx k)
  fin_cases j
  · simpa [Function.update] using ((hv (idx 0)).mul (q 1)).mul (q 2)
  · simpa [Function.update] using ((q 0).mul (hv (idx 1))).mul (q 2)
  · simpa [Function.update] using ((q 0).mul (q 1)).mul (hv (idx 2))

private theorem slope_units {ξ : Fin 3 → ℝ} (hξ : ∀ k, BinaryPoint 0 (ξ k)) {Y : (Fin 3 → Fin 2) → ℝ} {s : ℤ} {m : ℕ} (hY : ∀ idx, InUnits s m (Y idx)) (j : Fin 3) :
    ∃ k : ℤ, cellSlope Y ξ j = k * 2 ^ (s - 3) := by
  choose y hy _ using hY
  have key : ∀ v : ℝ, (∀ a, Frac 0 (hat a v)) → ∃ k : ℤ, multi Y (Function.update ξ j v) = k / 4 * 2 ^ s := by
    intro v hv
    choose q hq using fun idx => prod_quarter hξ idx j hv
    refine ⟨∑ idx, q idx * y idx, ?_⟩
    rw [multi, Int.cast_sum, Finset.sum_div, Finset.sum_mul]
    refine Finset.sum_congr rfl fun idx _ => ?_
    rw [hq, hy]
    push_cast
    norm_num
    ring
  obtain ⟨a, ha⟩ := key 1 fun a => (hat_whole a).1
  obtain ⟨b, hb⟩ := key (-1) fun a => (hat_whole a).2
  refine ⟨a - b, ?_⟩
  have e : (2 : ℝ) ^ (s - 3) = 2 ^ s / 8 := by rw [zpow_sub₀ (by norm_num)]; norm_num
  rw [cellSlope, ha, hb, e]
  push_cast
  ring

private theorem slope_shift {d : ℕ} (Y : (Fin d → Fin 2) → ℝ) (o : ℝ) (ξ : Fin d → ℝ) (j : Fin d) : cellSlope Y ξ j = cellSlope (fun idx => Y idx - o) ξ j := by
  have h : ∀ ζ : Fin d → ℝ, multi Y ζ = multi (fun idx => Y idx - o) ζ + multi (fun _ => o) ζ := fun ζ => by
    rw [← multi_add]
    simp
  have h0 : ∀ ζ : Fin d → ℝ, multi (fun _ => o) ζ = o := fun ζ => by
    rw [multi, ← Finset.sum_mul, sum_hat, one_mul]
  rw [cellSlope, cellSlope, h, h, h0, h0]
  ring

private theorem point_cube {p : ℕ} {ξ : Fin 3 → ℝ} (hξ : ∀ k, BinaryPoint p (ξ k)) : ξ ∈ cube 3 := by
  intro k
  obtain ⟨n, h1, h2⟩ := hξ k
  have h3 : |(n : ℝ)| ≤ 2 ^ p := by exact_mod_cast h2
  have h4 : |ξ k| ≤ 1 := by
    rw [h1, abs_div, abs_of_pos (by positivity : (0 : ℝ) < 2 ^ p)]
    exact div_le_one_of_le₀ h3 (by positivity)
  exact abs_le.1 h4

/-- **C140, cells on a lattice.** If the vertices have coordinates that are whole numbers of a unit, and the cell lies in a cube of 34 units in `float`, 28600 in
`double`, anywhere with coordinates less than `2^19` or `2^48` units, the determinants at the points with coordinates -1, 0 and 1 (the vertices, the centres of
edges and faces and the centre) are exact. -/
theorem C140_lattice (h : IsShippedIn T (fun _ : Fin 3 => 1) c t.shape) (hc : ∀ k, c k 0 = -1 ∧ c k 1 = 1) (hl : t.data.length = 24)
    (hX : HoldsPoints t.data fun idx i => Flt.ofReal (X idx i)) {s : ℤ} (hs : |s| + 3 ≤ unitRange T) {m : ℕ} (hm : 1 ≤ m)
    (hmr : m < gradientRoom T) (hXm : ∀ idx i, InUnits s m (X idx i)) (o : Fin 3 → ℝ) (hXo : ∀ idx i, |X idx i - o i| ≤ latticeRoom T * 2 ^ s)
    {ξ : Fin 3 → ℝ} (hξ : ∀ k, ξ k = -1 ∨ ξ k = 0 ∨ ξ k = 1) (cfg : Config) {D : Matrix (Fin 3) (Fin 3) ℝ}
    (hD : IsDerivative (cellMap (order := fun _ : Fin 3 => 1) c X) D ξ) :
    ∃ after, LinearTransform.inverseJacobianValue cfg (floatArith T.format) t (List.ofFn fun k => Flt.ofReal (ξ k)) = .ok (Flt.ofReal D.det, after) := by
  have hξ' : ∀ k, BinaryPoint 0 (ξ k) := fun k => by
    rcases hξ k with e | e | e
    · exact ⟨-1, by rw [e]; norm_num, by norm_num⟩
    · exact ⟨0, by rw [e]; norm_num, by norm_num⟩
    · exact ⟨1, by rw [e]; norm_num, by norm_num⟩
  have habs := abs_le.1 (show |s| ≤ (unitRange T : ℤ) - 3 by omega)
  refine C140_determinant h hc hl hX (s := s) (by omega) hm (p := 0) (by norm_num) (by simpa using hmr) hXm hξ' cfg hD (r := s - 3)
    (abs_le.2 ⟨by omega, by omega⟩) fun i j => ?_
  rw [derivative_slope hc hD, Matrix.of_apply]
  obtain ⟨k, hk⟩ := slope_units hξ' (fun idx => hXm idx i) j
  refine ⟨k, hk, ?_⟩
  have h1 : |cellSlope (fun idx => X idx i) ξ j| ≤ latticeRoom T * 2 ^ s := by
    rw [slope_shift _ (o i)]
    exact abs_slope_le (fun idx => hXo idx i) (point_cube hξ') j
  have e : (2 : ℝ) ^ s = 8 * 2 ^ (s - 3) := by rw [zpow_sub₀ (by norm_num)]; norm_num; ring
  have h2 : (0 : ℝ) < 2 ^ (s - 3) := by positivity
  rw [hk, abs_mul, abs_of_pos h2, e, ← mul_assoc] at h1
  have h3 := le_of_mul_le_mul_right h1 h2
  have h4 : |k| ≤ (latticeRoom T * 8 : ℕ) := by exact_mod_cast h3
  refine h4.trans ?_
  clear * -
  cases T <;> norm_num [latticeRoom, detRoom]

/-- **C140, checking cells.** For such a cell, if the control values of the 27 determinants `inverseJacobian` returns at these points are positive, the map of the cell has
a positive determinant everywhere in the cell; unlike `C137_float_partial` without any margin for roundings. -/
theorem C140_check (h : IsShippedIn T (fun _ : Fin 3 => 1) c t.shape) (hc : ∀ k, c k 0 = -1 ∧ c k 1 = 1) (hl : t.data.length = 24)
    (hX : HoldsPoints t.data fun idx i => Flt.ofReal (X idx i)) {s : ℤ} (hs : |s| + 3 ≤ unitRange T) {m : ℕ} (hm : 1 ≤ m)
    (hmr : m < gradientRoom T) (hXm : ∀ idx i, InUnits s m (X idx i)) (o : Fin 3 → ℝ) (hXo : ∀ idx i, |X idx i - o i| ≤ latticeRoom T * 2 ^ s)
    (cfg : Config) : ∃ v : Fin 3 → Fin 3 → Fin 3 → ℝ,
      (∀ a b c, ∃ after, LinearTransform.inverseJacobianValue cfg (floatArith T.format) t
          [Flt.ofReal (threePoints a), Flt.ofReal (threePoints b), Flt.ofReal (threePoints c)] = .ok (Flt.ofReal (v a b c), after)) ∧
      ((∀ i j k, 0 < control3 v i j k) → ∀ ξ ∈ cube 3, ∀ D : Matrix (Fin 3) (Fin 3) ℝ,
        IsDerivative (cellMap (order := fun _ : Fin 3 => 1) c X) D ξ → 0 < D.det) := by
  refine ⟨fun a b c => (Matrix.of fun i j => cellSlope (fun idx => X idx i) ![threePoints a, threePoints b, threePoints c] j).det, fun a b c' => ?_, fun hv ξ hξ D hD => ?_⟩
  · have hp : ∀ a : Fin 3, threePoints a = -1 ∨ threePoints a = 0 ∨ threePoints a = 1 := by
      intro a
      fin_cases a <;> simp [threePoints]
    have hD := cellMap_derivative (order := fun _ : Fin 3 => 1) c X ![threePoints a, threePoints b, threePoints c']
    obtain ⟨after, g⟩ := C140_lattice h hc hl hX hs hm hmr hXm o hXo (ξ := ![threePoints a, threePoints b, threePoints c'])
      (fun k => by fin_cases k; exacts [hp a, hp b, hp c']) cfg hD
    refine ⟨after, ?_⟩
    rw [derivative_slope hc hD] at g
    have : (List.ofFn fun k => Flt.ofReal (![threePoints a, threePoints b, threePoints c'] k))
      = [Flt.ofReal (threePoints a), Flt.ofReal (threePoints b), Flt.ofReal (threePoints c')] := by simp [List.ofFn_succ]
    rw [← this]
    exact g
  · rw [derivative_slope hc hD]
    exact control_lower (F := fun ξ => (Matrix.of fun i j => cellSlope (fun idx => X idx i) ξ j).det) (fun ξ k => det_quad (fun i idx => X idx i) ξ k) hv hξ

/-- The derivative of the map of a box. -/
theorem box_derivative (hc : ∀ k, c k 0 = -1 ∧ c k 1 = 1) {o len ξ : Fin 3 → ℝ} {D : Matrix (Fin 3) (Fin 3) ℝ}
    (hD : IsDerivative (cellMap (order := fun _ : Fin 3 => 1) c fun (idx : Fin 3 → Fin 2) i => o i + if idx i = 0 then 0 else len i) D ξ) :
    D = Matrix.diagonal fun i => len i / 2 := by
  rw [derivative_slope hc hD]
  ext i j
  rw [Matrix.of_apply, cellSlope, multi_coord, multi_coord, Matrix.diagonal_apply]
  split
  · rename_i e
    subst e
    rw [Function.update_self, Function.update_self]
    ring
  · rename_i e
    rw [Function.update_of_ne e, Function.update_of_ne e]
    ring

/-- **C140, boxes.** For a box with edges of at most 140 units in `float`, 114500 in `double`, the determinant at every point with `p` binary places is exactly the
product of the halves of the edges. -/
theorem C140_box (h : IsShippedIn T (fun _ : Fin 3 => 1) c t.shape) (hc : ∀ k, c k 0 = -1 ∧ c k 1 = 1) (hl : t.data.length = 24) {o len : Fin 3 → ℝ}
    (hX : HoldsPoints t.data fun (idx : Fin 3 → Fin 2) i => Flt.ofReal (o i + if idx i = 0 then 0 else len i)) {s : ℤ} (hs : |s| + 1 ≤ unitRange T) {m p : ℕ}
    (hm : 1 ≤ m) (hp : p ≤ 15) (hmp : m * 4 ^ p < gradientRoom T) (ho : ∀ i, InUnits s m (o i)) (ho' : ∀ i, InUnits s m (o i + len i))
    (hlen : ∀ i, InUnits s (detRoom T) (len i)) {ξ : Fin 3 → ℝ} (hξ : ∀ k, BinaryPoint p (ξ k)) (cfg : Config) :
    ∃ after, LinearTransform.inverseJacobianValue cfg (floatArith T.format) t (List.ofFn fun k => Flt.ofReal (ξ k)) = .ok (Flt.ofReal (∏ i, len i / 2), after) := by
  have habs := abs_le.1 (show |s| ≤ (unitRange T : ℤ) - 1 by omega)
  obtain ⟨D, hD⟩ : ∃ D : Matrix (Fin 3) (Fin 3) ℝ, IsDerivative (cellMap (order := fun _ : Fin 3 => 1) c
      fun (idx : Fin 3 → Fin 2) i => o i + if idx i = 0 then 0 else len i) D ξ := ⟨_, cellMap_derivative c _ ξ⟩
  have e := box_derivative hc hD
  obtain ⟨after, g⟩ := C140_determinant h hc hl hX (s := s) (by omega) hm hp hmp (fun idx i => by
      split
      · simpa using ho i
      · exact ho' i) hξ cfg hD (r := s - 1) (abs_le.2 ⟨by omega, by omega⟩) (fun i j => by
      rw [e, Matrix.diagonal_apply]
      split
      · obtain ⟨k, h1, h2⟩ := hlen i
        refine ⟨k, ?_, h2⟩
        rw [h1, zpow_sub₀ (by norm_num)]
        norm_num
        ring
      · exact ⟨0, by simp, by simp⟩)
  refine ⟨after, ?_⟩
  rw [e, Matrix.det_diagonal] at g
  exact g

/-! ### the hypotheses can be met -/

/-- A trilinear element in `float` or `double`, and cells with any vertices. -/
theorem float_cell (T : RealType) (X : (Fin 3 → Fin 2) → Fin 3 → ℝ) : ∃ t : LinearTransform Flt,
    IsShippedIn T (fun _ : Fin 3 => 1) (fun _ => ![-1, 1]) t.shape ∧ t.data.length = 24 ∧ HoldsPoints t.data fun idx i => Flt.ofReal (X idx i) := by
  obtain ⟨t, h, -⟩ := sample_cell_in T
  obtain ⟨bs, hbs, hk⟩ := shipped_realises h
  have hsurj : Function.Surjective vertexNumber := by decide
  have hinj : Function.Injective vertexNumber := by decide
  choose inv hinv using hsurj
  obtain ⟨t', -, h2, h3, h4, -⟩ := C48_setData checkedHost
    ⟨t.shape, List.replicate 24 (Flt.ofReal 0)⟩ bs (by rw [hbs]; rfl)
    (by rw [hbs]; exact elementOf_instantiate bs) (fun k => (hk k).count) (by simp)
    (fun v i => Flt.ofReal (X (inv v) i))
    (fun r i => if hr : r.toNat < 8 ∧ i.toNat < 3 then .ok (Flt.ofReal (X (inv ⟨r.toNat, hr.1⟩) ⟨i.toNat, hr.2⟩)) else .ub)
    (fun v i => by
      have := v.2
      have := i.2
      simp)
  refine ⟨t', by rw [h2]; exact h, h3, fun cfg idx i => (h4 cfg idx i).trans ?_⟩
  have h5 : inv (vertexNumber idx) = idx := hinj (hinv _)
  simp only [h5]

/-- A cell that is not a parallelepiped, one vertex of a box displaced, with vertices in quarters: `(10, 20, 30) + (idx 0, 2 idx 1, 3 idx 2)/4`. -/
private noncomputable def sampleVertex (idx : Fin 3 → Fin 2) (i : Fin 3) : ℝ :=
  (![40, 80, 120] i + (![4, 8, 12] i) * (idx i : ℕ) + (if idx = ![1, 1, 1] then 1 else 0) : ℤ) * 2 ^ (-2 : ℤ)

private theorem sample_bounds : ∀ (idx : Fin 3 → Fin 2) (i : Fin 3),
    |((![40, 80, 120] : Fin 3 → ℤ) i + ((![4, 8, 12] : Fin 3 → ℤ) i) * (idx i : ℕ) + (if idx = ![1, 1, 1] then 1 else 0) : ℤ)| ≤ 200 ∧
    |((![40, 80, 120] : Fin 3 → ℤ) i + ((![4, 8, 12] : Fin 3 → ℤ) i) * (idx i : ℕ) + (if idx = ![1, 1, 1] then 1 else 0) : ℤ) - (![40, 80, 120] : Fin 3 → ℤ) i| ≤ 17 := by
  decide +kernel

/-- Non-vacuity of `C140_jacobian`, `C140_lattice` and `C140_check`: the cell above. -/
example (T : RealType) : ∃ (t : LinearTransform Flt) (o : Fin 3 → ℝ), IsShippedIn T (fun _ : Fin 3 => 1) (fun _ => ![-1, 1]) t.shape ∧ t.data.length = 24 ∧
    HoldsPoints t.data (fun idx i => Flt.ofReal (sampleVertex idx i)) ∧ |(-2 : ℤ)| + 3 ≤ unitRange T ∧ 200 < gradientRoom T ∧
    (∀ idx i, InUnits (-2) 200 (sampleVertex idx i)) ∧ ∀ idx i, |sampleVertex idx i - o i| ≤ latticeRoom T * 2 ^ (-2 : ℤ) := by
  obtain ⟨t, h1, h2, h3⟩ := float_cell T sampleVertex
  refine ⟨t, fun i => (![40, 80, 120] : Fin 3 → ℤ) i * 2 ^ (-2 : ℤ), h1, h2, h3, ?_, ?_, fun idx i => ⟨_, rfl, (sample_bounds idx i).1⟩, fun idx i => ?_⟩
  · clear * -; cases T <;> norm_num [unitRange]
  · clear * -; cases T <;> norm_num [gradientRoom]
  · rw [sampleVertex, ← sub_mul, abs_mul, abs_of_pos (by positivity : (0 : ℝ) < 2 ^ (-2 : ℤ))]
    refine mul_le_mul_of_nonneg_right ?_ (by positivity)
    have h := (sample_bounds idx i).2
    have h' : (17 : ℝ) ≤ latticeRoom T := by clear * -; cases T <;> norm_num [latticeRoom]
    refine le_trans ?_ h'
    exact_mod_cast h

/-- Non-vacuity of `C140_value` and `C140_gradient`: values 1 to 8 at the vertices, at the point `(1/4, -1/2, 3/4)`. -/
example (T : RealType) : ∃ (t : LinearTransform Flt) (y : (Fin 3 → Fin 2) → ℝ) (var : List Int → Res Flt),
    IsShippedIn T (fun _ : Fin 3 => 1) (fun _ => ![-1, 1]) t.shape ∧ 8 * 8 ^ 2 < valueRoom T ∧ 8 * 4 ^ 2 < gradientRoom T ∧
    (∀ k, BinaryPoint 2 ((![1 / 4, -1 / 2, 3 / 4] : Fin 3 → ℝ) k)) ∧ (∀ idx, InUnits 0 8 (y idx)) ∧
    (∀ idx : Fin 3 → Fin 2, var (tup idx) = .ok (Flt.ofReal (y idx))) ∧ y ![0, 0, 0] ≠ y ![1, 1, 1] := by
  classical
  obtain ⟨t, h1, -⟩ := sample_cell_in T
  obtain ⟨y, hy⟩ : ∃ y : (Fin 3 → Fin 2) → ℝ, y = fun idx => (((vertexNumber idx : ℕ) + 1 : ℤ) : ℝ) := ⟨_, rfl⟩
  refine ⟨t, y, fun l => if h : ∃ idx : Fin 3 → Fin 2, tup idx = l then .ok (Flt.ofReal (y h.choose)) else .ub, h1, ?_, ?_, fun k => ?_, fun idx => ?_, fun idx => ?_, ?_⟩
  · clear * -; cases T <;> norm_num [valueRoom]
  · clear * -; cases T <;> norm_num [gradientRoom]
  · fin_cases k
    · exact ⟨1, by norm_num, by norm_num⟩
    · exact ⟨-2, by norm_num, by norm_num⟩
    · exact ⟨3, by norm_num, by norm_num⟩
  · rw [hy]
    refine ⟨(vertexNumber idx : ℕ) + 1, by simp, abs_le.2 ⟨?_, ?_⟩⟩ <;> have := (vertexNumber idx).2 <;> push_cast <;> omega
  · have hex : ∃ j : Fin 3 → Fin 2, tup j = tup idx := ⟨idx, rfl⟩
    exact (dif_pos hex).trans (by rw [tup_injective hex.choose_spec])
  · rw [hy]
    have e0 : vertexNumber ![0, 0, 0] = 0 := by decide
    have e1 : vertexNumber ![1, 1, 1] = 7 := by decide
    norm_num [e0, e1]

/-- Non-vacuity of `C140_box`: a box with edges 1/2, 3/4 and 5/4 far from the origin. -/
example (T : RealType) : ∃ t : LinearTransform Flt, IsShippedIn T (fun _ : Fin 3 => 1) (fun _ => ![-1, 1]) t.shape ∧ t.data.length = 24 ∧
    HoldsPoints t.data (fun (idx : Fin 3 → Fin 2) i => Flt.ofReal ((fun _ => 1000) i + if idx i = 0 then 0 else (![1 / 2, 3 / 4, 5 / 4] : Fin 3 → ℝ) i)) ∧
    |(-2 : ℤ)| + 1 ≤ unitRange T ∧ 5000 * 4 ^ 2 < gradientRoom T ∧ InUnits (-2) 5000 1000 ∧
    (∀ i, InUnits (-2) 5000 (1000 + (![1 / 2, 3 / 4, 5 / 4] : Fin 3 → ℝ) i)) ∧ ∀ i, InUnits (-2) (detRoom T) ((![1 / 2, 3 / 4, 5 / 4] : Fin 3 → ℝ) i) := by
  obtain ⟨t, h1, h2, h3⟩ := float_cell T fun idx i => 1000 + if idx i = 0 then 0 else (![1 / 2, 3 / 4, 5 / 4] : Fin 3 → ℝ) i
  have hr : (5 : ℤ) ≤ detRoom T := by clear * -; cases T <;> norm_num [detRoom]
  refine ⟨t, h1, h2, h3, ?_, ?_, ⟨4000, by norm_num [zpow_neg], by norm_num⟩, fun i => ?_, fun i => ?_⟩
  · clear * -; cases T <;> norm_num [unitRange]
  · clear * -; cases T <;> norm_num [gradientRoom]
  · fin_cases i
    · exact ⟨4002, by norm_num [zpow_neg], by norm_num⟩
    · exact ⟨4003, by norm_num [zpow_neg], by norm_num⟩
    · exact ⟨4005, by norm_num [zpow_neg], by norm_num⟩
  · fin_cases i
    · exact ⟨2, by norm_num [zpow_neg], by norm_num; omega⟩
    · exact ⟨3, by norm_num [zpow_neg], by norm_num; omega⟩
    · exact ⟨5, by norm_num [zpow_neg], by norm_num; omega⟩

end Verif.Props
