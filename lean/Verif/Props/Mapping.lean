import Verif.Lemmas.SetData
import Verif.Lemmas.Scaling
import Verif.Props.Element
import Verif.Props.Inverse
import Verif.Props.Scaling

/-! # Properties C48–C56: mappings from the parent element -/

namespace Verif.Props

open Verif.Spec Verif.Lemmas

variable {R : Type} {d : ℕ} {order : Fin d → ℕ} {c : (k : Fin d) → Fin (order k + 1) → ℝ}
  {t : LinearTransform ℝ} {X : ((k : Fin d) → Fin (order k + 1)) → Fin d → ℝ}

/-! ### C48 and C56: `setData` -/

/-- **C48.** With two support points per direction, after `setData( coords )` the element `(a,b,c,i)` of the
data is component `i` of vertex `a + 2 b + 4 c`, in any arithmetic and any configuration.  This is the
effect of 24 assignments of these values, to 24 different elements. -/
theorem C48_setData (cfg : Config) (t : LinearTransform R) (b : Fin 3 → Basis R)
    (hb : t.shape.bases = List.ofFn b) (hi : t.shape.instantiate = .ok ())
    (hc : ∀ k, (b k).numSupportPoints = 2) (hl : t.data.length = 24)
    (W : Fin 8 → Fin 3 → R) (coords : Int → Int → Res R)
    (hW : ∀ (v : Fin 8) (i : Fin 3), coords ((v : ℕ) : Int) ((i : ℕ) : Int) = .ok (W v i)) :
    ∃ t', LinearTransform.setData cfg t coords = .ok t' ∧ t'.shape = t.shape ∧ t'.data.length = 24 ∧
      HoldsPoints t'.data (fun (idx : Fin 3 → Fin 2) i => W (vertexNumber idx) i) ∧
      ∃ history : List (Assign R), history.length = 24 ∧ (history.map Assign.idx).Nodup ∧
        (∀ w ∈ history, ∃ (idx : Fin 3 → Fin 2) (i : Fin 3), w.idx = tup idx ++ [((i : ℕ) : Int)] ∧
          w.val = W (vertexNumber idx) i) ∧
        CArray.runHistory cfg (CArray.whole [2, 2, 2, 3]) t.data history = .ok t'.data := by
  have hV : ∀ (idx : (k : Fin 3) → Fin ((fun _ => 2) k)) (i : Fin 3), coords (vertexRow idx) ((i : ℕ) : Int)
      = .ok (W (vertexNumber idx) i) := by
    intro idx i
    rw [← hW, vertexRow, vertexNumber]
    congr 1
  obtain ⟨data, h1, h2, h3⟩ := setData_ok cfg (n := fun _ => 2) hb hi hc (by simp) (by norm_num) (by norm_num)
    (by simpa using hl) hV
  obtain ⟨L, hnd, hall, h4⟩ := setData_history cfg (n := fun _ => 2) hb hi hc (by norm_num) hV
  refine ⟨_, h1, rfl, h2.trans hl, h3, L.flatMap (rowAssigns fun idx => W (vertexNumber idx)), ?_, ?_, ?_, ?_⟩
  · have hL : L.length = 8 := by
      have e1 : L.toFinset = Finset.univ := by ext; simp [hall]
      have e2 := List.toFinset_card_of_nodup hnd
      rw [e1, Finset.card_univ] at e2
      rw [← e2]
      simp
    simp [List.length_flatMap, rowAssigns, hL]
  · exact assigns_nodup hnd _
  · intro w hw
    obtain ⟨idx, -, hw⟩ := List.mem_flatMap.1 hw
    obtain ⟨i, -, rfl⟩ := List.mem_map.1 hw
    exact ⟨idx, i, rfl, rfl⟩
  · rw [h4, dataView_three hb hc] at h1
    rw [Res.bind_eq_ok] at h1
    obtain ⟨data', h5, h6⟩ := h1
    rw [show data' = data by simpa using h6] at h5
    exact h5

/-- **C56, what is stored.** For any numbers of support points per direction `setData` stores row
`a + 2 b + 4 c` of the input at `(a,b,c)`.  These rows are different for different support points exactly
when none of three pairs of conditions holds: at least three points in the first direction and two in the
second, five in the first and two in the third, three in the second and two in the third.  (The full
statement, different rows for every shape, is false: see `C56_setData_violated`.) -/
theorem C56_setData_partial {n : Fin 3 → ℕ} (cfg : Config) (t : LinearTransform R) (b : Fin 3 → Basis R)
    (hb : t.shape.bases = List.ofFn b) (hi : t.shape.instantiate = .ok ())
    (hc : ∀ k, (b k).numSupportPoints = n k) (hpos : ∀ k, 0 < n k)
    (hsize : n 0 * n 1 * n 2 * 3 ≤ 2147483647) (hrow : n 0 + 2 * n 1 + 4 * n 2 ≤ 2147483647)
    (hl : t.data.length = n 0 * n 1 * n 2 * 3) (W : ℕ → Fin 3 → R) (coords : Int → Int → Res R)
    (hW : ∀ (r : ℕ) (i : Fin 3), r ≤ (n 0 - 1) + 2 * (n 1 - 1) + 4 * (n 2 - 1) →
      coords (r : Int) ((i : ℕ) : Int) = .ok (W r i)) :
    (∃ t', LinearTransform.setData cfg t coords = .ok t' ∧ t'.shape = t.shape ∧
      t'.data.length = t.data.length ∧
      HoldsPoints t'.data (fun (idx : (k : Fin 3) → Fin (n k)) i =>
        W ((idx 0 : ℕ) + 2 * (idx 1 : ℕ) + 4 * (idx 2 : ℕ)) i)) ∧
    (Function.Injective (fun idx : (k : Fin 3) → Fin (n k) =>
        (idx 0 : ℕ) + 2 * (idx 1 : ℕ) + 4 * (idx 2 : ℕ)) ↔
      ¬ (3 ≤ n 0 ∧ 2 ≤ n 1) ∧ ¬ (5 ≤ n 0 ∧ 2 ≤ n 2) ∧ ¬ (3 ≤ n 1 ∧ 2 ≤ n 2)) := by
  constructor
  · have hV : ∀ (idx : (k : Fin 3) → Fin (n k)) (i : Fin 3), coords (vertexRow idx) ((i : ℕ) : Int)
        = .ok (W ((idx 0 : ℕ) + 2 * (idx 1 : ℕ) + 4 * (idx 2 : ℕ)) i) := by
      intro idx i
      have h0 := (idx 0).2
      have h1 := (idx 1).2
      have h2 := (idx 2).2
      rw [← hW _ i (by omega), vertexRow]
      congr 1
    obtain ⟨data, h1, h2, h3⟩ := setData_ok cfg hb hi hc hpos hsize hrow hl hV
    exact ⟨_, h1, rfl, h2, h3⟩
  · have mk : ∀ a b c : ℕ, a < n 0 → b < n 1 → c < n 2 → ∃ idx : (k : Fin 3) → Fin (n k),
        (idx 0 : ℕ) = a ∧ (idx 1 : ℕ) = b ∧ (idx 2 : ℕ) = c := by
      intro a b c ha hb hc
      exact ⟨fun k => match k with
        | 0 => ⟨a, ha⟩
        | 1 => ⟨b, hb⟩
        | 2 => ⟨c, hc⟩, rfl, rfl, rfl⟩
    have p0 := hpos 0
    have p1 := hpos 1
    have p2 := hpos 2
    have clash : ∀ a b c a' b' c' : ℕ, a < n 0 → b < n 1 → c < n 2 → a' < n 0 → b' < n 1 → c' < n 2 →
        a + 2 * b + 4 * c = a' + 2 * b' + 4 * c' → a ≠ a' ∨ b ≠ b' →
        ¬ Function.Injective (fun idx : (k : Fin 3) → Fin (n k) =>
          (idx 0 : ℕ) + 2 * (idx 1 : ℕ) + 4 * (idx 2 : ℕ)) := by
      intro a b c a' b' c' ha hb hc ha' hb' hc' e hne hinj
      obtain ⟨i, i0, i1, i2⟩ := mk a b c ha hb hc
      obtain ⟨j, j0, j1, j2⟩ := mk a' b' c' ha' hb' hc'
      have : i = j := hinj (by simp only [i0, i1, i2, j0, j1, j2]; exact e)
      subst this
      omega
    constructor
    · intro hinj
      refine ⟨fun h => ?_, fun h => ?_, fun h => ?_⟩
      · exact clash 2 0 0 0 1 0 (by omega) (by omega) (by omega) (by omega) (by omega) (by omega) rfl
          (by omega) hinj
      · exact clash 4 0 0 0 0 1 (by omega) (by omega) (by omega) (by omega) (by omega) (by omega) rfl
          (by omega) hinj
      · exact clash 0 2 0 0 0 1 (by omega) (by omega) (by omega) (by omega) (by omega) (by omega) rfl
          (by omega) hinj
    · rintro ⟨h1, h2, h3⟩ i j hij
      simp only at hij
      have i0 := (i 0).2
      have i1 := (i 1).2
      have i2 := (i 2).2
      have j0 := (j 0).2
      have j1 := (j 1).2
      have j2 := (j 2).2
      have : (i 0 : ℕ) = j 0 ∧ (i 1 : ℕ) = j 1 ∧ (i 2 : ℕ) = j 2 := by omega
      funext k
      fin_cases k
      · exact Fin.ext this.1
      · exact Fin.ext this.2.1
      · exact Fin.ext this.2.2

/-- **C56 is violated.** With at least three support points in the first direction and two in the second
(so for every order above one, the same in all directions), whatever the input, `setData` stores the same
input row at the support points `(2,0,0)` and `(0,1,0)`. -/
theorem C56_setData_violated {n : Fin 3 → ℕ} (cfg : Config) (t : LinearTransform R) (b : Fin 3 → Basis R)
    (hb : t.shape.bases = List.ofFn b) (hi : t.shape.instantiate = .ok ())
    (hc : ∀ k, (b k).numSupportPoints = n k) (hpos : ∀ k, 0 < n k)
    (hsize : n 0 * n 1 * n 2 * 3 ≤ 2147483647) (hrow : n 0 + 2 * n 1 + 4 * n 2 ≤ 2147483647)
    (hl : t.data.length = n 0 * n 1 * n 2 * 3) (W : ℕ → Fin 3 → R) (coords : Int → Int → Res R)
    (hW : ∀ (r : ℕ) (i : Fin 3), r ≤ (n 0 - 1) + 2 * (n 1 - 1) + 4 * (n 2 - 1) →
      coords (r : Int) ((i : ℕ) : Int) = .ok (W r i)) (h0 : 3 ≤ n 0) (h1 : 2 ≤ n 1) :
    ∃ t', LinearTransform.setData cfg t coords = .ok t' ∧ ∀ i : Fin 3,
      CArray.read cfg t'.data t'.dataView [2, 0, 0, ((i : ℕ) : Int)] = .ok (W 2 i) ∧
      CArray.read cfg t'.data t'.dataView [0, 1, 0, ((i : ℕ) : Int)] = .ok (W 2 i) := by
  obtain ⟨⟨t', e1, e2, -, e3⟩, -⟩ := C56_setData_partial cfg t b hb hi hc hpos hsize hrow hl W coords hW
  refine ⟨t', e1, fun i => ?_⟩
  rw [dataView_three (t := t') (by rw [e2]; exact hb) hc]
  have p2 := hpos 2
  exact ⟨e3 cfg (fun k => match k with
      | 0 => ⟨2, by omega⟩
      | 1 => ⟨0, by omega⟩
      | 2 => ⟨0, by omega⟩) i,
    e3 cfg (fun k => match k with
      | 0 => ⟨0, by omega⟩
      | 1 => ⟨1, by omega⟩
      | 2 => ⟨0, by omega⟩) i⟩

/-- **C56, consequence for the input.** `setData` from a built-in array `T x[rows][3]` is defined exactly
when the array has a row for the last support point, `(n_0-1) + 2 (n_1-1) + 4 (n_2-1)`; with fewer rows it
reads outside the array, in every configuration. -/
theorem C56_setData_builtin {n : Fin 3 → ℕ} (cfg : Config) (t : LinearTransform R) (b : Fin 3 → Basis R)
    (hb : t.shape.bases = List.ofFn b) (hi : t.shape.instantiate = .ok ())
    (hc : ∀ k, (b k).numSupportPoints = n k) (hpos : ∀ k, 0 < n k)
    (hsize : n 0 * n 1 * n 2 * 3 ≤ 2147483647) (hrow : n 0 + 2 * n 1 + 4 * n 2 ≤ 2147483647)
    (hl : t.data.length = n 0 * n 1 * n 2 * 3) (rows : ℕ) (W : ℕ → Fin 3 → R) :
    ((n 0 - 1) + 2 * (n 1 - 1) + 4 * (n 2 - 1) < rows →
      (LinearTransform.setData cfg t (builtinRows rows W)).IsOk) ∧
    (rows ≤ (n 0 - 1) + 2 * (n 1 - 1) + 4 * (n 2 - 1) →
      LinearTransform.setData cfg t (builtinRows rows W) = .ub) := by
  refine ⟨fun h => ?_, fun h => setData_ub cfg hb hi hc hpos hsize hrow hl W h⟩
  obtain ⟨⟨t', e, -⟩, -⟩ := C56_setData_partial cfg t b hb hi hc hpos hsize hrow hl W
    (builtinRows rows W) (fun r i hr => by
      have := i.2
      rw [builtinRows, dif_pos ⟨by omega, by omega, by omega, by omega⟩]
      simp)
  exact ⟨t', e⟩

/-! ### C49–C51: the Jacobian -/

/-- What `jacobian` computes for a Lagrange cell. -/
theorem lagrange_jacobian (h : IsLagrange order c t.shape) (hs : d * d ≤ 2147483647)
    (hX : HoldsPoints t.data X) :
    ∃ (N : ((k : Fin d) → Fin (order k + 1)) → (Fin d → ℝ) → ℝ)
      (Jm : (Fin d → ℝ) → Matrix (Fin d) (Fin d) ℝ),
      (∀ idx ξ, InterpolatedShape.value (exactArith ℝ) t.shape (tup idx) (List.ofFn ξ) = .ok (N idx ξ)) ∧
      (∀ ξ, IsDerivative (fun ξ i => ∑ idx, N idx ξ * X idx i) (Jm ξ) ξ) ∧
      ∀ cfg ξ extra M, LinearTransform.jacobian cfg (exactArith ℝ) t (List.ofFn ξ ++ extra) (matMem M)
        = .ok (matMem (M + Jm ξ)) := by
  choose N G hN _ hG hNG using fun idx => C39_gradient_is_derivative h idx
  obtain ⟨b, hb, hr, -⟩ := isLagrange_realises h
  have hcell : Cell t b (fun k => order k + 1) X :=
    ⟨h.dims, hs, by rw [hb]; rfl, by rw [hb]; exact elementOf_instantiate b, fun k => (hr k).count, hX⟩
  have hbl : t.shape.bases.length = d := by simp [hcell.bases]
  refine ⟨N, fun ξ i j => ∑ idx, G idx ξ j * X idx i, fun idx ξ => ?_, fun ξ i => ?_, fun cfg ξ extra M => ?_⟩
  · obtain ⟨e1, e2, -, -⟩ := basisValue_eq (exactArith ℝ) hcell.inst (idx := tup idx)
      (by rw [tup_length, hbl]) (List.ofFn ξ)
    rw [e2, ← e1, hN]
  · refine (HasFDerivAt.fun_sum fun idx _ => (hNG idx ξ).mul_const (X idx i)).congr_fderiv ?_
    simp only [Finset.smul_sum, smul_smul, Finset.sum_smul]
    rw [Finset.sum_comm]
    exact Finset.sum_congr rfl fun a _ => Finset.sum_congr rfl fun idx _ => by rw [mul_comm]
  · rw [jacobian_exact hcell cfg _ (fun idx => G idx ξ) (fun idx => by
      rw [gradient_append _ _ _ _ (by rw [hbl, List.length_ofFn]), hG])]
    rfl

/-- **C49.** For every Lagrange element of any dimension and orders, every nodal coordinates and every
point: `jacobian( t, ξ, J )`, called with a zero matrix, leaves in `J` the derivative at `ξ` of the map
`x(ξ) = Σ_a N_a(ξ) X_a`, where `N_a` is what the interpolated shape's `value< a >` returns.  Coordinates
beyond the dimension are ignored. -/
theorem C49_jacobian_is_derivative (h : IsLagrange order c t.shape) (hs : d * d ≤ 2147483647)
    (hX : HoldsPoints t.data X) :
    ∃ (N : ((k : Fin d) → Fin (order k + 1)) → (Fin d → ℝ) → ℝ)
      (Jm : (Fin d → ℝ) → Matrix (Fin d) (Fin d) ℝ),
      (∀ idx ξ, InterpolatedShape.value (exactArith ℝ) t.shape (tup idx) (List.ofFn ξ) = .ok (N idx ξ)) ∧
      (∀ ξ, IsDerivative (fun ξ i => ∑ idx, N idx ξ * X idx i) (Jm ξ) ξ) ∧
      ∀ cfg ξ extra J, HoldsMatrix J (0 : Matrix (Fin d) (Fin d) ℝ) →
        ∃ J', LinearTransform.jacobian cfg (exactArith ℝ) t (List.ofFn ξ ++ extra) J = .ok J' ∧
          HoldsMatrix J' (Jm ξ) := by
  obtain ⟨N, Jm, h1, h2, h3⟩ := lagrange_jacobian h hs hX
  refine ⟨N, Jm, h1, h2, fun cfg ξ extra J hJ => ⟨matMem (Jm ξ), ?_, (holds_iff h.dims hs).2 rfl⟩⟩
  rw [holds_iff h.dims hs] at hJ
  rw [hJ, h3, zero_add]

/-- The zero matrix the wrappers start from. -/
theorem listInit_zero (hd : 0 < d) (hs : d * d ≤ 2147483647) :
    CArray.listInit ((exactArith ℝ).lit 0) [(d : Int), (d : Int)] [(exactArith ℝ).lit 0]
      = .ok (matMem (0 : Matrix (Fin d) (Fin d) ℝ)) := by
  have hv := validShape_square hd hs
  have hdd : 0 < d * d := Nat.mul_pos hd hd
  have hp : [(d : Int), (d : Int)].prod = ((d * d : ℕ) : Int) := by simp
  simp only [CArray.listInit, size_ok hv.1 hv.2.1 hv.2.2, Res.constexpr_ok, Res.ok_bind, hp]
  rw [staticAssert_bind_true (by exact_mod_cast hdd), staticAssert_bind_true (by simp; omega)]
  have hz : (exactArith ℝ).lit 0 = 0 := by simp [exactArith]
  rw [hz]
  congr 1
  apply List.ext_getElem
  · simp; omega
  · intro k h1 h2
    simp only [matMem, List.getElem_ofFn, List.getElem_append, Matrix.zero_apply]
    split <;> simp

/-- **C49, wrapper.** The same for the matrix returned by `jacobian( t, ξ )`, for elements of up to three
dimensions and arrays of three coordinates. -/
theorem C49_wrapper (h : IsLagrange order c t.shape) (hX : HoldsPoints t.data X) (hd : d ≤ 3)
    (cfg : Config) (ξ : Fin d → ℝ) (extra : List ℝ) (he : d + extra.length = 3) :
    ∃ (N : ((k : Fin d) → Fin (order k + 1)) → (Fin d → ℝ) → ℝ) (M : Matrix (Fin d) (Fin d) ℝ) (J : List ℝ),
      (∀ idx ξ, InterpolatedShape.value (exactArith ℝ) t.shape (tup idx) (List.ofFn ξ) = .ok (N idx ξ)) ∧
      LinearTransform.jacobianValue cfg (exactArith ℝ) t (List.ofFn ξ ++ extra) = .ok J ∧
      HoldsMatrix J M ∧ IsDerivative (fun ξ i => ∑ idx, N idx ξ * X idx i) M ξ := by
  have hs : d * d ≤ 2147483647 := (Nat.mul_le_mul hd hd).trans (by norm_num)
  obtain ⟨N, Jm, h1, h2, h3⟩ := lagrange_jacobian h hs hX
  obtain ⟨b, hb, -, -⟩ := isLagrange_realises h
  have hn : t.numDims = d := by rw [LinearTransform.numDims, hb]; simp [elementOf]
  refine ⟨N, Jm ξ, matMem (Jm ξ), h1, ?_, (holds_iff h.dims hs).2 rfl, h2 ξ⟩
  rw [LinearTransform.jacobianValue, staticAssert_bind_true (by simp [he]), hn, listInit_zero h.dims hs,
    Res.ok_bind, h3, zero_add]

/-- **C50.** In any arithmetic and configuration, for any element of at most three dimensions and any
initial contents of `J`: the quadrature overload finishes exactly when the coordinate overload does at the
point `ξ_k = coordinate< QA_k >()`, with the same contents of `J`. -/
theorem C50_quadrature_overload (cfg : Config) (A : Arith R) {n : Fin d → ℕ} (t : LinearTransform R)
    (b : Fin d → Basis R) (X : ((k : Fin d) → Fin (n k)) → Fin d → R) (hd : 0 < d) (hd3 : d ≤ 3)
    (hb : t.shape.bases = List.ofFn b) (hi : t.shape.instantiate = .ok ())
    (hc : ∀ k, (b k).numSupportPoints = n k) (hX : HoldsPoints t.data X)
    (Q : Spacing R) (qa : Fin d → Int) (ξ : Fin d → R) (hq : ∀ k, Q.coordCT (qa k) = .ok (ξ k))
    (J : List R) (hJ : J.length = d * d) (J' : List R) :
    LinearTransform.jacobianQuadrature cfg A t Q (List.ofFn qa) J = .ok J' ↔
      LinearTransform.jacobian cfg A t (List.ofFn ξ) J = .ok J' := by
  have hcell : Cell t b n X := ⟨hd, (Nat.mul_le_mul hd3 hd3).trans (by norm_num), hb, hi, hc, hX⟩
  have e : sequenceRes ((List.ofFn qa).map fun q => (Q.coordCT q).constexpr) = .ok (List.ofFn ξ) := by
    rw [List.map_ofFn]
    rw [show ((fun q => (Q.coordCT q).constexpr) ∘ qa) = fun k => Res.ok (ξ k) from
      funext fun k => by simp [hq k]]
    rw [List.ofFn_eq_map, sequenceRes_ok, List.ofFn_eq_map]
  rw [LinearTransform.jacobianQuadrature, LinearTransform.quadratureCoords,
    staticAssert_bind_true (by simpa using hd3), e, Res.ok_bind, Res.ok_bind]
  exact jacobian_quadrature_iff hcell cfg A _ (by simp) hJ J'

/-- **C50 for Lagrange elements**, in exact arithmetic: both overloads do finish. -/
theorem C50_quadrature_overload_lagrange (cfg : Config) (h : IsLagrange order c t.shape) (hd3 : d ≤ 3)
    (hX : HoldsPoints t.data X) (Q : Spacing ℝ) (qa : Fin d → Int) (ξ : Fin d → ℝ)
    (hq : ∀ k, Q.coordCT (qa k) = .ok (ξ k)) (J : List ℝ) (hJ : J.length = d * d) :
    ∃ J', LinearTransform.jacobianQuadrature cfg (exactArith ℝ) t Q (List.ofFn qa) J = .ok J' ∧
      LinearTransform.jacobian cfg (exactArith ℝ) t (List.ofFn ξ) J = .ok J' := by
  have hs : d * d ≤ 2147483647 := (Nat.mul_le_mul hd3 hd3).trans (by norm_num)
  obtain ⟨N, Jm, h1, h2, h3⟩ := lagrange_jacobian h hs hX
  obtain ⟨b, hb, hr, -⟩ := isLagrange_realises h
  obtain ⟨M, rfl⟩ := exists_matMem hJ
  have e := h3 cfg ξ [] M
  rw [List.append_nil] at e
  exact ⟨_, (C50_quadrature_overload cfg (exactArith ℝ) t b X h.dims hd3 (by rw [hb]; rfl)
    (by rw [hb]; exact elementOf_instantiate b) (fun k => (hr k).count) hX Q qa ξ hq _ hJ _).2 e, e⟩

/-- **C50, more than three dimensions.** The quadrature overload does not compile. -/
theorem C50_more_than_three (cfg : Config) (A : Arith R) (t : LinearTransform R) (Q : Spacing R)
    (qa : List Int) (h : 3 < qa.length) (J : List R) :
    LinearTransform.jacobianQuadrature cfg A t Q qa J = .illFormed := by
  rw [LinearTransform.jacobianQuadrature, LinearTransform.quadratureCoords,
    staticAssert_bind_false (by omega)]
  rfl

/-- **C51 is violated.** For every Lagrange element, nodal coordinates and point, different initial
contents of `J` lead to different final contents. -/
theorem C51_jacobian_violated (h : IsLagrange order c t.shape) (hs : d * d ≤ 2147483647)
    (hX : HoldsPoints t.data X) (cfg : Config) (ξ : Fin d → ℝ) (J1 J2 : List ℝ)
    (h1 : J1.length = d * d) (h2 : J2.length = d * d) (hne : J1 ≠ J2) :
    ∃ J1' J2', LinearTransform.jacobian cfg (exactArith ℝ) t (List.ofFn ξ) J1 = .ok J1' ∧
      LinearTransform.jacobian cfg (exactArith ℝ) t (List.ofFn ξ) J2 = .ok J2' ∧ J1' ≠ J2' := by
  obtain ⟨N, Jm, -, -, h3⟩ := lagrange_jacobian h hs hX
  obtain ⟨M1, rfl⟩ := exists_matMem h1
  obtain ⟨M2, rfl⟩ := exists_matMem h2
  have e := fun M => h3 cfg ξ [] M
  simp only [List.append_nil] at e
  refine ⟨_, _, e M1, e M2, fun hJ => hne ?_⟩
  have := (holds_iff (R := ℝ) h.dims hs).1 (hJ ▸ (holds_iff h.dims hs).2 rfl : HoldsMatrix (matMem (M1 + Jm ξ)) (M2 + Jm ξ))
  have h5 : M1 + Jm ξ = M2 + Jm ξ := by
    funext i j
    have h6 := read_matMem checkedHost h.dims hs (M1 + Jm ξ) i j
    rw [hJ, read_matMem checkedHost h.dims hs] at h6
    exact (Res.ok.inj h6).symm
  rw [add_right_cancel h5]

/-- **C51, what does hold.** `jacobian` adds the derivative of the map to the initial contents, so that
the final contents depend only on the transform and the point once the initial contents are fixed, as in
the wrappers.  `Scaling` and `UniformScaling` overwrite their output arguments, in any arithmetic: the
results for two initial contents agree.  (Missing, because false: the same for `LinearTransform`.) -/
theorem C51_outputs_partial :
    (∀ {d : ℕ} {order : Fin d → ℕ} {c : (k : Fin d) → Fin (order k + 1) → ℝ} {t : LinearTransform ℝ}
      {X : ((k : Fin d) → Fin (order k + 1)) → Fin d → ℝ}, IsLagrange order c t.shape → d * d ≤ 2147483647 →
      HoldsPoints t.data X → ∀ (cfg : Config) (ξ : Fin d → ℝ), ∃ D : Matrix (Fin d) (Fin d) ℝ,
        ∀ (J : List ℝ) (M : Matrix (Fin d) (Fin d) ℝ), HoldsMatrix J M →
          ∃ J', LinearTransform.jacobian cfg (exactArith ℝ) t (List.ofFn ξ) J = .ok J' ∧
            HoldsMatrix J' (M + D)) ∧
    (∀ (R : Type) (cfg : Config) (A : Arith R) (s : Scaling R) (J1 J2 : List R), s.length.length = 3 →
      J1.length = 3 → J2.length = 3 → (∀ x, A.div (A.lit 2) x = .nonfinite ∨ ∃ q, A.div (A.lit 2) x = .ok q) →
      s.jacobian cfg A J1 = s.jacobian cfg A J2 ∧ s.inverseJacobian cfg A J1 = s.inverseJacobian cfg A J2) ∧
    (∀ (R : Type) (cfg : Config) (A : Arith R) (s : UniformScaling R) (J1 J2 : List R),
      J1.length = 1 → J2.length = 1 →
      s.jacobian cfg A J1 = s.jacobian cfg A J2 ∧ s.inverseJacobian cfg A J1 = s.inverseJacobian cfg A J2) := by
  refine ⟨?_, ?_, ?_⟩
  · intro d order c t X h hs hX cfg ξ
    obtain ⟨N, Jm, -, -, h3⟩ := lagrange_jacobian h hs hX
    refine ⟨Jm ξ, fun J M hJ => ⟨matMem (M + Jm ξ), ?_, (holds_iff h.dims hs).2 rfl⟩⟩
    have e := h3 cfg ξ [] M
    rw [List.append_nil] at e
    rw [(holds_iff h.dims hs).1 hJ, e]
  · intro R cfg A s J1 J2 hl h1 h2 hdiv
    obtain ⟨h, hh⟩ := ofFn_length_eq hl
    refine ⟨by rw [scaling_jacobian cfg A s h hh h1, scaling_jacobian cfg A s h hh h2], ?_⟩
    obtain ⟨r1, a1, a2, a3⟩ := scaling_inverseJacobian cfg A s h hh h1
    obtain ⟨r2, b1, b2, b3⟩ := scaling_inverseJacobian cfg A s h hh h2
    have : r1 = r2 := by
      by_cases hex : ∃ k, A.div (A.lit 2) (h k) = .nonfinite
      · rw [a3 hex fun k => hdiv _, b3 hex fun k => hdiv _]
      · have : ∀ k, ∃ q, A.div (A.lit 2) (h k) = .ok q := fun k =>
          (hdiv (h k)).resolve_left fun hk => hex ⟨k, hk⟩
        choose q hq using this
        rw [a2 q hq, b2 q hq]
    rw [a1, b1, this]
  · intro R cfg A s J1 J2 h1 h2
    refine ⟨by rw [uniform_jacobian cfg A s h1, uniform_jacobian cfg A s h2], ?_⟩
    rw [UniformScaling.inverseJacobian, UniformScaling.inverseJacobian, uniform_inverseEntry cfg A _ h1,
      uniform_inverseEntry cfg A _ h2]

/-! ### C52–C54: inverses, affine cells and boxes -/

section three
variable {order : Fin 3 → ℕ} {c : (k : Fin 3) → Fin (order k + 1) → ℝ} {t : LinearTransform ℝ}
  {X : ((k : Fin 3) → Fin (order k + 1)) → Fin 3 → ℝ}

theorem inverseJacobian_of (cfg : Config) {coord J : List ℝ} (hn : t.numDims = 3)
    {M D : Matrix (Fin 3) (Fin 3) ℝ} (hJ : HoldsMatrix J M)
    (hj : LinearTransform.jacobian cfg (exactArith ℝ) t coord (matMem M) = .ok (matMem D)) :
    ∃ (det : ℝ) (after : Res (List ℝ)),
      LinearTransform.inverseJacobian cfg (exactArith ℝ) t coord J = .ok (det, after) ∧ det = D.det ∧
      (D.det = 0 → after = .nonfinite) ∧
      (D.det ≠ 0 → ∃ m N, after = .ok m ∧ HoldsMatrix m N ∧ N * D = 1 ∧ D * N = 1) := by
  obtain ⟨det, after, h1, h2⟩ := C44_inverse_carray cfg D (matMem D)
    ((holds_iff (by norm_num) (by norm_num)).2 rfl)
  refine ⟨det, after, ?_, h2⟩
  rw [(holds_iff (by norm_num) (by norm_num)).1 hJ, LinearTransform.inverseJacobian, hj, Res.ok_bind,
    LinearTransform.jacobianView, hn, h1]

/-- **C52.** For every three-dimensional Lagrange element, nodal coordinates and point:
`inverseJacobian( t, ξ )` returns the determinant of the matrix returned by `jacobian( t, ξ )` and, if it is
not zero, the two-sided inverse of that matrix; if it is zero, no finite inverse. -/
theorem C52_inverseJacobian (cfg : Config) (h : IsLagrange order c t.shape) (hX : HoldsPoints t.data X)
    (ξ : Fin 3 → ℝ) :
    ∃ (J : List ℝ) (D : Matrix (Fin 3) (Fin 3) ℝ) (det : ℝ) (after : Res (List ℝ)),
      LinearTransform.jacobianValue cfg (exactArith ℝ) t (List.ofFn ξ) = .ok J ∧ HoldsMatrix J D ∧
      LinearTransform.inverseJacobianValue cfg (exactArith ℝ) t (List.ofFn ξ) = .ok (det, after) ∧
      det = D.det ∧ (D.det = 0 → after = .nonfinite) ∧
      (D.det ≠ 0 → ∃ m N, after = .ok m ∧ HoldsMatrix m N ∧ N * D = 1 ∧ D * N = 1) := by
  obtain ⟨N, Jm, -, -, h3⟩ := lagrange_jacobian h (by norm_num) hX
  obtain ⟨b, hb, -, -⟩ := isLagrange_realises h
  have hn : t.numDims = 3 := by rw [LinearTransform.numDims, hb]; simp [elementOf]
  have e := h3 cfg ξ [] 0
  rw [List.append_nil, zero_add] at e
  have hz := listInit_zero (d := 3) (by norm_num) (by norm_num)
  obtain ⟨det, after, h4, h5⟩ := inverseJacobian_of cfg hn
    ((holds_iff (by norm_num) (by norm_num)).2 rfl) e
  refine ⟨matMem (Jm ξ), Jm ξ, det, after, ?_, (holds_iff (by norm_num) (by norm_num)).2 rfl, ?_, h5⟩
  · rw [LinearTransform.jacobianValue, staticAssert_bind_true (by simp), hn]
    exact (congrArg (· >>= _) hz).trans e
  · rw [LinearTransform.inverseJacobianValue, staticAssert_bind_true (by simp), hn]
    exact (congrArg (· >>= _) hz).trans h4

end three

theorem degreeOf_affine (a : Fin d → ℝ) (b : ℝ) (k : Fin d) :
    (∑ j, MvPolynomial.C (a j) * MvPolynomial.X j + MvPolynomial.C b : MvPolynomial (Fin d) ℝ).degreeOf k ≤ 1 := by
  classical
  refine (MvPolynomial.degreeOf_add_le _ _ _).trans (max_le ?_ (by simp))
  refine (MvPolynomial.degreeOf_sum_le _ _ _).trans (Finset.sup_le fun j _ => ?_)
  refine (MvPolynomial.degreeOf_C_mul_le _ _ _).trans ?_
  rw [MvPolynomial.degreeOf_X]
  split <;> omega

/-- Nodal coordinates of an affine image: `jacobian` adds the matrix of the affine map. -/
theorem affine_jacobian (h : IsLagrange order c t.shape) (hs : d * d ≤ 2147483647)
    (ho : ∀ k, 1 ≤ order k) (A : Matrix (Fin d) (Fin d) ℝ) (b : Fin d → ℝ)
    (hX : HoldsPoints t.data (fun (idx : (k : Fin d) → Fin (order k + 1)) i =>
      ∑ j, A i j * c j (idx j) + b i)) (cfg : Config) (ξ : Fin d → ℝ) (extra : List ℝ)
    (M : Matrix (Fin d) (Fin d) ℝ) :
    LinearTransform.jacobian cfg (exactArith ℝ) t (List.ofFn ξ ++ extra) (matMem M) = .ok (matMem (M + A)) := by
  obtain ⟨N, Jm, h1, h2, h3⟩ := lagrange_jacobian h hs hX
  rw [h3]
  suffices e : Jm ξ = A by rw [e]
  have hF : ∀ (ξ : Fin d → ℝ) i, ∑ idx, N idx ξ * (∑ j, A i j * c j (idx j) + b i)
      = ∑ j, A i j * ξ j + b i := by
    intro ξ i
    have hv : ∀ idx : (k : Fin d) → Fin (order k + 1),
        CArray.read checkedHost t.data (CArray.whole ((List.ofFn fun k => ((order k + 1 : ℕ) : Int)) ++ [(d : Int)]))
          (tup idx ++ [((i : ℕ) : Int)]) = .ok (∑ j, A i j * c j (idx j) + b i) := fun idx => hX checkedHost idx i
    have := (C43_polynomial_reproduction h
      (∑ j, MvPolynomial.C (A i j) * MvPolynomial.X j + MvPolynomial.C (b i))
      (fun k => (degreeOf_affine _ _ k).trans (ho k)) (fun l => CArray.read checkedHost t.data
        (CArray.whole ((List.ofFn fun k => ((order k + 1 : ℕ) : Int)) ++ [(d : Int)])) (l ++ [((i : ℕ) : Int)]))
      (fun idx => by rw [hv]; simp) ξ).1
    obtain ⟨bs, hb, hr, -⟩ := isLagrange_realises h
    rw [hb, parent_value h.dims hr ξ _ _ hv] at this
    have h5 := Res.ok.inj this
    have h6 : ∀ idx, N idx ξ = ∏ k, (Lagrange.basis Finset.univ (c k) (idx k)).eval (ξ k) := by
      intro idx
      have h7 := h1 idx ξ
      rw [hb, (basisValue_eq (exactArith ℝ) (elementOf_instantiate bs) (idx := tup idx)
        (by simp [tup_length, elementOf]) (List.ofFn ξ)).2.1] at h7
      have h8 := product_value h.dims hr idx ξ
      rw [show (elementOf bs).bases = List.ofFn bs from rfl, h8] at h7
      exact (Res.ok.inj h7).symm
    simp only [h6]
    rw [h5]
    simp
  funext i j
  have hA : HasFDerivAt (fun ξ : Fin d → ℝ => ∑ j, A i j * ξ j + b i)
      (∑ j, A i j • (ContinuousLinearMap.proj j : (Fin d → ℝ) →L[ℝ] ℝ)) ξ := by
    refine HasFDerivAt.add_const _ (HasFDerivAt.fun_sum fun j _ => ?_)
    exact ((ContinuousLinearMap.proj j : (Fin d → ℝ) →L[ℝ] ℝ).hasFDerivAt (x := ξ)).const_mul (A i j)
  have h4 := h2 ξ i
  simp only [hF] at h4
  have h5 := congrArg (fun L : (Fin d → ℝ) →L[ℝ] ℝ => L (Pi.single j 1)) (h4.unique hA)
  simpa [Pi.single_apply] using h5

/-- **C53.** If the nodal coordinates are the images of the parent nodes under `x = A ξ + b`, and every
direction has order at least one, then at every point `jacobian( t, ξ )` returns `A` and
`inverseJacobian( t, ξ )` returns `det A` and, if it is not zero, the inverse of `A`. -/
theorem C53_affine {order : Fin 3 → ℕ} {c : (k : Fin 3) → Fin (order k + 1) → ℝ} {t : LinearTransform ℝ}
    (h : IsLagrange order c t.shape) (ho : ∀ k, 1 ≤ order k) (A : Matrix (Fin 3) (Fin 3) ℝ) (b : Fin 3 → ℝ)
    (hX : HoldsPoints t.data (fun (idx : (k : Fin 3) → Fin (order k + 1)) i =>
      ∑ j, A i j * c j (idx j) + b i)) (cfg : Config) (ξ : Fin 3 → ℝ) :
    (∃ J, LinearTransform.jacobianValue cfg (exactArith ℝ) t (List.ofFn ξ) = .ok J ∧ HoldsMatrix J A) ∧
    ∃ after, LinearTransform.inverseJacobianValue cfg (exactArith ℝ) t (List.ofFn ξ) = .ok (A.det, after) ∧
      (A.det ≠ 0 → ∃ m, after = .ok m ∧ HoldsMatrix m A⁻¹) ∧ (A.det = 0 → after = .nonfinite) := by
  obtain ⟨J, D, det, after, h1, h2, h3, rfl, h5, h6⟩ := C52_inverseJacobian cfg h hX ξ
  have e := affine_jacobian h (by norm_num) ho A b hX cfg ξ [] 0
  obtain ⟨bs, hb, -, -⟩ := isLagrange_realises h
  have hn : t.numDims = 3 := by rw [LinearTransform.numDims, hb]; simp [elementOf]
  have hz := listInit_zero (d := 3) (by norm_num) (by norm_num)
  have hJ : LinearTransform.jacobianValue cfg (exactArith ℝ) t (List.ofFn ξ) = .ok (matMem A) := by
    rw [LinearTransform.jacobianValue, staticAssert_bind_true (by simp), hn]
    rw [List.append_nil, zero_add] at e
    exact (congrArg (· >>= _) hz).trans e
  have hJA : J = matMem A := Res.ok.inj (h1.symm.trans hJ)
  have hDA : D = A := by
    funext i j
    have := h2.2 checkedHost i j
    rw [hJA, read_matMem checkedHost (by norm_num) (by norm_num)] at this
    exact (Res.ok.inj this).symm
  subst hDA
  refine ⟨⟨J, h1, h2⟩, after, h3, fun hd => ?_, h5⟩
  obtain ⟨m, N, h7, h8, h9, -⟩ := h6 hd
  refine ⟨m, h7, ?_⟩
  rw [Matrix.inv_eq_left_inv h9]
  exact h8

/-- **C53, trilinear cells.** End to end: for bases with the two nodes -1 and 1, after `setData` of the
images of the eight vertices of the parent cube under `x = A ξ + b` (vertex `a + 2 b + 4 c` being the image
of `(±1,±1,±1)`), `jacobian` and `inverseJacobian` return `A`, its determinant and its inverse. -/
theorem C53_trilinear {c : (k : Fin 3) → Fin 2 → ℝ} {t : LinearTransform ℝ}
    (h : IsLagrange (fun _ : Fin 3 => 1) c t.shape) (hc : ∀ k, c k 0 = -1 ∧ c k 1 = 1)
    (hl : t.data.length = 24) (A : Matrix (Fin 3) (Fin 3) ℝ) (b : Fin 3 → ℝ) (coords : Int → Int → Res ℝ)
    (hv : ∀ (idx : Fin 3 → Fin 2) (i : Fin 3), coords ((vertexNumber idx : ℕ) : Int) ((i : ℕ) : Int)
      = .ok (∑ j, A i j * (if idx j = 0 then -1 else 1) + b i)) (cfg : Config) (ξ : Fin 3 → ℝ) :
    ∃ t', LinearTransform.setData cfg t coords = .ok t' ∧
      (∃ J, LinearTransform.jacobianValue cfg (exactArith ℝ) t' (List.ofFn ξ) = .ok J ∧ HoldsMatrix J A) ∧
      ∃ after, LinearTransform.inverseJacobianValue cfg (exactArith ℝ) t' (List.ofFn ξ) = .ok (A.det, after) ∧
        (A.det ≠ 0 → ∃ m, after = .ok m ∧ HoldsMatrix m A⁻¹) ∧ (A.det = 0 → after = .nonfinite) := by
  obtain ⟨bs, hb, hr, -⟩ := isLagrange_realises h
  have hsurj : Function.Surjective vertexNumber := by decide
  choose inv hinv using hsurj
  obtain ⟨t', h1, h2, -, h3, -⟩ := C48_setData cfg t bs (by rw [hb]; rfl)
    (by rw [hb]; exact elementOf_instantiate bs) (fun k => (hr k).count) hl
    (fun v i => ∑ j, A i j * (if inv v j = 0 then -1 else 1) + b i) coords
    (fun v i => by have := hv (inv v) i; rwa [hinv] at this)
  have hinj : Function.Injective vertexNumber := by decide
  refine ⟨t', h1, C53_affine (order := fun _ => 1) (c := c) (by rw [h2]; exact h) (by simp) A b ?_ cfg ξ⟩
  intro cfg' idx i
  refine (h3 cfg' idx i).trans ?_
  have h4 : inv (vertexNumber idx) = idx := hinj (hinv _)
  simp only [h4]
  congr 2
  refine Finset.sum_congr rfl fun j _ => ?_
  have h01 : idx j = 0 ∨ idx j = 1 := by
    have : ∀ x : Fin 2, x = 0 ∨ x = 1 := by decide
    exact this _
  rcases h01 with e | e
  · rw [e]; simp [(hc j).1]
  · rw [e]; simp [(hc j).2]

/-- **C54.** On a box with sides `h` and centre `o` (nodes are the images of the parent nodes under
`x_k = h_k ξ_k / 2 + o_k`), at every point: the matrix from `jacobian` of a `LinearTransform` is diagonal
with `jacobian` of a `Scaling` with lengths `h` on its diagonal; `detJ` is the same number; and if no side
is zero, the inverse is diagonal with `invJ` of the `Scaling` on its diagonal.  If all sides are equal,
the three diagonal entries are those of a `UniformScaling`. -/
theorem C54_boxes {order : Fin 3 → ℕ} {c : (k : Fin 3) → Fin (order k + 1) → ℝ} {t : LinearTransform ℝ}
    (hL : IsLagrange order c t.shape) (ho : ∀ k, 1 ≤ order k) (h o : Fin 3 → ℝ)
    (hX : HoldsPoints t.data (fun (idx : (k : Fin 3) → Fin (order k + 1)) i => h i * c i (idx i) / 2 + o i))
    (s : Scaling ℝ) (hs : s.getData = List.ofFn h) (cfg : Config) (ξ : Fin 3 → ℝ)
    (J3 : List ℝ) (hJ3 : J3.length = 3) :
    ∃ (J : List ℝ) (j : Fin 3 → ℝ) (det : ℝ) (after after3 : Res (List ℝ)),
      LinearTransform.jacobianValue cfg (exactArith ℝ) t (List.ofFn ξ) = .ok J ∧
      s.jacobian cfg (exactArith ℝ) J3 = .ok (List.ofFn j) ∧ HoldsMatrix J (Matrix.diagonal j) ∧
      LinearTransform.inverseJacobianValue cfg (exactArith ℝ) t (List.ofFn ξ) = .ok (det, after) ∧
      s.inverseJacobian cfg (exactArith ℝ) J3 = .ok (det, after3) ∧
      ((∀ k, h k ≠ 0) → ∃ (m : List ℝ) (q : Fin 3 → ℝ), after = .ok m ∧ after3 = .ok (List.ofFn q) ∧
        HoldsMatrix m (Matrix.diagonal q)) ∧
      ∀ (u : UniformScaling ℝ) (J1 : List ℝ), J1.length = 1 → (∀ k, h k = u.getData) →
        (∀ k, u.jacobian cfg (exactArith ℝ) J1 = .ok [j k]) ∧
        (u.inverseJacobian cfg (exactArith ℝ) J1).1 = det ∧
        (u.getData ≠ 0 → ∃ q, (u.inverseJacobian cfg (exactArith ℝ) J1).2 = .ok [q] ∧
          ∃ m, after = .ok m ∧ HoldsMatrix m (q • (1 : Matrix (Fin 3) (Fin 3) ℝ))) := by
  have hX' : HoldsPoints t.data (fun (idx : (k : Fin 3) → Fin (order k + 1)) i =>
      ∑ j, Matrix.diagonal (fun k => h k / 2) i j * c j (idx j) + o i) := by
    intro cfg' idx i
    have e : ∑ j, (Matrix.diagonal (fun k => h k / 2) : Matrix (Fin 3) (Fin 3) ℝ) i j * c j (idx j)
        = h i * c i (idx i) / 2 := by
      rw [Finset.sum_eq_single i (fun a _ ha => by rw [Matrix.diagonal_apply_ne' _ ha, zero_mul]) (by simp),
        Matrix.diagonal_apply_eq]
      ring
    simp only [e]
    exact hX cfg' idx i
  obtain ⟨⟨J, h1, h2⟩, after, h3, h4, -⟩ := C53_affine hL ho _ o hX' cfg ξ
  obtain ⟨j, h5, -, h6, -⟩ := C46_jacobian cfg s h hs J3 hJ3
  obtain ⟨det, after3, h7, -, rfl, h8, -⟩ := C46_inverseJacobian cfg s h hs J3 hJ3
  have hj : j = fun k => h k / 2 := funext h6
  have hnz : (∀ k, h k ≠ 0) → (Matrix.diagonal fun k => h k / 2).det ≠ 0 := by
    intro h0
    rw [Matrix.det_diagonal]
    exact Finset.prod_ne_zero_iff.2 fun k _ => div_ne_zero (h0 k) (by norm_num)
  have hinv : (∀ k, h k ≠ 0) → ∃ (m : List ℝ) (q : Fin 3 → ℝ), after = .ok m ∧ after3 = .ok (List.ofFn q) ∧
      HoldsMatrix m (Matrix.diagonal q) ∧ ∀ k, q k * (h k / 2) = 1 := by
    intro h0
    obtain ⟨m, e1, e2⟩ := h4 (hnz h0)
    obtain ⟨q, e3, e5, e4, -⟩ := h8 h0
    rw [Matrix.inv_eq_left_inv e4] at e2
    exact ⟨m, q, e1, e3, e2, e5⟩
  refine ⟨J, j, _, after, after3, h1, h5, hj ▸ h2, h3, h7, fun h0 => ?_, fun u J1 hJ1 hu => ?_⟩
  · obtain ⟨m, q, e1, e2, e3, -⟩ := hinv h0
    exact ⟨m, q, e1, e2, e3⟩
  · obtain ⟨u1, -, -, u2, u3, -⟩ := C47_jacobian_and_inverse cfg u J1 hJ1
    refine ⟨fun k => by rw [u1, h6 k, hu k], ?_, fun hu0 => ?_⟩
    · rw [u2]
      congr 1
      rw [← Matrix.diagonal_one, ← Matrix.diagonal_smul]
      congr 1
      funext k
      simp [hu k]
    · obtain ⟨q, e1, e2⟩ := u3 hu0
      obtain ⟨m, q3, e3, -, e4, e5⟩ := hinv fun k => by rw [hu k]; exact hu0
      refine ⟨q, e1, m, e3, ?_⟩
      rw [← Matrix.diagonal_one, ← Matrix.diagonal_smul]
      have : q3 = q • (1 : Fin 3 → ℝ) := by
        funext k
        have h9 := e5 k
        rw [hu k] at h9
        have : u.getData / 2 ≠ 0 := div_ne_zero hu0 (by norm_num)
        have := mul_right_cancel₀ this (h9.trans e2.symm)
        simpa using this
      exact this ▸ e4

/-! ### C55: two dimensions -/

/-- Applying `inverse` to a 2x2 CArray aborts in a checked host build, and is undefined otherwise. -/
theorem inverse_two (cfg : Config) (A : Arith R) (m : List R) (hm : m.length = 4) :
    MathUtilities.inverse A (MathUtilities.carray cfg (CArray.whole [2, 2])) m
      = if cfg = checkedHost then .abort else .ub := by
  match m, hm with
  | [_, _, _, _], _ =>
    rcases cfg with ⟨_ | _, _ | _, _ | _⟩ <;> rfl

/-- **C55 is violated.** For every two-dimensional Lagrange element, nodal coordinates, point and initial
contents, `inverseJacobian` aborts in a host build with bounds checking and has undefined behaviour in
every other configuration. -/
theorem C55_inverseJacobian_2d_violated {order : Fin 2 → ℕ} {c : (k : Fin 2) → Fin (order k + 1) → ℝ}
    {t : LinearTransform ℝ} {X : ((k : Fin 2) → Fin (order k + 1)) → Fin 2 → ℝ}
    (h : IsLagrange order c t.shape) (hX : HoldsPoints t.data X) (cfg : Config) (ξ : Fin 2 → ℝ)
    (extra J : List ℝ) (hJ : J.length = 4) :
    LinearTransform.inverseJacobian cfg (exactArith ℝ) t (List.ofFn ξ ++ extra) J
      = if cfg = checkedHost then .abort else .ub := by
  obtain ⟨N, Jm, -, -, h3⟩ := lagrange_jacobian h (by norm_num) hX
  obtain ⟨b, hb, -, -⟩ := isLagrange_realises h
  have hn : t.numDims = 2 := by rw [LinearTransform.numDims, hb]; simp [elementOf]
  obtain ⟨M, rfl⟩ := exists_matMem (d := 2) hJ
  rw [LinearTransform.inverseJacobian, h3, Res.ok_bind, LinearTransform.jacobianView, hn]
  exact inverse_two cfg (exactArith ℝ) _ (matMem_length _)

/-- **C55, what does hold.** `jacobian` of a two-dimensional transform does stay within its matrix, in
every configuration: it finishes, and leaves four elements.  (Missing, because false: the same for
`inverseJacobian`.) -/
theorem C55_jacobian_2d_partial {order : Fin 2 → ℕ} {c : (k : Fin 2) → Fin (order k + 1) → ℝ}
    {t : LinearTransform ℝ} {X : ((k : Fin 2) → Fin (order k + 1)) → Fin 2 → ℝ}
    (h : IsLagrange order c t.shape) (hX : HoldsPoints t.data X) (cfg : Config) (ξ : Fin 2 → ℝ)
    (extra J : List ℝ) (hJ : J.length = 4) :
    ∃ J', LinearTransform.jacobian cfg (exactArith ℝ) t (List.ofFn ξ ++ extra) J = .ok J' ∧
      J'.length = 4 := by
  obtain ⟨N, Jm, -, -, h3⟩ := lagrange_jacobian h (by norm_num) hX
  obtain ⟨M, rfl⟩ := exists_matMem (d := 2) hJ
  exact ⟨_, h3 cfg ξ extra M, matMem_length _⟩

/-! ### Non-vacuity -/

/-- The hypotheses of C49–C54 over the reals: a trilinear element with nodes -1 and 1, before and after
`setData` of the vertices of a sheared box. -/
example : ∃ (c : (k : Fin 3) → Fin 2 → ℝ) (t t' : LinearTransform ℝ),
    IsLagrange (fun _ : Fin 3 => 1) c t.shape ∧ (∀ k, c k 0 = -1 ∧ c k 1 = 1) ∧ t.data.length = 24 ∧
    LinearTransform.setData checkedHost t (fun r i => .ok (10 * r + i : Int)) = .ok t' ∧
    t'.shape = t.shape ∧
    HoldsPoints t'.data (fun (idx : Fin 3 → Fin 2) i => ((10 * (vertexNumber idx : ℕ) + (i : ℕ) : ℕ) : ℝ)) := by
  obtain ⟨b, hb, -⟩ := (C36_compiles_iff_supported .gaussLobatto 1 ⟨by norm_num, by norm_num⟩).1
    ⟨by norm_num, by norm_num⟩
  have h : IsLagrange (fun _ : Fin 3 => 1) (fun _ => ![-1, 1]) ⟨.ok 3, List.ofFn fun _ : Fin 3 => b⟩ := by
    refine ⟨by norm_num, rfl, fun _ => b, rfl, fun k => ⟨by norm_num, gaussLobattoSpacing (exactArith ℝ), ⟨?_, ?_⟩, hb⟩⟩
    · intro _ i
      fin_cases i
      · show Res.ok _ = _
        simp [exactArith]
      · show Res.ok _ = _
        norm_num [exactArith]
    · intro i j hij
      fin_cases i <;> fin_cases j <;> first | rfl | (simp at hij; norm_num at hij)
  obtain ⟨bs, hbs, hr, -⟩ := isLagrange_realises h
  obtain ⟨t', h1, h2, -, h3, -⟩ := C48_setData checkedHost
    ⟨⟨.ok 3, List.ofFn fun _ : Fin 3 => b⟩, List.replicate 24 0⟩ bs (by rw [hbs]; rfl)
    (by rw [hbs]; exact elementOf_instantiate bs) (fun k => (hr k).count) (by simp)
    (fun v i => ((10 * (v : ℕ) + (i : ℕ) : ℕ) : ℝ)) (fun r i => .ok (10 * r + i : Int))
    (fun v i => by push_cast; rfl)
  exact ⟨_, _, t', h, fun k => ⟨rfl, rfl⟩, by simp, h1, h2, h3⟩

/-- A transform over `d` equal bases of an order, with given data. -/
private def sampleTransform (d order : Nat) (data : List ℚ) : Res (LinearTransform ℚ) := do
  let b ← lagrangeBasis ratArith (gaussLobattoSpacing ratArith) order
  .ok ⟨⟨ShapeArgs.numDims ⟨d, -1, 1, 1⟩, List.replicate d b⟩, data⟩

/-- Vertices of a sheared and shifted hexahedron, one of them displaced. -/
private def sampleVertices (r i : Int) : Res ℚ := do
  let row ← tableAt [[0, 0, 0], [2, 0, 0], [1, 4, 0], [3, 4, 0], [0, 0, 6], [2, 0, 6], [1, 4, 6], [3, 5, 7]] r
  tableAt row i

/-- C48–C52: `setData`, both `jacobian` overloads and `inverseJacobian` for a trilinear cell. -/
example :
    (do
      let t ← sampleTransform 3 1 (List.replicate 24 9)
      let t ← LinearTransform.setData checkedHost t sampleVertices
      let J ← LinearTransform.jacobianValue checkedHost ratArith t [0, -1, 1 / 2]
      .ok (t.data.take 6, J))
      = .ok ([0, 0, 0, 0, 0, 6], [1, 1 / 2, 0, 0, 35 / 16, 0, 0, 3 / 16, 3]) := by
  decide +kernel

/-- C52: the inverse of a Jacobian. -/
example :
    (do
      let t ← sampleTransform 3 1 (List.replicate 24 9)
      let t ← LinearTransform.setData checkedHost t sampleVertices
      LinearTransform.inverseJacobianValue checkedHost ratArith t [-1, -1, -1])
      = .ok (6, .ok [1, -1 / 4, 0, 0, 1 / 2, 0, 0, 0, 1 / 3]) := by
  decide +kernel

/-- C50: a quadrature point. -/
example :
    (do
      let t ← sampleTransform 3 1 (List.replicate 24 9)
      let t ← LinearTransform.setData checkedHost t sampleVertices
      LinearTransform.jacobianQuadrature checkedHost ratArith t (gaussLobattoSpacing ratArith 3) [0, 1, 2]
        (List.replicate 9 1))
      = (do
      let t ← sampleTransform 3 1 (List.replicate 24 9)
      let t ← LinearTransform.setData checkedHost t sampleVertices
      LinearTransform.jacobian checkedHost ratArith t [-1, 0, 1] (List.replicate 9 1)) := by
  decide +kernel

/-- C56: a triquadratic element gets the same row twice. -/
example :
    (do
      let t ← sampleTransform 3 2 (List.replicate 81 9)
      let t ← LinearTransform.setData checkedHost t (fun r i => .ok (10 * r + i : Int))
      let x ← CArray.read checkedHost t.data t.dataView [2, 0, 0, 1]
      let y ← CArray.read checkedHost t.data t.dataView [0, 1, 0, 1]
      .ok (x, y)) = .ok (21, 21) := by
  decide +kernel

/-- C56: a triquadratic element set from an array of 8 rows reads outside it; 15 rows suffice. -/
example :
    (do
      let t ← sampleTransform 3 2 (List.replicate 81 9)
      let _ ← LinearTransform.setData checkedHost t (builtinRows 8 fun r i => (10 * r + i : Nat))
      .ok ()) = .ub ∧
    (do
      let t ← sampleTransform 3 2 (List.replicate 81 9)
      let _ ← LinearTransform.setData checkedHost t (builtinRows 15 fun r i => (10 * r + i : Nat))
      .ok ()) = .ok () := by
  decide +kernel

/-- C55: a square. -/
example :
    (do
      let t ← sampleTransform 2 1 [0, 0, 0, 1, 1, 0, 1, 1]
      LinearTransform.inverseJacobianValue checkedHost ratArith t [0, 0, 0]) = .abort ∧
    (do
      let t ← sampleTransform 2 1 [0, 0, 0, 1, 1, 0, 1, 1]
      LinearTransform.inverseJacobianValue uncheckedHost ratArith t [0, 0, 0]) = .ub ∧
    (do
      let t ← sampleTransform 2 1 [0, 0, 0, 1, 1, 0, 1, 1]
      LinearTransform.jacobianValue checkedHost ratArith t [0, 0, 0]) = .ok [1 / 2, 0, 0, 1 / 2] := by
  decide +kernel

end Verif.Props
