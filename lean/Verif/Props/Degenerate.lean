import Verif.Lemmas.Degenerate
import Verif.Lemmas.FlatKnown
import Verif.Props.NonFinite
import Verif.Props.ValidCells
import Verif.Props.ConstantFloat
import Verif.Props.Dyadic

/-!
# Property C145: cells without volume are recognised

For a matrix with dependent rows or columns, and for a cell that is flat or collapsed, the determinant is exactly zero and there is no inverse, also in `float` and
`double`.  This is so for some kinds of dependence, and is not for others.
-/

namespace Verif.Props

open Verif.Spec Verif.Lemmas Verif.MathUtilities

private theorem one_datum (T : RealType) : ((floatArith T.format).lit 1).datum = .finite 1 := by
  rw [lit_one_exact (by cases T <;> decide) (by cases T <;> decide)]
  rfl

private theorem dependent_zero {F : FloatFormat} {N : Matrix (Fin 3) (Fin 3) Flt} (h : DependentRows N ∨ DependentColumns N) :
    ZeroIfFinite (expansion F N) := by
  rcases h with (h | ⟨i, h⟩) | (h | h | ⟨k, h⟩)
  · exact expansion_rows (.inl h)
  · exact expansion_rows (.inr ⟨i, fun k => vanish_datum (h k)⟩)
  · exact expansion_columns (.inl h)
  · exact expansion_columns (.inr (.inl h))
  · exact expansion_columns (.inr (.inr ⟨k, fun i => vanish_datum (h i)⟩))

theorem inverse_carray_of_native {F : FloatFormat} {N : Matrix (Fin 3) (Fin 3) Flt} {det : Flt} {after : Res (List Flt)} (cfg : Config)
    (h : inverseNative (floatArith F) (matMem N) = .ok (det, after)) :
    inverse (floatArith F) (carray cfg (CArray.whole [3, 3])) (matMem N) = .ok (det, after) := by
  have e := inverse_carray cfg (floatArith F) [] [] (m := matMem N) (matMem_length _)
  rw [h] at e
  have hid : ∀ r : Res (List Flt), (fun l => l) <$> r = r := fun r => by cases r <;> rfl
  simp only [List.nil_append, List.append_nil, hid] at e
  exact e

/-- **C145, built-in arrays, partial.** In `float` and in `double`: for a matrix with two equal or opposite rows, whose last two columns are equal or opposite, or with a
row or column of zeros, `inverse( m, det )` leaves zero in `det`, and no finite inverse, unless infinities or NaN occurred. -/
theorem C145_inverse_partial (T : RealType) (N : Matrix (Fin 3) (Fin 3) Flt) (m : List Flt) (hm : HoldsNative m N) (h : DependentRows N ∨ DependentColumns N) :
    ∃ det after, inverseNative (floatArith T.format) m = .ok (det, after) ∧ NoVolume det after := by
  have hm := holdsNative_iff.1 hm
  subst hm
  exact inverse_degenerate (dependent_zero h) (one_datum T)

/-- **C145, `CArrayNd`, partial.** The same for a `CArrayNd< REAL_TYPE, 3, 3 >`. -/
theorem C145_inverse_carray_partial (cfg : Config) (T : RealType) (N : Matrix (Fin 3) (Fin 3) Flt) (m : List Flt) (hm : HoldsMatrix m N)
    (h : DependentRows N ∨ DependentColumns N) :
    ∃ det after, inverse (floatArith T.format) (carray cfg (CArray.whole [3, 3])) m = .ok (det, after) ∧ NoVolume det after := by
  have hm := (holds_iff (by norm_num) (by norm_num)).1 hm
  subst hm
  obtain ⟨det, after, h1, h2⟩ := inverse_degenerate (dependent_zero h) (one_datum T)
  exact ⟨det, after, inverse_carray_of_native cfg h1, h2⟩

/-- **C145, numbers of moderate size.** If the entries are numbers of magnitude at most `C`, with `C³` at most `2^120`, nothing infinite occurs: `det` is zero. -/
theorem C145_moderate_partial (T : RealType) (M : Matrix (Fin 3) (Fin 3) ℝ) (m : List Flt) (hm : HoldsNative m (M.map Flt.ofReal)) {C : ℝ} (hC1 : 1 ≤ C)
    (hC : C ^ 3 ≤ 2 ^ 120) (hM : ∀ i j, |M i j| ≤ C) (h : DependentRows (M.map Flt.ofReal) ∨ DependentColumns (M.map Flt.ofReal)) :
    ∃ det, inverseNative (floatArith T.format) m = .ok (det, .nonfinite) ∧ det.datum = .finite 0 := by
  have hC2 : C ^ 2 * 1 ≤ 2 ^ 120 := by
    have : C ^ 2 ≤ C ^ 3 := pow_le_pow_right₀ hC1 (by norm_num)
    linarith
  obtain ⟨det, after, h1, h2⟩ := C145_inverse_partial T _ m hm h
  obtain ⟨det', after', h1', ⟨δ, h3, -⟩, -⟩ := C101_inverse T M m hm hC1 hC hM le_rfl hC2
  rw [h1] at h1'
  cases h1'
  obtain ⟨rfl, rfl⟩ := h2 δ h3
  exact ⟨det, h1, h3⟩

section cells
variable {T : RealType} {d : ℕ} {order : Fin d → ℕ} {c : (k : Fin d) → Fin (order k + 1) → ℝ} {t : LinearTransform Flt}
  {X : ((k : Fin d) → Fin (order k + 1)) → Fin d → Flt}

/-- The Jacobian and the gradients of the coordinates, as sums. -/
theorem C145_sums (h : IsShippedIn T order c t.shape) (hd : d ≤ 3) (hX : HoldsPoints t.data X) (cfg : Config) (ξ : Fin d → Flt) (extra : List Flt)
    (he : d + extra.length = 3) :
    t.numDims = d ∧ ∃ (v : ((k : Fin d) → Fin (order k + 1)) → Fin d → Flt) (L : List ((k : Fin d) → Fin (order k + 1))),
      LinearTransform.jacobianValue cfg (floatArith T.format) t (List.ofFn ξ ++ extra) = .ok (matMem (Matrix.of fun i j =>
        L.foldl (fun a idx => Flt.add T.format a (Flt.mul T.format (v idx j) (X idx i))) ((floatArith T.format).lit 0))) ∧
      ∀ (var : List Int → Res Flt) (i : Fin d), (∀ idx, var (tup idx) = .ok (X idx i)) →
        ParentElement.gradient (floatArith T.format) t.shape (List.ofFn ξ) var = .ok (List.ofFn fun j =>
          L.foldl (fun a idx => Flt.add T.format a (Flt.mul T.format (v idx j) (X idx i))) ((floatArith T.format).lit 0)) := by
  obtain ⟨b, hb0, hc, hb, -⟩ := shipped_any h
  choose v hv using fun idx => (shipped_products h hd ξ hb0 hb idx).2
  obtain ⟨L, hL, hnd, hall⟩ := box_list fun k => order k + 1
  have hs : d * d ≤ 2147483647 := (Nat.mul_le_mul hd hd).trans (by norm_num)
  have hcell : Cell t b (fun k => order k + 1) X :=
    ⟨h.dims, hs, by rw [hb0]; rfl, by rw [hb0]; exact elementOf_instantiate b, hc, hX⟩
  have hbl : t.shape.bases.length = d := by simp [hcell.bases]
  have hg : ∀ idx, InterpolatedShape.gradient (floatArith T.format) t.shape (tup idx) (List.ofFn ξ ++ extra) = .ok (List.ofFn (v idx)) := fun idx => by
    rw [gradient_append _ _ _ _ (by rw [hbl, List.length_ofFn]),
      (basisValue_eq _ hcell.inst (by rw [tup_length, hbl]) _).2.2.2, hcell.bases, hv]
  refine ⟨hcell.numDims, v, L, ?_, fun var i hvar => ?_⟩
  · rw [LinearTransform.jacobianValue, staticAssert_bind_true (by simp [he]), hcell.numDims, listInit_zero_float h.dims hs, Res.ok_bind,
      LinearTransform.jacobian, supportLoop_eq hcell hL]
    exact runCalls_folds (mk := fun r : Fin d × Fin d → Flt => matMem (fun i j => r (i, j)))
      (body := fun idx => LinearTransform.jacobianBody cfg (floatArith T.format) t (List.ofFn ξ ++ extra) (tup idx))
      (f := fun idx ij a => Flt.add T.format a (Flt.mul T.format (v idx ij.2) (X idx ij.1)))
      (fun idx M => jacobianBody_ok hcell cfg (floatArith T.format) _ idx (hg idx) fun i j => M (i, j)) L fun _ => (floatArith T.format).lit 0
  · have hz : List.replicate d ((floatArith T.format).lit 0) = List.ofFn (fun _ : Fin d => (floatArith T.format).lit 0) := by
      rw [List.ofFn_const]
    rw [hb0, ParentElement.gradient, elementOf_instantiate, Res.ok_bind]
    rw [show (elementOf b).bases = List.ofFn b from rfl, forNested_box h.dims hc hL, List.length_ofFn, hz]
    refine runCalls_folds (mk := fun r : Fin d → Flt => List.ofFn r)
      (body := fun idx => ParentElement.gradientBody (floatArith T.format) (elementOf b) (List.ofFn ξ) var (tup idx))
      (f := fun idx j a => Flt.add T.format a (Flt.mul T.format (v idx j) (X idx i))) (fun idx r => ?_) L fun _ => (floatArith T.format).lit 0
    rw [ParentElement.gradientBody, (basisValue_eq _ (elementOf_instantiate b)
        (by simp [tup_length, elementOf]) _).2.2.1, show (elementOf b).bases = List.ofFn b from rfl,
        hv, Res.ok_bind, List.length_ofFn, forSequence_eq (by omega),
        upTo_ofFn, List.ofFn_eq_map, runCalls_map,
        Valued.gradientInner_loop _ _ _ _ (hvar idx) (List.nodup_finRange d)]
    congr 2
    funext k
    simp
    rfl

/-- **C145, Jacobians.** Row `i` of the Jacobian is the gradient of coordinate `i`, bit for bit, as `gradient` of the shape function computes it. -/
theorem C145_rows (h : IsShippedIn T order c t.shape) (hd : d ≤ 3) (hX : HoldsPoints t.data X) (cfg : Config) (ξ : Fin d → Flt) (extra : List Flt)
    (he : d + extra.length = 3) : ∃ (mem : List Flt) (J : Matrix (Fin d) (Fin d) Flt),
      LinearTransform.jacobianValue cfg (floatArith T.format) t (List.ofFn ξ ++ extra) = .ok mem ∧ HoldsMatrix mem J ∧
      ∀ (i : Fin d) (var : List Int → Res Flt), (∀ idx, var (tup idx) = .ok (X idx i)) →
        ParentElement.gradient (floatArith T.format) t.shape (List.ofFn ξ) var = .ok (List.ofFn fun j => J i j) := by
  have hs : d * d ≤ 2147483647 := (Nat.mul_le_mul hd hd).trans (by norm_num)
  obtain ⟨-, v, L, h1, h2⟩ := C145_sums h hd hX cfg ξ extra he
  exact ⟨_, _, h1, (holds_iff h.dims hs).2 rfl, fun i var hvar => h2 var i hvar⟩

end cells

section solids
variable {T : RealType} {order : Fin 3 → ℕ} {c : (k : Fin 3) → Fin (order k + 1) → ℝ} {t : LinearTransform Flt}
  {X : ((k : Fin 3) → Fin (order k + 1)) → Fin 3 → Flt}

private theorem inverse_of {cfg : Config} {ξ : Fin 3 → Flt} {J : Matrix (Fin 3) (Fin 3) Flt} (hn : t.numDims = 3)
    (h : LinearTransform.jacobianValue cfg (floatArith T.format) t (List.ofFn ξ) = .ok (matMem J)) (hz : ZeroIfFinite (expansion T.format J)) :
    ∃ det after, LinearTransform.inverseJacobianValue cfg (floatArith T.format) t (List.ofFn ξ) = .ok (det, after) ∧ NoVolume det after := by
  obtain ⟨det, after, h1, h2⟩ := inverse_degenerate hz (one_datum T)
  refine ⟨det, after, ?_, h2⟩
  rw [LinearTransform.jacobianValue, staticAssert_bind_true (by simp)] at h
  rw [LinearTransform.inverseJacobianValue, staticAssert_bind_true (by simp)]
  obtain ⟨J0, k1, k2⟩ := Res.bind_eq_ok.1 h
  rw [k1, Res.ok_bind, LinearTransform.inverseJacobian, k2, Res.ok_bind, LinearTransform.jacobianView, hn]
  exact inverse_carray_of_native cfg h1

private theorem fold_neg {ι : Type} {F : FloatFormat} {g x y : ι → Flt} (h : ∀ i, x i = (y i).neg) : ∀ (L : List ι) (a b : Flt), a = b.neg →
    L.foldl (fun a i => Flt.add F a (Flt.mul F (g i) (x i))) a = (L.foldl (fun a i => Flt.add F a (Flt.mul F (g i) (y i))) b).neg
  | [], _, _, h' => h'
  | i :: L, a, b, h' => fold_neg h L _ _ (by beta_reduce; rw [h', h, mul_neg_right, add_neg_neg])

private theorem fold_zero {ι : Type} {F : FloatFormat} {g x : ι → Flt} (h : ∀ i, ZeroIfFinite (x i)) : ∀ (L : List ι) (a : Flt), ZeroIfFinite a →
    ZeroIfFinite (L.foldl (fun a i => Flt.add F a (Flt.mul F (g i) (x i))) a)
  | [], _, h' => h'
  | i :: L, _, h' => fold_zero h L _ (vanish_add h' (vanish_mul_right (h i)))

private theorem lit_zero_flt (F : FloatFormat) : (floatArith F).lit 0 = Flt.ofReal 0 := by
  show Flt.round F false ((0 : ℚ) : ℝ) = _
  rw [Rat.cast_zero, round_held (represents_zero F)]
  rfl

/-- **C145, flat cells, partial.** For a cell in a plane through the origin, for whose vertices two coordinates are equal or opposite or one is zero, with any shipped
shape functions, the determinant is zero at every point, and there is no inverse, unless infinities or NaN occurred. -/
theorem C145_flat_partial (h : IsShippedIn T order c t.shape) (hX : HoldsPoints t.data X) (hf : FlatThroughOrigin X) (cfg : Config) (ξ : Fin 3 → Flt) :
    ∃ det after, LinearTransform.inverseJacobianValue cfg (floatArith T.format) t (List.ofFn ξ) = .ok (det, after) ∧ NoVolume det after := by
  obtain ⟨hn, v, L, h1, -⟩ := C145_sums h le_rfl hX cfg ξ [] rfl
  rw [List.append_nil] at h1
  refine inverse_of hn h1 (expansion_rows ?_)
  rcases hf with ⟨i, j, hij, hf | hf⟩ | ⟨i, hf⟩
  · exact .inl ⟨i, j, hij, .inl fun k => by simp only [Matrix.of_apply, hf]⟩
  · refine .inl ⟨i, j, hij, .inr fun k => fold_neg hf L _ _ ?_⟩
    rw [lit_zero_flt, Flt.ofReal, Flt.neg]
    simp
  · exact .inr ⟨i, fun k => fold_zero (fun idx => vanish_datum (hf idx)) L _ (by rw [lit_zero_flt]; exact vanish_datum rfl)⟩

/-- **C145, collapsed cells, partial.** If the last direction has a shape function of order 1 and opposite faces in this direction coincide, the determinant is zero at every
point, and there is no inverse, unless infinities or NaN occurred. -/
theorem C145_collapsed_partial (h : IsShippedIn T order c t.shape) (h1 : order 2 = 1) (hX : HoldsPoints t.data X)
    (hf : ∀ idx (j : Fin (order 2 + 1)), X (Function.update idx 2 j) = X idx) (cfg : Config) (ξ : Fin 3 → Flt) :
    ∃ det after, LinearTransform.inverseJacobianValue cfg (floatArith T.format) t (List.ofFn ξ) = .ok (det, after) ∧ NoVolume det after := by
  classical
  obtain ⟨hn, v, L, h2, h3⟩ := C145_sums h le_rfl hX cfg ξ [] rfl
  rw [List.append_nil] at h2
  refine inverse_of hn h2 (expansion_columns (.inr (.inr ⟨2, fun i => fun y hy => ?_⟩)))
  obtain ⟨var, hvar⟩ : ∃ var : List Int → Res Flt, ∀ idx : (k : Fin 3) → Fin (order k + 1), var (tup idx) = .ok (X idx i) := by
    refine ⟨fun l => if h : ∃ idx : (k : Fin 3) → Fin (order k + 1), tup idx = l then .ok (X h.choose i) else .ub, fun idx => ?_⟩
    have hex : ∃ j : (k : Fin 3) → Fin (order k + 1), tup j = tup idx := ⟨idx, rfl⟩
    exact (dif_pos hex).trans (by rw [tup_injective hex.choose_spec])
  exact C130_partial (d := 2) h h1 (var := var) (fun idx => ⟨_, hvar idx⟩) (fun idx j => by rw [hvar, hvar]; exact congrArg (fun z => Res.ok (z i)) (hf idx j)) ξ
    (h3 var i hvar) hy

end solids

/-- **C145, matrices, violated.** If the first column is equal to the second or to the third one, the determinant need not be zero: there are matrices of positive
numbers of the type with column `k` equal to column 0 for which `inverse` leaves a finite number other than zero in `det`. -/
theorem C145_violated (T : RealType) (k : Fin 3) (hk : k ≠ 0) : ∃ M : Matrix (Fin 3) (Fin 3) ℝ, (∀ i j, Represents T.format (M i j)) ∧ (∀ i, M i k = M i 0) ∧
    ∃ (δ : ℝ) (after : Res (List Flt)), inverseNative (floatArith T.format) (matMem (M.map Flt.ofReal)) = .ok (Flt.ofReal δ, after) ∧ δ ≠ 0 := by
  obtain ⟨δ, after, h1, h2⟩ := repeated_det T hk
  refine ⟨(repeated T k).map fun q : ℚ => (q : ℝ), repeated_represented T k, fun i => ?_, δ, after, h2, h1⟩
  simp [repeated]

/-- **C145, cells, violated.** A plate without thickness, that is the square with corners `(±1, ±1, z)` taken twice, as lower and as upper face of a cell, has a finite
determinant other than zero at its centre, for a number `z` of the type. -/
theorem C145_plate_violated (T : RealType) : ∃ (t : LinearTransform Flt) (z : ℝ), IsShippedIn T (fun _ : Fin 3 => 1) (fun _ => ![-1, 1]) t.shape ∧
    HoldsPoints t.data (fun (idx : Fin 3 → Fin 2) => ![Flt.ofReal (if idx 1 = 0 then -1 else 1), Flt.ofReal (if idx 2 = 0 then -1 else 1), Flt.ofReal z]) ∧
    Represents T.format z ∧
    ∀ cfg : Config, ∃ (δ : ℝ) (after : Res (List Flt)),
      LinearTransform.inverseJacobianValue cfg (floatArith T.format) t (List.ofFn fun _ : Fin 3 => Flt.ofReal 0) = .ok (Flt.ofReal δ, after) ∧ δ ≠ 0 := by
  obtain ⟨b, hb, -⟩ := C100_basis T .gaussLobatto (order := 1) le_rfl (by norm_num) ⟨by norm_num, by norm_num⟩ (linear_nodes T)
  refine ⟨⟨⟨.ok (3 : ℕ), List.ofFn fun _ : Fin 3 => b⟩, (plateData T).map fun q : ℚ => Flt.ofReal q⟩, plateHeight T,
    ⟨by norm_num, rfl, fun _ => ⟨le_rfl, by norm_num⟩, fun _ => .gaussLobatto, fun _ => b, rfl,
      fun _ => ⟨⟨by norm_num, by norm_num⟩, linear_nodes T, hb⟩⟩, fun cfg idx i => ?_, plate_represented T (fun _ => 0) 2, fun cfg => ?_⟩
  · refine (plate_points T cfg idx i).trans (congrArg Res.ok ?_)
    fin_cases i
    · show Flt.ofReal ((if idx 1 = 0 then -1 else 1 : ℚ) : ℝ) = Flt.ofReal (if idx 1 = 0 then -1 else 1)
      split <;> simp
    · show Flt.ofReal ((if idx 2 = 0 then -1 else 1 : ℚ) : ℝ) = Flt.ofReal (if idx 2 = 0 then -1 else 1)
      split <;> simp
    · rfl
  · rw [C88_basis, lagrangeBasis_ok _ _ (order := 1) (by norm_num)] at hb
    obtain ⟨x, after, h1, h2⟩ := plate_thick T (Res.ok.inj hb).symm cfg
    rw [Rat.cast_zero] at h2
    exact ⟨x, after, h2, h1⟩

/-! ### the hypotheses can be met -/

/-- Non-vacuity of `C145_inverse_partial`, `C145_inverse_carray_partial` and `C145_moderate_partial`: a matrix with equal rows, and one with opposite columns. -/
example : let M : Matrix (Fin 3) (Fin 3) ℝ := !![1, 2, 3; 4, 5, 6; 1, 2, 3]
    let M' : Matrix (Fin 3) (Fin 3) ℝ := !![1, 2, -2; 4, 5, -5; 7, 8, -8]
    (∃ m, HoldsNative m (M.map Flt.ofReal)) ∧ (∃ m, HoldsMatrix m (M.map Flt.ofReal)) ∧ DependentRows (M.map Flt.ofReal) ∧ (∀ i j, |M i j| ≤ 8) ∧
    DependentColumns (M'.map Flt.ofReal) ∧ (8 : ℝ) ^ 3 ≤ 2 ^ 120 := by
  refine ⟨⟨_, holdsNative_iff.2 rfl⟩, ⟨_, (holds_iff (by norm_num) (by norm_num)).2 rfl⟩, .inl ⟨0, 2, by decide, .inl fun k => ?_⟩, fun i j => ?_,
    .inr (.inl fun i => ?_), by norm_num⟩
  · fin_cases k <;> rfl
  · fin_cases i <;> fin_cases j <;> simp [abs_of_pos] <;> norm_num
  · fin_cases i <;> simp [Flt.ofReal, Flt.neg]

/-- Non-vacuity of `C145_rows`, `C145_flat_partial` and `C145_collapsed_partial`, and a use of them: the cube with the second coordinate of all vertices replaced by the first
one has zero or no finite determinant at all points, and so has the one with the third faces identified. -/
example (T : RealType) (cfg : Config) : ∃ t t' : LinearTransform Flt, IsShippedIn T (fun _ : Fin 3 => 1) (fun _ => ![-1, 1]) t.shape ∧
    HoldsPoints t.data (fun (idx : Fin 3 → Fin 2) => ![Flt.ofReal (if idx 0 = 0 then -1 else 1), Flt.ofReal (if idx 0 = 0 then -1 else 1),
      Flt.ofReal (if idx 2 = 0 then -1 else 1)]) ∧
    HoldsPoints t'.data (fun (idx : Fin 3 → Fin 2) => ![Flt.ofReal (if idx 0 = 0 then -1 else 1), Flt.ofReal (if idx 1 = 0 then -1 else 1), Flt.ofReal 7]) ∧
    (∀ ξ : Fin 3 → Flt, ∃ det after, LinearTransform.inverseJacobianValue cfg (floatArith T.format) t (List.ofFn ξ) = .ok (det, after) ∧ NoVolume det after) ∧
    ∀ ξ : Fin 3 → Flt, ∃ det after, LinearTransform.inverseJacobianValue cfg (floatArith T.format) t' (List.ofFn ξ) = .ok (det, after) ∧ NoVolume det after := by
  obtain ⟨t, h1, -, h2⟩ := float_cell T fun idx => ![if idx 0 = 0 then -1 else 1, if idx 0 = 0 then -1 else 1, if idx 2 = 0 then -1 else 1]
  obtain ⟨t', h1', -, h2'⟩ := float_cell T fun idx => ![if idx 0 = 0 then -1 else 1, if idx 1 = 0 then -1 else 1, 7]
  have h3 : HoldsPoints t.data (fun (idx : Fin 3 → Fin 2) => ![Flt.ofReal (if idx 0 = 0 then -1 else 1), Flt.ofReal (if idx 0 = 0 then -1 else 1),
      Flt.ofReal (if idx 2 = 0 then -1 else 1)]) := fun cfg idx i => (h2 cfg idx i).trans (by fin_cases i <;> rfl)
  have h3' : HoldsPoints t'.data (fun (idx : Fin 3 → Fin 2) => ![Flt.ofReal (if idx 0 = 0 then -1 else 1), Flt.ofReal (if idx 1 = 0 then -1 else 1),
      Flt.ofReal 7]) := fun cfg idx i => (h2' cfg idx i).trans (by fin_cases i <;> rfl)
  refine ⟨t, t', h1, h3, h3', fun ξ => C145_flat_partial h1 h3 (.inl ⟨0, 1, by decide, .inl fun _ => rfl⟩) cfg ξ,
    fun ξ => C145_collapsed_partial h1' rfl h3' (fun idx j => ?_) cfg ξ⟩
  simp [Function.update]

end Verif.Props
