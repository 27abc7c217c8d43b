import Verif.Lemmas.NonFinite
import Verif.Props.FiniteInverse
import Verif.Lemmas.MixedScaling

/-!
# Property C142: infinities and NaN are not hidden

If a coordinate, a value at a support point or a vertex is an infinity or NaN, the results that depend on it are infinities
or NaN, so that checking the results is enough.
-/

namespace Verif.Props

open Verif.Spec Verif.Lemmas Verif.MathUtilities

variable {T : RealType} {d : ℕ} {order : Fin d → ℕ} {c : (k : Fin d) → Fin (order k + 1) → ℝ} {e : Element Flt}

theorem shipped_any (h : IsShippedIn T order c e) :
    ∃ b : Fin d → Basis Flt, e = elementOf b ∧ (∀ k, (b k).numSupportPoints = ((order k + 1 : ℕ) : Int)) ∧
      (∀ k, BasisRel False (fun _ _ => True) (b k) (b k)) ∧
      ∀ P, Sticky T.format P → ∀ k (j : Fin (order k + 1)) x f, P x → (b k).value (j : ℕ) x = .ok f → P f := by
  obtain ⟨fam, b, hb, hk⟩ := h.bases
  have hl := fun k => (C88_basis T _ _).symm.trans (hk k).2.2
  have hn : ∀ k, (iadd (order k) 1).constexpr = .ok ((order k + 1 : ℕ) : Int) := by
    intro k
    have := (h.orders k).2
    have e1 : iadd (order k : Int) 1 = .ok ((order k : Int) + 1) :=
      tnorm_ok ⟨by show (-2147483648 : Int) ≤ _; omega, by show _ ≤ (2147483647 : Int); omega⟩
    rw [e1]
    rfl
  refine ⟨b, ?_, fun k => ?_, fun k => any_basis (hl k), fun P hP k j x f hx hf => ?_⟩
  · cases e; simp only [elementOf]; congr 1; exact h.shape
  · have := hl k
    rw [lagrangeBasis, hn, Res.ok_bind] at this
    rw [← Res.ok.inj this]
  · have := hl k
    rw [lagrangeBasis, hn, Res.ok_bind] at this
    rw [← Res.ok.inj this] at hf
    exact basisValue_sticky hP (by have := (h.orders k).1; omega) hx hf

theorem shipped_products (h : IsShippedIn T order c e) (hd : d ≤ 3) (x : Fin d → Flt) {b : Fin d → Basis Flt} (he : e = elementOf b)
    (hb : ∀ k, BasisRel False (fun _ _ => True) (b k) (b k)) (idx : (k : Fin d) → Fin (order k + 1)) :
    (∃ f, BasisProduct.value (floatArith T.format) (List.ofFn b) (tup idx) (List.ofFn x) = .ok f) ∧
    ∃ g : Fin d → Flt, BasisProduct.gradient (floatArith T.format) (List.ofFn b) (tup idx) (List.ofFn x) = .ok (List.ofFn g) := by
  subst he
  have hv := basisValue_eq (floatArith T.format) (elementOf_instantiate b) (idx := tup idx) (by simp [tup_length, elementOf])
    (List.ofFn fun _ : Fin d => Flt.ofReal 0)
  obtain ⟨f, hf, -⟩ := C100_shape h hd idx (fun _ => 0) (by simp)
  obtain ⟨g, hg, -⟩ := C100_shape_gradient h hd idx (fun _ => 0) (by simp)
  obtain ⟨h1, h2⟩ := product_any (F := T.format) hb (tup idx) (x := fun _ => Flt.ofReal 0) x
  exact ⟨h1 f (hv.1.symm.trans hf), h2 g (hv.2.2.1.symm.trans hg)⟩

/-- **C142, interpolation.** If the value at one of the support points, or one of the coordinates, is an infinity or NaN, then
`value( x, var )` is an infinity or NaN; if one of these is NaN, it is NaN. -/
theorem C142_value (h : IsShippedIn T order c e) (hd : d ≤ 3) (x : Fin d → Flt) (var : List Int → Res Flt)
    (y : ((k : Fin d) → Fin (order k + 1)) → Flt) (hy : ∀ idx, var (tup idx) = .ok (y idx)) :
    ∃ f, ParentElement.value (floatArith T.format) e (List.ofFn x) var = .ok f ∧
      ((∃ idx, NotFinite (y idx)) ∨ (∃ k, NotFinite (x k)) → NotFinite f) ∧
      ((∃ idx, IsNaN (y idx)) ∨ (∃ k, IsNaN (x k)) → IsNaN f) := by
  obtain ⟨b, rfl, hc, hb, hs⟩ := shipped_any h
  choose v hv using fun idx => (shipped_products h hd x rfl hb idx).1
  obtain ⟨L, hL, hnd, hall⟩ := box_list fun k => order k + 1
  rw [ParentElement.value, elementOf_instantiate, Res.ok_bind]
  rw [show (elementOf b).bases = List.ofFn b from rfl, forNested_box h.dims hc hL]
  obtain ⟨r, hr, hw⟩ := runCalls_sticky (F := T.format) (L := L) (mk := fun r : Unit → Flt => r ()) (body := fun idx =>
      ParentElement.valueBody (floatArith T.format) (elementOf b) (List.ofFn x) var (tup idx))
    (g := fun idx _ => v idx) (y := fun idx _ => y idx) (fun idx r => by
      rw [ParentElement.valueBody, (basisValue_eq _ (elementOf_instantiate b)
        (by simp [tup_length, elementOf]) _).1, show (elementOf b).bases = List.ofFn b from rfl,
        hv, Res.ok_bind, hy, Res.ok_bind]
      rfl) (fun _ => (floatArith T.format).lit 0)
  have key : ∀ P, Sticky T.format P → ((∃ idx, P (y idx)) ∨ ∃ k, P (x k)) → P (r ()) := by
    rintro P hP (⟨idx, hi⟩ | ⟨k, hk⟩)
    · exact hw P hP () (.inr ⟨idx, hall idx, .inr hi⟩)
    · refine hw P hP () (.inr ⟨fun _ => 0, hall _, .inl ?_⟩)
      exact productValue_sticky hP k (fun g hg => hs P hP k _ _ _ hk hg) (hv fun _ => 0)
  exact ⟨r (), hr, key _ (sticky_notFinite _), key _ (sticky_nan _)⟩

/-- **C142, gradients.** If the value at one of the support points is an infinity or NaN, then all components of
`gradient( x, var )` are infinities or NaN; if it is NaN, they are NaN. -/
theorem C142_gradient (h : IsShippedIn T order c e) (hd : d ≤ 3) (x : Fin d → Flt) (var : List Int → Res Flt)
    (y : ((k : Fin d) → Fin (order k + 1)) → Flt) (hy : ∀ idx, var (tup idx) = .ok (y idx)) :
    ∃ g : Fin d → Flt, ParentElement.gradient (floatArith T.format) e (List.ofFn x) var = .ok (List.ofFn g) ∧
      ((∃ idx, NotFinite (y idx)) → ∀ a, NotFinite (g a)) ∧ ((∃ idx, IsNaN (y idx)) → ∀ a, IsNaN (g a)) := by
  obtain ⟨b, rfl, hc, hb, hs⟩ := shipped_any h
  choose v hv using fun idx => (shipped_products h hd x rfl hb idx).2
  obtain ⟨L, hL, hnd, hall⟩ := box_list fun k => order k + 1
  have hz : List.replicate d ((floatArith T.format).lit 0) = List.ofFn (fun _ : Fin d => (floatArith T.format).lit 0) := by
    rw [List.ofFn_const]
  rw [ParentElement.gradient, elementOf_instantiate, Res.ok_bind]
  rw [show (elementOf b).bases = List.ofFn b from rfl, forNested_box h.dims hc hL, List.length_ofFn, hz]
  obtain ⟨r, hr, hw⟩ := runCalls_sticky (F := T.format) (L := L) (mk := fun r : Fin d → Flt => List.ofFn r) (body := fun idx =>
      ParentElement.gradientBody (floatArith T.format) (elementOf b) (List.ofFn x) var (tup idx))
    (g := fun idx a => v idx a) (y := fun idx _ => y idx) (fun idx r => by
      rw [ParentElement.gradientBody, (basisValue_eq _ (elementOf_instantiate b)
        (by simp [tup_length, elementOf]) _).2.2.1, show (elementOf b).bases = List.ofFn b from rfl,
        hv, Res.ok_bind, List.length_ofFn, forSequence_eq (by omega),
        upTo_ofFn, List.ofFn_eq_map, runCalls_map,
        Valued.gradientInner_loop _ _ _ _ (hy idx) (List.nodup_finRange d)]
      congr 2
      funext k
      simp
      rfl) (fun _ => (floatArith T.format).lit 0)
  have key : ∀ P, Sticky T.format P → (∃ idx, P (y idx)) → ∀ a, P (r a) := by
    rintro P hP ⟨idx, hi⟩ a
    exact hw P hP a (.inr ⟨idx, hall idx, .inr hi⟩)
  exact ⟨r, hr, key _ (sticky_notFinite _), key _ (sticky_nan _)⟩

section cells
variable {t : LinearTransform Flt} {X : ((k : Fin d) → Fin (order k + 1)) → Fin d → Flt}

private theorem cell_matrix (h : IsShippedIn T order c t.shape) (hd : d ≤ 3) (hX : HoldsPoints t.data X) (cfg : Config)
    (ξ : Fin d → Flt) (extra : List Flt) : ∃ J : Matrix (Fin d) (Fin d) Flt, t.numDims = d ∧
      LinearTransform.jacobian cfg (floatArith T.format) t (List.ofFn ξ ++ extra)
        (matMem fun _ _ : Fin d => (floatArith T.format).lit 0) = .ok (matMem J) ∧
      ∀ P, Sticky T.format P → ∀ i, (∃ idx, P (X idx i)) → ∀ j, P (J i j) := by
  obtain ⟨b, he, hc, hb, -⟩ := shipped_any h
  choose v hv using fun idx => (shipped_products h hd ξ he hb idx).2
  obtain ⟨L, hL, hnd, hall⟩ := box_list fun k => order k + 1
  have hs : d * d ≤ 2147483647 := (Nat.mul_le_mul hd hd).trans (by norm_num)
  have hcell : Cell t b (fun k => order k + 1) X :=
    ⟨h.dims, hs, by rw [he]; rfl, by rw [he]; exact elementOf_instantiate b, hc, hX⟩
  have hbl : t.shape.bases.length = d := by simp [hcell.bases]
  obtain ⟨J, hJ, hw⟩ := runCalls_sticky (F := T.format) (L := L)
    (mk := fun r : Fin d × Fin d → Flt => matMem (fun i j => r (i, j))) (body := fun idx =>
      LinearTransform.jacobianBody cfg (floatArith T.format) t (List.ofFn ξ ++ extra) (tup idx))
    (g := fun idx ij => v idx ij.2) (y := fun idx ij => X idx ij.1) (fun idx M => by
      rw [jacobianBody_ok hcell cfg (floatArith T.format) _ idx (g := v idx) ?_ fun i j => M (i, j)]
      · rfl
      · rw [gradient_append _ _ _ _ (by rw [hbl, List.length_ofFn]),
          (basisValue_eq _ hcell.inst (by rw [tup_length, hbl]) _).2.2.2, hcell.bases, hv])
    (fun _ => (floatArith T.format).lit 0)
  refine ⟨fun i j => J (i, j), hcell.numDims, by rw [LinearTransform.jacobian, supportLoop_eq hcell hL]; exact hJ, ?_⟩
  rintro P hP i ⟨idx, hi⟩ j
  exact hw P hP (i, j) (.inr ⟨idx, hall idx, .inr hi⟩)

/-- **C142, Jacobians.** If component `i` of one vertex is an infinity or NaN, all derivatives of component `i` are infinities or
NaN; if it is NaN, they are NaN. -/
theorem C142_jacobian (h : IsShippedIn T order c t.shape) (hd : d ≤ 3) (hX : HoldsPoints t.data X) (cfg : Config)
    (ξ : Fin d → Flt) (extra : List Flt) (he : d + extra.length = 3) :
    ∃ (mem : List Flt) (J : Matrix (Fin d) (Fin d) Flt),
      LinearTransform.jacobianValue cfg (floatArith T.format) t (List.ofFn ξ ++ extra) = .ok mem ∧ HoldsMatrix mem J ∧
      ∀ i, ((∃ idx, NotFinite (X idx i)) → ∀ j, NotFinite (J i j)) ∧ ((∃ idx, IsNaN (X idx i)) → ∀ j, IsNaN (J i j)) := by
  have hs : d * d ≤ 2147483647 := (Nat.mul_le_mul hd hd).trans (by norm_num)
  obtain ⟨J, hn, hJ, hw⟩ := cell_matrix h hd hX cfg ξ extra
  refine ⟨matMem J, J, ?_, (holds_iff h.dims hs).2 rfl, fun i => ⟨hw _ (sticky_notFinite _) i, hw _ (sticky_nan _) i⟩⟩
  rw [LinearTransform.jacobianValue, staticAssert_bind_true (by simp [he]), hn, listInit_zero_float h.dims hs, Res.ok_bind, hJ]

end cells

private theorem one_finite (T : RealType) : ((floatArith T.format).lit 1).datum = .finite 1 := by
  rw [lit_one_exact (by cases T <;> decide) (by cases T <;> decide)]
  rfl

/-- **C142, built-in arrays.** If an entry of a 3x3 matrix is an infinity or NaN, `inverse( m, det )` leaves an infinity or NaN in
`det`, and NaN in all entries whose row is not the column and whose column is not the row of that entry.  If an entry is NaN,
`det` and all entries left behind are NaN. -/
theorem C142_inverse (T : RealType) (N : Matrix (Fin 3) (Fin 3) Flt) (m : List Flt) (hm : HoldsNative m N) {i j : Fin 3}
    (h : NotFinite (N i j)) :
    ∃ (det : Flt) (m' : List Flt) (Q : Matrix (Fin 3) (Fin 3) Flt),
      inverseNative (floatArith T.format) m = .ok (det, .ok m') ∧ HoldsNative m' Q ∧ NotFinite det ∧
      (∀ p q, p ≠ i → q ≠ j → IsNaN (Q q p)) ∧ (IsNaN (N i j) → IsNaN det ∧ ∀ p q, IsNaN (Q p q)) := by
  have hm := holdsNative_iff.1 hm
  subst hm
  obtain ⟨det, after, h1, h2, h3⟩ := inverse_notFinite N (one_finite T)
  obtain ⟨Q, rfl, h4, h5⟩ := h3 ⟨i, j, h⟩
  exact ⟨det, _, Q, h1, holdsNative_iff.2 rfl, h2 _ (sticky_notFinite _) i j h, h4 i j h,
    fun hn => ⟨h2 _ (sticky_nan _) i j hn, fun p q => h5 i j hn q p⟩⟩

/-- **C142, `CArrayNd`.** The same for a `CArrayNd< REAL_TYPE, 3, 3 >`. -/
theorem C142_inverse_carray (cfg : Config) (T : RealType) (N : Matrix (Fin 3) (Fin 3) Flt) (m : List Flt) (hm : HoldsMatrix m N)
    {i j : Fin 3} (h : NotFinite (N i j)) :
    ∃ (det : Flt) (m' : List Flt) (Q : Matrix (Fin 3) (Fin 3) Flt),
      inverse (floatArith T.format) (carray cfg (CArray.whole [3, 3])) m = .ok (det, .ok m') ∧ HoldsMatrix m' Q ∧ NotFinite det ∧
      (∀ p q, p ≠ i → q ≠ j → IsNaN (Q q p)) ∧ (IsNaN (N i j) → IsNaN det ∧ ∀ p q, IsNaN (Q p q)) := by
  have hm := (holds_iff (by norm_num) (by norm_num)).1 hm
  subst hm
  obtain ⟨det, m', Q, h1, h2, h3, h4, h5⟩ := C142_inverse T N (matMem N) (holdsNative_iff.2 rfl) h
  have hm' := holdsNative_iff.1 h2
  subst hm'
  have e := inverse_carray cfg (floatArith T.format) [] [] (m := matMem N) (matMem_length _)
  rw [h1] at e
  simp only [List.nil_append, List.append_nil] at e
  exact ⟨det, matMem Q, Q, e, (holds_iff (by norm_num) (by norm_num)).2 rfl, h3, h4, h5⟩

/-- **C142, inverse Jacobians.** If component `i` of a vertex of a three-dimensional cell is an infinity or NaN, the determinant
returned by `inverseJacobian( t, ξ )` is an infinity or NaN, and all columns of the returned inverse except column `i` are
NaN.  If the component is NaN, then so are the determinant and all entries. -/
theorem C142_inverseJacobian {order : Fin 3 → ℕ} {c : (k : Fin 3) → Fin (order k + 1) → ℝ} {t : LinearTransform Flt}
    {X : ((k : Fin 3) → Fin (order k + 1)) → Fin 3 → Flt} (h : IsShippedIn T order c t.shape) (hX : HoldsPoints t.data X)
    (cfg : Config) (ξ : Fin 3 → Flt) {idx : (k : Fin 3) → Fin (order k + 1)} {i : Fin 3} (hi : NotFinite (X idx i)) :
    ∃ (det : Flt) (m : List Flt) (Q : Matrix (Fin 3) (Fin 3) Flt),
      LinearTransform.inverseJacobianValue cfg (floatArith T.format) t (List.ofFn ξ) = .ok (det, .ok m) ∧ HoldsMatrix m Q ∧
      NotFinite det ∧ (∀ p q, p ≠ i → IsNaN (Q q p)) ∧ (IsNaN (X idx i) → IsNaN det ∧ ∀ p q, IsNaN (Q p q)) := by
  obtain ⟨J, hn, hJ, hw⟩ := cell_matrix h (by norm_num) hX cfg ξ []
  have hr := hw _ (sticky_notFinite _) i ⟨idx, hi⟩
  have hz := listInit_zero_float (F := T.format) (d := 3) (by norm_num) (by norm_num)
  have e : ∀ {r : Flt × Res (List Flt)}, inverse (floatArith T.format) (carray cfg (CArray.whole [3, 3])) (matMem J) = .ok r →
      LinearTransform.inverseJacobianValue cfg (floatArith T.format) t (List.ofFn ξ) = .ok r := by
    intro r hr
    rw [LinearTransform.inverseJacobianValue, staticAssert_bind_true (by simp), hn]
    refine (congrArg (· >>= _) hz).trans ?_
    rw [List.append_nil] at hJ
    simp only [Res.ok_bind]
    rw [LinearTransform.inverseJacobian, hJ, Res.ok_bind, LinearTransform.jacobianView, hn]
    exact hr
  obtain ⟨det, m, Q, h1, h2, h3, h4, h5⟩ := C142_inverse_carray cfg T J (matMem J) ((holds_iff (by norm_num) (by norm_num)).2 rfl) (hr 0)
  obtain ⟨det', m', Q', h1', h2', -, h4', -⟩ := C142_inverse_carray cfg T J (matMem J) ((holds_iff (by norm_num) (by norm_num)).2 rfl) (hr 1)
  rw [h1] at h1'
  cases h1'
  have hQ : Q' = Q := by
    ext a b
    exact Res.ok.inj ((h2'.2 cfg a b).symm.trans (h2.2 cfg a b))
  subst hQ
  refine ⟨det, m, Q', e h1, h2, h3, fun p q hp => ?_, fun hn => ?_⟩
  · by_cases hq : q = 0
    · exact h4' p q hp (by rw [hq]; decide)
    · exact h4 p q hp hq
  · exact h5 (hw _ (sticky_nan _) i ⟨idx, hn⟩ 0)

private theorem narrow_sticky (T : RealType) {f : Flt} (h : NotFinite f) : NotFinite (T.arith.narrow f) := by
  cases T with
  | double => exact h
  | float =>
    show NotFinite (Flt.convert binary32 f)
    unfold Flt.convert
    rcases notFinite_cases.1 h with e | ⟨s, e⟩ <;> rw [e] <;> exact h

/-- **C142, `Scaling`.** If length `k` of a box is an infinity or NaN, then so are entry `k` of the Jacobian and the determinant. -/
theorem C142_scaling (cfg : Config) (T : RealType) (s : Scaling Flt) (h : Fin 3 → Flt) (hs : s.getData = List.ofFn h) {k : Fin 3}
    (hk : NotFinite (h k)) {I : List Flt} (hI : I.length = 3) :
    ∃ (J : Fin 3 → Flt) (det : Flt) (inv : Res (List Flt)), Mixed.Scaling.jacobian cfg T.arith s I = .ok (List.ofFn J) ∧
      NotFinite (J k) ∧ Mixed.Scaling.inverseJacobian cfg T.arith s I = .ok (det, inv) ∧ NotFinite det := by
  obtain ⟨r, hr, -⟩ := mixed_scaling_inverse cfg T.arith s h hs hI
  have S := sticky_notFinite binary64
  refine ⟨_, _, r, mixed_scaling_jacobian cfg T.arith s h hs hI, ?_, hr, ?_⟩
  · refine narrow_sticky T ?_
    cases T <;> exact S.mulr hk
  · refine narrow_sticky T ?_
    cases T <;> fin_cases k
    · exact S.mull (S.mull (S.mulr hk))
    · exact S.mull (S.mulr hk)
    · exact S.mulr hk
    · exact S.mull (S.mull (S.mulr hk))
    · exact S.mull (S.mulr hk)
    · exact S.mulr hk

/-! ### the hypotheses can be met -/

/-- Cells of a trilinear element in `float` or `double` with any vertices. -/
private theorem any_cell (T : RealType) (X : (Fin 3 → Fin 2) → Fin 3 → Flt) : ∃ t : LinearTransform Flt,
    IsShippedIn T (fun _ : Fin 3 => 1) (fun _ => ![-1, 1]) t.shape ∧ HoldsPoints t.data X := by
  obtain ⟨t, h, -⟩ := sample_cell_in T
  obtain ⟨bs, hbs, hk⟩ := shipped_realises h
  have hsurj : Function.Surjective vertexNumber := by decide
  have hinj : Function.Injective vertexNumber := by decide
  choose inv hinv using hsurj
  obtain ⟨t', -, h2, -, h4, -⟩ := C48_setData checkedHost
    ⟨t.shape, List.replicate 24 (Flt.ofReal 0)⟩ bs (by rw [hbs]; rfl)
    (by rw [hbs]; exact elementOf_instantiate bs) (fun k => (hk k).count) (by simp)
    (fun v i => X (inv v) i)
    (fun r i => if hr : r.toNat < 8 ∧ i.toNat < 3 then .ok (X (inv ⟨r.toNat, hr.1⟩) ⟨i.toNat, hr.2⟩) else .ub)
    (fun v i => by
      have := v.2
      have := i.2
      simp)
  refine ⟨t', by rw [h2]; exact h, fun cfg idx i => (h4 cfg idx i).trans ?_⟩
  have h5 : inv (vertexNumber idx) = idx := hinj (hinv _)
  simp only [h5]

/-- Non-vacuity of `C142_jacobian` and `C142_inverseJacobian`, and a use of them: the parent cube with component 2 of one vertex
replaced by an infinity.  The determinant in the middle of the cell is not finite, and the first two columns of the inverse are NaN. -/
example (T : RealType) (cfg : Config) : ∃ t : LinearTransform Flt,
    IsShippedIn T (fun _ : Fin 3 => 1) (fun _ => ![-1, 1]) t.shape ∧
    HoldsPoints t.data (fun (idx : Fin 3 → Fin 2) i => if idx = 0 ∧ i = 2 then ⟨.inf false, false⟩ else Flt.ofReal ((![-1, 1] : Fin 2 → ℝ) (idx i))) ∧
    ∃ (det : Flt) (m : List Flt) (Q : Matrix (Fin 3) (Fin 3) Flt),
      LinearTransform.inverseJacobianValue cfg (floatArith T.format) t (List.ofFn fun _ : Fin 3 => Flt.ofReal 0) = .ok (det, .ok m) ∧
      HoldsMatrix m Q ∧ NotFinite det ∧ IsNaN (Q 0 0) ∧ IsNaN (Q 2 1) := by
  obtain ⟨t, h1, h2⟩ := any_cell T fun idx i => if idx = 0 ∧ i = 2 then ⟨.inf false, false⟩ else Flt.ofReal ((![-1, 1] : Fin 2 → ℝ) (idx i))
  refine ⟨t, h1, h2, ?_⟩
  obtain ⟨det, m, Q, h3, h4, h5, h6, -⟩ := C142_inverseJacobian h1 h2 cfg (fun _ => Flt.ofReal 0) (idx := fun _ => 0) (i := 2)
    (notFinite_cases.2 (.inr ⟨false, rfl⟩))
  exact ⟨det, m, Q, h3, h4, h5, h6 0 0 (by decide), h6 1 2 (by decide)⟩

/-- Non-vacuity of `C142_value` and `C142_gradient`, and a use of them: NaN at one vertex is seen at all other vertices as well, where the
shape function of that vertex is zero. -/
example (T : RealType) : ∃ e : Element Flt, IsShippedIn T (fun _ : Fin 3 => 1) (fun _ => ![-1, 1]) e ∧
    ∀ x : Fin 3 → Flt, ∃ f, ParentElement.value (floatArith T.format) e (List.ofFn x)
      (fun i => .ok (if i = [0, 0, 0] then ⟨.nan, false⟩ else Flt.ofReal 1)) = .ok f ∧ IsNaN f := by
  obtain ⟨t, h, -⟩ := sample_cell_in T
  refine ⟨t.shape, h, fun x => ?_⟩
  obtain ⟨f, h1, -, h2⟩ := C142_value h (by norm_num) x (fun i => .ok (if i = [0, 0, 0] then ⟨.nan, false⟩ else Flt.ofReal 1))
    (fun idx => if tup idx = [0, 0, 0] then ⟨.nan, false⟩ else Flt.ofReal 1) (fun _ => rfl)
  refine ⟨f, h1, h2 (.inl ⟨fun _ => 0, ?_⟩)⟩
  show Flt.datum (if tup (fun _ : Fin 3 => (0 : Fin 2)) = [0, 0, 0] then _ else _) = _
  rw [if_pos (by decide)]

/-- Non-vacuity of `C142_inverse`, `C142_inverse_carray` and `C142_scaling`. -/
example : let N : Matrix (Fin 3) (Fin 3) Flt := fun i j => if i = 0 ∧ j = 1 then ⟨.inf true, false⟩ else Flt.ofReal 1
    (∃ m, HoldsNative m N) ∧ (∃ m, HoldsMatrix m N) ∧ NotFinite (N 0 1) ∧ ∃ s : Scaling Flt, s.getData = List.ofFn (N 0) :=
  ⟨⟨_, holdsNative_iff.2 rfl⟩, ⟨_, (holds_iff (by norm_num) (by norm_num)).2 rfl⟩, notFinite_cases.2 (.inr ⟨true, rfl⟩), ⟨_⟩, rfl⟩

end Verif.Props
