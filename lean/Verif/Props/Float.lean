import Verif.Lemmas.FloatElement
import Verif.Props.RoundedMapping

/-!
# Property C81: results in IEEE 754 arithmetic

The code runs in `floatArith F`, IEEE 754 arithmetic in the binary format `F` (`binary64` is `double`,
`binary32` is `float`).  Inputs are finite numbers, `Flt.ofReal x`.

Every operation is done in `F`.  In the `float` instantiation of the bases, C++ evaluates operations with a
`double` literal (`1.0 / ( ... )`) in `double` and rounds the result to `float` afterwards.  C88 shows that this
gives the same results.  The other kernels have no such literals.
-/

namespace Verif.Props

open Verif.Spec Verif.Lemmas Verif.MathUtilities

variable {F : FloatFormat}

/-- The unit roundoffs of the two formats. -/
theorem unitRoundoff_formats : unitRoundoff binary64 = 1 / 2 ^ 53 ∧ unitRoundoff binary32 = 1 / 2 ^ 24 := by
  constructor <;> simp [unitRoundoff, binary64, binary32]

/-- **C81, basis functions.** A Lagrange basis function and its derivative have a value in IEEE arithmetic at
every finite number, and it obeys the error bound of C60 and C62 unless an exception other than `inexact` was
raised. -/
theorem C81_basis {S : Int → Spacing Flt} {order : ℕ} {c : Fin (order + 1) → ℝ} (horder : order < 2147483647)
    (hS : 1 ≤ order → ∀ i : Fin (order + 1), (S ((order + 1 : ℕ) : Int)).coordCT (i : ℕ) = .ok (Flt.ofReal (c i)))
    (hc : Function.Injective c) (hr : ∀ i, Represents F (c i)) :
    ∃ b, lagrangeBasis (floatArith F) S order = .ok b ∧
      ∀ (j : Fin (order + 1)) (x : ℝ),
        let ℓ := fun x : ℝ => ∏ t ∈ Finset.univ.erase j, (x - c t) / (c j - c t)
        (∃ f, b.value (j : ℕ) (Flt.ofReal x) = .ok f ∧
          Accurate f (ℓ x) (errBound (unitRoundoff F) (7 * order + 1) * |ℓ x|)) ∧
        ∃ g, b.gradient (j : ℕ) (Flt.ofReal x) = .ok g ∧
          Accurate g (deriv ℓ x) (errBound (unitRoundoff F) (8 * order + 11) * derivMagnitude c j x) := by
  have hrel := floatBasis_rel (F := F) (n := order + 1) (S := S ((order + 1 : ℕ) : Int)) (c := c)
    (fun h2 => hS (by omega)) hc hr ((order + 1 : ℕ) : Int)
  have hR := cleanRound_rounds F
  have hn : Nodes ((fun _ : Int => realSpacing (S ((order + 1 : ℕ) : Int)).numPoints c) ((order + 1 : ℕ) : Int))
    (order + 1) c := realSpacing_nodes hc
  obtain ⟨b1, hb1, h1⟩ := C60_value_error hR (S := fun _ => realSpacing (S ((order + 1 : ℕ) : Int)).numPoints c) horder hn
  obtain ⟨b2, hb2, h2⟩ := C62_gradient_error hR (S := fun _ => realSpacing (S ((order + 1 : ℕ) : Int)).numPoints c) horder hn
  have e1 := Res.ok.inj ((lagrangeBasis_ok _ _ horder).symm.trans hb1)
  have e2 := Res.ok.inj ((lagrangeBasis_ok _ _ horder).symm.trans hb2)
  subst e1; subst e2
  refine ⟨_, lagrangeBasis_ok _ _ horder, fun j x => ⟨?_, ?_⟩⟩
  · obtain ⟨y, hy, hb, -⟩ := h1 j x
    obtain ⟨f, hf, hs⟩ := (hrel.value _ (sim_ofReal x)).total hy
    exact ⟨f, hf, hs.accurate hb⟩
  · obtain ⟨y, hy, hb⟩ := h2 j x
    obtain ⟨f, hf, hs⟩ := (hrel.gradient _ (sim_ofReal x)).total hy
    exact ⟨f, hf, hs.accurate hb⟩

section element
variable {d : ℕ} {order : Fin d → ℕ} {c : (k : Fin d) → Fin (order k + 1) → ℝ} {e : Element Flt}

/-- The nodal values as an accessor over the reals. -/
private noncomputable def realVar (y : ((k : Fin d) → Fin (order k + 1)) → ℝ) (i : List Int) : Res ℝ :=
  open Classical in
  if h : ∃ idx : (k : Fin d) → Fin (order k + 1), tup idx = i then .ok (y h.choose) else .ub

private theorem tup_inj {idx idx' : (k : Fin d) → Fin (order k + 1)} (h : tup idx = tup idx') : idx = idx' := by
  have h' := List.ofFn_injective h
  funext k
  have := congrFun h' k
  simp only at this
  exact Fin.ext (by exact_mod_cast this)

private theorem realVar_tup (y : ((k : Fin d) → Fin (order k + 1)) → ℝ) (idx) : realVar y (tup idx) = .ok (y idx) := by
  have h : ∃ idx' : (k : Fin d) → Fin (order k + 1), tup idx' = tup idx := ⟨idx, rfl⟩
  rw [realVar, dif_pos h, tup_inj h.choose_spec]

private theorem realVar_rel {var : List Int → Res Flt} {y : ((k : Fin d) → Fin (order k + 1)) → ℝ}
    (hy : ∀ idx, var (tup idx) = .ok (Flt.ofReal (y idx))) (i : List Int) :
    ResRel False Sim (realVar y i) (var i) := by
  by_cases h : ∃ idx : (k : Fin d) → Fin (order k + 1), tup idx = i
  · obtain ⟨idx, rfl⟩ := h
    rw [realVar_tup, hy]
    exact .ok (sim_ofReal _)
  · rw [realVar, dif_neg h]; exact .notOk (by simp)

private theorem point_rel (x : Fin d → ℝ) :
    List.Forall₂ Sim (List.ofFn x) (List.ofFn fun k => Flt.ofReal (x k)) := forall₂_ofFn fun _ => sim_ofReal _

/-- **C81, interpolation.** -/
theorem C81_interpolation (h : IsLagrangeFloat F order c e) (var : List Int → Res Flt)
    (y : ((k : Fin d) → Fin (order k + 1)) → ℝ) (hy : ∀ idx, var (tup idx) = .ok (Flt.ofReal (y idx)))
    (x : Fin d → ℝ) :
    let N := fun idx : (k : Fin d) → Fin (order k + 1) =>
      ∏ k, ∏ t ∈ Finset.univ.erase (idx k), (x k - c k t) / (c k (idx k) - c k t)
    ∃ f, ParentElement.value (floatArith F) e (List.ofFn fun k => Flt.ofReal (x k)) var = .ok f ∧
      Accurate f (∑ idx, N idx * y idx)
        (errBound (unitRoundoff F) (interpolationRoundings order) * ∑ idx, |N idx| * |y idx|) := by
  obtain ⟨e', he', hrel⟩ := floatElement_rel h
  obtain ⟨r, hr, hb⟩ := C61_interpolation_error (cleanRound_rounds F) he' _ y (realVar_tup y) x
  obtain ⟨f, hf, hs⟩ :=
    (parentValue_rel (float_sim F).toOpsRel hrel (point_rel x) (realVar_rel hy)).total hr
  exact ⟨f, hf, hs.accurate hb⟩

/-- **C81, shape functions.** -/
theorem C81_shape (h : IsLagrangeFloat F order c e) (idx : (k : Fin d) → Fin (order k + 1)) (x : Fin d → ℝ) :
    let N := ∏ k, ∏ t ∈ Finset.univ.erase (idx k), (x k - c k t) / (c k (idx k) - c k t)
    ∃ f, ParentElement.basisValue (floatArith F) e (tup idx) (List.ofFn fun k => Flt.ofReal (x k)) = .ok f ∧
      Accurate f N (errBound (unitRoundoff F) (∑ k, (7 * order k + 2)) * |N|) := by
  obtain ⟨e', he', hrel⟩ := floatElement_rel h
  obtain ⟨r, hr, hb⟩ := C61_basis_error (cleanRound_rounds F) he' idx x
  obtain ⟨f, hf, hs⟩ := (shapeValue_rel (float_sim F).toOpsRel hrel (point_rel x) (tup idx)).total hr
  exact ⟨f, hf, hs.accurate hb⟩

private theorem forall₂_ofFn_left {ρ : ℝ → Flt → Prop} {r : Fin d → ℝ} {g : List Flt}
    (h : List.Forall₂ ρ (List.ofFn r) g) : ∃ f : Fin d → Flt, g = List.ofFn f ∧ ∀ a, ρ (r a) (f a) := by
  have hl : d = g.length := by have := h.length_eq; simpa using this
  subst hl
  refine ⟨g.get, (List.ofFn_get g).symm, fun a => ?_⟩
  have := h.get (i := a) (by simp) a.2
  simpa using this

/-- **C81, gradient of the interpolation.** -/
theorem C81_interpolation_gradient (h : IsLagrangeFloat F order c e) (var : List Int → Res Flt)
    (y : ((k : Fin d) → Fin (order k + 1)) → ℝ) (hy : ∀ idx, var (tup idx) = .ok (Flt.ofReal (y idx)))
    (x : Fin d → ℝ) :
    let ℓ := fun (k : Fin d) (j : Fin (order k + 1)) (s : ℝ) =>
      ∏ t ∈ Finset.univ.erase j, (s - c k t) / (c k j - c k t)
    ∃ g : Fin d → Flt,
      ParentElement.gradient (floatArith F) e (List.ofFn fun k => Flt.ofReal (x k)) var = .ok (List.ofFn g) ∧
      ∀ a, Accurate (g a)
        (∑ idx, (∏ k, if a = k then deriv (ℓ k (idx k)) (x k) else ℓ k (idx k) (x k)) * y idx)
        (errBound (unitRoundoff F) (gradientRoundings order) * ∑ idx,
          (∏ k, if a = k then derivMagnitude (c k) (idx k) (x k) else |ℓ k (idx k) (x k)|) * |y idx|) := by
  obtain ⟨e', he', hrel⟩ := floatElement_rel h
  obtain ⟨r, hr, hb⟩ := C62_interpolation_gradient_error (cleanRound_rounds F) he' _ y (realVar_tup y) x
  obtain ⟨f, hf, hs⟩ :=
    (parentGradient_rel (float_sim F).toOpsRel hrel (point_rel x) (realVar_rel hy)).total hr
  obtain ⟨g, rfl, hg⟩ := forall₂_ofFn_left hs
  exact ⟨g, hf, fun a => (hg a).accurate (hb a)⟩

end element

/-! ### the 3x3 inverse -/

private theorem matMem_ofReal {d : ℕ} (M : Matrix (Fin d) (Fin d) ℝ) :
    matMem (M.map Flt.ofReal) = (matMem M).map Flt.ofReal := by
  simp [matMem, List.map_ofFn, Function.comp_def]

private theorem matMem_rel {d : ℕ} {M : Matrix (Fin d) (Fin d) ℝ} {m : List Flt}
    (h : List.Forall₂ Sim (matMem M) m) :
    ∃ P : Matrix (Fin d) (Fin d) Flt, m = matMem P ∧ ∀ i j, Sim (M i j) (P i j) := by
  have hl : m.length = d * d := by rw [← h.length_eq, matMem_length]
  obtain ⟨P, rfl⟩ := exists_matMem hl
  refine ⟨P, rfl, fun i j => ?_⟩
  have := h.get (i := (i : ℕ) * d + j) (by simpa using pair_lt i j) (by simpa using pair_lt i j)
  simpa only [List.get_eq_getElem, matMem_getElem] using this

private theorem sim_finite {r : ℝ} {f : Flt} (h : Sim r f) : f.raised = true ∨ f = Flt.ofReal r := by
  obtain ⟨d, q⟩ := f
  cases q
  · have : d = .finite r := h rfl
    rw [this]; exact .inr rfl
  · exact .inl rfl

private theorem div_zero_nonfinite {q : ℝ} {b : Flt} (h0 : b.datum = .finite 0) :
    Flt.div F (Flt.round F false q) b = .nonfinite := by
  obtain ⟨d, r⟩ := b
  simp only at h0
  subst h0
  unfold Flt.round
  split_ifs <;> simp [Flt.div]

/-- The matrix is written unless the determinant left behind is zero. -/
private theorem inverseNative_after {m : List Flt} {det : Flt} {after : Res (List Flt)} (hl : m.length = 9)
    (h : inverseNative (floatArith F) m = .ok (det, after)) :
    (det.datum = .finite 0 → after = .nonfinite) ∧ (det.datum ≠ .finite 0 → ∃ m', after = .ok m') := by
  obtain ⟨P, rfl⟩ := exists_matMem (d := 3) hl
  rw [matMem_three, inverseNative_eq] at h
  obtain ⟨rfl, rfl⟩ := Prod.mk.inj (Res.ok.inj h)
  constructor
  · intro h0
    have := div_zero_nonfinite (F := F) (q := ((1 : ℚ) : ℝ)) h0
    simp only [floatArith] at this ⊢
    rw [this]; rfl
  · intro h0
    obtain ⟨q, hq⟩ := flt_div_ok (F := F) (a := (floatArith F).lit 1) h0
    exact ⟨_, Res.bind_eq_ok.2 ⟨q, hq, rfl⟩⟩

/-- **C81, inverse of a 3x3 matrix.** `inverse` of a matrix of finite numbers leaves a determinant.  If no
exception was raised on the way, it is a finite number `δ` that obeys the bound of C73.  If `δ` is zero, the
matrix is divided by zero.  Otherwise the entries left behind obey the bounds of C73, each unless an exception
was raised in its computation. -/
theorem C81_inverse (M : Matrix (Fin 3) (Fin 3) ℝ) (m : List Flt)
    (hm : HoldsNative m (M.map Flt.ofReal)) :
    ∃ (det : Flt) (after : Res (List Flt)), inverseNative (floatArith F) m = .ok (det, after) ∧
      (det.raised = true ∨ ∃ δ, det = Flt.ofReal δ ∧
        let ε := errBound (unitRoundoff F) 5
        |δ - M.det| ≤ ε * detMagnitude M ∧ (δ = 0 → after = .nonfinite) ∧
        (ε * detMagnitude M < |M.det| → (0 < δ ↔ 0 < M.det) ∧ (δ < 0 ↔ M.det < 0)) ∧
        (δ ≠ 0 → ∃ (m' : List Flt) (P : Matrix (Fin 3) (Fin 3) Flt), after = .ok m' ∧ HoldsNative m' P ∧
          ∀ i j, Accurate (P i j) (M.adjugate i j / δ) (ε * (adjMagnitude M i j / |δ|)) ∧
            (M.det ≠ 0 → ε * detMagnitude M ≤ |M.det| / 2 → Accurate (P i j) (M⁻¹ i j)
              (2 * ε * (1 + detMagnitude M / |M.det|) * (adjMagnitude M i j / |M.det|))))) := by
  have hR := cleanRound_rounds F
  rw [holdsNative_iff] at hm
  have hm' : m = (matMem M).map Flt.ofReal := by rw [hm]; exact matMem_ofReal M
  obtain ⟨δ, r, hr, hb, hz, hP⟩ := C73_inverse_native_error hR M (matMem M) (holdsNative_iff.2 rfl)
  obtain ⟨δ', r', hr', hsgn, hP'⟩ := C73_inverse_error hR M (matMem M) (holdsNative_iff.2 rfl)
  obtain ⟨rfl, rfl⟩ := Prod.mk.inj (Res.ok.inj (hr.symm.trans hr'))
  have hrel := inverse_native_rel (float_sim F) (forall₂_ofReal (xs := matMem M))
  rw [← hm'] at hrel
  rcases hrel _ hr with ⟨⟨det, after⟩, hf, hd, ha⟩ | ⟨-, hn⟩
  swap
  · exfalso
    obtain ⟨P, hP⟩ := exists_matMem (d := 3) (mem := m) (by rw [hm]; exact matMem_length _)
    rw [hP, matMem_three, inverseNative_eq] at hn
    exact hn _ rfl
  refine ⟨det, after, hf, ?_⟩
  obtain ⟨h0, h1⟩ := inverseNative_after (by rw [hm]; exact matMem_length _) hf
  rcases sim_finite hd with h | rfl
  · exact .inl h
  refine .inr ⟨δ, rfl, hb, fun e => h0 (by simp only [e]; rfl), hsgn, fun hne => ?_⟩
  obtain ⟨m', hm''⟩ := h1 (fun e => hne (Datum.finite.inj e))
  obtain ⟨q, P, hq, hPq, hbd⟩ := hP hne
  rw [holdsNative_iff] at hPq
  subst hPq
  rcases ha _ hq with ⟨m'', hm2, hfa⟩ | ⟨-, hn⟩
  swap
  · exact absurd hm'' (hn m')
  obtain ⟨Q, rfl, hQ⟩ := matMem_rel hfa
  refine ⟨_, Q, hm2, holdsNative_iff.2 rfl, fun i j => ⟨(hQ i j).accurate (hbd i j), fun hD hc => ?_⟩⟩
  obtain ⟨q', P', hq', hPq', hbd'⟩ := hP' hD hc
  rw [holdsNative_iff] at hPq'
  have e := Res.ok.inj (hq.symm.trans hq')
  have e2 : P = P' := by
    have e3 : matMem P = matMem P' := e.trans hPq'
    have h1 := (holdsNative_iff (m := matMem P) (M := P)).2 rfl
    have h2 := (holdsNative_iff (m := matMem P) (M := P')).2 e3
    funext i j
    exact Res.ok.inj ((h1.2 i j).symm.trans (h2.2 i j))
  subst e2
  exact (hQ i j).accurate (hbd' i j)

/-- The same for a `CArrayNd< REAL_TYPE, 3, 3 >`. -/
theorem C81_inverse_carray (cfg : Config) (M : Matrix (Fin 3) (Fin 3) ℝ) (m : List Flt)
    (hm : HoldsMatrix m (M.map Flt.ofReal)) :
    ∃ (det : Flt) (after : Res (List Flt)),
      inverse (floatArith F) (carray cfg (CArray.whole [3, 3])) m = .ok (det, after) ∧
      (det.raised = true ∨ ∃ δ, det = Flt.ofReal δ ∧
        let ε := errBound (unitRoundoff F) 5
        |δ - M.det| ≤ ε * detMagnitude M ∧ (δ = 0 → after = .nonfinite) ∧
        (ε * detMagnitude M < |M.det| → (0 < δ ↔ 0 < M.det) ∧ (δ < 0 ↔ M.det < 0)) ∧
        (δ ≠ 0 → ∃ (m' : List Flt) (P : Matrix (Fin 3) (Fin 3) Flt), after = .ok m' ∧ HoldsMatrix m' P ∧
          ∀ i j, Accurate (P i j) (M.adjugate i j / δ) (ε * (adjMagnitude M i j / |δ|)) ∧
            (M.det ≠ 0 → ε * detMagnitude M ≤ |M.det| / 2 → Accurate (P i j) (M⁻¹ i j)
              (2 * ε * (1 + detMagnitude M / |M.det|) * (adjMagnitude M i j / |M.det|))))) := by
  rw [holds_iff (by norm_num) (by norm_num)] at hm
  obtain ⟨det, after, h1, h2⟩ := C81_inverse (F := F) M m (holdsNative_iff.2 hm)
  have e := inverse_carray cfg (floatArith F) [] [] (m := m) (by rw [hm]; exact matMem_length _)
  rw [h1] at e
  simp only [List.nil_append, List.append_nil] at e
  refine ⟨_, _, e, h2.imp_right ?_⟩
  rintro ⟨δ, hδ, ha, hb, hc, hd⟩
  refine ⟨δ, hδ, ha, fun h => by rw [hb h]; rfl, hc, fun h => ?_⟩
  obtain ⟨m', P, hm', hP, h5⟩ := hd h
  rw [holdsNative_iff] at hP
  subst hP
  exact ⟨matMem P, P, by rw [hm']; rfl, (holds_iff (by norm_num) (by norm_num)).2 rfl, h5⟩

/-! ### Jacobians -/

section transform
variable {d : ℕ} {order : Fin d → ℕ} {c : (k : Fin d) → Fin (order k + 1) → ℝ} {t : LinearTransform Flt}
  {X : ((k : Fin d) → Fin (order k + 1)) → Fin d → ℝ} {data : List ℝ}

private theorem transform_rel (h : IsLagrangeFloat F order c t.shape) (hdata : t.data = data.map Flt.ofReal) :
    ∃ t' : LinearTransform ℝ, IsLagrangeIn (roundedArith (cleanRound F)) order c t'.shape ∧ t'.data = data ∧
      TransformRel False Sim t' t := by
  obtain ⟨e', he', hrel⟩ := floatElement_rel h
  exact ⟨⟨e', data⟩, he', rfl, hrel, hdata ▸ forall₂_ofReal⟩

/-- **C81, Jacobians.** For a cell with finite support points, `jacobian` leaves entries that obey the bound of
C74, each unless an exception was raised in its computation. -/
theorem C81_jacobian (h : IsLagrangeFloat F order c t.shape) (hdata : t.data = data.map Flt.ofReal)
    (hX : HoldsPoints data X) (hd : d ≤ 3) (cfg : Config) (ξ : Fin d → ℝ) (extra : List ℝ)
    (he : d + extra.length = 3) :
    ∃ (mem : List Flt) (D : Matrix (Fin d) (Fin d) ℝ) (J : Matrix (Fin d) (Fin d) Flt),
      IsDerivative (cellMap c X) D ξ ∧
      LinearTransform.jacobianValue cfg (floatArith F) t ((List.ofFn ξ ++ extra).map Flt.ofReal) = .ok mem ∧
      HoldsMatrix mem J ∧
      ∀ i j, Accurate (J i j) (D i j)
        (errBound (unitRoundoff F) (gradientRoundings order) * cellMagnitude c X ξ i j) := by
  obtain ⟨t', ht', rfl, hrel⟩ := transform_rel h hdata
  have hs : d * d ≤ 2147483647 := (Nat.mul_le_mul hd hd).trans (by norm_num)
  obtain ⟨mem, D, J, hD, hm, hJ, hb⟩ := C74_jacobian_error (cleanRound_rounds F) ht' hX hd cfg ξ extra he
  rw [holds_iff h.dims hs] at hJ
  subst hJ
  obtain ⟨g, hg, hfa⟩ := (jacobianValue_rel (float_sim F).toOpsRel hrel forall₂_ofReal cfg).total hm
  obtain ⟨Q, rfl, hQ⟩ := matMem_rel hfa
  exact ⟨_, D, Q, hD, hg, (holds_iff h.dims hs).2 rfl, fun i j => (hQ i j).accurate (hb i j)⟩

omit t in
private theorem inverseJacobianValue_eq {R : Type} {t : LinearTransform R} (cfg : Config) (A : Arith R) (x mem : List R)
    (h : LinearTransform.jacobianValue cfg A t x = .ok mem) :
    LinearTransform.inverseJacobianValue cfg A t x = inverse A (carray cfg t.jacobianView) mem := by
  unfold LinearTransform.jacobianValue at h
  obtain ⟨_, h1, h2⟩ := Res.bind_eq_ok.1 h
  obtain ⟨J, h3, h4⟩ := Res.bind_eq_ok.1 h2
  unfold LinearTransform.inverseJacobianValue LinearTransform.inverseJacobian
  rw [h1, Res.ok_bind, h3, Res.ok_bind, h4, Res.ok_bind]

/-- **C81, inverse Jacobians.** For a cell with finite support points, `inverseJacobian` leaves a determinant.
If no exception was raised on the way, it is a finite number that obeys the bound of C75, and, if the exact
determinant is larger than twice that bound, the entries left behind obey the bound of C75, each unless an
exception was raised in its computation. -/
theorem C81_inverseJacobian {order : Fin 3 → ℕ} {c : (k : Fin 3) → Fin (order k + 1) → ℝ}
    {X : ((k : Fin 3) → Fin (order k + 1)) → Fin 3 → ℝ} (h : IsLagrangeFloat F order c t.shape)
    (hdata : t.data = data.map Flt.ofReal) (hX : HoldsPoints data X) (cfg : Config) (ξ : Fin 3 → ℝ) :
    ∃ (D : Matrix (Fin 3) (Fin 3) ℝ) (det : Flt) (after : Res (List Flt)), IsDerivative (cellMap c X) D ξ ∧
      LinearTransform.inverseJacobianValue cfg (floatArith F) t ((List.ofFn ξ).map Flt.ofReal) = .ok (det, after) ∧
      (det.raised = true ∨ ∃ δ, det = Flt.ofReal δ ∧
        let B := cellMagnitude c X ξ
        let ε := errBound (unitRoundoff F) (3 * gradientRoundings order + 5)
        |δ - D.det| ≤ ε * detMagnitude B ∧
        (ε * detMagnitude B < |D.det| → (0 < δ ↔ 0 < D.det) ∧ (δ < 0 ↔ D.det < 0)) ∧
        (D.det ≠ 0 → ε * detMagnitude B ≤ |D.det| / 2 →
          ∃ (m : List Flt) (P : Matrix (Fin 3) (Fin 3) Flt), after = .ok m ∧ HoldsMatrix m P ∧
            ∀ i j, Accurate (P i j) (D⁻¹ i j)
              (2 * ε * (1 + detMagnitude B / |D.det|) * (adjMagnitude B i j / |D.det|)))) := by
  obtain ⟨t', ht', rfl, hrel⟩ := transform_rel h hdata
  obtain ⟨D, δ, r, hD, hr, hb, hsgn, hP⟩ := C75_inverseJacobian_error (cleanRound_rounds F) ht' hX cfg ξ
  obtain ⟨memR, -, JR, -, hJR, hhR, -⟩ := C74_jacobian_error (cleanRound_rounds F) ht' hX (by norm_num) cfg ξ []
    (by simp)
  rw [List.append_nil] at hJR
  rw [holds_iff (by norm_num) (by norm_num)] at hhR
  subst hhR
  obtain ⟨mem, hmem, hfa⟩ := (jacobianValue_rel (float_sim F).toOpsRel hrel forall₂_ofReal cfg).total hJR
  obtain ⟨Q, rfl, -⟩ := matMem_rel hfa
  have hn : t.numDims = 3 := by
    obtain ⟨b, hb, -⟩ := h.bases
    rw [LinearTransform.numDims, hb]; simp
  have e := inverse_carray cfg (floatArith F) [] [] (m := matMem Q) (matMem_length Q)
  simp only [List.nil_append, List.append_nil] at e
  obtain ⟨⟨det, after⟩, hN⟩ : ∃ q, inverseNative (floatArith F) (matMem Q) = .ok q := by
    rw [matMem_three, inverseNative_eq]; exact ⟨_, rfl⟩
  rw [hN] at e
  have hv : t.jacobianView = ⟨[3, 3], ((([] : List Flt).length : ℕ) : Int)⟩ := by
    rw [LinearTransform.jacobianView, hn]; rfl
  have hrun : LinearTransform.inverseJacobianValue cfg (floatArith F) t ((List.ofFn ξ).map Flt.ofReal)
      = .ok (det, after) := by
    rw [inverseJacobianValue_eq cfg _ _ _ hmem, hv, e]
    cases after <;> rfl
  refine ⟨D, det, after, hD, hrun, ?_⟩
  have hrelT : TransformRel True Sim t' t := by
    refine ⟨⟨hrel.shape.dims, hrel.shape.bases.imp fun b b' hbb => ⟨hbb.num, fun i x y hx => ?_, fun i x y hx => ?_⟩⟩,
      hrel.data⟩
    · exact fun a ha => (hbb.value i hx a ha).imp_right fun h => h.1.elim
    · exact fun a ha => (hbb.gradient i hx a ha).imp_right fun h => h.1.elim
  rcases inverseJacobianValue_rel hrelT forall₂_ofReal (float_sim F) cfg _ hr with ⟨⟨det', after'⟩, hf, hd, ha⟩ | ⟨-, hn⟩
  swap
  · exact absurd hrun (hn _)
  obtain ⟨rfl, rfl⟩ := Prod.mk.inj (Res.ok.inj (hrun.symm.trans hf))
  rcases sim_finite hd with h | rfl
  · exact .inl h
  refine .inr ⟨δ, rfl, hb, hsgn, fun hD0 hc => ?_⟩
  obtain ⟨m, P, hm, hPm, hbd⟩ := hP hD0 hc
  have hδ : δ ≠ 0 := by
    obtain ⟨s1, s2⟩ := hsgn (by have := abs_pos.2 hD0; linarith)
    rcases lt_or_gt_of_ne hD0 with h | h
    · exact ((s2.2 h)).ne
    · exact ((s1.2 h)).ne'
  obtain ⟨m', hm'⟩ := (inverseNative_after (matMem_length Q) hN).2 fun e => hδ (Datum.finite.inj e)
  rw [holds_iff (by norm_num) (by norm_num)] at hPm
  subst hPm
  rcases ha _ hm with ⟨m'', hm2, hfa2⟩ | ⟨-, hn⟩
  swap
  · exact absurd hm' (hn m')
  obtain ⟨W, rfl, hW⟩ := matMem_rel hfa2
  exact ⟨_, W, hm2, (holds_iff (by norm_num) (by norm_num)).2 rfl, fun i j => (hW i j).accurate (hbd i j)⟩

end transform

end Verif.Props
