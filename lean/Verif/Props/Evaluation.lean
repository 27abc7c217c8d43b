import Verif.Lemmas.Evaluation
import Verif.Props.RoundedMapping

/-! # Property C97: accuracy does not depend on how the compiler evaluates floating-point expressions

Code runs in `termArith`, which builds expressions, and the bounds hold for every evaluation of the result in which each operation
has a relative error of at most `u`: fused multiply-adds, wider intermediate results and any mixture of rounding modes are
evaluations.  Overflow and underflow are not modelled here.  Coordinates, nodes and data are numbers held in variables. -/

namespace Verif.Props

open Verif.Spec Verif.Lemmas Verif.MathUtilities

variable {u : ℝ}

/-- Numbers held in variables have one value. -/
theorem is_num (hu : 0 ≤ u) (hh : u ≤ 1 / 2) (x : ℝ) : (termValued hu hh).Is x (.num x) := by
  intro o ho
  cases (show Evaluates u (.num x) o from ho)
  rfl

theorem always {hu : 0 ≤ u} {hh : u ≤ 1 / 2} {k : ℕ} {B x : ℝ} {t : Term} (h : (termValued hu hh).Within k B x t) :
    AlwaysWithin u t x (errBound u k * B) := fun o ho => by
  obtain ⟨v, hv, hw⟩ := h.2 o ho
  exact ⟨v, hv, hw.2⟩

theorem nodesIn_held (hu : 0 ≤ u) (hh : u ≤ 1 / 2) {S : Spacing ℝ} {n : ℕ} {c : Fin n → ℝ} (h : Nodes S n c) :
    (termValued hu hh).NodesIn (held S) n c :=
  ⟨fun hn i => ⟨.num (c i), by show Term.num <$> S.coordCT _ = _; rw [h.coord hn i]; rfl, is_num hu hh _⟩, h.distinct⟩

theorem basis_ok_term {S : Int → Spacing Term} {order : ℕ} (horder : order < 2147483647) :
    lagrangeBasis termArith S order = .ok ⟨((order + 1 : ℕ) : Int),
      LagrangeBasis.value termArith (S ((order + 1 : ℕ) : Int)) ((order + 1 : ℕ) : Int),
      LagrangeBasis.gradient termArith (S ((order + 1 : ℕ) : Int)) ((order + 1 : ℕ) : Int)⟩ := by
  have h : iadd (order : Int) 1 = .ok ((order + 1 : ℕ) : Int) := by
    push_cast
    exact tnorm_ok ⟨by show (-2147483648 : Int) ≤ _; omega, by show _ ≤ (2147483647 : Int); omega⟩
  rw [lagrangeBasis, h]; rfl

theorem deriv_quotients {n : ℕ} (c : Fin n → ℝ) (j : Fin n) (x : ℝ) :
    deriv (fun x => ∏ t ∈ Finset.univ.erase j, (x - c t) / (c j - c t)) x
      = (Polynomial.derivative (Lagrange.basis Finset.univ c j)).eval x := by
  simp only [← lagrange_quotients]
  exact Polynomial.deriv _

/-- **C97, basis functions.** However the compiler evaluates the operations, the value and the derivative of a basis function have
the errors of C60 and C62, and nothing is divided by zero. -/
theorem C97_basis (hu : 0 ≤ u) (hh : u ≤ 1 / 2) {S : Int → Spacing ℝ} {order : ℕ} {c : Fin (order + 1) → ℝ}
    (horder : order < 2147483647) (hc : Nodes (S ((order + 1 : ℕ) : Int)) (order + 1) c) :
    ∃ b, lagrangeBasis termArith (fun n => held (S n)) order = .ok b ∧ ∀ (j : Fin (order + 1)) (x : ℝ),
      (∃ t, b.value (j : ℕ) (.num x) = .ok t ∧
        let exact := ∏ t ∈ Finset.univ.erase j, (x - c t) / (c j - c t)
        AlwaysWithin u t exact (errBound u (7 * order + 1) * |exact|)) ∧
      (∃ t, b.gradient (j : ℕ) (.num x) = .ok t ∧
        AlwaysWithin u t (deriv (fun x => ∏ t ∈ Finset.univ.erase j, (x - c t) / (c j - c t)) x)
          (errBound u (8 * order + 11) * derivMagnitude c j x)) := by
  refine ⟨_, basis_ok_term horder, fun j x => ⟨?_, ?_⟩⟩
  · obtain ⟨y, hy, ha⟩ := Valued.value order (nodesIn_held hu hh hc) j (is_num hu hh x)
    refine ⟨y, hy, ?_⟩
    rw [lagrange_quotients] at ha
    exact always ha
  · obtain ⟨y, hy, ha⟩ := Valued.gradient order (nodesIn_held hu hh hc) j (is_num hu hh x)
    refine ⟨y, hy, ?_⟩
    rw [deriv_quotients, ← derivMagnitude_eq]
    exact always ha

/-- What the bases of a Lagrange element compute, direction by direction. -/
theorem isLagrangeOn_realises (hu : 0 ≤ u) (hh : u ≤ 1 / 2) {d : ℕ} {order : Fin d → ℕ}
    {c : (k : Fin d) → Fin (order k + 1) → ℝ} {e : Element Term} (h : IsLagrangeOn order c e) :
    ∃ b : Fin d → Basis Term, e = elementOf b ∧
      ∀ k, (termValued hu hh).Realises (b k) (order k + 1)
        (fun j x => (Lagrange.basis Finset.univ (c k) j).eval x)
        (fun j x => (Polynomial.derivative (Lagrange.basis Finset.univ (c k) j)).eval x)
        (fun j x => ∑ a, |factorDeriv (c k) j a| * ∏ t, if t = a then 1 else |factor (c k) j x t|)
        (7 * order k + 1) (8 * order k + 11) := by
  obtain ⟨b, hb, hk⟩ := h.bases
  refine ⟨b, ?_, fun k => ?_⟩
  · cases e; simp only [elementOf]; congr 1; exact h.shape
  · obtain ⟨hlt, S, hS, hbk⟩ := hk k
    rw [basis_ok_term hlt, Res.ok.injEq] at hbk
    rw [← hbk]
    exact ⟨rfl, fun j _ _ hX => Valued.value _ (nodesIn_held hu hh hS) j hX,
      fun j _ _ hX => Valued.gradient _ (nodesIn_held hu hh hS) j hX⟩

variable {d : ℕ} {order : Fin d → ℕ} {c : (k : Fin d) → Fin (order k + 1) → ℝ}

theorem interpolation_count (order : Fin d → ℕ) :
    (∑ k, (7 * order k + 1)) + d + ∏ k, (order k + 1) = interpolationRoundings order := by
  rw [interpolationRoundings, ← sum_succ (f := fun k => 7 * order k + 2) fun k => rfl]

theorem gradient_count (order : Fin d → ℕ) :
    (∑ k, max (7 * order k + 1) (8 * order k + 11)) + d + ∏ k, (order k + 1) = gradientRoundings order := by
  rw [gradientRoundings, ← sum_succ (f := fun k => 8 * order k + 12) fun k => by rw [max_eq_right (by omega)]]

/-- **C97, interpolation.** The same for interpolated values, with the bound of C61. -/
theorem C97_interpolation (hu : 0 ≤ u) (hh : u ≤ 1 / 2) {e : Element Term} (h : IsLagrangeOn order c e)
    (var : List Int → Res Term) (y : ((k : Fin d) → Fin (order k + 1)) → ℝ)
    (hy : ∀ idx, var (tup idx) = .ok (.num (y idx))) (x : Fin d → ℝ) :
    ∃ t, ParentElement.value termArith e (List.ofFn fun k => .num (x k)) var = .ok t ∧
      let N := fun idx : (k : Fin d) → Fin (order k + 1) =>
        ∏ k, ∏ t ∈ Finset.univ.erase (idx k), (x k - c k t) / (c k (idx k) - c k t)
      AlwaysWithin u t (∑ idx, N idx * y idx)
        (errBound u (interpolationRoundings order) * ∑ idx, |N idx| * |y idx|) := by
  obtain ⟨b, rfl, hk⟩ := isLagrangeOn_realises hu hh h
  obtain ⟨r, hrr, hw⟩ := Valued.parent_value h.dims hk (fun k => is_num hu hh (x k)) var y
    fun idx => ⟨_, hy idx, is_num hu hh _⟩
  refine ⟨r, hrr, ?_⟩
  simp only [lagrange_quotients, interpolation_count] at hw
  exact always hw

/-- **C97, gradients.** The same for the gradient of an interpolation, with the bound of C62. -/
theorem C97_gradient (hu : 0 ≤ u) (hh : u ≤ 1 / 2) {e : Element Term} (h : IsLagrangeOn order c e)
    (var : List Int → Res Term) (y : ((k : Fin d) → Fin (order k + 1)) → ℝ)
    (hy : ∀ idx, var (tup idx) = .ok (.num (y idx))) (x : Fin d → ℝ) :
    ∃ t : Fin d → Term, ParentElement.gradient termArith e (List.ofFn fun k => .num (x k)) var = .ok (List.ofFn t) ∧
      let ℓ := fun (k : Fin d) (j : Fin (order k + 1)) (s : ℝ) =>
        ∏ t ∈ Finset.univ.erase j, (s - c k t) / (c k j - c k t)
      ∀ a, AlwaysWithin u (t a)
        (∑ idx, (∏ k, if a = k then deriv (ℓ k (idx k)) (x k) else ℓ k (idx k) (x k)) * y idx)
        (errBound u (gradientRoundings order) * ∑ idx,
          (∏ k, if a = k then derivMagnitude (c k) (idx k) (x k) else |ℓ k (idx k) (x k)|) * |y idx|) := by
  obtain ⟨b, rfl, hk⟩ := isLagrangeOn_realises hu hh h
  obtain ⟨r, hrr, hw⟩ := Valued.parent_gradient h.dims hk (fun k => is_num hu hh (x k)) var y
    fun idx => ⟨_, hy idx, is_num hu hh _⟩
  refine ⟨r, hrr, fun a => ?_⟩
  have hw := hw a
  simp only [derivMagnitude_eq, ← deriv_quotients, gradient_count] at hw
  simp only [lagrange_quotients] at hw
  exact always hw

/-! ### the inverse and Jacobians -/

/-- The last step of the inverse theorems. -/
theorem always_inverse {hu : 0 ≤ u} {hh : u ≤ 1 / 2} {k : ℕ} {B M : Matrix (Fin 3) (Fin 3) ℝ} {N : Matrix (Fin 3) (Fin 3) Term}
    (h : ∀ i j, (termValued hu hh).Within k (B i j) (M i j) (N i j)) :
    ∃ det after, inverseNative termArith (matMem N) = .ok (det, after) ∧
      AlwaysWithin u det M.det (errBound u (3 * k + 5) * detMagnitude B) ∧
      (errBound u (3 * k + 5) * detMagnitude B < |M.det| → ∀ v, Evaluates u det (some v) → (0 < v ↔ 0 < M.det) ∧ (v < 0 ↔ M.det < 0)) ∧
      (M.det ≠ 0 → errBound u (3 * k + 5) * detMagnitude B ≤ |M.det| / 2 →
        ∃ P : Matrix (Fin 3) (Fin 3) Term, after = .ok (matMem P) ∧ ∀ i j, AlwaysWithin u (P i j) (M⁻¹ i j)
          (2 * errBound u (3 * k + 5) * (1 + detMagnitude B / |M.det|) * (adjMagnitude B i j / |M.det|))) := by
  obtain ⟨det, after, h1, h2, h3⟩ := Valued.inverse h
  refine ⟨det, after, h1, always h2, fun hs v hv => sign_of_within (h2.of_val hv) hs, fun hD hc => ?_⟩
  have hlt : errBound u (3 * k + 5) * detMagnitude B < |M.det| := by
    have := abs_pos.2 hD
    linarith
  obtain ⟨P, hP, h4⟩ := h3 fun h0 => by
    obtain ⟨s1, s2⟩ := sign_of_within (h2.of_val h0) hlt
    rcases lt_or_gt_of_ne hD with h | h
    · exact absurd (s2.2 h) (lt_irrefl _)
    · exact absurd (s1.2 h) (lt_irrefl _)
  refine ⟨P, hP, fun i j o ho => ?_⟩
  obtain ⟨v, dv, hv, hdv, hw⟩ := h4 i j o ho
  refine ⟨v, hv, ?_⟩
  rw [inv_apply]
  exact inverse_close hu (by omega) (h2.of_val hdv) hD hc hw

/-- **C97, inverse.** The same for `inverse`, with the bounds of C73: the determinant, its sign, and the inverse. -/
theorem C97_inverse (hu : 0 ≤ u) (hh : u ≤ 1 / 2) (M : Matrix (Fin 3) (Fin 3) ℝ) (m : List Term)
    (hm : HoldsNative m fun i j => .num (M i j)) :
    ∃ (det : Term) (after : Res (List Term)), inverseNative termArith m = .ok (det, after) ∧
      AlwaysWithin u det M.det (errBound u 5 * detMagnitude M) ∧
      (errBound u 5 * detMagnitude M < |M.det| →
        ∀ v, Evaluates u det (some v) → (0 < v ↔ 0 < M.det) ∧ (v < 0 ↔ M.det < 0)) ∧
      (M.det ≠ 0 → errBound u 5 * detMagnitude M ≤ |M.det| / 2 →
        ∃ (m' : List Term) (P : Matrix (Fin 3) (Fin 3) Term), after = .ok m' ∧ HoldsNative m' P ∧
          ∀ i j, AlwaysWithin u (P i j) (M⁻¹ i j)
            (2 * errBound u 5 * (1 + detMagnitude M / |M.det|) * (adjMagnitude M i j / |M.det|))) := by
  have hm := holdsNative_iff.1 hm
  subst hm
  obtain ⟨det, after, h1, h2, h3, h4⟩ := always_inverse (hu := hu) (hh := hh) (M := M)
    fun i j => (is_num hu hh (M i j)).within 0
  simp only [detMagnitude_abs, adjMagnitude_abs] at h2 h3 h4
  refine ⟨det, after, h1, h2, h3, fun hD hc => ?_⟩
  obtain ⟨P, hP, h5⟩ := h4 hD hc
  exact ⟨matMem P, P, hP, holdsNative_iff.2 rfl, h5⟩

variable {t : LinearTransform Term} {X : ((k : Fin d) → Fin (order k + 1)) → Fin d → ℝ}

/-- The zero matrix the wrappers start from. -/
theorem listInit_zero_term (hd : 0 < d) (hs : d * d ≤ 2147483647) :
    CArray.listInit (termArith.lit 0) [(d : Int), (d : Int)] [termArith.lit 0]
      = .ok (matMem fun _ _ : Fin d => termArith.lit 0) := by
  have hv := validShape_square hd hs
  have hdd : 0 < d * d := Nat.mul_pos hd hd
  have hp : [(d : Int), (d : Int)].prod = ((d * d : ℕ) : Int) := by simp
  simp only [CArray.listInit, size_ok hv.1 hv.2.1 hv.2.2, Res.constexpr_ok, Res.ok_bind, hp]
  rw [staticAssert_bind_true (by exact_mod_cast hdd), staticAssert_bind_true (by simp; omega)]
  congr 1
  apply List.ext_getElem
  · refine Eq.trans ?_ (matMem_length _).symm; simp; omega
  · intro k h1 h2
    simp only [matMem, List.getElem_ofFn, List.getElem_append]
    split <;> simp

/-- What the Jacobian loop leaves. -/
theorem jacobian_terms (hu : 0 ≤ u) (hh : u ≤ 1 / 2) (h : IsLagrangeOn order c t.shape) (hs : d * d ≤ 2147483647)
    (hX : HoldsPoints t.data fun idx i => .num (X idx i)) (cfg : Config) (ξ : Fin d → ℝ) (extra : List Term) :
    ∃ (D : Matrix (Fin d) (Fin d) ℝ) (J : Matrix (Fin d) (Fin d) Term), IsDerivative (cellMap c X) D ξ ∧
      t.numDims = d ∧
      LinearTransform.jacobian cfg termArith t ((List.ofFn fun k => .num (ξ k)) ++ extra)
        (matMem fun _ _ : Fin d => termArith.lit 0) = .ok (matMem J) ∧
      ∀ i j, (termValued hu hh).Within (gradientRoundings order) (cellMagnitude c X ξ i j) (D i j) (J i j) := by
  obtain ⟨b, hb, hk⟩ := isLagrangeOn_realises hu hh h
  have hcell : Cell t b (fun k => order k + 1) fun idx i => .num (X idx i) :=
    ⟨h.dims, hs, by rw [hb]; rfl, by rw [hb]; exact elementOf_instantiate b, fun k => (hk k).count, hX⟩
  obtain ⟨J, hJ, hw⟩ := Valued.jacobian hcell hk cfg (fun k => is_num hu hh (ξ k)) (fun idx i => is_num hu hh (X idx i)) extra
  refine ⟨_, J, cellMap_derivative c X ξ, by rw [LinearTransform.numDims, hb]; simp [elementOf], hJ, fun i j => ?_⟩
  have hw := hw i j
  simp only [derivMagnitude_eq, gradient_count] at hw
  simp only [cellMagnitude, lagrange_quotients] at hw ⊢
  exact hw

/-- **C97, Jacobians.** The same for Jacobians of cells, with the bound of C74. -/
theorem C97_jacobian (hu : 0 ≤ u) (hh : u ≤ 1 / 2) (h : IsLagrangeOn order c t.shape)
    (hX : HoldsPoints t.data fun idx i => .num (X idx i)) (hd : d ≤ 3) (cfg : Config) (ξ : Fin d → ℝ) (extra : List Term)
    (he : d + extra.length = 3) :
    ∃ (mem : List Term) (D : Matrix (Fin d) (Fin d) ℝ) (J : Matrix (Fin d) (Fin d) Term), IsDerivative (cellMap c X) D ξ ∧
      LinearTransform.jacobianValue cfg termArith t ((List.ofFn fun k => .num (ξ k)) ++ extra) = .ok mem ∧
      HoldsMatrix mem J ∧
      ∀ i j, AlwaysWithin u (J i j) (D i j) (errBound u (gradientRoundings order) * cellMagnitude c X ξ i j) := by
  have hs : d * d ≤ 2147483647 := (Nat.mul_le_mul hd hd).trans (by norm_num)
  obtain ⟨D, J, hD, hn, hJ, hw⟩ := jacobian_terms hu hh h hs hX cfg ξ extra
  refine ⟨matMem J, D, J, hD, ?_, (holds_iff h.dims hs).2 rfl, fun i j => always (hw i j)⟩
  rw [LinearTransform.jacobianValue, staticAssert_bind_true (by simp [he]), hn, listInit_zero_term h.dims hs, Res.ok_bind, hJ]

/-- **C97, inverse Jacobians.** The same for `inverseJacobian`, with the bounds of C75. -/
theorem C97_inverseJacobian {order : Fin 3 → ℕ} {c : (k : Fin 3) → Fin (order k + 1) → ℝ}
    {X : ((k : Fin 3) → Fin (order k + 1)) → Fin 3 → ℝ} (hu : 0 ≤ u) (hh : u ≤ 1 / 2) (h : IsLagrangeOn order c t.shape)
    (hX : HoldsPoints t.data fun idx i => .num (X idx i)) (cfg : Config) (ξ : Fin 3 → ℝ) :
    ∃ (D : Matrix (Fin 3) (Fin 3) ℝ) (det : Term) (after : Res (List Term)), IsDerivative (cellMap c X) D ξ ∧
      LinearTransform.inverseJacobianValue cfg termArith t (List.ofFn fun k => .num (ξ k)) = .ok (det, after) ∧
      let B := cellMagnitude c X ξ
      let ε := errBound u (3 * gradientRoundings order + 5)
      AlwaysWithin u det D.det (ε * detMagnitude B) ∧
      (ε * detMagnitude B < |D.det| → ∀ v, Evaluates u det (some v) → (0 < v ↔ 0 < D.det) ∧ (v < 0 ↔ D.det < 0)) ∧
      (D.det ≠ 0 → ε * detMagnitude B ≤ |D.det| / 2 →
        ∃ (m : List Term) (P : Matrix (Fin 3) (Fin 3) Term), after = .ok m ∧ HoldsMatrix m P ∧
          ∀ i j, AlwaysWithin u (P i j) (D⁻¹ i j)
            (2 * ε * (1 + detMagnitude B / |D.det|) * (adjMagnitude B i j / |D.det|))) := by
  obtain ⟨D, J, hD, hn, hJ, hw⟩ := jacobian_terms hu hh h (by norm_num) hX cfg ξ []
  obtain ⟨det, after, h1, h2, h3, h4⟩ := always_inverse hw
  have e := inverse_carray cfg termArith [] [] (m := matMem J) (matMem_length J)
  rw [h1] at e
  simp only [List.nil_append, List.append_nil] at e
  have hz := listInit_zero_term (d := 3) (by norm_num) (by norm_num)
  refine ⟨D, det, (fun m' => m') <$> after, hD, ?_, h2, h3, fun hD0 hc => ?_⟩
  · rw [LinearTransform.inverseJacobianValue, staticAssert_bind_true (by simp), hn]
    refine (congrArg (· >>= _) hz).trans ?_
    rw [List.append_nil] at hJ
    simp only [Res.ok_bind]
    rw [LinearTransform.inverseJacobian, hJ, Res.ok_bind, LinearTransform.jacobianView, hn]
    exact e
  · obtain ⟨P, hP, h5⟩ := h4 hD0 hc
    exact ⟨matMem P, P, by rw [hP]; rfl, (holds_iff (by norm_num) (by norm_num)).2 rfl, h5⟩

/-! ### what counts as an evaluation -/

/-- **C97, fused operations.** Whatever products a compiler fuses with the sums and differences that use them, the result is an
evaluation. -/
theorem C97_contraction {fl : ℝ → ℝ} (hr : Rounds fl u) {t : Term} {v : ℝ} (h : Contracted fl t v) : Evaluates u t (some v) :=
  evaluates_of_contracted hr h

theorem basis_contracted (fl : ℝ → ℝ) {S : Int → Spacing ℝ} {order : Int} {b : Basis ℝ} {b' : Basis Term}
    (hb : lagrangeBasis (roundedArith fl) S order = .ok b)
    (hb' : lagrangeBasis termArith (fun n => held (S n)) order = .ok b') :
    BasisRel False (fun r t => Contracted fl t r) b b' := by
  obtain ⟨n, hn, e⟩ := Res.bind_eq_ok.1 hb
  obtain ⟨n', hn', e'⟩ := Res.bind_eq_ok.1 hb'
  have := hn.symm.trans hn'
  cases this
  cases e
  cases e'
  have hs : SpacingRel False (fun r t => Contracted fl t r) (S n) (held (S n)) :=
    ⟨rfl, fun i => fun a ha => .inl ⟨.num a, by show Term.num <$> _ = _; rw [ha]; rfl, .num a⟩,
      fun i => fun a ha => .inl ⟨.num a, by show Term.num <$> _ = _; rw [ha]; rfl, .num a⟩⟩
  have h := contracted_rel fl
  have hd : NodeDivRel False (roundedArith fl) termArith (fun r t => Contracted fl t r) (S n) (held (S n)) :=
    fun _ _ _ _ _ h1 h2 => h.div (h.lit 1) (h.sub h1 h2)
  exact ⟨rfl, fun i _ _ hx => basisValue_rel h.toOpsRel hs hd n i hx, fun i _ _ hx => basisGradient_rel h.toOpsRel hs hd n i hx⟩

theorem ok_contracted {α β : Type} {ρ : α → β → Prop} {x : Res α} {y : Res β} (h : ResRel False ρ x y) {a : α} (ha : x = .ok a) :
    ∃ b, y = .ok b ∧ ρ a b := by
  rcases h a ha with h | ⟨h, -⟩
  exacts [h, h.elim]

/-- **C97, plain rounding, basis functions.** What the code computes with rounding after every operation is one of those results. -/
theorem C97_plain_basis (fl : ℝ → ℝ) {S : Int → Spacing ℝ} {order : Int} {b : Basis ℝ} {b' : Basis Term}
    (hb : lagrangeBasis (roundedArith fl) S order = .ok b)
    (hb' : lagrangeBasis termArith (fun n => held (S n)) order = .ok b') (j : Int) (x v : ℝ) :
    (b.value j x = .ok v → ∃ t, b'.value j (.num x) = .ok t ∧ Contracted fl t v) ∧
    (b.gradient j x = .ok v → ∃ t, b'.gradient j (.num x) = .ok t ∧ Contracted fl t v) := by
  have h := basis_contracted fl hb hb'
  exact ⟨ok_contracted (h.value j (.num x)), ok_contracted (h.gradient j (.num x))⟩

theorem nums_contracted (fl : ℝ → ℝ) (l : List ℝ) : List.Forall₂ (fun r t => Contracted fl t r) l (l.map Term.num) := by
  induction l with
  | nil => exact .nil
  | cons a l ih => exact .cons (.num a) ih

/-- **C97, plain rounding, elements and cells.** The same for interpolated values and gradients, and for Jacobians and their
inverses. -/
theorem C97_plain_element (fl : ℝ → ℝ) {order : List Int} {S : Int → Spacing ℝ} {dims : Res Int} {bs : List (Basis ℝ)}
    {bs' : List (Basis Term)}
    (hb : List.Forall₂ (fun k b => lagrangeBasis (roundedArith fl) S k = .ok b) order bs)
    (hb' : List.Forall₂ (fun k b => lagrangeBasis termArith (fun n => held (S n)) k = .ok b) order bs')
    (x data : List ℝ) (var : List Int → Res ℝ) (cfg : Config) :
    (∀ v, ParentElement.value (roundedArith fl) ⟨dims, bs⟩ x var = .ok v →
      ∃ t, ParentElement.value termArith ⟨dims, bs'⟩ (x.map .num) (fun i => .num <$> var i) = .ok t ∧ Contracted fl t v) ∧
    (∀ v, ParentElement.gradient (roundedArith fl) ⟨dims, bs⟩ x var = .ok v →
      ∃ t, ParentElement.gradient termArith ⟨dims, bs'⟩ (x.map .num) (fun i => .num <$> var i) = .ok t ∧
        List.Forall₂ (fun v t => Contracted fl t v) v t) ∧
    (∀ v, LinearTransform.jacobianValue cfg (roundedArith fl) ⟨⟨dims, bs⟩, data⟩ x = .ok v →
      ∃ t, LinearTransform.jacobianValue cfg termArith ⟨⟨dims, bs'⟩, data.map .num⟩ (x.map .num) = .ok t ∧
        List.Forall₂ (fun v t => Contracted fl t v) v t) ∧
    (∀ det m, LinearTransform.inverseJacobianValue cfg (roundedArith fl) ⟨⟨dims, bs⟩, data⟩ x = .ok (det, .ok m) →
      ∃ det' m', LinearTransform.inverseJacobianValue cfg termArith ⟨⟨dims, bs'⟩, data.map .num⟩ (x.map .num)
          = .ok (det', .ok m') ∧ Contracted fl det' det ∧ List.Forall₂ (fun v t => Contracted fl t v) m m') := by
  have h := contracted_rel fl
  have hbb : List.Forall₂ (BasisRel False fun r t => Contracted fl t r) bs bs' := by
    induction hb generalizing bs' with
    | nil => cases hb'; exact .nil
    | cons h1 _ ih =>
      cases hb' with
      | cons h2 h3 => exact .cons (basis_contracted fl h1 h2) (ih h3)
  have he : ElementRel False (fun r t => Contracted fl t r) ⟨dims, bs⟩ ⟨dims, bs'⟩ := ⟨rfl, hbb⟩
  have ht : TransformRel False (fun r t => Contracted fl t r) ⟨⟨dims, bs⟩, data⟩ ⟨⟨dims, bs'⟩, data.map .num⟩ :=
    ⟨he, nums_contracted fl data⟩
  have hx := nums_contracted fl x
  have hv : ∀ i, ResRel False (fun r t => Contracted fl t r) (var i) (Term.num <$> var i) := fun i a ha =>
    .inl ⟨.num a, by rw [ha]; rfl, .num a⟩
  refine ⟨fun v hv' => ok_contracted (parentValue_rel h.toOpsRel he hx hv) hv',
    fun v hv' => ok_contracted (parentGradient_rel h.toOpsRel he hx hv) hv',
    fun v hv' => ok_contracted (jacobianValue_rel h.toOpsRel ht hx cfg) hv', fun det m hv' => ?_⟩
  obtain ⟨⟨det', after⟩, h1, h2, h3⟩ := ok_contracted (inverseJacobianValue_rel ht hx h cfg) hv'
  obtain ⟨m', rfl, h4⟩ := ok_contracted h3 rfl
  exact ⟨det', m', h1, h2, h4⟩

/-! ### the hypotheses can be met -/

/-- The two-point Gauss-Lobatto spacing. -/
theorem sample_nodes : Nodes (gaussLobattoSpacing (exactArith ℝ) ((1 + 1 : ℕ) : Int)) (1 + 1) ![-1, 1] := by
  refine ⟨fun _ i => ?_, fun i j hij => ?_⟩
  · fin_cases i
    · show Res.ok _ = _
      simp [exactArith]
    · show Res.ok _ = _
      simp [exactArith]
      norm_num
  · fin_cases i <;> fin_cases j <;> first | rfl | (simp at hij; norm_num at hij)

/-- Non-vacuity of the theorems about elements and cells: a trilinear element with nodes -1 and 1, set to the parent cube. -/
theorem sample_cell_terms : ∃ t : LinearTransform Term,
    IsLagrangeOn (fun _ : Fin 3 => 1) (fun _ => ![-1, 1]) t.shape ∧
    HoldsPoints t.data (fun (idx : Fin 3 → Fin 2) i => Term.num ((![-1, 1] : Fin 2 → ℝ) (idx i))) := by
  obtain ⟨b, hb, -⟩ := C97_basis (u := 0) le_rfl (by norm_num) (by norm_num) sample_nodes
  have h : IsLagrangeOn (fun _ : Fin 3 => 1) (fun _ => ![-1, 1]) ⟨.ok 3, List.ofFn fun _ : Fin 3 => b⟩ :=
    ⟨by norm_num, rfl, fun _ => b, rfl, fun k => ⟨by norm_num, _, sample_nodes, hb⟩⟩
  obtain ⟨bs, hbs, hk⟩ := isLagrangeOn_realises (u := 0) le_rfl (by norm_num) h
  obtain ⟨t', h1, h2, -, h3, -⟩ := C48_setData checkedHost
    ⟨⟨.ok 3, List.ofFn fun _ : Fin 3 => b⟩, List.replicate 24 (.num 0)⟩ bs (by rw [hbs]; rfl)
    (by rw [hbs]; exact elementOf_instantiate bs) (fun k => (hk k).count) (by simp)
    (fun v i => .num ((![-1, 1] : Fin 2 → ℝ) ⟨(v : ℕ) / 2 ^ (i : ℕ) % 2, Nat.mod_lt _ (by norm_num)⟩))
    (fun r i => .ok (.num ((![-1, 1] : Fin 2 → ℝ) ⟨r.toNat / 2 ^ i.toNat % 2, Nat.mod_lt _ (by norm_num)⟩)))
    (fun v i => by simp)
  refine ⟨t', by rw [h2]; exact h, ?_⟩
  convert h3 using 4 with idx i
  congr 1
  apply Fin.ext
  have a0 := (idx 0).2
  have a1 := (idx 1).2
  have a2 := (idx 2).2
  fin_cases i <;> simp [vertexNumber] <;> omega

/-- The results bounded by C97 exist: in `double`, plain rounding gives one for every basis function. -/
example : ∃ b, lagrangeBasis termArith (fun n => held (gaussLobattoSpacing (exactArith ℝ) n)) (1 : ℕ) = .ok b ∧
    ∃ t v, b.value 0 (.num (1 / 3)) = .ok t ∧ Evaluates (1 / 2 ^ 53) t (some v) := by
  have hr := (C60_binaryRound 52).1
  obtain ⟨b, hb, h⟩ := C60_value_error hr (by norm_num) sample_nodes
  obtain ⟨b', hb', -⟩ := C97_basis (u := 0) le_rfl (by norm_num) (by norm_num) sample_nodes
  obtain ⟨y, hy, -⟩ := h 0 (1 / 3)
  obtain ⟨t, ht, hc⟩ := (C97_plain_basis _ hb hb' 0 (1 / 3) y).1 hy
  exact ⟨b', hb', t, y, ht, C97_contraction hr hc⟩

/-- Fusing matters: with two significant bits, `1.5 * 1.5 - 2` is 0 with two roundings and 0.25 with one; both are evaluations. -/
example : let t := Term.op .sub (.op .mul (.num (3 / 2)) (.num (3 / 2))) (.num 2)
    Contracted (binaryRound 1) t 0 ∧ Contracted (binaryRound 1) t (1 / 4) ∧
      Evaluates (1 / 2 ^ 2) t (some 0) ∧ Evaluates (1 / 2 ^ 2) t (some (1 / 4)) := by
  have e1 : binaryRound 1 (3 / 2 * (3 / 2)) = 2 := by
    have h : Int.log 2 |(3 / 2 * (3 / 2) : ℝ)| = 1 := by
      rw [abs_of_pos (by norm_num), Int.log_of_one_le_right _ (by norm_num)]
      rw [show ⌊(3 / 2 * (3 / 2) : ℝ)⌋₊ = 2 from (Nat.floor_eq_iff (by norm_num)).2 ⟨by norm_num, by norm_num⟩]
      decide +kernel
    rw [binaryRound, h]
    have : round (3 / 2 * (3 / 2) * (2 : ℝ) ^ (((1 : ℕ) : ℤ) - 1)) = 2 := by
      rw [round_eq, Int.floor_eq_iff]; norm_num
    rw [this]; norm_num
  have e2 : binaryRound 1 (2 - 2) = 0 := by simp [binaryRound]
  have e3 : binaryRound 1 (3 / 2 * (3 / 2) - 2) = 1 / 4 := by
    have h : Int.log 2 |(3 / 2 * (3 / 2) - 2 : ℝ)| = -2 := by
      rw [show |(3 / 2 * (3 / 2) - 2 : ℝ)| = ((2 : ℕ) : ℝ) ^ (-2 : ℤ) by norm_num]
      exact Int.log_zpow (by norm_num) _
    rw [binaryRound, h]
    have : round ((3 / 2 * (3 / 2) - 2) * (2 : ℝ) ^ (((1 : ℕ) : ℤ) - -2)) = 2 := by
      rw [round_eq, Int.floor_eq_iff]; norm_num
    rw [this]; norm_num
  have h1 : Contracted (binaryRound 1) (.op .sub (.op .mul (.num (3 / 2)) (.num (3 / 2))) (.num 2)) 0 := by
    have := Contracted.op (fl := binaryRound 1) (o := .sub) (.op (o := .mul) (.num (3 / 2)) (.num (3 / 2)) rfl) (.num 2) rfl
    rwa [e1, e2] at this
  have h2 : Contracted (binaryRound 1) (.op .sub (.op .mul (.num (3 / 2)) (.num (3 / 2))) (.num 2)) (1 / 4) := by
    have := Contracted.mul_sub (fl := binaryRound 1) (.num (3 / 2)) (.num (3 / 2)) (.num 2)
    rwa [e3] at this
  have hr := (C60_binaryRound 1).1
  exact ⟨h1, h2, C97_contraction hr h1, C97_contraction hr h2⟩

end Verif.Props
