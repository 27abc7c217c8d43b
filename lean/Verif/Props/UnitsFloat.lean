import Verif.Lemmas.UnitsFloat
import Verif.Props.MonotoneFloat

/-!
# Property C132: changing units by powers of two, in `float` and `double`

If inputs are multiplied by a power of two, or by minus one, then the results are the old ones times the corresponding power, exactly, with
the same rounding errors.  This holds unless an operation overflows, underflows, divides by zero or is invalid; `ScaledBy` in
`Spec/Units.lean` says "exactly `c` times, unless an exception was raised".

The format `F` is arbitrary; that of `float` is `binary32` and that of `double` is `binary64`.
-/

namespace Verif.Props

open Verif.Spec Verif.Lemmas

section
variable {F : FloatFormat} {c : ℝ} (hc : IsPowerOfTwo c)
include hc

/-- **C132, interpolation.** If all nodal values are multiplied by `c`, then so is the interpolated value, with any element and at
any point. -/
theorem C132_value (e : Element Flt) (coord : List Flt) {var var' : List Int → Res Flt}
    (h : ∀ i v, var i = .ok v → ∃ v', var' i = .ok v' ∧ ScaledBy c v v') {z : Flt}
    (hz : ParentElement.value (floatArith F) e coord var = .ok z) :
    ∃ z', ParentElement.value (floatArith F) e coord var' = .ok z' ∧ ScaledBy c z z' := by
  rcases scaled_value (F := F) hc e coord (var := var) (var' := var') (fun i v hv => .inl (h i v hv)) z hz with h | ⟨hf, -⟩
  · exact h
  · exact hf.elim

/-- **C132, derivatives.** And so are the derivatives. -/
theorem C132_gradient (e : Element Flt) (coord : List Flt) {var var' : List Int → Res Flt}
    (h : ∀ i v, var i = .ok v → ∃ v', var' i = .ok v' ∧ ScaledBy c v v') {g : List Flt}
    (hg : ParentElement.gradient (floatArith F) e coord var = .ok g) :
    ∃ g', ParentElement.gradient (floatArith F) e coord var' = .ok g' ∧ List.Forall₂ (ScaledBy c) g g' := by
  rcases scaled_gradient (F := F) hc e coord (var := var) (var' := var') (fun i v hv => .inl (h i v hv)) g hg with h | ⟨hf, -⟩
  · exact h
  · exact hf.elim

section cell
variable (cfg : Config) {t t' : LinearTransform Flt} (hs : t'.shape = t.shape) (hd : List.Forall₂ (ScaledBy c) t.data t'.data) (x : List Flt)
include hs hd

/-- **C132, Jacobian of a cell.** If all coordinates of the vertices are multiplied by `c`, then so are the entries of the Jacobian. -/
theorem C132_jacobian {J : List Flt} (hJ : LinearTransform.jacobianValue cfg (floatArith F) t x = .ok J) :
    ∃ J', LinearTransform.jacobianValue cfg (floatArith F) t' x = .ok J' ∧ List.Forall₂ (ScaledBy c) J J' := by
  rcases scaled_jacobianValue (F := F) hc hs hd cfg x J hJ with h | ⟨hf, -⟩
  · exact h
  · exact hf.elim

/-- **C132, Jacobian at a quadrature point.** So it is with the overload that gets a quadrature point as template arguments; the contents `I` of the array
to which it adds are multiplied by `c` too. -/
theorem C132_quadrature (Q : Spacing Flt) (qa : List Int) {I I' : List Flt} (hI : List.Forall₂ (ScaledBy c) I I') {J : List Flt}
    (hJ : LinearTransform.jacobianQuadrature cfg (floatArith F) t Q qa I = .ok J) :
    ∃ J', LinearTransform.jacobianQuadrature cfg (floatArith F) t' Q qa I' = .ok J' ∧ List.Forall₂ (ScaledBy c) J J' := by
  rcases scaled_jacobianQuadrature (F := F) hc hs hd cfg Q qa hI J hJ with h | ⟨hf, -⟩
  · exact h
  · exact hf.elim

/-- **C132, inverse Jacobian of a cell.** The determinant is multiplied by `c³` and the entries of the inverse by `1 / c`.  Unless there
was an exception in computing the determinants, one inverse has a value if and only if the other has. -/
theorem C132_cell (h3 : t.shape.bases.length = 3) {det : Flt} {inv : Res (List Flt)}
    (h : LinearTransform.inverseJacobianValue cfg (floatArith F) t x = .ok (det, inv)) :
    ∃ det' inv', LinearTransform.inverseJacobianValue cfg (floatArith F) t' x = .ok (det', inv') ∧ ScaledBy (c ^ 3) det det' ∧
      (det.raised = false → det'.raised = false → ((∃ l, inv = .ok l) ↔ ∃ l, inv' = .ok l)) ∧
      ∀ l l', inv = .ok l → inv' = .ok l' → List.Forall₂ (ScaledBy c⁻¹) l l' :=
  scaled_inverseJacobianValue hc hs hd h3 cfg x h

end cell
end

/-- **C132, inverse of a matrix.** If row `i` is multiplied by `r i` and column `j` by `s j`, for all `i` and `j`, then the determinant is multiplied by the
product of all of these, column `j` of the inverse by `1 / r j` and row `i` by `1 / s i`. -/
theorem C132_inverse {F : FloatFormat} {r s : Fin 3 → ℝ} (hr : ∀ i, IsPowerOfTwo (r i)) (hs : ∀ i, IsPowerOfTwo (s i))
    {M M' : Matrix (Fin 3) (Fin 3) Flt} (h : ∀ i j, ScaledBy (r i * s j) (M i j) (M' i j)) :
    ∃ det inv det' inv', MathUtilities.inverseNative (floatArith F) (matMem M) = .ok (det, inv) ∧
      MathUtilities.inverseNative (floatArith F) (matMem M') = .ok (det', inv') ∧
      ScaledBy (r 0 * r 1 * r 2 * (s 0 * s 1 * s 2)) det det' ∧
      (det.raised = false → det'.raised = false → ((∃ l, inv = .ok l) ↔ ∃ l, inv' = .ok l)) ∧
      ∀ l l', inv = .ok l → inv' = .ok l' → ∃ N N' : Matrix (Fin 3) (Fin 3) Flt, l = matMem N ∧ l' = matMem N' ∧
        ∀ i j, ScaledBy ((s i)⁻¹ * (r j)⁻¹) (N i j) (N' i j) :=
  scaled_inverse hr hs h

/-- A quotient has a value or is not finite, and the first unless the divisor is zero. -/
private theorem quotient_cases (T : RealType) (a : Flt) :
    (mixedQuotient T.arith a = .nonfinite ∧ a.datum = .finite 0) ∨ ((∃ q, mixedQuotient T.arith a = .ok q) ∧ a.datum ≠ .finite 0) := by
  have key : ∀ o : Flt, (Flt.div binary64 o a = .nonfinite ∧ a.datum = .finite 0 ∧ o.datum ≠ .nan) ∨ (∃ q, Flt.div binary64 o a = .ok q) ∧
      (a.datum ≠ .finite 0 ∨ o.datum = .nan) := by
    intro o
    obtain ⟨x, r⟩ := a
    obtain ⟨z, w⟩ := o
    cases x
    · rename_i x
      by_cases hx : x = 0 <;> cases z <;> simp [Flt.div, hx]
    all_goals cases z <;> simp [Flt.div]
  have h2 : ((floatArith binary64).lit 2).datum ≠ .nan := by
    have := lit_pow (F := binary64) (format_mem .double) (s := 1) le_rfl
    rw [pow_one, pow_one] at this
    rw [this]; simp [Flt.ofReal]
  have e : mixedQuotient T.arith a = (Flt.div binary64 ((floatArith binary64).lit 2) a >>= fun q => .ok (T.arith.narrow q)) := by cases T <;> rfl
  rw [e]
  rcases key ((floatArith binary64).lit 2) with ⟨h, h0, -⟩ | ⟨⟨q, h⟩, h0⟩
  · exact .inl ⟨by rw [h]; rfl, h0⟩
  · exact .inr ⟨⟨_, by rw [h]; rfl⟩, h0.resolve_right h2⟩

section scaling
variable (cfg : Config) (T : RealType) {c : Fin 3 → ℝ} (hc : ∀ k, IsPowerOfTwo (c k)) {s s' : Scaling Flt} {h h' : Fin 3 → Flt}
  (hs : s.getData = List.ofFn h) (hs' : s'.getData = List.ofFn h') (hh : ∀ k, ScaledBy (c k) (h k) (h' k)) {J J' : List Flt} (hJ : J.length = 3)
  (hJ' : J'.length = 3)
include hc hs hs' hh hJ hJ'

/-- **C132, `Scaling`.** If length `k` is multiplied by `c k`, then entry `k` of the Jacobian is multiplied by `c k`, the determinant by `c 0 * c 1 * c 2` and entry `k` of the
inverse by `1 / c k`. -/
theorem C132_scaling : ∃ (j j' : Fin 3 → Flt) (det det' : Flt) (inv inv' : Res (List Flt)),
    Mixed.Scaling.jacobian cfg T.arith s J = .ok (List.ofFn j) ∧ Mixed.Scaling.jacobian cfg T.arith s' J' = .ok (List.ofFn j') ∧
    (∀ k, ScaledBy (c k) (j k) (j' k)) ∧
    Mixed.Scaling.inverseJacobian cfg T.arith s J = .ok (det, inv) ∧ Mixed.Scaling.inverseJacobian cfg T.arith s' J' = .ok (det', inv') ∧
    ScaledBy (c 0 * c 1 * c 2) det det' ∧
    ((∀ k, (h k).raised = false ∧ (h' k).raised = false) → ((∃ l, inv = .ok l) ↔ ∃ l, inv' = .ok l)) ∧
    ∀ l l', inv = .ok l → inv' = .ok l' → ∃ q q' : Fin 3 → Flt, l = List.ofFn q ∧ l' = List.ofFn q' ∧ ∀ k, ScaledBy (c k)⁻¹ (q k) (q' k) := by
  obtain ⟨r, e1, e2, e3⟩ := mixed_scaling_inverse cfg T.arith s h hs hJ
  obtain ⟨r', e1', e2', e3'⟩ := mixed_scaling_inverse cfg T.arith s' h' hs' hJ'
  -- the inverse has a value if no length is zero
  have char : ∀ {h : Fin 3 → Flt} {r : Res (List Flt)}, (∀ q : Fin 3 → Flt, (∀ k, mixedQuotient T.arith (h k) = .ok (q k)) → r = .ok (List.ofFn q)) →
      ((∃ k, mixedQuotient T.arith (h k) = .nonfinite) →
        (∀ k, mixedQuotient T.arith (h k) = .nonfinite ∨ ∃ q, mixedQuotient T.arith (h k) = .ok q) → r = .nonfinite) →
      (r = .nonfinite ∧ ∃ k, (h k).datum = .finite 0) ∨
        (∃ q : Fin 3 → Flt, (∀ k, mixedQuotient T.arith (h k) = .ok (q k)) ∧ r = .ok (List.ofFn q)) ∧ ∀ k, (h k).datum ≠ .finite 0 := by
    intro h r e2 e3
    by_cases hz : ∃ k, (h k).datum = .finite 0
    · obtain ⟨k, hk⟩ := hz
      refine .inl ⟨e3 ⟨k, ?_⟩ fun k => ?_, k, hk⟩
      · rcases quotient_cases T (h k) with h1 | h1
        · exact h1.1
        · exact absurd hk h1.2
      · rcases quotient_cases T (h k) with h1 | h1
        · exact .inl h1.1
        · exact .inr h1.1
    · have hn : ∀ k, (h k).datum ≠ .finite 0 := fun k hk => hz ⟨k, hk⟩
      have : ∀ k, ∃ q, mixedQuotient T.arith (h k) = .ok q := fun k => by
        rcases quotient_cases T (h k) with h1 | h1
        · exact absurd h1.2 (hn k)
        · exact h1.1
      choose q hq using this
      exact .inr ⟨⟨q, hq, e2 q hq⟩, hn⟩
  refine ⟨_, _, _, _, r, r', mixed_scaling_jacobian cfg T.arith s h hs hJ, mixed_scaling_jacobian cfg T.arith s' h' hs' hJ', ?_, e1, e1', ?_, ?_, ?_⟩
  · exact fun k => scaled_narrow T (hc k) (scaled_half T (hc k) (1 / 2) (hh k))
  · exact scaled_narrow T (((hc 0).mul (hc 1)).mul (hc 2)) (scaled_wide_mul T ((hc 0).mul (hc 1)) (hc 2)
      (scaled_wide_mul T (hc 0) (hc 1) (scaled_half T (hc 0) (1 / 8) (hh 0)) (hh 1)) (hh 2))
  · intro hr
    have hz : ∀ k, (h k).datum = .finite 0 ↔ (h' k).datum = .finite 0 := by
      intro k
      rw [hh k (hr k).1 (hr k).2]
      have := (hc k).ne_zero
      cases (h k).datum <;> simp [timesDatum, this]
    rcases char e2 e3 with ⟨a, k, hk⟩ | ⟨⟨q, -, a⟩, hn⟩ <;> rcases char e2' e3' with ⟨a', k', hk'⟩ | ⟨⟨q', -, a'⟩, hn'⟩
    · simp [a, a']
    · exact absurd ((hz k).1 hk) (hn' k)
    · exact absurd ((hz k').2 hk') (hn k')
    · simp [a, a']
  · intro l l' hl hl'
    rcases char e2 e3 with ⟨a, -⟩ | ⟨⟨q, hq, a⟩, -⟩
    · rw [a] at hl; cases hl
    rcases char e2' e3' with ⟨a', -⟩ | ⟨⟨q', hq', a'⟩, -⟩
    · rw [a'] at hl'; cases hl'
    exact ⟨q, q', Res.ok.inj (hl.symm.trans a), Res.ok.inj (hl'.symm.trans a'), fun k => scaled_quotient T (hc k) (hh k) (hq k) (hq' k)⟩

end scaling

/-- **C132, `UniformScaling`.** If the length is multiplied by `c`, then so is the Jacobian, the determinant is multiplied by `c³` and the inverse by `1 / c`. -/
theorem C132_uniform (cfg : Config) (T : RealType) {c : ℝ} (hc : IsPowerOfTwo c) {u u' : UniformScaling Flt} (hu : ScaledBy c u.getData u'.getData)
    {J J' : List Flt} (hJ : J.length = 1) (hJ' : J'.length = 1) :
    ∃ (j j' det det' : Flt) (inv inv' : Res (List Flt)),
      Mixed.UniformScaling.jacobian cfg T.arith u J = .ok [j] ∧ Mixed.UniformScaling.jacobian cfg T.arith u' J' = .ok [j'] ∧ ScaledBy c j j' ∧
      Mixed.UniformScaling.inverseJacobian cfg T.arith u J = (det, inv) ∧ Mixed.UniformScaling.inverseJacobian cfg T.arith u' J' = (det', inv') ∧
      ScaledBy (c ^ 3) det det' ∧
      (u.getData.raised = false → u'.getData.raised = false → ((∃ l, inv = .ok l) ↔ ∃ l, inv' = .ok l)) ∧
      ∀ l l', inv = .ok l → inv' = .ok l' → ∃ q q', l = [q] ∧ l' = [q'] ∧ ScaledBy c⁻¹ q q' := by
  have hw : ∀ {J : List Flt} (_ : J.length = 1) (x : Flt), CArray.write cfg J (CArray.whole [1]) [0] x = .ok [x] := by
    intro J h1 x
    obtain ⟨g, rfl⟩ := ofFn_length_eq h1
    have := write_vec cfg (d := 1) (by norm_num) g 0 x
    refine this.trans ?_
    simp
  have hreal : T.arith.real = floatArith T.format := by cases T <;> rfl
  have ha : ∀ {J : List Flt} (_ : J.length = 1) (x : Flt), Mixed.UniformScaling.inverseEntry cfg T.arith x J
      = ((floatArith T.format).div ((floatArith T.format).lit 2) x >>= fun q => .ok [q]) := by
    intro J h1 x
    unfold Mixed.UniformScaling.inverseEntry
    rw [hreal]
    simp only [hw h1]
  refine ⟨_, _, _, _, _, _, hw hJ _, hw hJ' _, ?_, rfl, rfl, ?_, ?_, ?_⟩
  · exact scaled_narrow T hc (scaled_half T hc (1 / 2) hu)
  · exact scaled_of_eq (scaled_narrow T ((hc.mul hc).mul hc) (scaled_wide_mul T (hc.mul hc) hc
      (scaled_wide_mul T hc hc (scaled_half T hc (1 / 8) hu) hu) hu)) (by ring)
  · intro hr hr'
    rw [ha hJ, ha hJ']
    have e := hu hr hr'
    have c0 := hc.ne_zero
    show (∃ l, (Flt.div T.format ((floatArith T.format).lit 2) u.getData >>= fun q => .ok [q]) = .ok l) ↔
      ∃ l, (Flt.div T.format ((floatArith T.format).lit 2) u'.getData >>= fun q => .ok [q]) = .ok l
    generalize (floatArith T.format).lit 2 = o
    generalize u.getData = a at e
    generalize u'.getData = b at e
    obtain ⟨x, r⟩ := a
    obtain ⟨y, s⟩ := b
    obtain ⟨z, w⟩ := o
    dsimp only at e
    subst e
    cases x
    · rename_i x
      by_cases hx : x = 0
      · subst hx
        cases z <;> simp [Flt.div, timesDatum]
      · cases z <;> simp [Flt.div, timesDatum, hx, c0]
    all_goals cases z <;> simp [Flt.div, timesDatum]
  · intro l l' hl hl'
    rw [ha hJ] at hl
    rw [ha hJ'] at hl'
    obtain ⟨q, hq, e⟩ := Res.bind_eq_ok.1 hl
    obtain ⟨q', hq', e'⟩ := Res.bind_eq_ok.1 hl'
    exact ⟨q, q', (Res.ok.inj e).symm, (Res.ok.inj e').symm, scaled_of_eq (scaled_div isPowerOfTwo_one hc (scaled_refl _) hu hq hq') (one_mul _)⟩

private theorem matrix_known {F : FloatFormat} {m : List ℚ} {d : ℚ} {n : List ℚ}
    (h : MathUtilities.inverseNative (evalArith F) (m.map some) = .ok (some d, .ok (n.map some))) :
    MathUtilities.inverseNative (floatArith F) (m.map fun q : ℚ => Flt.ofReal q) = .ok (Flt.ofReal d, .ok (n.map fun q : ℚ => Flt.ofReal q)) := by
  have hm : List.Forall₂ Knows (m.map some) (m.map fun q : ℚ => Flt.ofReal q) := by
    clear h
    induction m with
    | nil => exact .nil
    | cons q m ih => exact .cons (knows_some q) ih
  rcases inverse_native_rel (p := False) (eval_rel F) hm _ h with ⟨⟨d', n'⟩, e, hd, hn⟩ | ⟨hf, -⟩
  · rcases hn _ rfl with ⟨l, rfl, hl⟩ | ⟨hf, -⟩
    · have h1 : d' = Flt.ofReal d := hd d rfl
      rw [e, h1, knows_all hl]
    · exact hf.elim
  · exact hf.elim

/-- Non-vacuity of C132, in `float`.  A constant interpolated on a line: the result is not the constant, and the error is multiplied by the same
power of two.  A matrix with the determinant 3: the entry 1/3 of the inverse is rounded, and its error scales too, though rows and columns have
different factors. -/
example : (∃ (b : Basis Flt) (q : ℚ), floatMixed.lagrangeBasis floatMixed.equalSpacing (1 : ℕ) = .ok b ∧ q ≠ 3 ∧
      ParentElement.value (floatArith binary32) ⟨.ok (1 : ℕ), [b]⟩ [Flt.ofReal ((16777203 / 16777216 : ℚ) : ℝ)] (fun _ => .ok (Flt.ofReal ((3 : ℚ) : ℝ)))
        = .ok (Flt.ofReal q) ∧
      ParentElement.value (floatArith binary32) ⟨.ok (1 : ℕ), [b]⟩ [Flt.ofReal ((16777203 / 16777216 : ℚ) : ℝ)]
        (fun _ => .ok (Flt.ofReal ((-3 / 1024 : ℚ) : ℝ))) = .ok (Flt.ofReal (-1 / 1024 * q))) ∧
    ∃ N N' : Matrix (Fin 3) (Fin 3) Flt,
      MathUtilities.inverseNative (floatArith binary32) (matMem (Matrix.map !![3, 1, 0; 0, 1, 0; 0, 0, 1] fun q : ℚ => Flt.ofReal q))
        = .ok (Flt.ofReal ((3 : ℚ) : ℝ), .ok (matMem N)) ∧
      MathUtilities.inverseNative (floatArith binary32) (matMem (Matrix.map !![6, 1 / 2, 0; 0, -1 / 4, 0; 0, 0, 1] fun q : ℚ => Flt.ofReal q))
        = .ok (Flt.ofReal ((-3 / 2 : ℚ) : ℝ), .ok (matMem N')) ∧
      ∃ q : ℝ, q ≠ 1 / 3 ∧ N 0 0 = Flt.ofReal q ∧ (N' 0 0).datum = .finite (q / 2) := by
  constructor
  · have hs : Family.equal.Supports 1 := by constructor <;> omega
    obtain ⟨c, -, -, hc⟩ := C100_points .float .equal 1 (by norm_num) (by norm_num) hs
    obtain ⟨b, hb, -⟩ := C100_basis .float .equal (order := 1) (by norm_num) (by norm_num) hs hc
    have form : b = ⟨((1 + 1 : ℕ) : Int),
        LagrangeBasis.value (floatArith RealType.float.format) (Family.equal.spacingIn RealType.float.arith ((1 + 1 : ℕ) : Int)) ((1 + 1 : ℕ) : Int),
        LagrangeBasis.gradient (floatArith RealType.float.format) (Family.equal.spacingIn RealType.float.arith ((1 + 1 : ℕ) : Int)) ((1 + 1 : ℕ) : Int)⟩ := by
      rw [C88_basis, lagrangeBasis_ok _ _ (by omega)] at hb
      exact (Res.ok.inj hb).symm
    have k1 : ∃ q : ℚ, q ≠ 3 ∧ knownInterpolation .float .equal 1 1 [16777203 / 16777216] 3 = .ok (some q) := by
      have : (match knownInterpolation .float .equal 1 1 [16777203 / 16777216] 3 with | .ok (some q) => decide (q ≠ 3) | _ => false) = true := by
        decide +kernel
      split at this
      · next q e => exact ⟨q, of_decide_eq_true this, e⟩
      · cases this
    have k2 : ∃ q : ℚ, knownInterpolation .float .equal 1 1 [16777203 / 16777216] (-3 / 1024) = .ok (some q) := by
      have : (match knownInterpolation .float .equal 1 1 [16777203 / 16777216] (-3 / 1024) with | .ok (some _) => true | _ => false) = true := by
        decide +kernel
      split at this
      · next q e => exact ⟨q, e⟩
      · cases this
    obtain ⟨q, hq, k1⟩ := k1
    obtain ⟨q', k2⟩ := k2
    have v1 := knownInterpolation_sound k1 form
    have v2 := knownInterpolation_sound k2 form
    refine ⟨b, q, hb, hq, v1, ?_⟩
    obtain ⟨z, hz, hzs⟩ := C132_value (F := binary32) (c := -1 / 1024) ⟨-10, by rw [abs_div]; norm_num⟩ _ _
      (var' := fun _ => .ok (Flt.ofReal ((-3 / 1024 : ℚ) : ℝ))) (fun i v hv => ⟨_, rfl, fun _ _ => by
        obtain rfl := Res.ok.inj hv
        show Datum.finite _ = Datum.finite _
        push_cast; ring_nf⟩) v1
    refine hz.trans ?_
    obtain rfl := Res.ok.inj (hz.symm.trans v2)
    have : Datum.finite (q' : ℝ) = .finite (-1 / 1024 * q) := hzs rfl rfl
    rw [Datum.finite.inj this]
  · have k1 := matrix_known (F := binary32) (m := [3, 1, 0, 0, 1, 0, 0, 0, 1]) (d := 3) (n := [11184811 / 33554432, -11184811 / 33554432, 0, 0, 1, 0, 0, 0, 1])
      (by decide +kernel)
    have k2 := matrix_known (F := binary32) (m := [6, 1 / 2, 0, 0, -1 / 4, 0, 0, 0, 1]) (d := -3 / 2)
      (n := [11184811 / 67108864, 11184811 / 33554432, 0, 0, -4, 0, 0, 0, 1]) (by decide +kernel)
    obtain ⟨det, inv, det', inv', e, e', -, -, h⟩ := C132_inverse (F := binary32) (r := ![2, -1, 1]) (s := ![1, 1 / 4, 1])
      (M := Matrix.map !![3, 1, 0; 0, 1, 0; 0, 0, 1] fun q : ℚ => Flt.ofReal q) (M' := Matrix.map !![6, 1 / 2, 0; 0, -1 / 4, 0; 0, 0, 1] fun q : ℚ => Flt.ofReal q)
      (by
        intro i
        fin_cases i
        · exact ⟨1, by norm_num⟩
        · exact ⟨0, by norm_num⟩
        · exact ⟨0, by norm_num⟩)
      (by
        intro i
        fin_cases i
        · exact ⟨0, by norm_num⟩
        · exact ⟨-2, by rw [abs_of_nonneg] <;> norm_num⟩
        · exact ⟨0, by norm_num⟩)
      (by
        intro i j _ _
        fin_cases i <;> fin_cases j <;> simp [Flt.ofReal, timesDatum] <;> norm_num)
    obtain ⟨rfl, rfl⟩ := Prod.mk.inj (Res.ok.inj (e.symm.trans k1))
    obtain ⟨rfl, rfl⟩ := Prod.mk.inj (Res.ok.inj (e'.symm.trans k2))
    obtain ⟨N, N', hN, hN', hs⟩ := h _ _ rfl rfl
    rw [hN] at k1
    rw [hN'] at k2
    have h0 : N 0 0 = Flt.ofReal ((11184811 / 33554432 : ℚ) : ℝ) := by
      rw [matMem_three] at hN
      exact (List.cons.inj hN).1.symm
    have h0' : N' 0 0 = Flt.ofReal ((11184811 / 67108864 : ℚ) : ℝ) := by
      rw [matMem_three] at hN'
      exact (List.cons.inj hN').1.symm
    refine ⟨N, N', k1, k2, _, ?_, h0, ?_⟩
    · norm_num
    · have := hs 0 0 (by rw [h0]; rfl) (by rw [h0']; rfl)
      rw [this, h0]
      show Datum.finite _ = _
      congr 1
      simp; ring

end Verif.Props
