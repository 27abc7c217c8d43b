import Verif.Lemmas.SignedZero
import Verif.Props.NonFinite
import Verif.Props.Dyadic

/-!
# Property C143: signed zeros and division by zero

With the signs of zeros and with division by zero as IEEE 754 defines them, results are those of the model without
signs, up to the sign of zeros; and no entry of the inverse of a matrix with determinant zero is a finite number.
-/

namespace Verif.Props

open Verif.Spec Verif.Lemmas Verif.MathUtilities

variable {T : RealType} {d : ℕ} {order : Fin d → ℕ} {e : Element Flt} {e' : Element SFlt}

private theorem same_shipped (h : SameElement T order e e') : ∃ c : (k : Fin d) → Fin (order k + 1) → ℝ, IsShippedIn T order c e := by
  obtain ⟨fam, b, b', h1, -, h3⟩ := h.bases
  have hu : ∀ k, 1000 * (order k : ℝ) * unitRoundoff T.format ≤ 1 := by
    intro k
    have h8 : (order k : ℝ) ≤ 8 := by exact_mod_cast (h.orders k).2
    have h16 : unitRoundoff T.format ≤ 1 / 16777216 := by
      cases T <;> norm_num [unitRoundoff, RealType.format, binary32, binary64]
    have h0 := roundoff_nonneg T.format
    nlinarith
  choose c C hC hc hr hbd hm using fun k => C88_points T (fam k) (order k) (h.orders k).1 (h3 k).1 (hu k)
  exact ⟨c, h.dims, h.shape.1, h.orders, fam, b, h1, fun k => ⟨(h3 k).1, hc k, (h3 k).2.1⟩⟩

/-- **C143, interpolation.** The value with signed zeros exists, and without the sign it may have as a zero it is the value
computed without signs. -/
theorem C143_value (h : SameElement T order e e') (hd : d ≤ 3) (x : Fin d → SFlt) (v : List Int → SFlt) :
    ∃ f, ParentElement.value (signedArith T.format) e' (List.ofFn x) (fun i => .ok (v i)) = .ok f ∧
      ParentElement.value (floatArith T.format) e (List.ofFn fun k => unsigned (x k)) (fun i => .ok (unsigned (v i)))
        = .ok (unsigned f) := by
  obtain ⟨c, hc⟩ := same_shipped h
  obtain ⟨f, hf, -⟩ := C142_value hc hd (fun k => unsigned (x k)) (fun i => .ok (unsigned (v i))) (fun idx => unsigned (v (tup idx)))
    (fun _ => rfl)
  rcases parentValue_rel (unsigned_arith T.format).toOpsRel (unsigned_element h)
    (unsigned_list.2 List.map_ofFn) (fun i => ResRel.ok (rfl : Unsigned (unsigned (v i)) (v i))) f hf
    with ⟨g, hg, rfl⟩ | ⟨h, -⟩
  · exact ⟨g, hg, hf⟩
  · exact h.elim

/-- **C143, gradients.** The same for the components of the gradient. -/
theorem C143_gradient (h : SameElement T order e e') (hd : d ≤ 3) (x : Fin d → SFlt) (v : List Int → SFlt) :
    ∃ g : Fin d → SFlt, ParentElement.gradient (signedArith T.format) e' (List.ofFn x) (fun i => .ok (v i)) = .ok (List.ofFn g) ∧
      ParentElement.gradient (floatArith T.format) e (List.ofFn fun k => unsigned (x k)) (fun i => .ok (unsigned (v i)))
        = .ok (List.ofFn fun a => unsigned (g a)) := by
  obtain ⟨c, hc⟩ := same_shipped h
  obtain ⟨f, hf, -⟩ := C142_gradient hc hd (fun k => unsigned (x k)) (fun i => .ok (unsigned (v i))) (fun idx => unsigned (v (tup idx)))
    (fun _ => rfl)
  rcases parentGradient_rel (unsigned_arith T.format).toOpsRel (unsigned_element h)
    (unsigned_list.2 List.map_ofFn) (fun i => ResRel.ok (rfl : Unsigned (unsigned (v i)) (v i))) _ hf
    with ⟨g, hg, hl⟩ | ⟨h, -⟩
  · obtain ⟨g', rfl⟩ := ofFn_length_eq (d := d) (l := g) (by rw [← hl.length_eq, List.length_ofFn])
    refine ⟨g', hg, ?_⟩
    rw [hf, ← unsigned_list.1 hl, List.map_ofFn]
    rfl
  · exact h.elim

section cells
variable {t : LinearTransform Flt} {t' : LinearTransform SFlt} {X : ((k : Fin d) → Fin (order k + 1)) → Fin d → SFlt}

private theorem same_transform (h : SameElement T order t.shape t'.shape) (ht : t.data = t'.data.map unsigned) :
    TransformRel False Unsigned t t' := ⟨unsigned_element h, unsigned_list.2 ht.symm⟩

private theorem holds_unsigned (ht : t.data = t'.data.map unsigned)
    (hX : HoldsPoints t'.data X) : HoldsPoints t.data fun idx i => unsigned (X idx i) := by
  intro cfg idx i
  have e := hX cfg idx i
  rw [ht]
  unfold CArray.read at e ⊢
  obtain ⟨k, h1, h2⟩ := Res.bind_eq_ok.1 e
  rw [List.length_map, h1, Res.ok_bind]
  unfold CArray.load at h2 ⊢
  simp only [List.length_map]
  split_ifs at h2 with hk
  rw [dif_pos hk, ← Res.ok.inj h2]
  simp

/-- **C143, Jacobians.** The Jacobian with signed zeros exists, and without the signs of zeros it is the Jacobian computed
without signs. -/
theorem C143_jacobian (h : SameElement T order t.shape t'.shape) (hd : d ≤ 3) (ht : t.data = t'.data.map unsigned)
    (hX : HoldsPoints t'.data X) (cfg : Config) (ξ : Fin d → SFlt) (extra : List SFlt) (he : d + extra.length = 3) :
    ∃ (mem : List SFlt) (J : Matrix (Fin d) (Fin d) SFlt),
      LinearTransform.jacobianValue cfg (signedArith T.format) t' (List.ofFn ξ ++ extra) = .ok mem ∧ HoldsMatrix mem J ∧
      LinearTransform.jacobianValue cfg (floatArith T.format) t ((List.ofFn ξ ++ extra).map unsigned) = .ok (mem.map unsigned) := by
  obtain ⟨c, hc⟩ := same_shipped h
  have hs : d * d ≤ 2147483647 := (Nat.mul_le_mul hd hd).trans (by norm_num)
  obtain ⟨mem, J, h1, h2, -⟩ := C142_jacobian hc hd (holds_unsigned ht hX) cfg (fun k => unsigned (ξ k)) (extra.map unsigned) (by simpa using he)
  have e1 : (List.ofFn ξ ++ extra).map unsigned = (List.ofFn fun k => unsigned (ξ k)) ++ extra.map unsigned := by
    rw [List.map_append, List.map_ofFn]
    rfl
  rcases jacobianValue_rel (unsigned_arith T.format).toOpsRel (same_transform h ht) (unsigned_list.2 e1) cfg _ h1
    with ⟨m, hm, hl⟩ | ⟨h, -⟩
  · have h3 := (holds_iff h.dims hs).1 h2
    obtain ⟨N, rfl⟩ : ∃ N : Matrix (Fin d) (Fin d) SFlt, m = matMem N := exists_matMem (by rw [← hl.length_eq, h3, matMem_length])
    exact ⟨_, N, hm, (holds_iff h.dims hs).2 rfl, by rw [e1, h1, unsigned_list.1 hl]⟩
  · exact h.elim

end cells

private theorem signed_lit (T : RealType) (q : ℚ) {x : ℝ} (h : ((floatArith T.format).lit q).datum = .finite x) :
    ∃ s, ((signedArith T.format).lit q).datum = .finite s x := by
  have e : unsigned ((signedArith T.format).lit q) = (floatArith T.format).lit q := unsigned_round ..
  generalize (signedArith T.format).lit q = f at e
  rw [← e] at h
  obtain ⟨d, r⟩ := f
  cases d with
  | finite s y => exact ⟨s, by rw [Datum.finite.inj h]⟩
  | inf n => cases h
  | nan => cases h

private theorem one_signed (T : RealType) : ∃ s, ((signedArith T.format).lit 1).datum = .finite s 1 :=
  signed_lit T 1 (by rw [lit_one_exact (by cases T <;> decide) (by cases T <;> decide)]; rfl)

private theorem div_not_zero {F : FloatFormat} (a : Flt) {b : SFlt} (h : ¬ IsZero b) : ∃ q, Flt.div F a (unsigned b) = .ok q := by
  obtain ⟨e, q⟩ := b
  obtain ⟨d, r⟩ := a
  cases e with
  | nan => cases d <;> exact ⟨_, rfl⟩
  | inf t => cases d <;> exact ⟨_, rfl⟩
  | finite t y =>
    have hy : y ≠ 0 := fun hy => h ⟨t, by rw [hy]⟩
    cases d with
    | nan => exact ⟨_, rfl⟩
    | inf s => exact ⟨_, if_neg hy⟩
    | finite s => exact ⟨_, if_neg hy⟩

private theorem inverse_shape {R : Type} (A : Arith R) (N : Matrix (Fin 3) (Fin 3) R) : ∃ (det : R) (C : Matrix (Fin 3) (Fin 3) R),
    inverseNative A (matMem N) = .ok (det, A.div (A.lit 1) det >>= fun q => .ok (matMem (Matrix.of fun i j => A.mul (C i j) q))) := by
  refine ⟨A.add (A.add (A.mul (N 0 0) (A.sub (A.mul (N 1 1) (N 2 2)) (A.mul (N 1 2) (N 2 1))))
    (A.mul (N 1 0) (A.sub (A.mul (N 0 2) (N 2 1)) (A.mul (N 0 1) (N 2 2))))) (A.mul (N 2 0) (A.sub (A.mul (N 0 1) (N 1 2)) (A.mul (N 0 2) (N 1 1)))),
    !![A.sub (A.mul (N 1 1) (N 2 2)) (A.mul (N 1 2) (N 2 1)), A.sub (A.mul (N 0 2) (N 2 1)) (A.mul (N 0 1) (N 2 2)),
    A.sub (A.mul (N 0 1) (N 1 2)) (A.mul (N 0 2) (N 1 1)); A.sub (A.mul (N 1 2) (N 2 0)) (A.mul (N 1 0) (N 2 2)),
    A.sub (A.mul (N 0 0) (N 2 2)) (A.mul (N 0 2) (N 2 0)), A.sub (A.mul (N 0 2) (N 1 0)) (A.mul (N 0 0) (N 1 2));
    A.sub (A.mul (N 1 0) (N 2 1)) (A.mul (N 1 1) (N 2 0)), A.sub (A.mul (N 0 1) (N 2 0)) (A.mul (N 0 0) (N 2 1)),
    A.sub (A.mul (N 0 0) (N 1 1)) (A.mul (N 0 1) (N 1 0))], ?_⟩
  rw [matMem_three]
  exact (inverseNative_eq A ..).trans (by simp only [matMem_three]; rfl)

private theorem inverse_cases (T : RealType) (N : Matrix (Fin 3) (Fin 3) SFlt) :
    ∃ (det : SFlt) (Q : Matrix (Fin 3) (Fin 3) SFlt) (r : Res (List Flt)),
      inverseNative (signedArith T.format) (matMem N) = .ok (det, .ok (matMem Q)) ∧
      inverseNative (floatArith T.format) ((matMem N).map unsigned) = .ok (unsigned det, r) ∧
      (¬ IsZero det → r = .ok ((matMem Q).map unsigned)) ∧
      (IsZero det → r = .nonfinite ∧ ∀ i j, NotFinite (unsigned (Q i j)) ∧ (Q i j).raised = true) := by
  obtain ⟨det, C, e⟩ := inverse_shape (signedArith T.format) N
  have e1 : (matMem N).map unsigned = matMem (Matrix.of fun i j => unsigned (N i j)) := by
    rw [matMem_three, matMem_three]; rfl
  obtain ⟨det0, C0, e0⟩ := inverse_shape (floatArith T.format) (Matrix.of fun i j => unsigned (N i j))
  rw [← e1] at e0
  rcases inverse_native_rel (unsigned_arith T.format) (unsigned_list.2 rfl) _ e0 with ⟨y, hy, h1, h2⟩ | ⟨h, -⟩
  swap
  · exact h.elim
  rw [e] at hy
  cases hy
  have h1 : unsigned det = det0 := h1
  subst h1
  refine ⟨det, Matrix.of fun i j => SFlt.mul T.format (C i j) (SFlt.div T.format ((signedArith T.format).lit 1) det), _, e, e0, ?_, ?_⟩
  · intro hz
    obtain ⟨q, hq⟩ := div_not_zero (F := T.format) ((floatArith T.format).lit 1) hz
    have hq : (floatArith T.format).div ((floatArith T.format).lit 1) (unsigned det) = .ok q := hq
    dsimp only at h2
    rw [hq, Res.ok_bind] at h2 ⊢
    rcases h2 _ rfl with ⟨b, hb, hl⟩ | ⟨h, -⟩
    · have hb := Res.ok.inj (hb : Res.ok _ = Res.ok b)
      rw [← unsigned_list.1 hl, ← hb]
      rfl
    · exact h.elim
  · intro hz
    obtain ⟨s, hs⟩ := one_signed T
    obtain ⟨n, hn⟩ := div_zero_inf (F := T.format) hs one_ne_zero hz
    constructor
    · obtain ⟨m, hm⟩ := hz
      have h3 : (unsigned det).datum = .finite 0 := by
        unfold unsigned
        rw [hm]
      have h4 : (floatArith T.format).div ((floatArith T.format).lit 1) (unsigned det) = .nonfinite := by
        rw [lit_one_exact (by cases T <;> decide) (by cases T <;> decide)]
        generalize unsigned det = f at h3
        obtain ⟨g, r⟩ := f
        cases h3
        exact if_pos rfl
      rw [h4]
      rfl
    · intro i j
      rw [hn]
      exact mul_inf_notFinite T.format _ n

/-- **C143, built-in arrays.** `inverse( m, det )` with signed zeros ends.  If `det` is not zero, the results are those computed without
signs, up to the signs of zeros.  If `det` is zero, every entry left behind is an infinity or NaN and carries an exception. -/
theorem C143_inverse (T : RealType) (N : Matrix (Fin 3) (Fin 3) SFlt) (m : List SFlt) (hm : HoldsNative m N) :
    ∃ (det : SFlt) (m' : List SFlt) (Q : Matrix (Fin 3) (Fin 3) SFlt) (r : Res (List Flt)),
      inverseNative (signedArith T.format) m = .ok (det, .ok m') ∧ HoldsNative m' Q ∧
      inverseNative (floatArith T.format) (m.map unsigned) = .ok (unsigned det, r) ∧
      (¬ IsZero det → r = .ok (m'.map unsigned)) ∧
      (IsZero det → ∀ i j, NotFinite (unsigned (Q i j)) ∧ (Q i j).raised = true) := by
  have hm := holdsNative_iff.1 hm
  subst hm
  obtain ⟨det, Q, r, h1, h2, h3, h4⟩ := inverse_cases T N
  exact ⟨det, _, Q, r, h1, holdsNative_iff.2 rfl, h2, h3, fun hz => (h4 hz).2⟩

/-- **C143, `CArrayNd`.** The same for a `CArrayNd< REAL_TYPE, 3, 3 >`. -/
theorem C143_inverse_carray (cfg : Config) (T : RealType) (N : Matrix (Fin 3) (Fin 3) SFlt) (m : List SFlt) (hm : HoldsMatrix m N) :
    ∃ (det : SFlt) (m' : List SFlt) (Q : Matrix (Fin 3) (Fin 3) SFlt) (r : Res (List Flt)),
      inverse (signedArith T.format) (carray cfg (CArray.whole [3, 3])) m = .ok (det, .ok m') ∧ HoldsMatrix m' Q ∧
      inverse (floatArith T.format) (carray cfg (CArray.whole [3, 3])) (m.map unsigned) = .ok (unsigned det, r) ∧
      (¬ IsZero det → r = .ok (m'.map unsigned)) ∧
      (IsZero det → ∀ i j, NotFinite (unsigned (Q i j)) ∧ (Q i j).raised = true) := by
  have hm := (holds_iff (by norm_num) (by norm_num)).1 hm
  subst hm
  obtain ⟨det, Q, r, h1, h2, h3, h4⟩ := inverse_cases T N
  have e := inverse_carray cfg (signedArith T.format) [] [] (m := matMem N) (matMem_length _)
  have e0 := inverse_carray cfg (floatArith T.format) [] [] (m := (matMem N).map unsigned) (by simp)
  rw [h1] at e
  rw [h2] at e0
  simp only [List.nil_append, List.append_nil] at e e0
  refine ⟨det, matMem Q, Q, r, e, (holds_iff (by norm_num) (by norm_num)).2 rfl, ?_, h3, fun hz => (h4 hz).2⟩
  by_cases hz : IsZero det
  · have h5 := (h4 hz).1
    subst h5
    exact e0
  · have h5 := h3 hz
    subst h5
    exact e0

private theorem inverse_bind {R : Type} (cfg : Config) (A : Arith R) (t : LinearTransform R) (ξ : List R) :
    LinearTransform.inverseJacobianValue cfg A t ξ = LinearTransform.jacobianValue cfg A t ξ >>= fun J => inverse A (carray cfg t.jacobianView) J := by
  unfold LinearTransform.inverseJacobianValue LinearTransform.jacobianValue LinearTransform.inverseJacobian
  simp only [bind_assoc]

/-- **C143, inverse Jacobians.** The same for the determinant and the inverse returned by `inverseJacobian( t, ξ )` for a
three-dimensional cell. -/
theorem C143_inverseJacobian {order : Fin 3 → ℕ} {t : LinearTransform Flt} {t' : LinearTransform SFlt}
    {X : ((k : Fin 3) → Fin (order k + 1)) → Fin 3 → SFlt} (h : SameElement T order t.shape t'.shape) (ht : t.data = t'.data.map unsigned)
    (hX : HoldsPoints t'.data X) (cfg : Config) (ξ : Fin 3 → SFlt) :
    ∃ (det : SFlt) (m : List SFlt) (Q : Matrix (Fin 3) (Fin 3) SFlt) (r : Res (List Flt)),
      LinearTransform.inverseJacobianValue cfg (signedArith T.format) t' (List.ofFn ξ) = .ok (det, .ok m) ∧ HoldsMatrix m Q ∧
      LinearTransform.inverseJacobianValue cfg (floatArith T.format) t (List.ofFn fun k => unsigned (ξ k)) = .ok (unsigned det, r) ∧
      (¬ IsZero det → r = .ok (m.map unsigned)) ∧
      (IsZero det → ∀ i j, NotFinite (unsigned (Q i j)) ∧ (Q i j).raised = true) := by
  obtain ⟨mem, J, h1, h2, h3⟩ := C143_jacobian h (by norm_num) ht hX cfg ξ [] rfl
  rw [List.append_nil] at h1 h3
  rw [List.map_ofFn] at h3
  obtain ⟨det, m, Q, r, h4, h5, h6, h7, h8⟩ := C143_inverse_carray cfg T J mem h2
  obtain ⟨fam, b, b', hb, hb', -⟩ := h.bases
  have v1 : t.jacobianView = CArray.whole [3, 3] := by
    rw [LinearTransform.jacobianView, LinearTransform.numDims, hb, List.length_ofFn]; rfl
  have v2 : t'.jacobianView = CArray.whole [3, 3] := by
    rw [LinearTransform.jacobianView, LinearTransform.numDims, hb', List.length_ofFn]; rfl
  refine ⟨det, m, Q, r, ?_, h5, ?_, h7, h8⟩
  · rw [inverse_bind, h1, Res.ok_bind, v2, h4]
  · rw [inverse_bind]
    refine (congrArg (· >>= _) h3).trans ?_
    rw [Res.ok_bind, v1, h6]

private theorem two_lit (T : RealType) : ∃ s, ((signedArith T.format).lit 2).datum = .finite s 2 := by
  refine signed_lit T 2 ?_
  have e : (floatArith T.format).lit 2 = Flt.ofReal ((2 : ℚ) : ℝ) := by
    cases T
    · exact evalRound_sound binary32 (q := 2) (by decide +kernel)
    · exact evalRound_sound binary64 (q := 2) (by decide +kernel)
  rw [e]
  show Datum.finite _ = _
  norm_num

private theorem two_div {a : SFlt} (h : IsZero a) : ∃ n, SFlt.div binary64 ((signedArith binary64).lit 2) a = ⟨.inf n, true⟩ :=
  div_zero_inf (two_lit .double).choose_spec two_ne_zero h

private theorem narrow_zero_or (T : RealType) {a : SFlt} (h : IsZero a ∨ NotFinite (unsigned a)) :
    IsZero (T.signed.narrow a) ∨ NotFinite (unsigned (T.signed.narrow a)) := by
  cases T with
  | double => exact h
  | float =>
    show IsZero (SFlt.convert binary32 a) ∨ NotFinite (unsigned (SFlt.convert binary32 a))
    rcases h with ⟨n, h⟩ | h
    · left
      unfold SFlt.convert
      rw [h]
      exact round_zero_isZero ..
    · right
      obtain ⟨d, r⟩ := a
      cases d with
      | finite s x => exact absurd ⟨x, rfl⟩ h
      | inf s => exact h
      | nan => exact h

/-- **C143, `Scaling`.** If length `k` of a box is a zero, entry `k` of the inverse is an infinity and carries an exception, and the
determinant is a zero, an infinity or NaN. -/
theorem C143_scaling (cfg : Config) (T : RealType) (s : Scaling SFlt) (h : Fin 3 → SFlt) (hs : s.getData = List.ofFn h) {k : Fin 3}
    (hk : IsZero (h k)) {I : List SFlt} (hI : I.length = 3) :
    ∃ (det : SFlt) (Q : Fin 3 → SFlt), Mixed.Scaling.inverseJacobian cfg T.signed s I = .ok (det, .ok (List.ofFn Q)) ∧
      (IsZero det ∨ NotFinite (unsigned det)) ∧ (∃ n, (Q k).datum = .inf n) ∧ (Q k).raised = true := by
  obtain ⟨r, hr, hq, -⟩ := mixed_scaling_inverse cfg T.signed s h hs hI
  have hr2 := hq (fun k => T.signed.narrow (SFlt.div binary64 ((signedArith binary64).lit 2) (h k))) (fun k => by cases T <;> rfl)
  subst hr2
  obtain ⟨n, hn⟩ := two_div hk
  have e : T.signed.narrow (SFlt.div binary64 ((signedArith binary64).lit 2) (h k)) = ⟨.inf n, true⟩ := by
    rw [hn]; cases T <;> rfl
  refine ⟨_, _, hr, narrow_zero_or T ?_, ⟨n, by rw [e]⟩, by rw [e]⟩
  have S : ∀ {a b : SFlt}, _ := @mul_zero_or binary64
  cases T <;> fin_cases k
  · exact S (.inl (S (.inl (S (.inr (.inl hk))))))
  · exact S (.inl (S (.inr (.inl hk))))
  · exact S (.inr (.inl hk))
  · exact S (.inl (S (.inl (S (.inr (.inl hk))))))
  · exact S (.inl (S (.inr (.inl hk))))
  · exact S (.inr (.inl hk))

/-- **C143, `UniformScaling`.** The same for a cube. -/
theorem C143_uniform (cfg : Config) (T : RealType) (s : UniformScaling SFlt) (hk : IsZero s.getData) {I : List SFlt} (hI : I.length = 1) :
    ∃ det q : SFlt, Mixed.UniformScaling.inverseJacobian cfg T.signed s I = (det, .ok [q]) ∧
      (IsZero det ∨ NotFinite (unsigned det)) ∧ (∃ n, q.datum = .inf n) ∧ q.raised = true := by
  obtain ⟨n, hn⟩ := div_zero_inf (F := T.format) (two_lit T).choose_spec two_ne_zero hk
  refine ⟨_, ⟨.inf n, true⟩, Prod.ext rfl ?_, narrow_zero_or T ?_, ⟨n, rfl⟩, rfl⟩
  · obtain ⟨y, rfl⟩ := List.length_eq_one_iff.1 hI
    have e : T.signed.real.div (T.signed.real.lit 2) s.getData = .ok ⟨.inf n, true⟩ := by
      rw [← hn]; cases T <;> rfl
    show Mixed.UniformScaling.inverseEntry cfg T.signed s.getData [y] = _
    rw [Mixed.UniformScaling.inverseEntry, e, Res.ok_bind]
    exact write_vec cfg (d := 1) (by norm_num) (fun _ => y) 0 _
  · cases T
    · exact mul_zero_or (.inr (.inl hk))
    · exact mul_zero_or (.inr (.inl hk))

/-- **C143, scalings with other lengths.** The Jacobian and the determinant of a box are those computed without signs, up to the signs of
zeros; the inverse too if no length is zero. -/
theorem C143_scaling_same (cfg : Config) (T : RealType) (s : Scaling SFlt) (h : Fin 3 → SFlt) (hs : s.getData = List.ofFn h)
    {I : List SFlt} (hI : I.length = 3) :
    ∃ (J : Fin 3 → SFlt) (det : SFlt) (Q : Fin 3 → SFlt) (r : Res (List Flt)),
      Mixed.Scaling.jacobian cfg T.signed s I = .ok (List.ofFn J) ∧
      Mixed.Scaling.jacobian cfg T.arith ⟨s.getData.map unsigned⟩ (I.map unsigned) = .ok (List.ofFn fun k => unsigned (J k)) ∧
      Mixed.Scaling.inverseJacobian cfg T.signed s I = .ok (det, .ok (List.ofFn Q)) ∧
      Mixed.Scaling.inverseJacobian cfg T.arith ⟨s.getData.map unsigned⟩ (I.map unsigned) = .ok (unsigned det, r) ∧
      ((∀ k, ¬ IsZero (h k)) → r = .ok (List.ofFn fun k => unsigned (Q k))) := by
  have M := unsigned_mixed T
  have hu : Scaling.getData (⟨s.getData.map unsigned⟩ : Scaling Flt) = List.ofFn fun k => unsigned (h k) := by
    rw [hs, List.map_ofFn]; rfl
  have hI' : (I.map unsigned).length = 3 := by simpa using hI
  obtain ⟨r, hr, hq, -⟩ := mixed_scaling_inverse cfg T.signed s h hs hI
  have hr2 := hq (fun k => T.signed.narrow (SFlt.div binary64 ((signedArith binary64).lit 2) (h k))) (fun k => by cases T <;> rfl)
  subst hr2
  obtain ⟨r, hr', hq', -⟩ := mixed_scaling_inverse cfg T.arith ⟨s.getData.map unsigned⟩ _ hu hI'
  have hw : ∀ k, Unsigned (T.arith.widen (unsigned (h k))) (T.signed.widen (h k)) := fun k => M.widen rfl
  have hdet := M.narrow (M.wide.mul (M.wide.mul (M.wide.mul (M.wide.lit (1 / 8)) (hw 0)) (hw 1)) (hw 2))
  refine ⟨_, _, _, r, mixed_scaling_jacobian cfg T.signed s h hs hI, ?_, hr, ?_, fun hz => hq' _ fun k => ?_⟩
  · rw [mixed_scaling_jacobian cfg T.arith _ _ hu hI']
    congr 2
    funext k
    exact (M.narrow (M.wide.mul (M.wide.lit (1 / 2)) (hw k))).symm
  · rw [hr']
    congr 2
    exact hdet.symm
  · obtain ⟨q, hq1⟩ := div_not_zero (F := binary64) ((floatArith binary64).lit 2) (hz k)
    have e1 : (floatArith binary64).lit 2 = unsigned ((signedArith binary64).lit 2) := (unsigned_round ..).symm
    have e2 := unsigned_div binary64 ((signedArith binary64).lit 2) (h k) (q := q) (by rw [← e1]; exact hq1)
    have e3 : T.arith.wide.div (T.arith.wide.lit 2) (T.arith.widen (unsigned (h k))) = .ok q := by
      cases T <;> exact hq1
    rw [mixedQuotient, e3, Res.ok_bind]
    exact congrArg Res.ok (M.narrow (show Unsigned q _ from e2)).symm

/-- **C143, points.** The points of the shipped spacings with signed zeros are those computed without signs, up to the sign of a zero. -/
theorem C143_points (T : RealType) (fam : Family) (n i : Int) {f : Flt} (h : (fam.spacingIn T.arith n).coordCT i = .ok f) :
    ∃ g, (fam.spacingIn T.signed n).coordCT i = .ok g ∧ unsigned g = f := by
  rcases (family_rel (unsigned_mixed T) fam n).ct i f h with h | ⟨h, -⟩
  · exact h
  · exact h.elim

/-! ### the hypotheses can be met -/

/-- Every shipped element has a counterpart with signed zeros. -/
private theorem signed_of {c : (k : Fin d) → Fin (order k + 1) → ℝ} (h : IsShippedIn T order c e) : ∃ b' : Fin d → Basis SFlt,
    SameElement T order e (elementOf b') ∧ ∀ k, (b' k).numSupportPoints = ((order k + 1 : ℕ) : Int) := by
  obtain ⟨fam, b, hb, hk⟩ := h.bases
  have hn : ∀ k, (iadd (order k) 1).constexpr = .ok ((order k + 1 : ℕ) : Int) := by
    intro k
    have := (h.orders k).2
    have e1 : iadd (order k : Int) 1 = .ok ((order k : Int) + 1) :=
      tnorm_ok ⟨by show (-2147483648 : Int) ≤ _; omega, by show _ ≤ (2147483647 : Int); omega⟩
    rw [e1]
    rfl
  have hs : ∀ k, ∃ b', T.signed.lagrangeBasis ((fam k).spacingIn T.signed) (order k) = .ok b' ∧
      b'.numSupportPoints = ((order k + 1 : ℕ) : Int) := by
    intro k
    rw [Mixed.lagrangeBasis, hn, Res.ok_bind]
    exact ⟨_, rfl, rfl⟩
  choose b' h1 h2 using hs
  exact ⟨b', ⟨h.dims, ⟨h.shape, rfl⟩, h.orders, fam, b, b', hb, rfl, fun k => ⟨(hk k).1, (hk k).2.2, h1 k⟩⟩, h2⟩

/-- Non-vacuity of `C143_inverseJacobian` and of its second case: a box of height zero, with negative zeros, in `float` and in `double`.  The
determinant in the middle is a zero, and no entry of the inverse is a finite number. -/
example (T : RealType) (cfg : Config) : ∃ (t : LinearTransform Flt) (t' : LinearTransform SFlt) (X : (Fin 3 → Fin 2) → Fin 3 → SFlt),
    SameElement T (fun _ : Fin 3 => 1) t.shape t'.shape ∧ t.data = t'.data.map unsigned ∧ HoldsPoints t'.data X ∧
    (∀ idx, X idx 2 = ⟨.finite true 0, false⟩) ∧
    ∃ (det : SFlt) (m : List SFlt) (Q : Matrix (Fin 3) (Fin 3) SFlt),
      LinearTransform.inverseJacobianValue cfg (signedArith T.format) t' (List.ofFn fun _ : Fin 3 => ⟨.finite false 0, false⟩) = .ok (det, .ok m) ∧
      HoldsMatrix m Q ∧ IsZero det ∧ ∀ i j, NotFinite (unsigned (Q i j)) := by
  obtain ⟨t, h, -⟩ := sample_cell_in T
  obtain ⟨b', h1, h2⟩ := signed_of h
  obtain ⟨t', -, h4, h5, h6, -⟩ := C48_setData checkedHost (⟨elementOf b', List.replicate 24 ⟨.finite false 0, false⟩⟩ : LinearTransform SFlt) b' rfl
    (elementOf_instantiate b') h2 (by simp)
    (fun v i => if i = 2 then ⟨.finite true 0, false⟩ else ⟨.finite false ((v : ℕ) / 2 ^ (i : ℕ) % 2 : ℕ), false⟩)
    (fun r i => .ok (if i = 2 then ⟨.finite true 0, false⟩ else ⟨.finite false (r.toNat / 2 ^ i.toNat % 2 : ℕ), false⟩))
    (fun v i => by fin_cases i <;> rfl)
  have hS : SameElement T (fun _ : Fin 3 => 1) t.shape t'.shape := by rw [h4]; exact h1
  refine ⟨⟨t.shape, t'.data.map unsigned⟩, t', _, hS, rfl, h6, fun _ => rfl, ?_⟩
  obtain ⟨det, m, Q, r, g1, g2, g3, -, g4⟩ := C143_inverseJacobian (t := ⟨t.shape, t'.data.map unsigned⟩) hS rfl h6 cfg
    (fun _ => ⟨.finite false 0, false⟩)
  have hX := holds_unsigned (t := ⟨t.shape, t'.data.map unsigned⟩) (order := fun _ : Fin 3 => 1) rfl h6
  have hv : ∀ (idx : Fin 3 → Fin 2) (i : Fin 3), (vertexNumber idx : ℕ) / 2 ^ (i : ℕ) % 2 = idx i := by decide
  have hp : ∀ (idx : Fin 3 → Fin 2) (i : Fin 3), Flt.ofReal ((0 : ℝ) + if idx i = 0 then 0 else (![1, 1, 0] : Fin 3 → ℝ) i)
      = unsigned (if i = 2 then ⟨.finite true 0, false⟩ else ⟨.finite false ((vertexNumber idx : ℕ) / 2 ^ (i : ℕ) % 2 : ℕ), false⟩) := by
    intro idx i
    by_cases h2 : i = 2
    · subst h2
      rw [if_pos rfl]
      show Flt.ofReal _ = Flt.ofReal 0
      congr 1
      split <;> simp
    · rw [if_neg h2, hv]
      show Flt.ofReal _ = Flt.ofReal _
      congr 1
      have h1 : (![1, 1, 0] : Fin 3 → ℝ) i = 1 := by
        fin_cases i
        · rfl
        · rfl
        · exact absurd rfl h2
      rw [h1, zero_add]
      rcases (by decide : ∀ a : Fin 2, a = 0 ∨ a = 1) (idx i) with e | e <;> rw [e] <;> simp
  obtain ⟨after, hb⟩ := C140_box (t := ⟨t.shape, t'.data.map unsigned⟩) h (fun _ => ⟨rfl, rfl⟩) (by simpa using h5) (o := fun _ => 0)
    (len := ![1, 1, 0]) (fun cfg idx i => (hX cfg idx i).trans (congrArg Res.ok (hp idx i).symm)) (s := 0) (by cases T <;> decide) (m := 1) (p := 0) le_rfl (by norm_num) (by cases T <;> decide)
    (fun i => ⟨0, by simp, by simp⟩) (fun i => by fin_cases i <;> [exact ⟨1, by simp, by simp⟩; exact ⟨1, by simp, by simp⟩; exact ⟨0, by simp, by simp⟩])
    (fun i => by fin_cases i <;> [exact ⟨1, by simp, by cases T <;> simp [detRoom]⟩; exact ⟨1, by simp, by cases T <;> simp [detRoom]⟩; exact ⟨0, by simp, by simp⟩])
    (ξ := fun _ => 0) (fun _ => ⟨0, by simp, by simp⟩) cfg
  have e : unsigned det = Flt.ofReal 0 := by
    have e1 := (Prod.mk.inj (Res.ok.inj (g3.symm.trans hb))).1
    rw [e1, Fin.prod_univ_three]
    congr 1
    simp
  have hz : IsZero det := by
    obtain ⟨f, q⟩ := det
    cases f with
    | finite n x => exact ⟨n, congrArg _ (Datum.finite.inj (congrArg Flt.datum e))⟩
    | inf n => exact absurd (congrArg Flt.datum e) (by rintro ⟨⟩)
    | nan => exact absurd (congrArg Flt.datum e) (by rintro ⟨⟩)
  exact ⟨det, m, Q, g1, g2, hz, fun i j => (g4 hz i j).1⟩

end Verif.Props
