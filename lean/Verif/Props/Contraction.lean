import Verif.Lemmas.FusedKnown
import Verif.Props.Evaluation

/-!
# C146: what fused multiplications and additions change

Compilers may fuse a product with the sum or difference that uses it, so that only one rounding happens; GCC and nvcc do so by default where the processor can.
-/

namespace Verif.Props

open Verif.Spec Verif.Lemmas Verif.MathUtilities

variable {fl : ℝ → ℝ}

/-- **C146, basis functions.** Whatever is fused, the value of a basis function is the one that plain rounding gives, for every rounding function, all orders, nodes and
points. -/
theorem C146_basis (fl : ℝ → ℝ) {S : Int → Spacing ℝ} {order : Int} {b : Basis ℝ} {b' : Basis Term}
    (hb : lagrangeBasis (roundedArith fl) S order = .ok b) (hb' : lagrangeBasis termArith (fun n => held (S n)) order = .ok b') (j : Int) (x v : ℝ)
    (hv : b.value j x = .ok v) : ∃ t, b'.value j (.num x) = .ok t ∧ Contracted fl t v ∧ AlwaysIs fl t v := by
  obtain ⟨t, ht, hc⟩ := (C97_plain_basis fl hb hb' j x v).1 hv
  refine ⟨t, ht, hc, fun w hw => ?_⟩
  obtain ⟨n', -, e'⟩ := Res.bind_eq_ok.1 hb'
  cases e'
  exact value_unaffected (fl := fl) ht _ _ hw hc

/-- **C146, exact results.** Where nothing is rounded, as for data with few binary digits, fusing changes nothing: the result is the exact one. -/
theorem C146_exact {t : Term} {v : ℝ} (h : NothingRounded fl t v) : Contracted fl t v ∧ AlwaysIs fl t v :=
  ⟨nothingRounded_contracted h, nothingRounded_always h⟩

section element
variable {d : ℕ} {order : Fin d → ℕ} {c : (k : Fin d) → Fin (order k + 1) → ℝ} {e : Element Term}

private theorem element_bases (h : IsLagrangeOn order c e) : ∃ (b : Fin d → Basis Term) (S : Fin d → Spacing ℝ), e = elementOf b ∧
    ∀ k, Nodes (S k) (order k + 1) (c k) ∧ b k = ⟨((order k + 1 : ℕ) : Int), LagrangeBasis.value termArith (held (S k)) ((order k + 1 : ℕ) : Int),
      LagrangeBasis.gradient termArith (held (S k)) ((order k + 1 : ℕ) : Int)⟩ := by
  obtain ⟨b, hb, hk⟩ := h.bases
  choose hlt S hS hbk using hk
  refine ⟨b, fun k => S k ((order k + 1 : ℕ) : Int), ?_, fun k => ⟨hS k, ?_⟩⟩
  · cases e; simp only [elementOf]; congr 1; exact h.shape
  · have := hbk k
    rw [basis_ok_term (hlt k), Res.ok.injEq] at this
    exact this.symm

private theorem product_form (h : IsLagrangeOn order c e) {b : Fin d → Basis Term} (hb : e = elementOf b) (idx : (k : Fin d) → Fin (order k + 1)) (x : Fin d → ℝ) :
    ParentElement.basisValue termArith e (tup idx) (List.ofFn fun k => .num (x k))
      = foldRight (Term.op .mul) (List.ofFn fun k => (b k).value ((idx k : ℕ) : Int) (.num (x k))) := by
  subst hb
  rw [(basisValue_eq _ (elementOf_instantiate b) (by simp [tup_length, elementOf]) _).1, BasisProduct.value,
    staticAssert_bind_true (by simp [tup_length, elementOf]), show (elementOf b).bases = List.ofFn b from rfl, tup, expand_ofFn]
  show foldRight (Term.op .mul) _ = _
  congr 2
  funext k
  rw [tableAt_ofFn, Res.ok_bind]

private theorem shape_ok (h : IsLagrangeOn order c e) (idx : (k : Fin d) → Fin (order k + 1)) (x : Fin d → ℝ) :
    ∃ t, ParentElement.basisValue termArith e (tup idx) (List.ofFn fun k => .num (x k)) = .ok t := by
  obtain ⟨b, rfl, hk⟩ := isLagrangeOn_realises (u := 0) le_rfl (by norm_num) h
  rw [product_form h rfl]
  have hv : ∀ k, ∃ y, (b k).value ((idx k : ℕ) : Int) (.num (x k)) = .ok y := fun k => by
    obtain ⟨y, hy, -⟩ := (hk k).value (idx k) (is_num le_rfl (by norm_num) (x k))
    exact ⟨y, hy⟩
  choose y hy using hv
  simp only [hy]
  have hd := h.dims
  clear hy hk h
  have : ∀ l : List Term, l ≠ [] → ∃ t, foldRight (Term.op .mul) (l.map .ok) = .ok t := by
    intro l hl
    induction l with
    | nil => exact absurd rfl hl
    | cons a l ih =>
      cases l with
      | nil => exact ⟨a, rfl⟩
      | cons a' l =>
        obtain ⟨t, ht⟩ := ih (by simp)
        refine ⟨.op .mul a t, ?_⟩
        rw [List.map_cons] at ht
        rw [List.map_cons, List.map_cons, foldRight, Res.ok_bind, ht, Res.ok_bind]
  have := this (List.ofFn y) (by intro h; have := congrArg List.length h; simp at this; omega)
  rwa [List.map_ofFn] at this

/-- **C146, shape functions.** The value of a shape function of an element of any dimension does not depend on what is fused. -/
theorem C146_shape (fl : ℝ → ℝ) (h : IsLagrangeOn order c e) (idx : (k : Fin d) → Fin (order k + 1)) (x : Fin d → ℝ) :
    ∃ t, ParentElement.basisValue termArith e (tup idx) (List.ofFn fun k => .num (x k)) = .ok t ∧ Unaffected fl t := by
  obtain ⟨t, ht⟩ := shape_ok h idx x
  refine ⟨t, ht, ?_⟩
  obtain ⟨b, S, hb, hk⟩ := element_bases h
  rw [product_form h hb] at ht
  refine foldRight_closed (P := Unaffected fl) (fun a b => unaffected_mul) (fun y hy a ha => ?_) ht
  obtain ⟨k, rfl⟩ := (List.mem_ofFn (f := fun k => (b k).value ((idx k : ℕ) : Int) (.num (x k)))).1 hy
  rw [(hk k).2] at ha
  exact value_unaffected ha

/-- **C146, support points.** At support point `a` of an element of any dimension, interpolation gives the rounded product of the shape function of that point (there, 1 or
nearly 1) and the nodal value, whatever is fused and whatever the other nodal values are. -/
theorem C146_nodal (h0 : fl 0 = 0) (hi : ∀ z, fl (fl z) = fl z) (h : IsLagrangeOn order c e) (var : List Int → Res Term)
    (y : ((k : Fin d) → Fin (order k + 1)) → ℝ) (hy : ∀ idx, var (tup idx) = .ok (.num (y idx))) (a : (k : Fin d) → Fin (order k + 1)) :
    ∃ s t, ParentElement.basisValue termArith e (tup a) (List.ofFn fun k => .num (c k (a k))) = .ok s ∧
      ParentElement.value termArith e (List.ofFn fun k => .num (c k (a k))) var = .ok t ∧ ∀ w, AlwaysIs fl s w → AlwaysIs fl t (fl (w * y a)) := by
  have hs := fun idx => shape_ok h idx fun k => c k (a k)
  choose f hf using hs
  obtain ⟨b, S, hb, hk⟩ := element_bases h
  have hzero : ∀ idx, idx ≠ a → AlwaysIs fl (f idx) 0 := by
    intro idx hidx
    obtain ⟨k, hka⟩ := Function.ne_iff.1 hidx
    have := hf idx
    rw [product_form h hb] at this
    refine foldRight_gone h0 ⟨_, (List.mem_ofFn (f := fun k => (b k).value ((idx k : ℕ) : Int) (.num (c k (a k))))).2 ⟨k, rfl⟩, fun t ht => ?_⟩ this
    rw [(hk k).2] at ht
    exact term_value_zero h0 (hk k).1 hka ht
  obtain ⟨L, hL, hnd, hall⟩ := box_list fun k => order k + 1
  have hbody : ∀ idx r, ParentElement.valueBody termArith e (List.ofFn fun k => .num (c k (a k))) var (tup idx) r
      = .ok (.op .add r (.op .mul (f idx) (.num (y idx)))) := fun idx r => by
    rw [ParentElement.valueBody, hf, Res.ok_bind, hy, Res.ok_bind]
    rfl
  have hrun : ParentElement.value termArith e (List.ofFn fun k => .num (c k (a k))) var
      = runCalls L (fun idx => ParentElement.valueBody termArith e (List.ofFn fun k => .num (c k (a k))) var (tup idx)) (.lit 0) := by
    subst hb
    rw [ParentElement.value, elementOf_instantiate, Res.ok_bind]
    rw [show (elementOf b).bases = List.ofFn b from rfl, forNested_box h.dims (fun k => by rw [(hk k).2]) hL]
    rfl
  obtain ⟨t, ht, -⟩ := C97_interpolation (u := 0) le_rfl (by norm_num) h var y hy fun k => c k (a k)
  refine ⟨f a, t, hf a, ht, fun w hw => ?_⟩
  obtain ⟨s, h1, h2⟩ := runCalls_one (r := .lit 0) (v := 0) h0 hi hnd hbody hzero hw (by intro a b e; cases e)
    (fun v hv => by cases hv; rw [Rat.cast_zero, h0]) (.inl ⟨hall a, rfl⟩)
  rw [hrun, h1] at ht
  obtain rfl := Res.ok.inj ht
  exact h2

end element

/-- **C146, zeros, partial.** For a matrix with a row or column of zeros, `inverse` leaves zero in `det` whatever is fused.  This is not so for two equal rows. -/
theorem C146_inverse_partial (h0 : fl 0 = 0) (M : Matrix (Fin 3) (Fin 3) ℝ) (m : List Term) (hm : HoldsNative m (M.map .num))
    (h : (∃ i, ∀ k, M i k = 0) ∨ ∃ k, ∀ i, M i k = 0) :
    ∃ det after, inverseNative termArith m = .ok (det, after) ∧ AlwaysIs fl det 0 := by
  have hm := holdsNative_iff.1 hm
  subst hm
  refine det_gone h0 ?_
  rcases h with ⟨i, h⟩ | ⟨k, h⟩
  · exact .inl ⟨i, fun k => by rw [Matrix.map_apply, h]⟩
  · exact .inr ⟨k, fun i => by rw [Matrix.map_apply, h]⟩

/-- **C146, violated.** In `float` and in `double` there are matrices with two equal rows for which `inverse` may leave a number other than zero in `det` and finite numbers in
the matrix, if products are fused.  (Exchanging the equal rows does not change the sign of that determinant either.) -/
theorem C146_violated (T : RealType) : ∃ (M : Matrix (Fin 3) (Fin 3) ℝ) (m : List Term) (det : Term) (l : List Term) (v : ℝ),
    (∀ i j, Represents T.format (M i j)) ∧ M 0 = M 1 ∧ HoldsNative m (M.map .num) ∧ inverseNative termArith m = .ok (det, .ok l) ∧ v ≠ 0 ∧
      Contracted T.format.nearest det v ∧ ∀ t ∈ l, ∃ w, Contracted T.format.nearest t w := by
  obtain ⟨det, l, v, h1, h2, h3, h4⟩ := fused_determinant T
  refine ⟨(fusedMatrix T).map fun q : ℚ => (q : ℝ), _, det, l, v, fusedMatrix_represented T, ?_, holdsNative_iff.2 rfl, h1, h2, h3, h4⟩
  funext k
  fin_cases k <;> rfl

/-- **C146, gradients of constants, violated.** In `float` and in `double` there are a point of the trilinear element and a nodal value, the same for all support points, such
that the derivative in the last direction is zero with plain rounding, and other than zero if products are fused. -/
theorem C146_constant_violated (T : RealType) : ∃ (e : Element Term) (x : Fin 3 → ℝ) (y v : ℝ) (g : Fin 3 → Term),
    IsLagrangeOn (fun _ : Fin 3 => 1) (fun _ => ![-1, 1]) e ∧ (∀ k, Represents T.format (x k) ∧ |x k| ≤ 1) ∧ Represents T.format y ∧
    ParentElement.gradient termArith e (List.ofFn fun k => .num (x k)) (fun _ => .ok (.num y)) = .ok (List.ofFn g) ∧
    Contracted T.format.nearest (g 2) 0 ∧ v ≠ 0 ∧ Contracted T.format.nearest (g 2) v := by
  obtain ⟨b, hb, -⟩ := C97_basis (u := 0) le_rfl (by norm_num) (by norm_num) sample_nodes
  have h : IsLagrangeOn (fun _ : Fin 3 => 1) (fun _ => ![-1, 1]) ⟨.ok (3 : ℕ), List.ofFn fun _ : Fin 3 => b⟩ :=
    ⟨by norm_num, rfl, fun _ => b, rfl, fun k => ⟨by norm_num, _, sample_nodes, hb⟩⟩
  obtain ⟨g, hg, -⟩ := C97_gradient (u := 0) le_rfl (by norm_num) h (fun _ => .ok (.num (fusedConstant T))) (fun _ => fusedConstant T) (fun _ => rfl)
    fun _ => ((1 / 2 : ℚ) : ℝ)
  rw [basis_ok_term (by norm_num), Res.ok.injEq] at hb
  have hrel : ∀ fuse, BasisRel False (CanBe T.format) (fusedBasis T.format fuse) b := by
    intro fuse
    rw [← hb]
    have c0 := sample_nodes.coord le_rfl 0
    have c1 := sample_nodes.coord le_rfl 1
    refine fusedBasis_rel T.format fuse (S := gaussLobattoSpacing (exactArith ℝ) ((1 + 1 : ℕ) : Int)) ?_ ?_ rfl ?_ ?_
    · exact c0
    · exact c1
    · show Res.ok _ = _
      simp [exactArith]
    · show Res.ok _ = _
      simp [exactArith]
      norm_num
  obtain ⟨h1, v, hv, h2⟩ := fused_gradient T hrel g hg
  refine ⟨_, fun _ => ((1 / 2 : ℚ) : ℝ), fusedConstant T, v, g, h, fun k => ⟨(fusedConstant_represented T).2, ?_⟩, (fusedConstant_represented T).1, hg, h1, hv, h2⟩
  norm_num [abs_of_pos]

/-! ### the hypotheses can be met -/

/-- The hypotheses about the rounding function hold for `float` and `double`. -/
example (T : RealType) : T.format.nearest 0 = 0 ∧ ∀ z, T.format.nearest (T.format.nearest z) = T.format.nearest z :=
  ⟨nearest_zero _, nearest_nearest _⟩

/-- Non-vacuity of `C146_shape` and `C146_nodal`: the trilinear element; and of `C146_inverse_partial`. -/
example : (∃ e : Element Term, IsLagrangeOn (fun _ : Fin 3 => 1) (fun _ => ![-1, 1]) e) ∧
    ∃ m, HoldsNative m ((!![1, 2, 0; 3, 4, 0; 5, 6, 0] : Matrix (Fin 3) (Fin 3) ℝ).map Term.num) ∧
      ∃ k, ∀ i, (!![1, 2, 0; 3, 4, 0; 5, 6, 0] : Matrix (Fin 3) (Fin 3) ℝ) i k = 0 := by
  obtain ⟨t, ht, -⟩ := sample_cell_terms
  refine ⟨⟨t.shape, ht⟩, _, holdsNative_iff.2 rfl, 2, fun i => ?_⟩
  fin_cases i <;> rfl

/-- Non-vacuity of `C146_exact`: a cofactor of small integers in `double`. -/
example : NothingRounded binary64.nearest (.op .sub (.op .mul (.num 3) (.num 5)) (.op .mul (.num 2) (.num 7))) 1 := by
  have h : ∀ q : ℚ, evalRound binary64 q = some q → binary64.nearest (q : ℝ) = q := fun q hq => evalRound_nearest hq
  have h15 := h 15 (by decide +kernel)
  have h14 := h 14 (by decide +kernel)
  have h1 := h 1 (by decide +kernel)
  push_cast at h15 h14 h1
  exact .op (.op (.num 3) (.num 5) (z := 15) (by norm_num [Op.apply]) h15) (.op (.num 2) (.num 7) (z := 14) (by norm_num [Op.apply]) h14)
    (by norm_num [Op.apply]) h1

/-- Non-vacuity of `C146_basis`: in `double`, the first basis function at 1/3. -/
example : ∃ (b : Basis ℝ) (b' : Basis Term) (v : ℝ),
    lagrangeBasis (roundedArith (binaryRound 52)) (gaussLobattoSpacing (exactArith ℝ)) (1 : ℕ) = .ok b ∧
    lagrangeBasis termArith (fun n => held (gaussLobattoSpacing (exactArith ℝ) n)) (1 : ℕ) = .ok b' ∧ b.value 0 (1 / 3) = .ok v := by
  have hr := (C60_binaryRound 52).1
  obtain ⟨b, hb, h⟩ := C60_value_error hr (by norm_num) sample_nodes
  obtain ⟨b', hb', -⟩ := C97_basis (u := 0) le_rfl (by norm_num) (by norm_num) sample_nodes
  obtain ⟨y, hy, -⟩ := h 0 (1 / 3)
  exact ⟨b, b', y, hb, hb', hy⟩

end Verif.Props
