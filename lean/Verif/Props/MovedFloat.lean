import Verif.Props.VertexJacobian
import Verif.Props.ConstantFloat
import Verif.Props.MappedCells
import Verif.Lemmas.DataOnly

/-!
# Property C157: adding a constant to a field, or moving a cell, does not change derivatives

The full claim for `float` and `double`, `UnmovedByConstants`, is false inside of elements.  It holds on edges for the derivative along the edge, and at vertices for all
derivatives, for the Jacobian, its determinant and its inverse.
-/

namespace Verif.Props

open Verif.Spec Verif.Lemmas

/-! ### exact arithmetic -/

/-- **C157, fields, exact arithmetic.** Adding a constant to all nodal values does not change the gradient, for all dimensions, orders, interpolation points and points. -/
theorem C157_exact {d : ℕ} {order : Fin d → ℕ} {c : (k : Fin d) → Fin (order k + 1) → ℝ} {e : Element ℝ} (h : IsLagrange order c e) {u u' : List Int → Res ℝ}
    {y : ((k : Fin d) → Fin (order k + 1)) → ℝ} {s : ℝ} (hu : ∀ i, u (tup i) = .ok (y i)) (hu' : ∀ i, u' (tup i) = .ok (y i + s)) (x : Fin d → ℝ) :
    ∃ g : Fin d → ℝ, ParentElement.gradient (exactArith ℝ) e (List.ofFn x) u = .ok (List.ofFn g) ∧
      ParentElement.gradient (exactArith ℝ) e (List.ofFn x) u' = .ok (List.ofFn g) := by
  obtain ⟨-, -, P, Q, -, -, -, h1, h2, h3⟩ := C41_linear h 1 1 u (fun _ => .ok s) u' y (fun _ => s) hu (fun _ => rfl) (fun i => by rw [hu' i]; congr 1; ring) x
  have h4 := (C41_constant h s (fun _ => .ok s) (fun _ => rfl) x).2
  obtain rfl := List.ofFn_injective (Res.ok.inj (h2.symm.trans h4))
  refine ⟨P, h1, h3.trans ?_⟩
  congr 2
  funext a
  ring

/-- **C157, cells, exact arithmetic.** Moving a cell does not change its Jacobian. -/
theorem C157_cell_exact {d : ℕ} {order : Fin d → ℕ} {c : (k : Fin d) → Fin (order k + 1) → ℝ} {t t' : LinearTransform ℝ}
    {X : ((k : Fin d) → Fin (order k + 1)) → Fin d → ℝ} (h : IsLagrange order c t.shape) (hd : d ≤ 3) (hX : HoldsPoints t.data X)
    (hsh : t'.shape = t.shape) (s : Fin d → ℝ) (hX' : HoldsPoints t'.data (fun (idx : (k : Fin d) → Fin (order k + 1)) i => X idx i + s i))
    (cfg : Config) (ξ : Fin d → ℝ) (extra : List ℝ) (he : d + extra.length = 3) :
    ∃ (D : Matrix (Fin d) (Fin d) ℝ) (J J' : List ℝ),
      LinearTransform.jacobianValue cfg (exactArith ℝ) t (List.ofFn ξ ++ extra) = .ok J ∧ HoldsMatrix J D ∧
      LinearTransform.jacobianValue cfg (exactArith ℝ) t' (List.ofFn ξ ++ extra) = .ok J' ∧ HoldsMatrix J' D := by
  have e : (fun (idx : (k : Fin d) → Fin (order k + 1)) i => X idx i + s i) = fun idx i => ∑ j, (1 : Matrix (Fin d) (Fin d) ℝ) i j * X idx j + s i := by
    funext idx i
    simp [Matrix.one_apply]
  rw [e] at hX'
  obtain ⟨D, J, J', h1, h2, h3, h4⟩ := C79_jacobian h hd hX hsh 1 s hX' cfg ξ extra he
  rw [one_mul] at h4
  exact ⟨D, J, J', h1, h2, h3, h4⟩

/-! ### `float` and `double` -/

variable {T : RealType} {d : ℕ} {c : Fin d → Fin 2 → ℝ}

/-- **C157, edges, partial.** For elements of order one with nodes at -1 and 1, in up to three dimensions, and nodal values that are numbers of the type before and after a
constant is added (and so are their halves at the ends of the edge): on an edge, the derivative along the edge stays the same to the last bit.
What is missing: other derivatives and other points (see `C157_violated`). -/
theorem C157_edge_partial {e : Element Flt} (h : IsLinearIn T e c) (hd : d ≤ 3) {u u' : List Int → Res Flt} {y : (Fin d → Fin 2) → ℝ} {s : ℝ}
    (hu : ∀ i, u (tup (n := fun _ : Fin d => 2) i) = .ok (Flt.ofReal (y i))) (hu' : ∀ i, u' (tup (n := fun _ : Fin d => 2) i) = .ok (Flt.ofReal (y i + s)))
    (hy : ∀ i, Represents T.format (y i) ∧ Represents T.format (y i + s)) (k : Fin d) (v : Fin d → Fin 2)
    (hk : ∀ a, Represents T.format (y (Function.update v k a) / 2) ∧ Represents T.format ((y (Function.update v k a) + s) / 2))
    {x : Fin d → ℝ} (hx : ∀ j, |x j| ≤ 1) (hxv : ∀ j, j ≠ k → x j = if v j = 0 then -1 else 1) :
    ∃ g g' : Fin d → Flt, ParentElement.gradient (floatArith T.format) e (List.ofFn fun j => Flt.ofReal (x j)) u = .ok (List.ofFn g) ∧
      ParentElement.gradient (floatArith T.format) e (List.ofFn fun j => Flt.ofReal (x j)) u' = .ok (List.ofFn g') ∧
      ∃ p, (g k).datum = .finite p ∧ (g' k).datum = .finite p := by
  obtain ⟨g, g1, g2⟩ := C155_float h hd hu (fun i => (hy i).1) k v (fun a => (hk a).1) hx hxv
  obtain ⟨g', g3, g4⟩ := C155_float h hd hu' (fun i => (hy i).2) k v (fun a => (hk a).2) hx hxv
  refine ⟨g, g', g1, g3, _, g2, ?_⟩
  rw [g4]
  congr 3
  ring

/-- Two lists of numbers, entry by entry the same up to exceptions that were raised before. -/
def SameNumbers (l l' : List Flt) : Prop := List.Forall₂ SameDatum l l'

private theorem forall_map {ι : Type} {f g : ι → Flt} (h : ∀ i, (f i).datum = (g i).datum) : ∀ L : List ι, List.Forall₂ SameDatum (L.map f) (L.map g)
  | [] => .nil
  | _ :: L => .cons (h _) (forall_map h L)

/-- **C157, vertices, partial.** Let a hexahedron of order one with nodes at -1 and 1 be moved by a vector `s`, so that the coordinates of its vertices are numbers of the type before and after
(and so are their halves).  At a vertex, the Jacobian stays the same to the last bit, and so do the determinant that `inverseJacobian` returns and the inverse it leaves behind; and
there is an inverse before if and only if there is one after.
What is missing: other points (see `C157_violated`). -/
theorem C157_vertex_partial {c c' : Fin 3 → Fin 2 → ℝ} {t t' : LinearTransform Flt} {X : (Fin 3 → Fin 2) → Fin 3 → ℝ} {s : Fin 3 → ℝ} (h : IsLinearIn T t.shape c) (h' : IsLinearIn T t'.shape c')
    (hX : HoldsPoints t.data (fun (a : Fin 3 → Fin 2) i => Flt.ofReal (X a i))) (hX' : HoldsPoints t'.data (fun (a : Fin 3 → Fin 2) i => Flt.ofReal (X a i + s i)))
    (hr : ∀ a i, Represents T.format (X a i) ∧ Represents T.format (X a i / 2)) (hr' : ∀ a i, Represents T.format (X a i + s i) ∧ Represents T.format ((X a i + s i) / 2))
    (cfg : Config) (v : Fin 3 → Fin 2) :
    (∃ (mem mem' : List Flt) (J J' : Matrix (Fin 3) (Fin 3) Flt),
      LinearTransform.jacobianValue cfg (floatArith T.format) t (List.ofFn fun k => Flt.ofReal (vertexPoint v k)) = .ok mem ∧ HoldsMatrix mem J ∧
      LinearTransform.jacobianValue cfg (floatArith T.format) t' (List.ofFn fun k => Flt.ofReal (vertexPoint v k)) = .ok mem' ∧ HoldsMatrix mem' J' ∧
      ∀ i k, ∃ p, (J i k).datum = .finite p ∧ (J' i k).datum = .finite p) ∧
    ∃ det det' after after', LinearTransform.inverseJacobianValue cfg (floatArith T.format) t (List.ofFn fun k => Flt.ofReal (vertexPoint v k)) = .ok (det, after) ∧
      LinearTransform.inverseJacobianValue cfg (floatArith T.format) t' (List.ofFn fun k => Flt.ofReal (vertexPoint v k)) = .ok (det', after') ∧
      det.datum = det'.datum ∧ (∀ m, after = .ok m → ∃ m', after' = .ok m' ∧ SameNumbers m m') ∧ (∀ m', after' = .ok m' → ∃ m, after = .ok m ∧ SameNumbers m m') := by
  have hv1 : ∀ k, |vertexPoint v k| ≤ 1 := fun k => by unfold vertexPoint; split_ifs <;> norm_num
  obtain ⟨hn, -⟩ := C145_sums h.shipped le_rfl hX cfg (fun k => Flt.ofReal (vertexPoint v k)) [] rfl
  obtain ⟨hn', -⟩ := C145_sums h'.shipped le_rfl hX' cfg (fun k => Flt.ofReal (vertexPoint v k)) [] rfl
  obtain ⟨mem, J, h1, h2, h3⟩ := C155_jacobian h le_rfl hX hr cfg hv1 [] rfl
  obtain ⟨mem', J', h4, h5, h6⟩ := C155_jacobian (X := fun a i => X a i + s i) h' le_rfl hX' hr' cfg hv1 [] rfl
  rw [List.append_nil] at h1 h4
  have hJ : ∀ i k, ∃ p, (J i k).datum = .finite p ∧ (J' i k).datum = .finite p := fun i k => by
    refine ⟨_, h3 k v (fun j _ => rfl) i, ?_⟩
    rw [h6 k v (fun j _ => rfl) i]
    congr 3
    ring
  refine ⟨⟨mem, mem', J, J', h1, h2, h4, h5, hJ⟩, ?_⟩
  obtain rfl := (holds_iff (by norm_num) (by norm_num)).1 h2
  obtain rfl := (holds_iff (by norm_num) (by norm_num)).1 h5
  have hm : List.Forall₂ SameDatum (matMem J) (matMem J') := by
    unfold matMem
    rw [List.ofFn_eq_map, List.ofFn_eq_map]
    exact forall_map (fun i => by obtain ⟨p, a, b⟩ := hJ i.divNat i.modNat; rw [a, b]) _
  have hm' : List.Forall₂ SameDatum (matMem J') (matMem J) := by
    unfold matMem
    rw [List.ofFn_eq_map, List.ofFn_eq_map]
    exact forall_map (fun i => by obtain ⟨p, a, b⟩ := hJ i.divNat i.modNat; rw [a, b]) _
  have final : ∀ {t : LinearTransform Flt} {J : Matrix (Fin 3) (Fin 3) Flt}, t.numDims = 3 →
      LinearTransform.jacobianValue cfg (floatArith T.format) t (List.ofFn fun k => Flt.ofReal (vertexPoint v k)) = .ok (matMem J) → ∀ {det after},
      MathUtilities.inverseNative (floatArith T.format) (matMem J) = .ok (det, after) →
      LinearTransform.inverseJacobianValue cfg (floatArith T.format) t (List.ofFn fun k => Flt.ofReal (vertexPoint v k)) = .ok (det, after) := by
    intro t J hn h1 det after k1
    rw [LinearTransform.jacobianValue, staticAssert_bind_true (by simp)] at h1
    rw [LinearTransform.inverseJacobianValue, staticAssert_bind_true (by simp)]
    obtain ⟨J0, g1, g2⟩ := Res.bind_eq_ok.1 h1
    rw [g1, Res.ok_bind, LinearTransform.inverseJacobian, g2, Res.ok_bind, LinearTransform.jacobianView, hn]
    exact inverse_carray_of_native cfg k1
  have e := inverse_form (F := T.format) J
  have e' := inverse_form (F := T.format) J'
  refine ⟨_, _, _, _, final hn h1 e, final hn' h4 e', ?_⟩
  obtain ⟨⟨p, q⟩, f1, f2, f3⟩ := (inverse_native_rel (data_rel T.format) hm _ e).resolve_right fun h => h.1
  obtain ⟨rfl, rfl⟩ := Prod.mk.inj (Res.ok.inj (e'.symm.trans f1))
  obtain ⟨⟨p, q⟩, f4, f5, f6⟩ := (inverse_native_rel (data_rel T.format) hm' _ e').resolve_right fun h => h.1
  obtain ⟨rfl, rfl⟩ := Prod.mk.inj (Res.ok.inj (e.symm.trans f4))
  refine ⟨f2, fun m hm => ?_, fun m' hm' => ?_⟩
  · exact (f3 m hm).resolve_right fun h => h.1
  · obtain ⟨m, g1, g2⟩ := (f6 m' hm').resolve_right fun h => h.1
    exact ⟨m, g1, g2.flip.imp fun _ _ h => Eq.symm h⟩

/-- The claim of C157 for fields on elements of order one: adding a constant does not change the gradient at any point of the parent element. -/
def UnmovedByConstants : Prop :=
  ∀ (T : RealType) (d : ℕ) (c : Fin d → Fin 2 → ℝ) (e : Element Flt), IsLinearIn T e c → d ≤ 3 →
    ∀ (u u' : List Int → Res Flt) (y : (Fin d → Fin 2) → ℝ) (s : ℝ),
    (∀ i, u (tup (n := fun _ : Fin d => 2) i) = .ok (Flt.ofReal (y i))) → (∀ i, u' (tup (n := fun _ : Fin d => 2) i) = .ok (Flt.ofReal (y i + s))) →
    (∀ i, Represents T.format (y i) ∧ Represents T.format (y i + s)) → ∀ x : Fin d → ℝ, (∀ j, |x j| ≤ 1 ∧ Represents T.format (x j)) →
    ∀ g g' : Fin d → Flt, ParentElement.gradient (floatArith T.format) e (List.ofFn fun j => Flt.ofReal (x j)) u = .ok (List.ofFn g) →
      ParentElement.gradient (floatArith T.format) e (List.ofFn fun j => Flt.ofReal (x j)) u' = .ok (List.ofFn g') → ∀ k, (g k).datum = (g' k).datum

/-- **C157 is violated** inside of elements, in `float` and `double`: for the square of order one there are a constant and a point at which the first derivative is zero for nodal
values zero, and is not zero after the constant was added to all of them. -/
theorem C157_violated : ¬ UnmovedByConstants ∧ ∀ (T : RealType) (fam : Family), fam = .equal ∨ fam = .gaussLobatto → ∃ (b : Basis Flt) (s x y z : ℝ) (g : Fin 2 → Flt),
    T.arith.lagrangeBasis (fam.spacingIn T.arith) (1 : ℕ) = .ok b ∧ Represents T.format s ∧ |x| ≤ 1 ∧ Represents T.format x ∧
    ParentElement.gradient (floatArith T.format) ⟨.ok (2 : ℕ), List.replicate 2 b⟩ (List.ofFn fun j : Fin 2 => Flt.ofReal (![0, x] j)) (fun _ => .ok (Flt.ofReal 0)) = .ok (List.ofFn g) ∧
    (g 0).datum = .finite 0 ∧
    ParentElement.gradient (floatArith T.format) ⟨.ok (2 : ℕ), List.replicate 2 b⟩ (List.ofFn fun j : Fin 2 => Flt.ofReal (![0, x] j)) (fun _ => .ok (Flt.ofReal s))
      = .ok [Flt.ofReal y, Flt.ofReal z] ∧ y ≠ 0 := by
  have each : ∀ (T : RealType) (fam : Family), fam = .equal ∨ fam = .gaussLobatto → ∃ (b : Basis Flt) (s x y z : ℝ) (g : Fin 2 → Flt),
      T.arith.lagrangeBasis (fam.spacingIn T.arith) (1 : ℕ) = .ok b ∧ Represents T.format s ∧ |x| ≤ 1 ∧ Represents T.format x ∧
      ParentElement.gradient (floatArith T.format) ⟨.ok (2 : ℕ), List.replicate 2 b⟩ (List.ofFn fun j : Fin 2 => Flt.ofReal (![0, x] j)) (fun _ => .ok (Flt.ofReal 0)) = .ok (List.ofFn g) ∧
      (g 0).datum = .finite 0 ∧
      ParentElement.gradient (floatArith T.format) ⟨.ok (2 : ℕ), List.replicate 2 b⟩ (List.ofFn fun j : Fin 2 => Flt.ofReal (![0, x] j)) (fun _ => .ok (Flt.ofReal s))
        = .ok [Flt.ofReal y, Flt.ofReal z] ∧ y ≠ 0 := by
    intro T fam hfam
    obtain ⟨b, s, x, y, z, hb, hs, -, hx, hxr, hg, hy⟩ := C130_violated.2.1 T fam
    obtain ⟨b', c, hb', hlin⟩ := same_linear T hfam (d := 2) (by norm_num)
    obtain rfl := Res.ok.inj (hb'.symm.trans hb)
    have form := linear_form T fam hb
    have hx2 : ∀ j : Fin 2, |(![0, x] : Fin 2 → ℝ) j| ≤ 1 := fun j => by
      rcases (show ∀ i : Fin 2, i = 0 ∨ i = 1 by decide) j with rfl | rfl
      · simp
      · exact hx
    have hgrad : ∀ idx : Fin 2 → Fin 2, ∃ f : Fin 2 → Flt, BasisProduct.gradient (floatArith T.format) (List.ofFn fun _ : Fin 2 => b') (tup (n := fun _ : Fin 2 => 2) idx)
        (List.ofFn fun j => Flt.ofReal ((![0, x] : Fin 2 → ℝ) j)) = .ok (List.ofFn f) ∧ ∀ i, FiniteFlt (f i) := by
      intro idx
      obtain ⟨f, h1, -, h2⟩ := C100_shape_gradient hlin.shipped (by norm_num) idx _ hx2
      have h1 := (basisValue_eq (floatArith T.format) (elementOf_instantiate fun _ : Fin 2 => b') (idx := tup (n := fun _ : Fin 2 => 2) idx)
        (by simp [tup_length, Lemmas.elementOf]) (List.ofFn fun j => Flt.ofReal ((![0, x] : Fin 2 → ℝ) j))).2.2.1.symm.trans h1
      exact ⟨f, h1, fun i => by obtain ⟨w, hw, -⟩ := h2 i; exact ⟨w, hw⟩⟩
    choose f hf1 hf2 using hgrad
    have hL : boxFrom (List.replicate 2 0) (List.ofFn fun _ : Fin 2 => (((2 : ℕ) : ℕ) : Int))
        = List.map (tup (n := fun _ : Fin 2 => 2)) [![0, 0], ![0, 1], ![1, 0], ![1, 1]] := by decide
    have hz : ((floatArith T.format).lit 0).datum = .finite 0 := by
      show (Flt.round T.format false ((0 : ℚ) : ℝ)).datum = _
      rw [Rat.cast_zero, Lemmas.round_zero]
    have he : Lemmas.elementOf (fun _ : Fin 2 => b') = ⟨.ok (2 : ℕ), List.replicate 2 b'⟩ := by rw [Lemmas.elementOf, List.ofFn_const]
    have hn : ∀ j : Fin 2, ((fun _ : Fin 2 => b') j).numSupportPoints = (((fun _ : Fin 2 => 2) j : ℕ) : Int) := fun j => by
      show b'.numSupportPoints = _
      rw [form]
    have ht := gradient_total (n := fun _ : Fin 2 => 2) (y := fun _ => 0) (u := fun _ => .ok (Flt.ofReal 0)) (by norm_num) hn hL hf1 fun _ => rfl
    rw [he] at ht
    refine ⟨b', s, x, y, z, _, hb, hs, hx, hxr, ht, ?_, hg, hy⟩
    have := total_filter (F := T.format) (g := fun idx => Flt.mul T.format (f idx 0) (Flt.ofReal 0)) (fun _ => False) (fun i _ => mul_zero_right (hf2 i 0) rfl)
      [![0, 0], ![0, 1], ![1, 0], ![1, 1]] (a := (floatArith T.format).lit 0) (a' := (floatArith T.format).lit 0)
      (fun w hw => by rw [hz] at hw; cases hw; exact represents_zero _) rfl
    rw [this]
    simpa [total] using hz
  refine ⟨fun hall => ?_, each⟩
  obtain ⟨b, s, x, y, z, g, hb, hs, hx, hxr, h1, h2, h3, hy⟩ := each .double .equal (.inl rfl)
  obtain ⟨b', c, hb', hlin⟩ := same_linear .double (fam := .equal) (.inl rfl) (d := 2) (by norm_num)
  obtain rfl := Res.ok.inj (hb'.symm.trans hb)
  have h0 : Represents (RealType.format .double) 0 := represents_zero _
  have := hall .double 2 c _ hlin (by norm_num) (fun _ => .ok (Flt.ofReal 0)) (fun _ => .ok (Flt.ofReal s)) (fun _ => 0) s (fun _ => rfl) (fun _ => by rw [zero_add])
    (fun _ => ⟨h0, by rw [zero_add]; exact hs⟩) ![0, x] (fun j => by
      rcases (show ∀ i : Fin 2, i = 0 ∨ i = 1 by decide) j with rfl | rfl
      · exact ⟨by simp, h0⟩
      · exact ⟨hx, hxr⟩) g ![Flt.ofReal y, Flt.ofReal z] h1 h3 0
  rw [h2] at this
  exact hy (by injection this with e; exact e.symm)

/-! ### the hypotheses can be met -/

/-- Non-vacuity of `C157_exact`: the nodal values 2 and 5 on a cube of order one, and the same plus 7. -/
example : ∃ (e : Element ℝ) (g : Fin 3 → ℝ), ParentElement.gradient (exactArith ℝ) e (List.ofFn ![1, 1, 1 / 3]) (fun l => .ok (if l = [1, 1, 1] then 5 else 2)) = .ok (List.ofFn g) ∧
    ParentElement.gradient (exactArith ℝ) e (List.ofFn ![1, 1, 1 / 3]) (fun l => .ok ((if l = [1, 1, 1] then 5 else 2) + 7)) = .ok (List.ofFn g) ∧ g 2 = 3 / 2 := by
  obtain ⟨e, he, -⟩ := trilinear_cell
  obtain ⟨g, h1, h2⟩ := C157_exact he (u := fun l => .ok (if l = [1, 1, 1] then 5 else 2)) (u' := fun l => .ok ((if l = [1, 1, 1] then 5 else 2) + 7))
    (y := fun i => if tup (n := fun _ : Fin 3 => 2) i = [1, 1, 1] then 5 else 2) (s := 7) (fun _ => rfl) (fun _ => rfl) ![1, 1, 1 / 3]
  obtain ⟨g', h3, h4⟩ := C155_exact he (fun _ => ⟨rfl, rfl⟩) (u := fun l => .ok (if l = [1, 1, 1] then 5 else 2))
    (y := fun i => if tup (n := fun _ : Fin 3 => 2) i = [1, 1, 1] then 5 else 2) (fun _ => rfl) 2 (fun _ => 1) (x := ![1, 1, 1 / 3]) (fun j hj => by
      rcases (show ∀ i : Fin 3, i = 0 ∨ i = 1 ∨ i = 2 by decide) j with rfl | rfl | rfl
      · rfl
      · rfl
      · exact absurd rfl hj)
  obtain rfl := List.ofFn_injective (Res.ok.inj (h1.symm.trans h3))
  refine ⟨e, g, h1, h2, ?_⟩
  rw [h4, if_pos (by decide), if_neg (by decide)]
  norm_num

/-- Non-vacuity of `C157_cell_exact`: the cell `distant`, moved back to the origin. -/
example (cfg : Config) : ∃ (t t' : LinearTransform ℝ) (D : Matrix (Fin 3) (Fin 3) ℝ) (J J' : List ℝ), HoldsPoints t.data distant ∧
    HoldsPoints t'.data (fun (a : Fin 3 → Fin 2) i => distant a i + (-2 ^ 20)) ∧
    LinearTransform.jacobianValue cfg (exactArith ℝ) t (List.ofFn ![1 / 3, 0, 1] ++ []) = .ok J ∧ HoldsMatrix J D ∧
    LinearTransform.jacobianValue cfg (exactArith ℝ) t' (List.ofFn ![1 / 3, 0, 1] ++ []) = .ok J' ∧ HoldsMatrix J' D := by
  obtain ⟨e, he, hX⟩ := trilinear_cell
  obtain ⟨t, h1, h2⟩ := hX distant
  obtain ⟨t', h3, h4⟩ := hX fun a i => distant a i + (-2 ^ 20)
  obtain ⟨D, J, J', h5⟩ := C157_cell_exact (t := t) (t' := t') (by rw [h1]; exact he) le_rfl h2 (h3.trans h1.symm) (fun _ => -2 ^ 20) h4 cfg ![1 / 3, 0, 1] [] rfl
  exact ⟨t, t', D, J, J', h2, h4, h5⟩

/-- Non-vacuity of `C157_edge_partial`: the nodal values 1 and 2 of a line, and the same plus `2^20`. -/
example (T : RealType) : ∃ (b : Basis Flt) (g g' : Fin 1 → Flt) (p : ℝ),
    ParentElement.gradient (floatArith T.format) ⟨.ok (1 : ℕ), List.replicate 1 b⟩ (List.ofFn fun j : Fin 1 => Flt.ofReal (![1 / 3] j))
      (fun l => .ok (Flt.ofReal (if l = [0] then 1 else 2))) = .ok (List.ofFn g) ∧
    ParentElement.gradient (floatArith T.format) ⟨.ok (1 : ℕ), List.replicate 1 b⟩ (List.ofFn fun j : Fin 1 => Flt.ofReal (![1 / 3] j))
      (fun l => .ok (Flt.ofReal ((if l = [0] then 1 else 2) + (2 ^ 20 : ℝ)))) = .ok (List.ofFn g') ∧ (g 0).datum = .finite p ∧ (g' 0).datum = .finite p := by
  obtain ⟨b, c, hb, h⟩ := same_linear T (fam := .equal) (.inl rfl) (d := 1) (by norm_num)
  have hy : ∀ q : ℝ, q = 1 ∨ q = 2 → (Represents T.format q ∧ Represents T.format (q + 2 ^ 20)) ∧ Represents T.format (q / 2) ∧ Represents T.format ((q + 2 ^ 20) / 2) := by
    rintro q (rfl | rfl)
    · have a := small_numbers T 1 (by simp)
      have b := distant_numbers T (2 ^ 20 + 1) (by simp)
      rw [add_comm] at b
      exact ⟨⟨a.1, b.1⟩, a.2, b.2⟩
    · have a := small_numbers T 2 (by simp)
      have b := distant_numbers T (2 ^ 20 + 2) (by simp)
      rw [add_comm] at b
      exact ⟨⟨a.1, b.1⟩, a.2, b.2⟩
  obtain ⟨g, g', h1, h2, p, h3, h4⟩ := C157_edge_partial h (by norm_num) (u := fun l => .ok (Flt.ofReal (if l = [0] then 1 else 2)))
    (u' := fun l => .ok (Flt.ofReal ((if l = [0] then 1 else 2) + (2 ^ 20 : ℝ)))) (y := fun i => if tup (n := fun _ : Fin 1 => 2) i = [0] then 1 else 2) (s := 2 ^ 20)
    (fun _ => rfl) (fun _ => rfl) (fun i => (hy _ (by split_ifs <;> simp)).1) 0 (fun _ => 0) (fun a => (hy _ (by split_ifs <;> simp)).2) (x := ![1 / 3])
    (fun j => by obtain rfl := Fin.eq_zero j; norm_num [abs_le]) (fun j hj => absurd (Fin.eq_zero j) hj)
  exact ⟨b, g, g', p, h1, h2, h3, h4⟩

/-- Non-vacuity of `C157_vertex_partial`: the cell `distant`, moved back to the origin, at its raised vertex. -/
example (T : RealType) (cfg : Config) : ∃ (t t' : LinearTransform Flt) (det det' : Flt) (m m' : List Flt),
    HoldsPoints t.data (fun (a : Fin 3 → Fin 2) i => Flt.ofReal (distant a i)) ∧ HoldsPoints t'.data (fun (a : Fin 3 → Fin 2) i => Flt.ofReal (distant a i + (-2 ^ 20))) ∧
    LinearTransform.inverseJacobianValue cfg (floatArith T.format) t (List.ofFn fun k => Flt.ofReal (vertexPoint (fun _ : Fin 3 => 1) k)) = .ok (det, .ok m) ∧
    LinearTransform.inverseJacobianValue cfg (floatArith T.format) t' (List.ofFn fun k => Flt.ofReal (vertexPoint (fun _ : Fin 3 => 1) k)) = .ok (det', .ok m') ∧
    det.datum = det'.datum ∧ SameNumbers m m' := by
  obtain ⟨t, h1, -, h2⟩ := float_cell T distant
  obtain ⟨t', h3, -, h4⟩ := float_cell T fun a i => distant a i + (-2 ^ 20)
  have near : ∀ q : ℝ, q = 2 ^ 20 ∨ q = 2 ^ 20 + 1 ∨ q = 2 ^ 20 + 2 → Represents T.format (q + (-2 ^ 20)) ∧ Represents T.format ((q + (-2 ^ 20)) / 2) := by
    rintro q (rfl | rfl | rfl)
    · rw [add_neg_cancel, zero_div]
      exact ⟨represents_zero _, represents_zero _⟩
    · rw [show (2 ^ 20 + 1 : ℝ) + -2 ^ 20 = 1 by ring]
      exact small_numbers T 1 (by simp)
    · rw [show (2 ^ 20 + 2 : ℝ) + -2 ^ 20 = 2 by ring]
      exact small_numbers T 2 (by simp)
  obtain ⟨-, det, det', after, after', h5, h6, h7, h8, -⟩ := C157_vertex_partial (s := fun _ => -2 ^ 20) ⟨h1, fun _ => ⟨rfl, rfl⟩⟩ ⟨h3, fun _ => ⟨rfl, rfl⟩⟩ h2 h4
    (fun a i => distant_numbers T _ (distant_cases a i)) (fun a i => near _ (distant_cases a i)) cfg fun _ => 1
  obtain ⟨det0, m, P, k1, -⟩ := distant_inverse T cfg h1 h2
  obtain ⟨rfl, rfl⟩ := Prod.mk.inj (Res.ok.inj (h5.symm.trans k1))
  obtain ⟨m', rfl, h9⟩ := h8 m rfl
  exact ⟨t, t', det, det', m, m', h2, h4, h5, h6, h7, h9⟩

end Verif.Props
