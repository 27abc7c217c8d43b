import Verif.Lemmas.SharedFace
import Verif.Lemmas.FaceKnown
import Verif.Props.NodalFloat
import Verif.Props.Degenerate

/-!
# Property C147: fields are continuous across faces in `float` and `double`

Two cells that carry the same nodal values on a shared face interpolate the same value at every point of it, to the last bit.
This is so if the cells number the nodes of the face in the same order, and is not if one of them is mirrored.
-/

namespace Verif.Props

open Verif.Spec Verif.Lemmas

/-- The claim of C147.  Two cells of the same class are neighbours in direction `k`, whose first and last points are the ends -1 and 1.  One of them may be
mirrored in other directions, in which the points are symmetric about 0.  The nodal values of the shared face, the last of one cell and the first of the
other, are the same.  Then so are the interpolated values at a point of the face. -/
def FieldsContinuous : Prop :=
  ∀ (T : RealType) (d : ℕ) (order : Fin d → ℕ) (c : (k : Fin d) → Fin (order k + 1) → ℝ) (e : Element Flt), d ≤ 3 → IsShippedIn T order c e →
    ∀ (k : Fin d) (mirrored : Fin d → Bool), c k 0 = -1 → c k (Fin.last _) = 1 → (∀ j i, mirrored j → c j i.rev = -c j i) →
    ∀ (u v : List Int → Res Flt) (y z : ((k : Fin d) → Fin (order k + 1)) → ℝ), (∀ idx, u (tup idx) = .ok (Flt.ofReal (y idx))) →
      (∀ idx, v (tup idx) = .ok (Flt.ofReal (z idx))) → (∀ idx, (Represents T.format (y idx) ∧ |y idx| ≤ 1) ∧ Represents T.format (z idx) ∧ |z idx| ≤ 1) →
      (∀ idx, y (Function.update idx k (Fin.last _)) = z (Function.update (fun j => if mirrored j then (idx j).rev else idx j) k 0)) →
    ∀ x : Fin d → ℝ, (∀ j, |x j| ≤ 1 ∧ Represents T.format (x j)) →
      ∃ r s, ParentElement.value (floatArith T.format) e (List.ofFn fun j => Flt.ofReal (Function.update x k 1 j)) u = .ok r ∧
        ParentElement.value (floatArith T.format) e
          (List.ofFn fun j => Flt.ofReal (Function.update (fun j => if mirrored j then -x j else x j) k (-1) j)) v = .ok s ∧
        r.datum = s.datum

section layers
variable {T : RealType} {d : ℕ} {order : Fin d → ℕ} {c : (k : Fin d) → Fin (order k + 1) → ℝ} {e : Element Flt}

private theorem finite_of {f : Flt} {x ε : ℝ} (h : FiniteWithin f x ε) : FiniteFlt f := by
  obtain ⟨y, hy, -⟩ := h
  exact ⟨y, hy⟩

/-- Two layers of nodes at which the own basis functions have the same value. -/
private theorem layers (h : IsShippedIn T order c e) (hd : d ≤ 3) (k : Fin d) (a a' : Fin (order k + 1))
    (hend : ∀ b : Basis Flt, (∃ fam : Family, fam.Supports (order k) ∧ T.arith.lagrangeBasis (fam.spacingIn T.arith) (order k) = .ok b ∧
        ∀ i : Fin (order k + 1), (fam.spacingIn T.arith ((order k + 1 : ℕ) : Int)).coordCT (i : ℕ) = .ok (Flt.ofReal (c k i))) →
      ∀ f f', b.value (a : ℕ) (Flt.ofReal (c k a)) = .ok f → b.value (a' : ℕ) (Flt.ofReal (c k a')) = .ok f' → f.datum = f'.datum)
    {u v : List Int → Res Flt} {y z : ((k : Fin d) → Fin (order k + 1)) → ℝ} (hu : ∀ i, u (tup i) = .ok (Flt.ofReal (y i)))
    (hv : ∀ i, v (tup i) = .ok (Flt.ofReal (z i)))
    (hyz : ∀ idx, y (Function.update idx k a) = z (Function.update idx k a')) (x : Fin d → ℝ) (hx : ∀ j, |x j| ≤ 1) :
    (∃ r s, ParentElement.value (floatArith T.format) e (List.ofFn fun j => Flt.ofReal (Function.update x k (c k a) j)) u = .ok r ∧
      ParentElement.value (floatArith T.format) e (List.ofFn fun j => Flt.ofReal (Function.update x k (c k a') j)) v = .ok s ∧
      r.datum = s.datum) ∧
    ∃ r s : Fin d → Flt,
      ParentElement.gradient (floatArith T.format) e (List.ofFn fun j => Flt.ofReal (Function.update x k (c k a) j)) u = .ok (List.ofFn r) ∧
      ParentElement.gradient (floatArith T.format) e (List.ofFn fun j => Flt.ofReal (Function.update x k (c k a') j)) v = .ok (List.ofFn s) ∧
      ∀ j, j ≠ k → (r j).datum = (s j).datum := by
  obtain ⟨fam, b, hb, hk⟩ := h.bases
  obtain rfl : e = Lemmas.elementOf b := by cases e; simp only [Lemmas.elementOf]; cases hb; congr 1; exact h.shape
  have hc1 : ∀ i, |c k i| ≤ 1 := fun i => by
    obtain ⟨c', hc1, -, hc⟩ := C100_points T (fam k) (order k) (h.orders k).1 (h.orders k).2 (hk k).1
    have e := Datum.finite.inj (congrArg Flt.datum (Res.ok.inj ((hc i).symm.trans ((hk k).2.1 i))))
    exact e ▸ hc1 i
  have hx' : ∀ (i : Fin (order k + 1)) (j : Fin d), |Function.update x k (c k i) j| ≤ 1 := fun i j => by
    by_cases ej : j = k
    · subst ej; rw [Function.update_self]; exact hc1 i
    · rw [Function.update_of_ne ej]; exact hx j
  have hcount : ∀ j, (b j).numSupportPoints = ((order j + 1 : ℕ) : Int) := fun j => by
    have h1 := (hk j).2.2
    have h8 := (h.orders j).2
    rw [C88_basis, lagrangeBasis_ok _ _ (by omega)] at h1
    rw [← Res.ok.inj h1]
  have zero : ∀ i : Fin (order k + 1), OnLayer (b k) i (Flt.ofReal (Function.update x k (c k i) k)) := fun i j hj f hf _ => by
    rw [Function.update_self] at hf
    obtain ⟨f', hf', h0⟩ := C128_zero T (fam k) (h.orders k).1 (h.orders k).2 (hk k).1 (hk k).2.2 hj ((hk k).2.1 i)
    rw [← Res.ok.inj (hf'.symm.trans hf)]
    exact h0
  have same : ∀ j, j ≠ k → Flt.ofReal (Function.update x k (c k a) j) = Flt.ofReal (Function.update x k (c k a') j) := fun j hj => by
    rw [Function.update_of_ne hj, Function.update_of_ne hj]
  have ends : ∀ f f', (b k).value (a : ℕ) (Flt.ofReal (Function.update x k (c k a) k)) = .ok f →
      (b k).value (a' : ℕ) (Flt.ofReal (Function.update x k (c k a') k)) = .ok f' → f.datum = f'.datum := fun f f' hf hf' => by
    rw [Function.update_self] at hf hf'
    exact hend (b k) ⟨fam k, (hk k).1, (hk k).2.2, (hk k).2.1⟩ f f' hf hf'
  have heq : ∀ idx, idx k = a → y idx = z (Function.update idx k a') := fun idx hi => by
    have := hyz idx
    rwa [← hi, Function.update_eq_self] at this
  have bv := fun (idx : (k : Fin d) → Fin (order k + 1)) (X : Fin d → Flt) =>
    basisValue_eq (floatArith T.format) (elementOf_instantiate b) (idx := tup idx) (by simp [tup_length, Lemmas.elementOf]) (List.ofFn X)
  have vals : ∀ (i : Fin (order k + 1)) (idx : (k : Fin d) → Fin (order k + 1)), ∃ f, BasisProduct.value (floatArith T.format) (List.ofFn b) (tup idx)
      (List.ofFn fun j => Flt.ofReal (Function.update x k (c k i) j)) = .ok f ∧ FiniteFlt f := fun i idx => by
    obtain ⟨f, hf, -, hfin⟩ := C100_shape h hd idx _ (hx' i)
    exact ⟨f, (bv idx _).1.symm.trans hf, finite_of hfin⟩
  have grads : ∀ (i : Fin (order k + 1)) (idx : (k : Fin d) → Fin (order k + 1)), ∃ g : Fin d → Flt, BasisProduct.gradient (floatArith T.format)
      (List.ofFn b) (tup idx) (List.ofFn fun j => Flt.ofReal (Function.update x k (c k i) j)) = .ok (List.ofFn g) ∧ ∀ j, FiniteFlt (g j) := fun i idx => by
    obtain ⟨g, hg, -, hfin⟩ := C100_shape_gradient h hd idx _ (hx' i)
    exact ⟨g, (bv idx _).2.2.1.symm.trans hg, fun j => finite_of (hfin j)⟩
  exact ⟨layer_value h.dims hcount same (zero a) (zero a') ends (vals a) (vals a') hu hv heq,
    layer_gradient h.dims hcount same (zero a) (zero a') ends (grads a) (grads a') hu hv heq⟩

/-- **C147, one cell.** In `float` and in `double`: on a layer of nodes of a shipped element in up to three dimensions, the interpolation of a variable with
finite nodal values depends only on the nodal values of the layer, to the last bit.  So do the components of its gradient in the directions of the layer. -/
theorem C147_trace (h : IsShippedIn T order c e) (hd : d ≤ 3) (k : Fin d) (a : Fin (order k + 1))
    {u v : List Int → Res Flt} {y z : ((k : Fin d) → Fin (order k + 1)) → ℝ} (hu : ∀ i, u (tup i) = .ok (Flt.ofReal (y i)))
    (hv : ∀ i, v (tup i) = .ok (Flt.ofReal (z i))) (hyz : ∀ idx, idx k = a → y idx = z idx) (x : Fin d → ℝ) (hx : ∀ j, |x j| ≤ 1) (hk : x k = c k a) :
    (∃ r s, ParentElement.value (floatArith T.format) e (List.ofFn fun j => Flt.ofReal (x j)) u = .ok r ∧
      ParentElement.value (floatArith T.format) e (List.ofFn fun j => Flt.ofReal (x j)) v = .ok s ∧ r.datum = s.datum) ∧
    ∃ r s : Fin d → Flt,
      ParentElement.gradient (floatArith T.format) e (List.ofFn fun j => Flt.ofReal (x j)) u = .ok (List.ofFn r) ∧
      ParentElement.gradient (floatArith T.format) e (List.ofFn fun j => Flt.ofReal (x j)) v = .ok (List.ofFn s) ∧
      ∀ j, j ≠ k → (r j).datum = (s j).datum := by
  have := layers h hd k a a (fun b _ f f' hf hf' => by rw [Res.ok.inj (hf.symm.trans hf')]) hu hv
    (fun idx => hyz _ (Function.update_self ..)) x hx
  rwa [← hk, Function.update_eq_self] at this

private theorem small {n : ℕ} (h1 : 1 ≤ n) (h8 : n ≤ 8) : n ∈ [1, 2, 3, 4, 5, 6, 7, 8] := by
  simp only [List.mem_cons, List.not_mem_nil, or_false]; omega

/-- **C147, end points.** In `float` and in `double`, the first and last of the equally spaced and of the Gauss-Lobatto points are -1 and 1. -/
theorem C147_end_points (T : RealType) (fam : Family) (hf : fam ≠ .gaussLegendre) {m : ℕ} (h1 : 1 ≤ m) (h8 : m ≤ 8) :
    (fam.spacingIn T.arith ((m + 1 : ℕ) : Int)).coordCT 0 = .ok (Flt.ofReal (-1)) ∧
    (fam.spacingIn T.arith ((m + 1 : ℕ) : Int)).coordCT (m : ℕ) = .ok (Flt.ofReal 1) := by
  have h : endsAgree T fam m = true := by
    cases fam with
    | equal => exact ends_equal T (mem_types T) m (small h1 h8)
    | gaussLobatto => exact ends_lobatto T (mem_types T) m (small h1 h8)
    | gaussLegendre => exact absurd rfl hf
  obtain ⟨e1, e2, -⟩ := endsAgree_spec h
  have e1 := knownPoint_sound e1
  have e2 := knownPoint_sound e2
  push_cast at e1 e2 ⊢
  exact ⟨e1, e2⟩

/-- **C147, two neighbours, partial.** In `float` and in `double`: if two cells of the same shipped class in up to three dimensions are neighbours in a
direction in which their points include the ends -1 and 1, number the nodes of the shared face in the same order and have the same finite nodal values on it,
then they interpolate the same value at every point of the face, to the last bit, and the same derivatives along the face.  Missing: cells that number the
nodes in different orders, for which `C147_violated` refutes it. -/
theorem C147_neighbours_partial (h : IsShippedIn T order c e) (hd : d ≤ 3) (k : Fin d) (h0 : c k 0 = -1) (h1 : c k (Fin.last _) = 1)
    {u v : List Int → Res Flt} {y z : ((k : Fin d) → Fin (order k + 1)) → ℝ} (hu : ∀ i, u (tup i) = .ok (Flt.ofReal (y i)))
    (hv : ∀ i, v (tup i) = .ok (Flt.ofReal (z i)))
    (hyz : ∀ idx, y (Function.update idx k (Fin.last _)) = z (Function.update idx k 0)) (x : Fin d → ℝ) (hx : ∀ j, |x j| ≤ 1) :
    (∃ r s, ParentElement.value (floatArith T.format) e (List.ofFn fun j => Flt.ofReal (Function.update x k 1 j)) u = .ok r ∧
      ParentElement.value (floatArith T.format) e (List.ofFn fun j => Flt.ofReal (Function.update x k (-1) j)) v = .ok s ∧ r.datum = s.datum) ∧
    ∃ r s : Fin d → Flt,
      ParentElement.gradient (floatArith T.format) e (List.ofFn fun j => Flt.ofReal (Function.update x k 1 j)) u = .ok (List.ofFn r) ∧
      ParentElement.gradient (floatArith T.format) e (List.ofFn fun j => Flt.ofReal (Function.update x k (-1) j)) v = .ok (List.ofFn s) ∧
      ∀ j, j ≠ k → (r j).datum = (s j).datum := by
  have := layers h hd k (Fin.last _) 0 (fun b hb f f' hf hf' => ?_) hu hv hyz x hx
  · rwa [h0, h1] at this
  · obtain ⟨fam, hs, hb, hc⟩ := hb
    have ho := h.orders k
    have ha : endsAgree T fam (order k) = true := by
      cases fam with
      | equal => exact ends_equal T (mem_types T) _ (small ho.1 ho.2)
      | gaussLobatto => exact ends_lobatto T (mem_types T) _ (small ho.1 ho.2)
      | gaussLegendre =>
        exfalso
        have e := hc 0
        rw [h0] at e
        have hm : order k ∈ [1, 2, 3] := by
          have := hs.2
          simp only [List.mem_cons, List.not_mem_nil, or_false]; omega
        obtain ⟨q, hq, hne⟩ := legendre_inside T (mem_types T) _ hm
        have := knownPoint_sound hq
        have e := Datum.finite.inj (congrArg Flt.datum (Res.ok.inj (this.symm.trans e)))
        exact hne (by exact_mod_cast e)
    obtain ⟨-, -, q, e1, e2⟩ := endsAgree_spec ha
    have e1 := knownValue_sound e1
    have e2 := knownValue_sound e2
    rw [C88_basis, lagrangeBasis_ok _ _ (by omega)] at hb
    rw [← Res.ok.inj hb, h1] at hf
    rw [← Res.ok.inj hb, h0] at hf'
    push_cast at e1 e2
    have e1 := Res.ok.inj (e1.symm.trans hf')
    have e2 := Res.ok.inj (e2.symm.trans hf)
    rw [← e1, ← e2]

/-- **C147, the shape of the face, partial.** If two such cells have the same vertices on the shared face, their Jacobians have the same columns along the face at
every point of it, to the last bit: both cells compute the same tangents. -/
theorem C147_tangents_partial {t t' : LinearTransform Flt} (h : IsShippedIn T order c t.shape) (ht : t'.shape = t.shape) (hd : d ≤ 3) (k : Fin d) (h0 : c k 0 = -1)
    (h1 : c k (Fin.last _) = 1) {X X' : ((k : Fin d) → Fin (order k + 1)) → Fin d → ℝ} (hX : HoldsPoints t.data fun idx i => Flt.ofReal (X idx i))
    (hX' : HoldsPoints t'.data fun idx i => Flt.ofReal (X' idx i))
    (hface : ∀ idx, X (Function.update idx k (Fin.last _)) = X' (Function.update idx k 0)) (cfg : Config) (x : Fin d → ℝ) (hx : ∀ j, |x j| ≤ 1)
    (extra : List Flt) (he : d + extra.length = 3) :
    ∃ (mem mem' : List Flt) (J J' : Matrix (Fin d) (Fin d) Flt),
      LinearTransform.jacobianValue cfg (floatArith T.format) t ((List.ofFn fun j => Flt.ofReal (Function.update x k 1 j)) ++ extra) = .ok mem ∧
      HoldsMatrix mem J ∧
      LinearTransform.jacobianValue cfg (floatArith T.format) t' ((List.ofFn fun j => Flt.ofReal (Function.update x k (-1) j)) ++ extra) = .ok mem' ∧
      HoldsMatrix mem' J' ∧ ∀ i j, j ≠ k → (J i j).datum = (J' i j).datum := by
  obtain ⟨mem, J, hm, hJ, hrow⟩ := C145_rows h hd hX cfg (fun j => Flt.ofReal (Function.update x k 1 j)) extra he
  obtain ⟨mem', J', hm', hJ', hrow'⟩ := C145_rows (ht ▸ h) hd hX' cfg (fun j => Flt.ofReal (Function.update x k (-1) j)) extra he
  refine ⟨mem, mem', J, J', hm, hJ, hm', hJ', fun i j hj => ?_⟩
  have field : ∀ X : ((k : Fin d) → Fin (order k + 1)) → Fin d → ℝ, ∃ u : List Int → Res Flt, ∀ idx, u (tup idx) = .ok (Flt.ofReal (X idx i)) := by
    classical
    intro X
    refine ⟨fun l => if hl : ∃ idx, tup idx = l then .ok (Flt.ofReal (X hl.choose i)) else .ub, fun idx => ?_⟩
    have hl : ∃ idx' : (k : Fin d) → Fin (order k + 1), tup idx' = tup idx := ⟨idx, rfl⟩
    exact (dif_pos hl).trans (by rw [tup_injective hl.choose_spec])
  obtain ⟨u, hu⟩ := field X
  obtain ⟨v, hv⟩ := field X'
  obtain ⟨-, r, s, hr, hs, hrs⟩ := C147_neighbours_partial h hd k h0 h1 hu hv (fun idx => by rw [hface]) x hx
  have e1 := List.ofFn_injective (Res.ok.inj (hr.symm.trans (hrow i u hu)))
  have e2 := hrow' i v hv
  rw [ht] at e2
  have e2 := List.ofFn_injective (Res.ok.inj (hs.symm.trans e2))
  have := hrs j hj
  rw [e1, e2] at this
  exact this

end layers

section mirrored
variable {T : RealType} {d : ℕ} {order : Fin d → ℕ} {c : (k : Fin d) → Fin (order k + 1) → ℝ} {e : Element Flt}

/-- Nodes numbered backwards in the mirrored directions. -/
private def flip (order : Fin d → ℕ) (m : Fin d → Bool) : ((k : Fin d) → Fin (order k + 1)) ≃ ((k : Fin d) → Fin (order k + 1)) where
  toFun idx j := if m j then (idx j).rev else idx j
  invFun idx j := if m j then (idx j).rev else idx j
  left_inv idx := by funext j; by_cases h : m j = true <;> simp [h]
  right_inv idx := by funext j; by_cases h : m j = true <;> simp [h]

private theorem quotients_rev {n : ℕ} {c : Fin n → ℝ} (hc : ∀ i, c i.rev = -c i) (i : Fin n) (x : ℝ) :
    ∏ t ∈ Finset.univ.erase i.rev, (-x - c t) / (c i.rev - c t) = ∏ t ∈ Finset.univ.erase i, (x - c t) / (c i - c t) := by
  refine Finset.prod_bij (fun t _ => t.rev) (fun t ht => ?_) (fun a _ b _ h => Fin.rev_injective h) (fun b hb => ?_) fun t _ => ?_
  · rw [Finset.mem_erase] at ht ⊢
    exact ⟨fun h => ht.1 (by rw [← h, Fin.rev_rev]), Finset.mem_univ _⟩
  · rw [Finset.mem_erase] at hb
    refine ⟨b.rev, ?_, Fin.rev_rev b⟩
    rw [Finset.mem_erase]
    exact ⟨fun h => hb.1 (Fin.rev_injective h), Finset.mem_univ _⟩
  · rw [hc, hc t, show -x - c t = -(x - -c t) by ring, show -c i - c t = -(c i - -c t) by ring, neg_div_neg_eq]

private theorem own_quotients {n : ℕ} {c : Fin n → ℝ} (hc : Function.Injective c) (i : Fin n) :
    ∏ t ∈ Finset.univ.erase i, (c i - c t) / (c i - c t) = 1 :=
  Finset.prod_eq_one fun _ ht => div_self (sub_ne_zero.2 fun h => (Finset.mem_erase.1 ht).1 (hc h).symm)

private theorem other_quotients {n : ℕ} {c : Fin n → ℝ} {i j : Fin n} (hij : j ≠ i) :
    ∏ t ∈ Finset.univ.erase i, (c j - c t) / (c i - c t) = 0 :=
  Finset.prod_eq_zero (Finset.mem_erase.2 ⟨hij, Finset.mem_univ j⟩) (by rw [sub_self, zero_div])

/-- **C147, mirrored neighbours.** If one of the cells is mirrored along the face, in directions whose points are symmetric about 0, the values interpolated at a
point of the face differ by no more than twice the rounding error of C100. -/
theorem C147_difference_partial (h : IsShippedIn T order c e) (hd : d ≤ 3) (k : Fin d) (mirrored : Fin d → Bool) (h0 : c k 0 = -1)
    (h1 : c k (Fin.last _) = 1) (hm : ∀ j i, mirrored j → c j i.rev = -c j i)
    {u v : List Int → Res Flt} {y z : ((k : Fin d) → Fin (order k + 1)) → ℝ} (hu : ∀ idx, u (tup idx) = .ok (Flt.ofReal (y idx)))
    (hv : ∀ idx, v (tup idx) = .ok (Flt.ofReal (z idx)))
    (hyz : ∀ idx, y (Function.update idx k (Fin.last _)) = z (Function.update (fun j => if mirrored j then (idx j).rev else idx j) k 0))
    {Y : ℝ} (hY1 : 1 ≤ Y) (hY2 : Y ≤ 2 ^ 56) (hy : ∀ idx, |y idx| ≤ Y) (hz : ∀ idx, |z idx| ≤ Y) (x : Fin d → ℝ) (hx : ∀ j, |x j| ≤ 1) :
    let N := fun idx : (k : Fin d) → Fin (order k + 1) =>
      ∏ j, ∏ t ∈ Finset.univ.erase (idx j), (Function.update x k 1 j - c j t) / (c j (idx j) - c j t)
    ∃ r s p q, ParentElement.value (floatArith T.format) e (List.ofFn fun j => Flt.ofReal (Function.update x k 1 j)) u = .ok r ∧ r.datum = .finite p ∧
      ParentElement.value (floatArith T.format) e
        (List.ofFn fun j => Flt.ofReal (Function.update (fun j => if mirrored j then -x j else x j) k (-1) j)) v = .ok s ∧ s.datum = .finite q ∧
      |p - q| ≤ 2 * (errBound (unitRoundoff T.format) (interpolationRoundings order) * ∑ idx, |N idx| * |y idx|
          + 2 ^ 66 * Y * smallestPositive T.format) := by
  intro N
  have hc : Function.Injective (c k) := by
    obtain ⟨fam, b, hb, hk⟩ := h.bases
    obtain ⟨c', -, hc2, hc⟩ := C100_points T (fam k) (order k) (h.orders k).1 (h.orders k).2 (hk k).1
    obtain rfl : c' = c k := funext fun i => Datum.finite.inj (congrArg Flt.datum (Res.ok.inj ((hc i).symm.trans ((hk k).2.1 i))))
    exact hc2.injective
  obtain ⟨r, hr, p, hp, e1⟩ := C100_interpolation h hd u y hu hY1 hY2 hy (Function.update x k 1) fun j => by
    by_cases ej : j = k
    · subst ej; rw [Function.update_self]; norm_num
    · rw [Function.update_of_ne ej]; exact hx j
  obtain ⟨s, hs, q, hq, e2⟩ := C100_interpolation h hd v z hv hY1 hY2 hz (Function.update (fun j => if mirrored j then -x j else x j) k (-1)) fun j => by
    by_cases ej : j = k
    · subst ej; rw [Function.update_self]; norm_num
    · rw [Function.update_of_ne ej]
      show |if mirrored j then -x j else x j| ≤ 1
      split
      · rw [abs_neg]; exact hx j
      · exact hx j
  let N' := fun idx : (k : Fin d) → Fin (order k + 1) => ∏ j, ∏ t ∈ Finset.univ.erase (idx j),
    (Function.update (fun j => if mirrored j then -x j else x j) k (-1) j - c j t) / (c j (idx j) - c j t)
  let φ := flip order (Function.update mirrored k true)
  have hφk : ∀ idx, φ idx k = (idx k).rev := fun idx => by
    show (if Function.update mirrored k true k = true then _ else _) = _
    rw [Function.update_self, if_pos rfl]
  have hφ : ∀ idx j, j ≠ k → φ idx j = if mirrored j then (idx j).rev else idx j := fun idx j hj => by
    show (if Function.update mirrored k true j = true then _ else _) = _
    rw [Function.update_of_ne hj]
  have key : ∀ idx, N' (φ idx) = N idx ∧ (N idx ≠ 0 → z (φ idx) = y idx) := fun idx => by
    by_cases hl : idx k = Fin.last _
    · refine ⟨Finset.prod_congr rfl fun j _ => ?_, fun _ => ?_⟩
      · by_cases ej : j = k
        · subst ej
          rw [Function.update_self, Function.update_self, hφk, hl, Fin.rev_last, ← h0, ← h1, own_quotients hc, own_quotients hc]
        · rw [Function.update_of_ne ej, Function.update_of_ne ej, hφ _ _ ej]
          cases hmj : mirrored j
          · rfl
          · exact quotients_rev (fun i => hm j i hmj) _ _
      · have := hyz idx
        rw [show Function.update idx k (Fin.last _) = idx by rw [← hl]; exact Function.update_eq_self k idx] at this
        rw [this]
        congr 1
        funext j
        by_cases ej : j = k
        · subst ej; rw [Function.update_self, hφk, hl, Fin.rev_last]
        · rw [Function.update_of_ne ej, hφ _ _ ej]
    · have z1 : N idx = 0 := Finset.prod_eq_zero (Finset.mem_univ k) (by
        rw [Function.update_self, ← h1]; exact other_quotients (Ne.symm hl))
      have z2 : N' (φ idx) = 0 := Finset.prod_eq_zero (Finset.mem_univ k) (by
        rw [Function.update_self, hφk, ← h0]
        refine other_quotients fun h => hl ?_
        rw [← Fin.rev_rev (idx k), ← h, Fin.rev_zero])
      exact ⟨z2.trans z1.symm, fun h => absurd z1 h⟩
  have s1 : ∑ idx, N' idx * z idx = ∑ idx, N idx * y idx := by
    rw [← Equiv.sum_comp φ fun idx => N' idx * z idx]
    refine Finset.sum_congr rfl fun idx _ => ?_
    rw [(key idx).1]
    by_cases hN : N idx = 0
    · rw [hN, MulZeroClass.zero_mul, MulZeroClass.zero_mul]
    · rw [(key idx).2 hN]
  have s2 : ∑ idx, |N' idx| * |z idx| = ∑ idx, |N idx| * |y idx| := by
    rw [← Equiv.sum_comp φ fun idx => |N' idx| * |z idx|]
    refine Finset.sum_congr rfl fun idx _ => ?_
    rw [(key idx).1]
    by_cases hN : N idx = 0
    · rw [hN, abs_zero, MulZeroClass.zero_mul, MulZeroClass.zero_mul]
    · rw [(key idx).2 hN]
  refine ⟨r, s, p, q, hr, hp, hs, hq, ?_⟩
  have e1 : |p - ∑ idx, N idx * y idx| ≤ errBound (unitRoundoff T.format) (interpolationRoundings order) * ∑ idx, |N idx| * |y idx|
      + 2 ^ 66 * Y * smallestPositive T.format := e1
  have e2 : |q - ∑ idx, N' idx * z idx| ≤ errBound (unitRoundoff T.format) (interpolationRoundings order) * ∑ idx, |N' idx| * |z idx|
      + 2 ^ 66 * Y * smallestPositive T.format := e2
  rw [s1, s2] at e2
  calc |p - q| ≤ |p - ∑ idx, N idx * y idx| + |∑ idx, N idx * y idx - q| := abs_sub_le _ _ _
    _ ≤ _ := by rw [abs_sub_comm (∑ idx, N idx * y idx) q]; linarith

end mirrored

private theorem form (T : RealType) (fam : Family) {order : ℕ} (h8 : order ≤ 8) {b : Basis Flt}
    (hb : T.arith.lagrangeBasis (fam.spacingIn T.arith) order = .ok b) :
    b = ⟨((order + 1 : ℕ) : Int), LagrangeBasis.value (floatArith T.format) (fam.spacingIn T.arith ((order + 1 : ℕ) : Int)) ((order + 1 : ℕ) : Int),
        LagrangeBasis.gradient (floatArith T.format) (fam.spacingIn T.arith ((order + 1 : ℕ) : Int)) ((order + 1 : ℕ) : Int)⟩ := by
  rw [C88_basis, lagrangeBasis_ok _ _ (by omega)] at hb
  exact (Res.ok.inj hb).symm

/-- An element with the same basis in all directions, on points that include the ends. -/
private theorem same_shipped (T : RealType) (fam : Family) (hf : fam ≠ .gaussLegendre) {order d : ℕ} (hd : 0 < d) (h1 : 1 ≤ order) (h8 : order ≤ 8) :
    ∃ (b : Basis Flt) (c : Fin (order + 1) → ℝ), T.arith.lagrangeBasis (fam.spacingIn T.arith) order = .ok b ∧ c 0 = -1 ∧ c (Fin.last _) = 1 ∧
      IsShippedIn T (fun _ : Fin d => order) (fun _ => c) ⟨.ok d, List.replicate d b⟩ := by
  have hs : fam.Supports order := by
    cases fam with
    | equal => constructor <;> omega
    | gaussLobatto => constructor <;> omega
    | gaussLegendre => exact absurd rfl hf
  obtain ⟨c, -, -, hc⟩ := C100_points T fam order h1 h8 hs
  obtain ⟨b, hb, -⟩ := C100_basis T fam h1 h8 hs hc
  obtain ⟨e0, e1⟩ := C147_end_points T fam hf h1 h8
  exact ⟨b, c, hb, Datum.finite.inj (congrArg Flt.datum (Res.ok.inj ((hc 0).symm.trans e0))),
    Datum.finite.inj (congrArg Flt.datum (Res.ok.inj ((hc (Fin.last _)).symm.trans e1))), hd, rfl, fun _ => ⟨h1, h8⟩, fun _ => fam, fun _ => b,
    (List.ofFn_const ..).symm, fun _ => ⟨hs, hc, hb⟩⟩

private theorem cast_le {q : ℚ} (h : |q| ≤ 1) : |(q : ℝ)| ≤ 1 := by
  rw [← Rat.cast_abs]; exact_mod_cast h

/-- **C147 is violated** for cells that are mirrored: in `float` and in `double`, with both families, there are two cells of order 1 in three dimensions, the
second mirrored in its second direction, with the same nodal values on the shared face, whose values at the centre of the face differ. -/
theorem C147_violated : ¬ FieldsContinuous ∧
    ∀ (T : RealType) (fam : Family), fam ≠ .gaussLegendre → ∃ (b : Basis Flt) (y z : List Int → ℝ) (p q : ℝ),
      T.arith.lagrangeBasis (fam.spacingIn T.arith) (1 : ℕ) = .ok b ∧
      (∀ i j k : Fin 2, (Represents T.format (y [i, j, k]) ∧ |y [i, j, k]| ≤ 1) ∧ Represents T.format (z [i, j, k]) ∧ |z [i, j, k]| ≤ 1) ∧
      (∀ j k : Fin 2, y [1, j, k] = z [0, (j.rev : ℕ), k]) ∧
      ParentElement.value (floatArith T.format) ⟨.ok (3 : ℕ), [b, b, b]⟩ [Flt.ofReal 1, Flt.ofReal 0, Flt.ofReal 0] (fun i => .ok (Flt.ofReal (y i)))
        = .ok (Flt.ofReal p) ∧
      ParentElement.value (floatArith T.format) ⟨.ok (3 : ℕ), [b, b, b]⟩ [Flt.ofReal (-1), Flt.ofReal 0, Flt.ofReal 0] (fun i => .ok (Flt.ofReal (z i)))
        = .ok (Flt.ofReal q) ∧ p ≠ q := by
  have jump : ∀ (T : RealType) (fam : Family), fam ≠ .gaussLegendre → ∀ b : Basis Flt, T.arith.lagrangeBasis (fam.spacingIn T.arith) (1 : ℕ) = .ok b →
      ∃ (y z : List Int → ℝ) (p q : ℝ),
      (∀ i j k : Fin 2, (Represents T.format (y [i, j, k]) ∧ |y [i, j, k]| ≤ 1) ∧ Represents T.format (z [i, j, k]) ∧ |z [i, j, k]| ≤ 1) ∧
      (∀ j k : Fin 2, y [1, j, k] = z [0, (j.rev : ℕ), k]) ∧
      ParentElement.value (floatArith T.format) ⟨.ok (3 : ℕ), [b, b, b]⟩ [Flt.ofReal 1, Flt.ofReal 0, Flt.ofReal 0] (fun i => .ok (Flt.ofReal (y i)))
        = .ok (Flt.ofReal p) ∧
      ParentElement.value (floatArith T.format) ⟨.ok (3 : ℕ), [b, b, b]⟩ [Flt.ofReal (-1), Flt.ofReal 0, Flt.ofReal 0] (fun i => .ok (Flt.ofReal (z i)))
        = .ok (Flt.ofReal q) ∧ p ≠ q := by
    intro T fam hf b hb
    obtain ⟨p, q, hne, e1, e2⟩ := faceJumps_spec (face_jumps T (mem_types T) fam (by cases fam <;> first | decide | exact absurd rfl hf))
    have k1 := knownField_sound (form T fam (by norm_num) hb) e1
    have k2 := knownField_sound (form T fam (by norm_num) hb) e2
    simp only [List.map_cons, List.map_nil, Rat.cast_zero, Rat.cast_one, Rat.cast_neg] at k1 k2
    refine ⟨fun l => faceNodes T 1 false l, fun l => faceNodes T 0 true l, p, q, fun i j k => ?_, fun j k => ?_, k1, k2, by exact_mod_cast hne⟩
    · have h1 := faceNodes_represented T (mem_types T) 1 (by decide) false (by decide) i j k
      have h2 := faceNodes_represented T (mem_types T) 0 (by decide) true (by decide) i j k
      exact ⟨⟨round_represents _ (evalRound_sound _ h1.1), cast_le h1.2⟩, round_represents _ (evalRound_sound _ h2.1), cast_le h2.2⟩
    · exact congrArg (fun q : ℚ => (q : ℝ)) (faceNodes_shared T (mem_types T) j k)
  refine ⟨fun hall => ?_, fun T fam hf => ?_⟩
  · obtain ⟨b, c, hb, h0, h1, h⟩ := same_shipped .double .equal (by decide) (order := 1) (d := 3) (by norm_num) (by norm_num) (by norm_num)
    obtain ⟨y, z, p, q, hyz, hs, e1, e2, hne⟩ := jump .double .equal (by decide) b hb
    have r0 : Represents binary64 0 := represents_zero _
    have hsym : ∀ i : Fin 2, c i.rev = -c i := by
      intro i
      have h1 : c 1 = 1 := h1
      fin_cases i
      · show c 1 = -c 0; rw [h0, h1]; norm_num
      · show c 0 = -c 1; rw [h0, h1]
    obtain ⟨r, s, hr, hs', hrs⟩ := hall .double 3 _ _ _ (by norm_num) h 0 ![false, true, false] h0 h1 (fun _ i _ => hsym i)
      (fun i => .ok (Flt.ofReal (y i))) (fun i => .ok (Flt.ofReal (z i)))
      (fun i => y [((i 0 : ℕ) : Int), ((i 1 : ℕ) : Int), ((i 2 : ℕ) : Int)]) (fun i => z [((i 0 : ℕ) : Int), ((i 1 : ℕ) : Int), ((i 2 : ℕ) : Int)])
      (fun _ => rfl) (fun _ => rfl) (fun i => hyz _ _ _) (fun i => hs (i 1) (i 2)) (fun _ => 0) fun _ => ⟨by norm_num, r0⟩
    have l1 : (List.ofFn fun j : Fin 3 => Flt.ofReal (Function.update (fun _ => (0 : ℝ)) 0 1 j)) = [Flt.ofReal 1, Flt.ofReal 0, Flt.ofReal 0] := by
      simp [List.ofFn_succ, Function.update]
    have l2 : (List.ofFn fun j : Fin 3 => Flt.ofReal (Function.update (fun j => if (![false, true, false] : Fin 3 → Bool) j then -(0 : ℝ) else 0) 0 (-1) j))
        = [Flt.ofReal (-1), Flt.ofReal 0, Flt.ofReal 0] := by
      simp [List.ofFn_succ, Function.update]
    rw [l1] at hr
    rw [l2] at hs'
    rw [← Res.ok.inj (e1.symm.trans hr), ← Res.ok.inj (e2.symm.trans hs')] at hrs
    exact hne (Datum.finite.inj hrs)
  · obtain ⟨b, c, hb, -, -, -⟩ := same_shipped T fam hf (order := 1) (d := 1) (by norm_num) (by norm_num) (by norm_num)
    obtain ⟨y, z, p, q, rest⟩ := jump T fam hf b hb
    exact ⟨b, y, z, p, q, hb, rest⟩

/-- Non-vacuity of C147: two cells of order 7 on Gauss-Lobatto points in `float`, neighbours in direction 1, whose fields `i + 3 j + 5 k` and
`i - 100 j + 5 k + 21` agree on the shared face, at the point (1/3, ±1, 1/7). -/
example : ∃ (b : Basis Flt) (r s : Flt),
    ParentElement.value (floatArith binary32) ⟨.ok (3 : ℕ), [b, b, b]⟩ [Flt.ofReal (1 / 3), Flt.ofReal 1, Flt.ofReal (1 / 7)]
      (fun l => .ok (Flt.ofReal (l.getD 0 0 + 3 * l.getD 1 0 + 5 * l.getD 2 0 : ℤ))) = .ok r ∧
    ParentElement.value (floatArith binary32) ⟨.ok (3 : ℕ), [b, b, b]⟩ [Flt.ofReal (1 / 3), Flt.ofReal (-1), Flt.ofReal (1 / 7)]
      (fun l => .ok (Flt.ofReal (l.getD 0 0 - 100 * l.getD 1 0 + 5 * l.getD 2 0 + 21 : ℤ))) = .ok s ∧ r.datum = s.datum := by
  obtain ⟨b, c, hb, h0, h1, h⟩ := same_shipped .float .gaussLobatto (by decide) (order := 7) (d := 3) (by norm_num) (by norm_num) (by norm_num)
  have hx : ∀ j : Fin 3, |(![1 / 3, 0, 1 / 7] : Fin 3 → ℝ) j| ≤ 1 := fun j => by fin_cases j <;> norm_num [abs_le]
  obtain ⟨⟨r, s, hr, hs, hrs⟩, -⟩ := C147_neighbours_partial h (by norm_num) 1 h0 h1
    (u := fun l => .ok (Flt.ofReal (l.getD 0 0 + 3 * l.getD 1 0 + 5 * l.getD 2 0 : ℤ)))
    (v := fun l => .ok (Flt.ofReal (l.getD 0 0 - 100 * l.getD 1 0 + 5 * l.getD 2 0 + 21 : ℤ)))
    (y := fun i => ((((i 0 : ℕ) : ℤ) + 3 * ((i 1 : ℕ) : ℤ) + 5 * ((i 2 : ℕ) : ℤ) : ℤ) : ℝ)) (z := fun i => ((((i 0 : ℕ) : ℤ) - 100 * ((i 1 : ℕ) : ℤ) + 5 * ((i 2 : ℕ) : ℤ) + 21 : ℤ) : ℝ))
    (fun _ => rfl) (fun _ => rfl) (fun i => by
      simp [Function.update]
      ring) ![1 / 3, 0, 1 / 7] hx
  refine ⟨b, r, s, ?_, ?_, hrs⟩
  · have l : (List.ofFn fun j : Fin 3 => Flt.ofReal (Function.update (![1 / 3, 0, 1 / 7] : Fin 3 → ℝ) 1 1 j))
        = [Flt.ofReal (1 / 3), Flt.ofReal 1, Flt.ofReal (1 / 7)] := by
      simp [List.ofFn_succ, Function.update]
    rw [l] at hr
    exact hr
  · have l : (List.ofFn fun j : Fin 3 => Flt.ofReal (Function.update (![1 / 3, 0, 1 / 7] : Fin 3 → ℝ) 1 (-1) j))
        = [Flt.ofReal (1 / 3), Flt.ofReal (-1), Flt.ofReal (1 / 7)] := by
      simp [List.ofFn_succ, Function.update]
    rw [l] at hs
    exact hs

/-- Non-vacuity of the bound: two cells of order 1 in `double`, the second mirrored in direction 1, whose fields `i + 3 j + 5 k` and `7 i - 3 j + 5 k + 4` agree on the
shared face, at the point (±1, ±1/3, 1/7). -/
example : ∃ (e : Element Flt) (r s : Flt) (p q : ℝ),
    ParentElement.value (floatArith binary64) e (List.ofFn fun j => Flt.ofReal (Function.update ![0, 1 / 3, 1 / 7] 0 1 j))
      (fun l => .ok (Flt.ofReal (l.getD 0 0 + 3 * l.getD 1 0 + 5 * l.getD 2 0 : ℤ))) = .ok r ∧ r.datum = .finite p ∧
    ParentElement.value (floatArith binary64) e (List.ofFn fun j => Flt.ofReal (Function.update (fun j =>
        if ![false, true, false] j then -(![0, 1 / 3, 1 / 7] : Fin 3 → ℝ) j else ![0, 1 / 3, 1 / 7] j) 0 (-1) j))
      (fun l => .ok (Flt.ofReal (7 * l.getD 0 0 - 3 * l.getD 1 0 + 5 * l.getD 2 0 + 4 : ℤ))) = .ok s ∧ s.datum = .finite q := by
  obtain ⟨b, c, hb, h0, h1, h⟩ := same_shipped .double .equal (by decide) (order := 1) (d := 3) (by norm_num) (by norm_num) (by norm_num)
  have two : ∀ i : Fin 2, ((i : ℕ) : ℝ) = 0 ∨ ((i : ℕ) : ℝ) = 1 := fun i => by fin_cases i <;> simp
  obtain ⟨r, s, p, q, hr, hp, hs, hq, -⟩ := C147_difference_partial h (by norm_num) 0 ![false, true, false] h0 h1 (fun j i _ => by
      have : ∀ i : Fin 2, c i.rev = -c i := fun i => by
        fin_cases i
        · show c (Fin.last 1) = -c 0; rw [h0, h1, neg_neg]
        · show c 0 = -c (Fin.last 1); rw [h0, h1]
      exact this i)
    (u := fun l => .ok (Flt.ofReal (l.getD 0 0 + 3 * l.getD 1 0 + 5 * l.getD 2 0 : ℤ)))
    (v := fun l => .ok (Flt.ofReal (7 * l.getD 0 0 - 3 * l.getD 1 0 + 5 * l.getD 2 0 + 4 : ℤ)))
    (y := fun i => ((((i 0 : ℕ) : ℤ) + 3 * ((i 1 : ℕ) : ℤ) + 5 * ((i 2 : ℕ) : ℤ) : ℤ) : ℝ)) (z := fun i => ((7 * ((i 0 : ℕ) : ℤ) - 3 * ((i 1 : ℕ) : ℤ) + 5 * ((i 2 : ℕ) : ℤ) + 4 : ℤ) : ℝ))
    (fun _ => rfl) (fun _ => rfl) (fun i => by
      have : ∀ a b : Fin 2, (((((1 : Fin 2) : ℕ) : ℤ) + 3 * ((a : ℕ) : ℤ) + 5 * ((b : ℕ) : ℤ) : ℤ) : ℝ)
          = ((7 * (((0 : Fin 2) : ℕ) : ℤ) - 3 * ((a.rev : ℕ) : ℤ) + 5 * ((b : ℕ) : ℤ) + 4 : ℤ) : ℝ) := fun a b => by
        fin_cases a <;> fin_cases b <;> norm_num
      exact this (i 1) (i 2)) (Y := 16) (by norm_num) (by norm_num)
    (fun i => by rcases two (i 0) with a | a <;> rcases two (i 1) with b | b <;> rcases two (i 2) with c | c <;> push_cast <;> rw [a, b, c] <;> norm_num [abs_le])
    (fun i => by rcases two (i 0) with a | a <;> rcases two (i 1) with b | b <;> rcases two (i 2) with c | c <;> push_cast <;> rw [a, b, c] <;> norm_num [abs_le])
    ![0, 1 / 3, 1 / 7] (fun j => by fin_cases j <;> norm_num [abs_le])
  exact ⟨_, r, s, p, q, hr, hp, hs, hq⟩

/-- Non-vacuity of C147 for Jacobians: the cells with vertices `(a + b / 4, b, c)` and `(a + 1 + b / 4, b, c + a / 8)` share a face in direction 0. -/
example (T : RealType) (cfg : Config) : ∃ (t t' : LinearTransform Flt) (mem mem' : List Flt) (J J' : Matrix (Fin 3) (Fin 3) Flt),
    HoldsPoints t.data (fun (idx : Fin 3 → Fin 2) i => Flt.ofReal (![(idx 0 : ℕ) + ((idx 1 : ℕ) : ℝ) / 4, ((idx 1 : ℕ) : ℝ), ((idx 2 : ℕ) : ℝ)] i)) ∧
    HoldsPoints t'.data (fun (idx : Fin 3 → Fin 2) i =>
      Flt.ofReal (![(idx 0 : ℕ) + 1 + ((idx 1 : ℕ) : ℝ) / 4, ((idx 1 : ℕ) : ℝ), (idx 2 : ℕ) + ((idx 0 : ℕ) : ℝ) / 8] i)) ∧
    LinearTransform.jacobianValue cfg (floatArith T.format) t (List.ofFn fun j => Flt.ofReal (Function.update ![0, 1 / 3, 1 / 7] 0 1 j)) = .ok mem ∧
    LinearTransform.jacobianValue cfg (floatArith T.format) t' (List.ofFn fun j => Flt.ofReal (Function.update ![0, 1 / 3, 1 / 7] 0 (-1) j)) = .ok mem' ∧
    HoldsMatrix mem J ∧ HoldsMatrix mem' J' ∧ ∀ i, (J i 1).datum = (J' i 1).datum ∧ (J i 2).datum = (J' i 2).datum := by
  obtain ⟨t, h, -, hX⟩ := float_cell T fun (idx : Fin 3 → Fin 2) i => ![(idx 0 : ℕ) + ((idx 1 : ℕ) : ℝ) / 4, ((idx 1 : ℕ) : ℝ), ((idx 2 : ℕ) : ℝ)] i
  obtain ⟨t', -, -, hX'⟩ := float_cell T fun (idx : Fin 3 → Fin 2) i =>
    ![(idx 0 : ℕ) + 1 + ((idx 1 : ℕ) : ℝ) / 4, ((idx 1 : ℕ) : ℝ), (idx 2 : ℕ) + ((idx 0 : ℕ) : ℝ) / 8] i
  obtain ⟨mem, mem', J, J', e1, e2, e3, e4, e5⟩ := C147_tangents_partial (t' := ⟨t.shape, t'.data⟩) h rfl (by norm_num) 0 rfl rfl hX hX' (fun idx => by
    funext i
    fin_cases i <;> simp [Function.update]) cfg ![0, 1 / 3, 1 / 7] (fun j => by fin_cases j <;> norm_num [abs_le]) [] rfl
  rw [List.append_nil] at e1 e3
  exact ⟨t, ⟨t.shape, t'.data⟩, mem, mem', J, J', hX, hX', e1, e3, e2, e4, fun i => ⟨e5 i 1 (by decide), e5 i 2 (by decide)⟩⟩

end Verif.Props
