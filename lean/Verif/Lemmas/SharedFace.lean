import Mathlib.Data.List.Sort
import Verif.Lemmas.MirrorFloat
import Verif.Lemmas.Degenerate
import Verif.Lemmas.Evaluation

/-! Interpolation on a layer of nodes, in floating-point numbers. -/

namespace Verif.Lemmas

open Verif.Spec

variable {F : FloatFormat}

/-! ### operations on numbers with the same datum -/

theorem round_same (r s : Bool) (x : ℝ) : (Flt.round F r x).datum = (Flt.round F s x).datum := by
  unfold Flt.round
  split_ifs <;> rfl

theorem mul_same {a a' b b' : Flt} (ha : a.datum = a'.datum) (hb : b.datum = b'.datum) : (Flt.mul F a b).datum = (Flt.mul F a' b').datum := by
  rcases a with ⟨x | s | _, r⟩ <;> rcases a' with ⟨x' | s' | _, r'⟩ <;> cases ha <;>
    rcases b with ⟨y | t | _, q⟩ <;> rcases b' with ⟨y' | t' | _, q'⟩ <;> cases hb <;> simp only [Flt.mul] <;>
    first | exact round_same _ _ _ | rfl | (split_ifs <;> rfl)

theorem add_same {a a' b b' : Flt} (ha : a.datum = a'.datum) (hb : b.datum = b'.datum) : (Flt.add F a b).datum = (Flt.add F a' b').datum := by
  rcases a with ⟨x | s | _, r⟩ <;> rcases a' with ⟨x' | s' | _, r'⟩ <;> cases ha <;>
    rcases b with ⟨y | t | _, q⟩ <;> rcases b' with ⟨y' | t' | _, q'⟩ <;> cases hb <;> simp only [Flt.add] <;>
    first | exact round_same _ _ _ | rfl | (split_ifs <;> rfl)

theorem add_zero_same {a g : Flt} (ha : Held F a) (hg : g.datum = .finite 0) : (Flt.add F a g).datum = a.datum := by
  rcases a with ⟨x | s | _, r⟩
  · simp only [Flt.add, hg, add_zero]
    exact round_represented (ha x rfl) _
  · simp only [Flt.add, hg]
  · simp only [Flt.add]

theorem foldRight_same {l l' : List (Res Flt)} (h : List.Forall₂ (fun x x' => ∃ f f', x = .ok f ∧ x' = .ok f' ∧ f.datum = f'.datum) l l') {y y' : Flt}
    (hy : foldRight (Flt.mul F) l = .ok y) (hy' : foldRight (Flt.mul F) l' = .ok y') : y.datum = y'.datum := by
  induction h generalizing y y' with
  | nil => cases hy
  | @cons x x' l l' hx hl ih =>
    obtain ⟨f, f', rfl, rfl, hf⟩ := hx
    cases hl with
    | nil =>
      rw [foldRight] at hy hy'
      rw [← Res.ok.inj hy, ← Res.ok.inj hy', hf]
    | cons hx hl =>
      rw [foldRight] at hy hy'
      obtain ⟨u, hu, h1⟩ := Res.bind_eq_ok.1 hy
      obtain ⟨v, hv, h2⟩ := Res.bind_eq_ok.1 h1
      obtain ⟨u', hu', h1'⟩ := Res.bind_eq_ok.1 hy'
      obtain ⟨v', hv', h2'⟩ := Res.bind_eq_ok.1 h1'
      obtain rfl := Res.ok.inj h2
      obtain rfl := Res.ok.inj h2'
      obtain rfl := Res.ok.inj hu
      obtain rfl := Res.ok.inj hu'
      exact mul_same hf (ih hv hv')

/-! ### sums of which most terms are zero -/

/-- Adding up terms, in the order of the list. -/
noncomputable def total (F : FloatFormat) {ι : Type} (g : ι → Flt) (L : List ι) (a : Flt) : Flt := L.foldl (fun r i => Flt.add F r (g i)) a

theorem total_filter {ι : Type} {g : ι → Flt} (p : ι → Prop) [DecidablePred p] (h0 : ∀ i, ¬ p i → (g i).datum = .finite 0) (L : List ι) {a a' : Flt}
    (ha : Held F a) (h : a.datum = a'.datum) : (total F g L a).datum = (total F g (L.filter p) a').datum := by
  induction L generalizing a a' with
  | nil => exact h
  | cons i L ih =>
    by_cases hi : p i
    · rw [List.filter_cons_of_pos (by simpa using hi)]
      exact ih (add_held _ _) (add_same h rfl)
    · rw [List.filter_cons_of_neg (by simpa using hi)]
      exact ih (add_held _ _) ((add_zero_same ha (h0 i hi)).trans h)

theorem total_same {ι κ : Type} {g : ι → Flt} {g' : κ → Flt} (φ : ι → κ) {L : List ι} (hg : ∀ i ∈ L, (g i).datum = (g' (φ i)).datum) {a a' : Flt}
    (h : a.datum = a'.datum) : (total F g L a).datum = (total F g' (L.map φ) a').datum := by
  induction L generalizing a a' with
  | nil => exact h
  | cons i L ih =>
    exact ih (fun j hj => hg j (List.mem_cons_of_mem _ hj)) (add_same h (hg i (List.mem_cons_self ..)))

/-! ### layers of nodes, in the order of the loop -/

section layers
variable {d : ℕ} {n : Fin d → ℕ}

/-- The order in which the loop visits the nodes. -/
def Before (x y : (k : Fin d) → Fin (n k)) : Prop := ∃ j, (∀ i, i < j → x i = y i) ∧ x j < y j

theorem lexLT_before {x y : (k : Fin d) → Fin (n k)} (h : LexLT (tup x) (tup y)) : Before x y := by
  obtain ⟨-, j, hj, ht, hlt⟩ := h
  rw [tup_length] at hj
  have get : ∀ (z : (k : Fin d) → Fin (n k)) (i : Fin d), (tup z)[(i : ℕ)]? = some ((z i : ℕ) : Int) := by
    intro z i
    unfold tup
    rw [List.getElem?_eq_getElem (by simp), List.getElem_ofFn]
  refine ⟨⟨j, hj⟩, fun i hi => ?_, ?_⟩
  · have h1 := congrArg (fun l => l[(i : ℕ)]?) ht
    have hi' : (i : ℕ) < j := hi
    simp only [List.getElem?_take, if_pos hi'] at h1
    rw [get, get] at h1
    exact Fin.ext (by exact_mod_cast Option.some.inj h1)
  · rw [List.getD_eq_getElem?_getD, List.getD_eq_getElem?_getD, get x ⟨j, hj⟩, get y ⟨j, hj⟩] at hlt
    exact Fin.lt_def.2 (by simpa using hlt)

theorem before_asymm {x y : (k : Fin d) → Fin (n k)} (h : Before x y) (h' : Before y x) : False := by
  obtain ⟨i, hi, hlt⟩ := h
  obtain ⟨j, hj, hlt'⟩ := h'
  rcases lt_trichotomy i j with e | e | e
  · exact absurd hlt (by rw [hj i e]; exact lt_irrefl _)
  · subst e; exact lt_asymm hlt hlt'
  · exact absurd hlt' (by rw [hi j e]; exact lt_irrefl _)

instance : Std.Antisymm (Before (n := n)) := ⟨fun _ _ h h' => (before_asymm h h').elim⟩
instance : Std.Irrefl (Before (n := n)) := ⟨fun _ h => before_asymm h h⟩

/-- The list of all nodes, in the order of the loop. -/
theorem box_sorted {L : List ((k : Fin d) → Fin (n k))}
    (hL : boxFrom (List.replicate d 0) (List.ofFn fun k => ((n k : ℕ) : Int)) = L.map tup) : L.Pairwise Before := by
  have h := boxFrom_pairwise (ss := List.replicate d 0) (rs := List.ofFn fun k => ((n k : ℕ) : Int)) (by simp)
  rw [hL, List.pairwise_map] at h
  exact h.imp lexLT_before

/-- Two layers of nodes are visited in the same order. -/
theorem layers_in_order {L : List ((k : Fin d) → Fin (n k))} (hs : L.Pairwise Before) (hall : ∀ idx, idx ∈ L) (k : Fin d) (a a' : Fin (n k)) :
    (L.filter fun idx => idx k = a).map (fun idx => Function.update idx k a') = L.filter fun idx => idx k = a' := by
  refine List.Pairwise.eq_of_mem_iff (r := Before) ?_ (hs.filter _) fun idx => ?_
  · rw [List.pairwise_map, List.pairwise_filter]
    refine hs.imp fun {x y} ⟨j, hj, hlt⟩ hx hy => ⟨j, fun i hi => ?_, ?_⟩
    · by_cases e : i = k
      · subst e; rw [Function.update_self, Function.update_self]
      · rw [Function.update_of_ne e, Function.update_of_ne e, hj i hi]
    · have e : j ≠ k := by
        rintro rfl
        have hx : x j = a := by simpa using hx
        have hy : y j = a := by simpa using hy
        rw [hx, hy] at hlt
        exact lt_irrefl _ hlt
      rw [Function.update_of_ne e, Function.update_of_ne e]
      exact hlt
  · simp only [List.mem_map, List.mem_filter, decide_eq_true_eq, hall, true_and]
    constructor
    · rintro ⟨x, -, rfl⟩
      exact Function.update_self ..
    · intro h
      refine ⟨Function.update idx k a, Function.update_self .., ?_⟩
      rw [Function.update_idem, ← h, Function.update_eq_self]

/-- The sum over all nodes, if only the terms of one layer are not zero: two such sums are the same if the terms of the layers are the same. -/
theorem total_layers {L : List ((k : Fin d) → Fin (n k))} (hs : L.Pairwise Before) (hall : ∀ idx, idx ∈ L) (k : Fin d) (a a' : Fin (n k))
    {g g' : ((k : Fin d) → Fin (n k)) → Flt} (h0 : ∀ idx, idx k ≠ a → (g idx).datum = .finite 0)
    (h0' : ∀ idx, idx k ≠ a' → (g' idx).datum = .finite 0) (h : ∀ idx, idx k = a → (g idx).datum = (g' (Function.update idx k a')).datum) {s : Flt}
    (hs0 : Held F s) : (total F g L s).datum = (total F g' L s).datum := by
  rw [total_filter (fun idx => idx k = a) h0 L hs0 rfl, total_filter (fun idx => idx k = a') h0' L hs0 rfl, ← layers_in_order hs hall k a a']
  exact total_same _ (fun idx hi => h idx (by simpa using (List.mem_filter.1 hi).2)) rfl

end layers

/-! ### interpolation on two layers -/

section element
variable {d : ℕ} {n : Fin d → ℕ} {b : Fin d → Basis Flt} {X X' : Fin d → Flt} {k : Fin d} {a a' : Fin (n k)}

/-- In direction `k`, the basis functions are zero at a point, other than function `a`. -/
def OnLayer (b : Basis Flt) {m : ℕ} (a : Fin m) (X : Flt) : Prop :=
  ∀ i : Fin m, i ≠ a → ∀ f, b.value (i : ℕ) X = .ok f → FiniteFlt f → f.datum = .finite 0

/-- A factor of a product of basis functions that is zero. -/
theorem layer_product_zero (h0 : OnLayer (b k) a (X k)) {idx : (k : Fin d) → Fin (n k)} (hk : idx k ≠ a) {l : Fin d → Res Flt}
    (hl : l k = (b k).value ((idx k : ℕ) : Int) (X k)) {f : Flt} (hf : foldRight (Flt.mul F) (List.ofFn l) = .ok f) (hfin : FiniteFlt f) :
    f.datum = .finite 0 := by
  have hm : l k ∈ List.ofFn l := List.mem_ofFn.2 ⟨k, rfl⟩
  obtain ⟨z, hz⟩ := foldRight_ok_all hf _ hm
  exact foldRight_zero (hz ▸ hm) (fun hfz => h0 _ hk z (hl ▸ hz) hfz) hf hfin

theorem layer_product_same {l l' : Fin d → Res Flt} (h : ∀ j, j ≠ k → l j = l' j)
    (hk : ∀ f f', l k = .ok f → l' k = .ok f' → f.datum = f'.datum) {f f' : Flt} (hf : foldRight (Flt.mul F) (List.ofFn l) = .ok f)
    (hf' : foldRight (Flt.mul F) (List.ofFn l') = .ok f') : f.datum = f'.datum := by
  refine foldRight_same (List.forall₂_iff_get.2 ⟨by simp, fun i h1 h2 => ?_⟩) hf hf'
  have h1 : i < d := by simpa using h1
  obtain ⟨z, hz⟩ := foldRight_ok_all hf (l ⟨i, h1⟩) (List.mem_ofFn.2 ⟨_, rfl⟩)
  obtain ⟨z', hz'⟩ := foldRight_ok_all hf' (l' ⟨i, h1⟩) (List.mem_ofFn.2 ⟨_, rfl⟩)
  simp only [List.get_eq_getElem, List.getElem_ofFn]
  refine ⟨z, z', hz, hz', ?_⟩
  by_cases e : (⟨i, h1⟩ : Fin d) = k
  · rw [e] at hz hz'; exact hk z z' hz hz'
  · have := h _ e
    rw [hz, hz'] at this
    rw [Res.ok.inj this]

theorem zero_literal_held (F : FloatFormat) : Held F ((floatArith F).lit 0) := by
  have : (floatArith F).lit 0 = ⟨.finite 0, false⟩ := by
    show Flt.round F false ((0 : ℚ) : ℝ) = _
    rw [Rat.cast_zero, round_held (represents_zero F)]
  rw [this]
  intro x hx
  cases hx
  exact represents_zero F

/-- Values on two layers of nodes. -/
theorem layer_value (hd : 0 < d) (hc : ∀ k, (b k).numSupportPoints = n k) (hX : ∀ j, j ≠ k → X j = X' j)
    (h0 : OnLayer (b k) a (X k)) (h0' : OnLayer (b k) a' (X' k))
    (hend : ∀ f f', (b k).value (a : ℕ) (X k) = .ok f → (b k).value (a' : ℕ) (X' k) = .ok f' → f.datum = f'.datum)
    (h : ∀ idx : (k : Fin d) → Fin (n k), ∃ f, BasisProduct.value (floatArith F) (List.ofFn b) (tup idx) (List.ofFn X) = .ok f ∧ FiniteFlt f)
    (h' : ∀ idx : (k : Fin d) → Fin (n k), ∃ f, BasisProduct.value (floatArith F) (List.ofFn b) (tup idx) (List.ofFn X') = .ok f ∧ FiniteFlt f)
    {u v : List Int → Res Flt} {y z : ((k : Fin d) → Fin (n k)) → ℝ} (hu : ∀ idx, u (tup idx) = .ok (Flt.ofReal (y idx)))
    (hv : ∀ idx, v (tup idx) = .ok (Flt.ofReal (z idx))) (heq : ∀ idx, idx k = a → y idx = z (Function.update idx k a')) :
    ∃ r r', ParentElement.value (floatArith F) (elementOf b) (List.ofFn X) u = .ok r ∧
      ParentElement.value (floatArith F) (elementOf b) (List.ofFn X') v = .ok r' ∧ r.datum = r'.datum := by
  obtain ⟨L, hL, -, hall⟩ := box_list n
  choose f hf hfin using h
  choose f' hf' hfin' using h'
  have run : ∀ {X : Fin d → Flt} {u : List Int → Res Flt} {y : ((k : Fin d) → Fin (n k)) → ℝ} {f : ((k : Fin d) → Fin (n k)) → Flt},
      (∀ idx, BasisProduct.value (floatArith F) (List.ofFn b) (tup idx) (List.ofFn X) = .ok (f idx)) →
      (∀ idx, u (tup idx) = .ok (Flt.ofReal (y idx))) →
      ParentElement.value (floatArith F) (elementOf b) (List.ofFn X) u
        = .ok (total F (fun idx => Flt.mul F (f idx) (Flt.ofReal (y idx))) L ((floatArith F).lit 0)) := by
    intro X u y f hf hu
    rw [ParentElement.value, elementOf_instantiate, Res.ok_bind]
    rw [show (elementOf b).bases = List.ofFn b from rfl, forNested_box hd hc hL]
    exact runCalls_folds (κ := Unit) (mk := fun r : Unit → Flt => r ()) (f := fun idx _ r => Flt.add F r (Flt.mul F (f idx) (Flt.ofReal (y idx))))
      (fun idx r => valueBody_eq u (hf idx) (hu idx) (r ())) L fun _ => (floatArith F).lit 0
  refine ⟨_, _, run hf hu, run hf' hv, total_layers (box_sorted hL) hall k a a' (fun idx hi => ?_) (fun idx hi => ?_) (fun idx hi => ?_)
    (zero_literal_held F)⟩
  · have := hf idx
    rw [productValue_fold] at this
    exact mul_zero_left (layer_product_zero h0 hi rfl this (hfin idx)) ⟨_, rfl⟩
  · have := hf' idx
    rw [productValue_fold] at this
    exact mul_zero_left (layer_product_zero h0' hi rfl this (hfin' idx)) ⟨_, rfl⟩
  · refine mul_same ?_ (by rw [heq idx hi])
    have e1 := hf idx
    have e2 := hf' (Function.update idx k a')
    rw [productValue_fold] at e1 e2
    refine layer_product_same (k := k) (fun j hj => ?_) (fun g g' hg hg' => ?_) e1 e2
    · rw [Function.update_of_ne hj, hX j hj]
    · rw [hi] at hg
      rw [Function.update_self] at hg'
      exact hend g g' hg hg'

/-- Derivatives along two layers of nodes. -/
theorem layer_gradient (hd : 0 < d) (hc : ∀ k, (b k).numSupportPoints = n k) (hX : ∀ j, j ≠ k → X j = X' j)
    (h0 : OnLayer (b k) a (X k)) (h0' : OnLayer (b k) a' (X' k))
    (hend : ∀ f f', (b k).value (a : ℕ) (X k) = .ok f → (b k).value (a' : ℕ) (X' k) = .ok f' → f.datum = f'.datum)
    (h : ∀ idx : (k : Fin d) → Fin (n k), ∃ g : Fin d → Flt,
      BasisProduct.gradient (floatArith F) (List.ofFn b) (tup idx) (List.ofFn X) = .ok (List.ofFn g) ∧ ∀ i, FiniteFlt (g i))
    (h' : ∀ idx : (k : Fin d) → Fin (n k), ∃ g : Fin d → Flt,
      BasisProduct.gradient (floatArith F) (List.ofFn b) (tup idx) (List.ofFn X') = .ok (List.ofFn g) ∧ ∀ i, FiniteFlt (g i))
    {u v : List Int → Res Flt} {y z : ((k : Fin d) → Fin (n k)) → ℝ} (hu : ∀ idx, u (tup idx) = .ok (Flt.ofReal (y idx)))
    (hv : ∀ idx, v (tup idx) = .ok (Flt.ofReal (z idx))) (heq : ∀ idx, idx k = a → y idx = z (Function.update idx k a')) :
    ∃ r r' : Fin d → Flt, ParentElement.gradient (floatArith F) (elementOf b) (List.ofFn X) u = .ok (List.ofFn r) ∧
      ParentElement.gradient (floatArith F) (elementOf b) (List.ofFn X') v = .ok (List.ofFn r') ∧ ∀ i, i ≠ k → (r i).datum = (r' i).datum := by
  obtain ⟨L, hL, -, hall⟩ := box_list n
  choose f hf hfin using h
  choose f' hf' hfin' using h'
  have run : ∀ {X : Fin d → Flt} {u : List Int → Res Flt} {y : ((k : Fin d) → Fin (n k)) → ℝ} {f : ((k : Fin d) → Fin (n k)) → Fin d → Flt},
      (∀ idx, BasisProduct.gradient (floatArith F) (List.ofFn b) (tup idx) (List.ofFn X) = .ok (List.ofFn (f idx))) →
      (∀ idx, u (tup idx) = .ok (Flt.ofReal (y idx))) →
      ParentElement.gradient (floatArith F) (elementOf b) (List.ofFn X) u
        = .ok (List.ofFn fun i => total F (fun idx => Flt.mul F (f idx i) (Flt.ofReal (y idx))) L ((floatArith F).lit 0)) := by
    intro X u y f hf hu
    have hz : List.replicate d ((floatArith F).lit 0) = List.ofFn (fun _ : Fin d => (floatArith F).lit 0) := by
      rw [List.ofFn_const]
    rw [ParentElement.gradient, elementOf_instantiate, Res.ok_bind]
    rw [show (elementOf b).bases = List.ofFn b from rfl, forNested_box hd hc hL, List.length_ofFn, hz]
    refine runCalls_folds (mk := fun r : Fin d → Flt => List.ofFn r) (f := fun idx i r => Flt.add F r (Flt.mul F (f idx i) (Flt.ofReal (y idx))))
      (fun idx r => ?_) L fun _ => (floatArith F).lit 0
    rw [ParentElement.gradientBody, (basisValue_eq _ (elementOf_instantiate b)
        (by simp [tup_length, elementOf]) _).2.2.1, show (elementOf b).bases = List.ofFn b from rfl,
        hf, Res.ok_bind, List.length_ofFn, forSequence_eq (by omega),
        upTo_ofFn, List.ofFn_eq_map, runCalls_map,
        Valued.gradientInner_loop _ _ _ _ (hu idx) (List.nodup_finRange d)]
    congr 2
    funext k
    simp only [List.mem_finRange, if_true]
    rfl
  have folds : ∀ {X : Fin d → Flt} {f : Fin d → Flt} {idx : (k : Fin d) → Fin (n k)},
      BasisProduct.gradient (floatArith F) (List.ofFn b) (tup idx) (List.ofFn X) = .ok (List.ofFn f) → ∀ i, i ≠ k →
      ∃ l : Fin d → Res Flt, foldRight (Flt.mul F) (List.ofFn l) = .ok (f i) ∧ ∀ j, l j = if i = j then (b j).gradient ((idx j : ℕ) : Int) (X j)
        else (b j).value ((idx j : ℕ) : Int) (X j) := by
    intro X f idx hf i hi
    rw [productGradient_fold hd] at hf
    have e := sequenceRes_inv hf
    rw [List.map_ofFn] at e
    exact ⟨_, congrFun (List.ofFn_injective e) i, fun j => rfl⟩
  refine ⟨_, _, run hf hu, run hf' hv, fun i hik => total_layers (box_sorted hL) hall k a a' (fun idx hi => ?_) (fun idx hi => ?_) (fun idx hi => ?_)
    (zero_literal_held F)⟩
  · obtain ⟨l, e1, e2⟩ := folds (hf idx) i hik
    exact mul_zero_left (layer_product_zero h0 hi ((e2 k).trans (if_neg hik)) e1 (hfin idx i)) ⟨_, rfl⟩
  · obtain ⟨l, e1, e2⟩ := folds (hf' idx) i hik
    exact mul_zero_left (layer_product_zero h0' hi ((e2 k).trans (if_neg hik)) e1 (hfin' idx i)) ⟨_, rfl⟩
  · refine mul_same ?_ (by rw [heq idx hi])
    obtain ⟨l, e1, e2⟩ := folds (hf idx) i hik
    obtain ⟨l', e1', e2'⟩ := folds (hf' (Function.update idx k a')) i hik
    refine layer_product_same (k := k) (fun j hj => ?_) (fun g g' hg hg' => ?_) e1 e1'
    · rw [e2, e2', Function.update_of_ne hj, hX j hj]
    · rw [e2, if_neg hik, hi] at hg
      rw [e2', if_neg hik, Function.update_self] at hg'
      exact hend g g' hg hg'

end element

end Verif.Lemmas
