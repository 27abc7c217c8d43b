import Verif.Lemmas.SharedFace

/-! # Elements on their faces, in `float` and `double` -/

namespace Verif.Lemmas

open Verif.Spec

variable {F : FloatFormat}

theorem one_mul_same {a b : Flt} (ha : a.datum = .finite 1) (hb : Held F b) : (Flt.mul F a b).datum = b.datum := by
  rw [mul_same (F := F) (a' := Flt.ofReal 1) (b' := b) ha rfl, one_mul_flt hb]

theorem mul_one_same {a b : Flt} (ha : a.datum = .finite 1) (hb : Held F b) : (Flt.mul F b a).datum = b.datum := by
  rw [mul_same (F := F) (b' := Flt.ofReal 1) (a' := b) rfl ha, mul_one_flt hb]

/-- A result of at least one operation is a number of the format. -/
theorem foldRight_held {op : Flt → Flt → Flt} (hop : ∀ a b, Held F (op a b)) {l : List (Res Flt)} (hl : 2 ≤ l.length) {y : Flt}
    (h : foldRight op l = .ok y) : Held F y := by
  rcases l with _ | ⟨a, _ | ⟨b, l⟩⟩
  · simp at hl
  · simp at hl
  · rw [foldRight] at h
    obtain ⟨u, -, h⟩ := Res.bind_eq_ok.1 h
    obtain ⟨v, -, h⟩ := Res.bind_eq_ok.1 h
    obtain rfl := Res.ok.inj h
    exact hop _ _

theorem foldRight_ofFn_succ {op : Flt → Flt → Flt} {d : ℕ} (v : Fin (d + 2) → Flt) :
    foldRight op (List.ofFn fun j => Res.ok (v j)) = foldRight op (List.ofFn fun j : Fin (d + 1) => Res.ok (v j.succ)) >>= fun r => .ok (op (v 0) r) := by
  rw [List.ofFn_succ (n := d + 1), List.ofFn_succ (n := d), foldRight]
  rfl

/-- A factor of one can be left out of a product. -/
theorem fold_face {d : ℕ} (v : Fin (d + 2) → Flt) (hv : ∀ j, Held F (v j)) (k : Fin (d + 2)) (h1 : (v k).datum = .finite 1) {y y' : Flt}
    (hy : foldRight (Flt.mul F) (List.ofFn fun j => Res.ok (v j)) = .ok y)
    (hy' : foldRight (Flt.mul F) (List.ofFn fun j : Fin (d + 1) => Res.ok (v (k.succAbove j))) = .ok y') : y.datum = y'.datum := by
  induction d generalizing y y' with
  | zero =>
    rw [foldRight_ofFn_succ] at hy
    obtain ⟨r, hr, hy⟩ := Res.bind_eq_ok.1 hy
    obtain rfl := Res.ok.inj hy
    obtain rfl := Res.ok.inj hr
    obtain rfl := Res.ok.inj hy'
    rcases (show ∀ k : Fin 2, k = 0 ∨ k = 1 by decide) k with rfl | rfl
    · exact one_mul_same h1 (hv _)
    · exact mul_one_same h1 (hv _)
  | succ d ih =>
    rw [foldRight_ofFn_succ] at hy
    obtain ⟨r, hr, hy⟩ := Res.bind_eq_ok.1 hy
    obtain rfl := Res.ok.inj hy
    revert h1 hy'
    refine Fin.cases (fun h1 hy' => ?_) (fun k h1 hy' => ?_) k
    · simp only [Fin.zero_succAbove] at hy'
      obtain rfl := Res.ok.inj (hr.symm.trans hy')
      exact one_mul_same h1 (foldRight_held (fun a b => mul_held a b) (by simp) hr)
    · rw [foldRight_ofFn_succ (fun j => v (k.succ.succAbove j))] at hy'
      obtain ⟨r', hr', hy'⟩ := Res.bind_eq_ok.1 hy'
      obtain rfl := Res.ok.inj hy'
      simp only [Fin.succ_succAbove_succ] at hr'
      rw [Fin.succ_succAbove_zero]
      exact mul_same rfl (ih (fun j => v j.succ) (fun j => hv _) k h1 hr hr')

/-- The same for a product of results. -/
theorem fold_face_results {d : ℕ} {l : Fin (d + 2) → Res Flt} (hl : ∀ j f, l j = .ok f → Held F f) {k : Fin (d + 2)}
    (h1 : ∀ f, l k = .ok f → f.datum = .finite 1) {l' : Fin (d + 1) → Res Flt} (hl' : ∀ j, l' j = l (k.succAbove j)) {y y' : Flt}
    (hy : foldRight (Flt.mul F) (List.ofFn l) = .ok y) (hy' : foldRight (Flt.mul F) (List.ofFn l') = .ok y') : y.datum = y'.datum := by
  have hok := fun j => foldRight_ok_all hy (l j) (List.mem_ofFn.2 ⟨j, rfl⟩)
  choose v hv using hok
  obtain rfl : l = fun j => .ok (v j) := funext hv
  obtain rfl : l' = fun j => .ok (v (k.succAbove j)) := funext hl'
  exact fold_face v (fun j => hl j _ rfl) k (h1 _ rfl) hy hy'

section layers
variable {d : ℕ} {n : Fin (d + 1) → ℕ}

/-- A layer of nodes is visited in the order of the element of the layer. -/
theorem face_in_order {L : List ((k : Fin (d + 1)) → Fin (n k))} (hs : L.Pairwise Before) (hall : ∀ idx, idx ∈ L) (k : Fin (d + 1)) (a : Fin (n k))
    {L' : List ((j : Fin d) → Fin (n (k.succAbove j)))} (hs' : L'.Pairwise Before) (hall' : ∀ idx, idx ∈ L') :
    (L.filter fun idx => idx k = a).map (fun idx j => idx (k.succAbove j)) = L' := by
  refine List.Pairwise.eq_of_mem_iff (r := Before) ?_ hs' fun idx => ?_
  · rw [List.pairwise_map, List.pairwise_filter]
    refine hs.imp fun {x y} ⟨j, hj, hlt⟩ hx hy => ?_
    have e : j ≠ k := by
      rintro rfl
      have hx : x j = a := by simpa using hx
      have hy : y j = a := by simpa using hy
      rw [hx, hy] at hlt
      exact lt_irrefl _ hlt
    obtain ⟨i, rfl⟩ := Fin.exists_succAbove_eq e
    exact ⟨i, fun i' hi => hj _ (Fin.strictMono_succAbove k hi), hlt⟩
  · simp only [List.mem_map, List.mem_filter, decide_eq_true_eq, hall, hall', true_and, iff_true]
    exact ⟨k.insertNth a idx, Fin.insertNth_apply_same .., funext fun j => Fin.insertNth_apply_succAbove ..⟩

/-- The sum over all nodes, if only the terms of a layer are not zero, is the sum over the layer. -/
theorem total_face {L : List ((k : Fin (d + 1)) → Fin (n k))} (hs : L.Pairwise Before) (hall : ∀ idx, idx ∈ L) (k : Fin (d + 1)) (a : Fin (n k))
    {L' : List ((j : Fin d) → Fin (n (k.succAbove j)))} (hs' : L'.Pairwise Before) (hall' : ∀ idx, idx ∈ L')
    {g : ((k : Fin (d + 1)) → Fin (n k)) → Flt} {g' : ((j : Fin d) → Fin (n (k.succAbove j))) → Flt} (h0 : ∀ idx, idx k ≠ a → (g idx).datum = .finite 0)
    (h : ∀ idx, idx k = a → (g idx).datum = (g' fun j => idx (k.succAbove j)).datum) {s : Flt} (hs0 : Held F s) :
    (total F g L s).datum = (total F g' L' s).datum := by
  rw [total_filter (fun idx => idx k = a) h0 L hs0 rfl, ← face_in_order hs hall k a hs' hall']
  exact total_same _ (fun idx hi => h idx (by simpa using (List.mem_filter.1 hi).2)) rfl

end layers

/-! ### the element and the element of the face -/

section element
variable {d : ℕ} {n : Fin d → ℕ} {b : Fin d → Basis Flt} {X : Fin d → Flt}

/-- The value of an element as a sum. -/
theorem value_total (hd : 0 < d) (hc : ∀ k, (b k).numSupportPoints = n k) {L : List ((k : Fin d) → Fin (n k))}
    (hL : boxFrom (List.replicate d 0) (List.ofFn fun k => ((n k : ℕ) : Int)) = L.map tup) {u : List Int → Res Flt} {y : ((k : Fin d) → Fin (n k)) → ℝ}
    {f : ((k : Fin d) → Fin (n k)) → Flt} (hf : ∀ idx, BasisProduct.value (floatArith F) (List.ofFn b) (tup idx) (List.ofFn X) = .ok (f idx))
    (hu : ∀ idx, u (tup idx) = .ok (Flt.ofReal (y idx))) :
    ParentElement.value (floatArith F) (elementOf b) (List.ofFn X) u
      = .ok (total F (fun idx => Flt.mul F (f idx) (Flt.ofReal (y idx))) L ((floatArith F).lit 0)) := by
  rw [ParentElement.value, elementOf_instantiate, Res.ok_bind]
  rw [show (elementOf b).bases = List.ofFn b from rfl, forNested_box hd hc hL]
  exact runCalls_folds (κ := Unit) (mk := fun r : Unit → Flt => r ()) (f := fun idx _ r => Flt.add F r (Flt.mul F (f idx) (Flt.ofReal (y idx))))
    (fun idx r => valueBody_eq u (hf idx) (hu idx) (r ())) L fun _ => (floatArith F).lit 0

/-- The gradient of an element as sums. -/
theorem gradient_total (hd : 0 < d) (hc : ∀ k, (b k).numSupportPoints = n k) {L : List ((k : Fin d) → Fin (n k))}
    (hL : boxFrom (List.replicate d 0) (List.ofFn fun k => ((n k : ℕ) : Int)) = L.map tup) {u : List Int → Res Flt} {y : ((k : Fin d) → Fin (n k)) → ℝ}
    {f : ((k : Fin d) → Fin (n k)) → Fin d → Flt}
    (hf : ∀ idx, BasisProduct.gradient (floatArith F) (List.ofFn b) (tup idx) (List.ofFn X) = .ok (List.ofFn (f idx)))
    (hu : ∀ idx, u (tup idx) = .ok (Flt.ofReal (y idx))) :
    ParentElement.gradient (floatArith F) (elementOf b) (List.ofFn X) u
      = .ok (List.ofFn fun i => total F (fun idx => Flt.mul F (f idx i) (Flt.ofReal (y idx))) L ((floatArith F).lit 0)) := by
  have hz : List.replicate d ((floatArith F).lit 0) = List.ofFn (fun _ : Fin d => (floatArith F).lit 0) := by
    rw [List.ofFn_const]
  rw [ParentElement.gradient, elementOf_instantiate, Res.ok_bind]
  rw [show (elementOf b).bases = List.ofFn b from rfl, forNested_box hd hc hL, List.length_ofFn, hz]
  refine runCalls_folds (mk := fun r : Fin d → Flt => List.ofFn r) (f := fun idx i r => Flt.add F r (Flt.mul F (f idx i) (Flt.ofReal (y idx))))
    (fun idx r => ?_) L fun _ => (floatArith F).lit 0
  rw [ParentElement.gradientBody, (basisValue_eq _ (elementOf_instantiate b)
      (by simp [tup_length, elementOf]) _).2.2.1, show (elementOf b).bases = List.ofFn b from rfl,
      hf, Res.ok_bind, List.length_ofFn, forSequence_eq (by omega),
      upTo_ofFn, List.ofFn_eq_map, runCalls_map,
      Valued.gradientInner_loop _ _ _ _ (hu idx) (List.nodup_finRange d)]
  congr 2
  funext k
  simp only [List.mem_finRange, if_true]
  rfl

/-- The components of the gradient of a product of basis functions. -/
theorem gradient_component (hd : 0 < d) {f : Fin d → Flt} {idx : (k : Fin d) → Fin (n k)}
    (hf : BasisProduct.gradient (floatArith F) (List.ofFn b) (tup idx) (List.ofFn X) = .ok (List.ofFn f)) (i : Fin d) :
    foldRight (Flt.mul F) (List.ofFn fun j => if i = j then (b j).gradient ((idx j : ℕ) : Int) (X j) else (b j).value ((idx j : ℕ) : Int) (X j)) = .ok (f i) := by
  rw [productGradient_fold hd] at hf
  have e := sequenceRes_inv hf
  rw [List.map_ofFn] at e
  exact congrFun (List.ofFn_injective e) i

end element

section face
variable {d : ℕ} {n : Fin (d + 2) → ℕ} {b : Fin (d + 2) → Basis Flt} {X : Fin (d + 2) → Flt} {k : Fin (d + 2)} {a : Fin (n k)}

/-- The value on a face is that of the element of the face. -/
theorem face_value (hc : ∀ k, (b k).numSupportPoints = n k) (h0 : OnLayer (b k) a (X k)) (h1 : ∀ f, (b k).value (a : ℕ) (X k) = .ok f → f.datum = .finite 1)
    (hheld : ∀ j (i : Fin (n j)) f, (b j).value (i : ℕ) (X j) = .ok f → Held F f)
    (h : ∀ idx : (k : Fin (d + 2)) → Fin (n k), ∃ f, BasisProduct.value (floatArith F) (List.ofFn b) (tup idx) (List.ofFn X) = .ok f ∧ FiniteFlt f)
    (h' : ∀ idx : (j : Fin (d + 1)) → Fin (n (k.succAbove j)), ∃ f, BasisProduct.value (floatArith F) (List.ofFn fun j => b (k.succAbove j)) (tup idx)
      (List.ofFn fun j => X (k.succAbove j)) = .ok f)
    {u u' : List Int → Res Flt} {y : ((k : Fin (d + 2)) → Fin (n k)) → ℝ} (hu : ∀ idx, u (tup idx) = .ok (Flt.ofReal (y idx)))
    (hu' : ∀ idx : (j : Fin (d + 1)) → Fin (n (k.succAbove j)), u' (tup idx) = .ok (Flt.ofReal (y (k.insertNth a idx)))) :
    ∃ r r', ParentElement.value (floatArith F) (elementOf b) (List.ofFn X) u = .ok r ∧
      ParentElement.value (floatArith F) (elementOf fun j => b (k.succAbove j)) (List.ofFn fun j => X (k.succAbove j)) u' = .ok r' ∧ r.datum = r'.datum := by
  obtain ⟨L, hL, -, hall⟩ := box_list n
  obtain ⟨L', hL', -, hall'⟩ := box_list fun j => n (k.succAbove j)
  choose f hf hfin using h
  choose f' hf' using h'
  refine ⟨_, _, value_total (by omega) hc hL hf hu, value_total (by omega) (fun j => hc _) hL' hf' hu',
    total_face (box_sorted hL) hall k a (box_sorted hL') hall' (fun idx hi => ?_) (fun idx hi => ?_) (zero_literal_held F)⟩
  · have := hf idx
    rw [productValue_fold] at this
    exact mul_zero_left (layer_product_zero h0 hi rfl this (hfin idx)) ⟨_, rfl⟩
  · subst hi
    refine mul_same ?_ (by rw [show k.insertNth (idx k) (fun j => idx (k.succAbove j)) = idx from Fin.insertNth_self_removeNth k idx])
    have e1 := hf idx
    have e2 := hf' fun j => idx (k.succAbove j)
    rw [productValue_fold] at e1 e2
    exact fold_face_results (k := k) (fun j f hf => hheld j _ f hf) h1 (fun j => rfl) e1 e2

/-- The derivatives along a face are those of the element of the face. -/
theorem face_gradient (hc : ∀ k, (b k).numSupportPoints = n k) (h0 : OnLayer (b k) a (X k)) (h1 : ∀ f, (b k).value (a : ℕ) (X k) = .ok f → f.datum = .finite 1)
    (hheld : ∀ j (i : Fin (n j)) f, (b j).value (i : ℕ) (X j) = .ok f → Held F f)
    (hheld' : ∀ j (i : Fin (n j)) f, (b j).gradient (i : ℕ) (X j) = .ok f → Held F f)
    (h : ∀ idx : (k : Fin (d + 2)) → Fin (n k), ∃ g : Fin (d + 2) → Flt,
      BasisProduct.gradient (floatArith F) (List.ofFn b) (tup idx) (List.ofFn X) = .ok (List.ofFn g) ∧ ∀ i, FiniteFlt (g i))
    (h' : ∀ idx : (j : Fin (d + 1)) → Fin (n (k.succAbove j)), ∃ g : Fin (d + 1) → Flt, BasisProduct.gradient (floatArith F)
      (List.ofFn fun j => b (k.succAbove j)) (tup idx) (List.ofFn fun j => X (k.succAbove j)) = .ok (List.ofFn g))
    {u u' : List Int → Res Flt} {y : ((k : Fin (d + 2)) → Fin (n k)) → ℝ} (hu : ∀ idx, u (tup idx) = .ok (Flt.ofReal (y idx)))
    (hu' : ∀ idx : (j : Fin (d + 1)) → Fin (n (k.succAbove j)), u' (tup idx) = .ok (Flt.ofReal (y (k.insertNth a idx)))) :
    ∃ (r : Fin (d + 2) → Flt) (r' : Fin (d + 1) → Flt), ParentElement.gradient (floatArith F) (elementOf b) (List.ofFn X) u = .ok (List.ofFn r) ∧
      ParentElement.gradient (floatArith F) (elementOf fun j => b (k.succAbove j)) (List.ofFn fun j => X (k.succAbove j)) u' = .ok (List.ofFn r') ∧
      ∀ j, (r (k.succAbove j)).datum = (r' j).datum := by
  obtain ⟨L, hL, -, hall⟩ := box_list n
  obtain ⟨L', hL', -, hall'⟩ := box_list fun j => n (k.succAbove j)
  choose f hf hfin using h
  choose f' hf' using h'
  refine ⟨_, _, gradient_total (by omega) hc hL hf hu, gradient_total (by omega) (fun j => hc _) hL' hf' hu', fun i =>
    total_face (box_sorted hL) hall k a (box_sorted hL') hall' (fun idx hi => ?_) (fun idx hi => ?_) (zero_literal_held F)⟩
  · exact mul_zero_left (layer_product_zero h0 hi (if_neg (Fin.succAbove_ne k i)) (gradient_component (by omega) (hf idx) (k.succAbove i)) (hfin idx _)) ⟨_, rfl⟩
  · subst hi
    refine mul_same ?_ (by rw [show k.insertNth (idx k) (fun j => idx (k.succAbove j)) = idx from Fin.insertNth_self_removeNth k idx])
    refine fold_face_results (k := k) (fun j f hf => ?_) (fun f hf => ?_) (fun j => ?_) (gradient_component (by omega) (hf idx) (k.succAbove i))
      (gradient_component (by omega) (hf' fun j => idx (k.succAbove j)) i)
    · split at hf
      · exact hheld' j _ f hf
      · exact hheld j _ f hf
    · exact h1 f (by rw [if_neg (Fin.succAbove_ne k i)] at hf; exact hf)
    · simp only [Fin.succAbove_right_inj]

end face

/-! ### the values of basis functions are numbers of the format -/

theorem lagrange_value_held {S : Spacing Flt} {m : ℕ} (hm : 2 ≤ m) {i : Int} {x f : Flt} (h : LagrangeBasis.value (floatArith F) S m i x = .ok f) : Held F f := by
  unfold LagrangeBasis.value at h
  rw [makeIntegerSequence_ok (by omega), Res.ok_bind] at h
  exact foldRight_held (fun a b => mul_held a b) (by simp [upTo]; omega) h

theorem lagrange_gradient_held {S : Spacing Flt} {m : ℕ} (hm : 2 ≤ m) {i : Int} {x f : Flt} (h : LagrangeBasis.gradient (floatArith F) S m i x = .ok f) :
    Held F f := by
  unfold LagrangeBasis.gradient at h
  rw [makeIntegerSequence_ok (by omega), Res.ok_bind] at h
  obtain ⟨v, -, h⟩ := Res.bind_eq_ok.1 h
  exact foldRight_held (fun a b => add_held a b) (by simp [upTo]; omega) h

end Verif.Lemmas
