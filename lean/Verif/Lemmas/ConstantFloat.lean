import Verif.Lemmas.MirrorFloat

/-! Derivatives along a direction in which the nodal values do not change, in `float` and `double`. -/

namespace Verif.Lemmas

open Verif.Spec

section
variable {F : FloatFormat}

/-! ### cancellation -/

theorem mul_datum {a a' b b' : Flt} (ha : a.datum = a'.datum) (hb : b.datum = b'.datum) :
    (Flt.mul F a b).datum = (Flt.mul F a' b').datum := by
  rcases a with ⟨x | x | _, r⟩ <;> rcases a' with ⟨y | y | _, s⟩ <;> cases ha <;>
    rcases b with ⟨z | z | _, t⟩ <;> rcases b' with ⟨w | w | _, u⟩ <;> cases hb <;>
    simp only [Flt.mul] <;> first | rfl | (split <;> rfl) | (simp only [Flt.round]; split <;> rfl)

theorem neg_datum {a b : Flt} (h : a.datum = b.datum) : a.neg.datum = b.neg.datum := by
  rcases a with ⟨x | x | _, r⟩ <;> rcases b with ⟨y | y | _, s⟩ <;> cases h <;> rfl

/-- The data of a product depend on the data of the factors only. -/
theorem foldRight_datum {l l' : List Flt} (h : List.Forall₂ (fun a b : Flt => a.datum = b.datum) l l') {y y' : Flt}
    (hy : foldRight (Flt.mul F) (l.map .ok) = .ok y) (hy' : foldRight (Flt.mul F) (l'.map .ok) = .ok y') : y.datum = y'.datum := by
  induction h generalizing y y' with
  | nil => cases hy
  | @cons a b l l' hab h ih =>
    cases h with
    | nil =>
      obtain rfl := Res.ok.inj hy
      obtain rfl := Res.ok.inj hy'
      exact hab
    | @cons c d m m' hcd h =>
      rw [List.map_cons, List.map_cons, foldRight, Res.ok_bind] at hy hy'
      obtain ⟨z, hz, hy⟩ := Res.bind_eq_ok.1 hy
      obtain ⟨z', hz', hy'⟩ := Res.bind_eq_ok.1 hy'
      obtain rfl := Res.ok.inj hy
      obtain rfl := Res.ok.inj hy'
      exact mul_datum hab (ih hz hz')

/-- Adding a number and then its opposite to zero gives zero, if nothing overflows. -/
theorem add_cancel {r s t : Flt} (hr : FiniteFlt r → r.datum = .finite 0) (hs : Held F s)
    (ht : FiniteFlt s → FiniteFlt t → t.datum = s.neg.datum) (h : FiniteFlt (Flt.add F (Flt.add F r s) t)) :
    (Flt.add F (Flt.add F r s) t).datum = .finite 0 := by
  obtain ⟨h1, h2⟩ := add_finite h
  obtain ⟨h3, x, hx⟩ := add_finite h1
  have e1 : (Flt.add F r s).datum = .finite (0 + x) := add_data (hr h3) hx (by rw [zero_add]; exact hs x hx)
  have e2 : t.datum = .finite (-x) := by rw [ht ⟨x, hx⟩ h2, Flt.neg, hx]
  have := add_data (F := F) e1 e2 (by rw [zero_add, add_neg_cancel]; exact represents_zero F)
  rwa [zero_add, add_neg_cancel] at this

/-! ### the order of the loop -/

theorem boxFrom_snoc (ds : List Int) (e : Int) :
    boxFrom (List.replicate (ds ++ [e]).length 0) (ds ++ [e])
      = (boxFrom (List.replicate ds.length 0) ds).flatMap fun t => (upTo 0 e).map fun j => t ++ [j] := by
  induction ds with
  | nil =>
    simp only [List.nil_append, List.length_singleton, List.replicate_one, boxFrom, List.length_nil, List.replicate_zero, List.map_cons,
      List.map_nil, List.flatMap_cons, List.flatMap_nil, List.append_nil]
    rw [← List.map_eq_flatMap]
  | cons a ds ih =>
    rw [List.cons_append, List.length_cons, List.replicate_succ, boxFrom, ih, List.length_cons, List.replicate_succ, boxFrom,
      List.flatMap_assoc]
    congr 1
    funext i
    rw [List.flatMap_map, List.map_flatMap]
    congr 1
    funext t
    simp

theorem boxFrom_length {ds : List Int} : ∀ t ∈ boxFrom (List.replicate ds.length 0) ds, t.length = ds.length := by
  intro t ht
  exact ((mem_boxFrom (by simp)).1 ht).1.trans (by simp)

theorem runCalls_pairs {σ : Type} {L : List (List Int)} {body : List Int → σ → Res σ} {P : σ → Prop}
    (hstep : ∀ t ∈ L, ∀ r s u, P r → body (t ++ [0]) r = .ok s → body (t ++ [1]) s = .ok u → P u) {r s : σ} (hr : P r)
    (h : runCalls (L.flatMap fun t => (upTo 0 2).map fun j => t ++ [j]) body r = .ok s) : P s := by
  have e : upTo 0 2 = [0, 1] := by decide
  rw [e] at h
  induction L generalizing r with
  | nil =>
    obtain rfl := Res.ok.inj h
    exact hr
  | cons t L ih =>
    rw [List.flatMap_cons] at h
    simp only [List.map_cons, List.map_nil, List.cons_append, List.nil_append] at h
    rw [runCalls_cons] at h
    obtain ⟨u, hu, h⟩ := Res.bind_eq_ok.1 h
    rw [runCalls_cons] at h
    obtain ⟨v, hv, h⟩ := Res.bind_eq_ok.1 h
    exact ih (fun t' ht' => hstep t' (List.mem_cons_of_mem _ ht')) (hstep t (List.mem_cons_self ..) r u v hr hu hv) h

/-! ### one step -/

/-- The inner loop over the components. -/
theorem gradientInner_all {R : Type} (A : Arith R) {d : ℕ} (gr : Fin d → R) {var : List Int → Res R} {idx : List Int} {y : R}
    (hy : var idx = .ok y) {L : List (Fin d)} (hL : L.Nodup) (r : Fin d → R) :
    runCalls L (fun a => ParentElement.gradientInner A (List.ofFn gr) var idx ((a : ℕ) : Int)) (List.ofFn r)
      = .ok (List.ofFn fun k => if k ∈ L then A.add (r k) (A.mul (gr k) y) else r k) := by
  induction L generalizing r with
  | nil => simp
  | cons a L ih =>
    obtain ⟨ha, hL'⟩ := List.nodup_cons.1 hL
    have e1 : ParentElement.gradientInner A (List.ofFn gr) var idx ((a : ℕ) : Int) (List.ofFn r)
        = .ok (List.ofFn (Function.update r a (A.add (r a) (A.mul (gr a) y)))) := by
      rw [ParentElement.gradientInner, tableAt_ofFn, tableAt_ofFn, hy]
      simp only [Res.ok_bind, Int.toNat_natCast, set_ofFn]
    rw [runCalls_cons, e1, Res.ok_bind, ih hL']
    congr 2
    funext k
    by_cases hk : k = a
    · subst hk; simp [ha]
    · simp [hk]

theorem productGradient_raw {d : ℕ} {b : Fin d → Basis Flt} (hd : 0 < d) (i : Fin d → Int) (x : Fin d → Flt) :
    BasisProduct.gradient (floatArith F) (List.ofFn b) (List.ofFn i) (List.ofFn x)
      = sequenceRes (List.ofFn fun a : Fin d => foldRight (Flt.mul F) (List.ofFn fun k =>
          if a = k then (b k).gradient (i k) (x k) else (b k).value (i k) (x k))) := by
  unfold BasisProduct.gradient
  rw [staticAssert_bind_true (by simp), staticAssert_bind_true (by simpa using hd),
    List.length_ofFn, makeIntegerSequence_ok (by omega), Res.ok_bind, mapUpTo]
  congr 2
  funext a
  rw [expand_ofFn]
  show foldRight (Flt.mul F) _ = _
  congr 2
  funext k
  rw [BasisProduct.gradientComponentHelper, tableAt_ofFn, Res.ok_bind]
  by_cases e : a = k
  · subst e; rw [if_pos rfl, if_pos rfl]
  · rw [if_neg (by intro h; exact e (Fin.ext (by exact_mod_cast h))), if_neg e]

theorem sequenceRes_ofFn {d : ℕ} {f : Fin d → Res Flt} {m : List Flt} (h : sequenceRes (List.ofFn f) = .ok m) :
    ∃ g : Fin d → Flt, m = List.ofFn g ∧ ∀ a, f a = .ok (g a) := by
  have h := sequenceRes_inv h
  have hl : m.length = d := by simpa using (congrArg List.length h).symm
  subst hl
  refine ⟨fun a => m[a], (List.ofFn_getElem ..).symm, fun a => ?_⟩
  have := List.getElem_of_eq h (i := (a : ℕ)) (by simp)
  simpa using this

/-- The step for one support point. -/
theorem gradientBody_step {d : ℕ} {b : Fin d → Basis Flt} (hd : 0 < d) {i : Fin d → Int} {x ρ : Fin d → Flt} {var : List Int → Res Flt} {y : Flt}
    (hy : var (List.ofFn i) = .ok y) {s : List Flt}
    (h : ParentElement.gradientBody (floatArith F) (elementOf b) (List.ofFn x) var (List.ofFn i) (List.ofFn ρ) = .ok s) :
    ∃ g : Fin d → Flt, s = List.ofFn (fun a => Flt.add F (ρ a) (Flt.mul F (g a) y)) ∧
      ∀ a, foldRight (Flt.mul F) (List.ofFn fun k => if a = k then (b k).gradient (i k) (x k) else (b k).value (i k) (x k)) = .ok (g a) := by
  rw [ParentElement.gradientBody, (basisValue_eq _ (elementOf_instantiate b) (by simp [elementOf]) _).2.2.1,
    show (elementOf b).bases = List.ofFn b from rfl, productGradient_raw hd] at h
  obtain ⟨m, hm, h⟩ := Res.bind_eq_ok.1 h
  obtain ⟨g, rfl, hg⟩ := sequenceRes_ofFn hm
  refine ⟨g, ?_, hg⟩
  rw [List.length_ofFn, forSequence_eq (by omega), upTo_ofFn, List.ofFn_eq_map, runCalls_map,
    gradientInner_all _ _ hy (List.nodup_finRange d)] at h
  rw [← Res.ok.inj h]
  congr 1
  funext a
  simp
  rfl

/-- The products of two support points that differ in the last index have opposite derivatives. -/
theorem product_opposite {d : ℕ} {b : Fin (d + 1) → Basis Flt} {x : Fin (d + 1) → Flt}
    (hg : ∀ γ γ', (b (Fin.last d)).gradient 0 (x (Fin.last d)) = .ok γ → (b (Fin.last d)).gradient 1 (x (Fin.last d)) = .ok γ' →
      FiniteFlt γ → FiniteFlt γ' → γ'.datum = γ.neg.datum) {τ : Fin d → Int} {y y' : Flt}
    (h : foldRight (Flt.mul F) (List.ofFn fun k => if Fin.last d = k then (b k).gradient ((Fin.snoc τ 0 : Fin (d + 1) → Int) k) (x k)
      else (b k).value ((Fin.snoc τ 0 : Fin (d + 1) → Int) k) (x k)) = .ok y)
    (h' : foldRight (Flt.mul F) (List.ofFn fun k => if Fin.last d = k then (b k).gradient ((Fin.snoc τ 1 : Fin (d + 1) → Int) k) (x k)
      else (b k).value ((Fin.snoc τ 1 : Fin (d + 1) → Int) k) (x k)) = .ok y')
    (hy : FiniteFlt y) (hy' : FiniteFlt y') : y'.datum = y.neg.datum := by
  have all := fun (j : Int) (y : Flt) (h : foldRight (Flt.mul F) (List.ofFn fun k =>
      if Fin.last d = k then (b k).gradient ((Fin.snoc τ j : Fin (d + 1) → Int) k) (x k)
      else (b k).value ((Fin.snoc τ j : Fin (d + 1) → Int) k) (x k)) = .ok y) =>
    show ∃ (v : Fin d → Flt) (γ : Flt), (∀ k : Fin d, (b k.castSucc).value (τ k) (x k.castSucc) = .ok (v k)) ∧
        (b (Fin.last d)).gradient j (x (Fin.last d)) = .ok γ ∧
        foldRight (Flt.mul F) ((List.ofFn (Fin.snoc v γ : Fin (d + 1) → Flt)).map .ok) = .ok y by
      have hok := fun k => foldRight_ok_all h _ (List.mem_ofFn.2 ⟨k, rfl⟩)
      have hv : ∀ k : Fin d, ∃ z, (b k.castSucc).value (τ k) (x k.castSucc) = .ok z := fun k => by
        have := hok k.castSucc
        rwa [if_neg (by intro h; exact absurd h.symm (Fin.castSucc_lt_last k).ne), Fin.snoc_castSucc] at this
      choose v hv using hv
      obtain ⟨γ, hγ⟩ := hok (Fin.last d)
      rw [if_pos rfl, Fin.snoc_last] at hγ
      refine ⟨v, γ, hv, hγ, ?_⟩
      rw [← h, List.map_ofFn]
      congr 2
      funext k
      refine Fin.lastCases ?_ (fun k => ?_) k
      · simp [hγ]
      · rw [if_neg (by intro h; exact absurd h.symm (Fin.castSucc_lt_last k).ne)]
        simp [hv]
  obtain ⟨v, γ, hv, hγ, e⟩ := all 0 y h
  obtain ⟨v', γ', hv', hγ', e'⟩ := all 1 y' h'
  obtain rfl : v = v' := funext fun k => Res.ok.inj ((hv k).symm.trans (hv' k))
  have hopp := hg γ γ' hγ hγ' (foldRight_finite e hy _ (List.mem_ofFn.2 ⟨Fin.last d, by simp⟩))
    (foldRight_finite e' hy' _ (List.mem_ofFn.2 ⟨Fin.last d, by simp⟩))
  have hm := foldRight_modify (j := d) (by simp) e
  have : (List.ofFn (Fin.snoc v γ : Fin (d + 1) → Flt)).modify d Flt.neg = List.ofFn (Fin.snoc v γ.neg : Fin (d + 1) → Flt) := by
    apply List.ext_getElem
    · simp
    · intro j h1 h2
      rw [List.getElem_modify, List.getElem_ofFn, List.getElem_ofFn]
      by_cases ej : d = j
      · subst ej
        rw [if_pos rfl]
        show Flt.neg ((Fin.snoc v γ : Fin (d + 1) → Flt) (Fin.last d)) = (Fin.snoc v γ.neg : Fin (d + 1) → Flt) (Fin.last d)
        simp
      · rw [if_neg ej]
        have hj : j < d := by simp at h2; omega
        show (Fin.snoc v γ : Fin (d + 1) → Flt) (Fin.castSucc ⟨j, hj⟩) = (Fin.snoc v γ.neg : Fin (d + 1) → Flt) (Fin.castSucc ⟨j, hj⟩)
        exact (Fin.snoc_castSucc (α := fun _ => Flt) γ v ⟨j, hj⟩).trans (Fin.snoc_castSucc (α := fun _ => Flt) γ.neg v ⟨j, hj⟩).symm
  rw [this] at hm
  refine foldRight_datum (forall₂_ofFn fun k => ?_) e' hm
  refine Fin.lastCases ?_ (fun k => ?_) k
  · simpa using hopp
  · simp

/-- **The last derivative** of nodal values that do not change in the last direction. -/
theorem gradient_last {d : ℕ} {b : Fin (d + 1) → Basis Flt} {n : Fin (d + 1) → ℕ} (hc : ∀ k, (b k).numSupportPoints = n k)
    (h2 : n (Fin.last d) = 2) {x : Fin (d + 1) → Flt}
    (hg : ∀ γ γ', (b (Fin.last d)).gradient 0 (x (Fin.last d)) = .ok γ → (b (Fin.last d)).gradient 1 (x (Fin.last d)) = .ok γ' →
      FiniteFlt γ → FiniteFlt γ' → γ'.datum = γ.neg.datum) {var : List Int → Res Flt}
    (hvar : ∀ τ : Fin d → Int, (∀ k, 0 ≤ τ k ∧ τ k < n k.castSucc) → ∃ v, var (List.ofFn τ ++ [0]) = .ok v ∧ var (List.ofFn τ ++ [1]) = .ok v)
    {s : List Flt} (h : ParentElement.gradient (floatArith F) (elementOf b) (List.ofFn x) var = .ok s) :
    ∃ g : Fin (d + 1) → Flt, s = List.ofFn g ∧ (FiniteFlt (g (Fin.last d)) → (g (Fin.last d)).datum = .finite 0) := by
  rw [ParentElement.gradient, elementOf_instantiate, Res.ok_bind, show (elementOf b).bases = List.ofFn b from rfl] at h
  have e0 : (List.ofFn b).map Basis.numSupportPoints = (List.ofFn fun k : Fin d => ((n k.castSucc : ℕ) : Int)) ++ [2] := by
    rw [List.map_ofFn, List.ofFn_succ_last]
    congr 1
    · congr 1; funext k; exact hc _
    · show [(b (Fin.last d)).numSupportPoints] = _
      rw [hc, h2]; rfl
  rw [e0, Sequence.forNestedSequence, staticForNested_eq (by simp) (by
    intro e he
    rcases List.mem_append.1 he with he | he
    · obtain ⟨k, rfl⟩ := List.mem_ofFn.1 he; omega
    · rw [List.mem_singleton.1 he]; decide), boxFrom_snoc] at h
  refine runCalls_pairs (P := fun r => ∃ g : Fin (d + 1) → Flt, r = List.ofFn g ∧ (FiniteFlt (g (Fin.last d)) → (g (Fin.last d)).datum = .finite 0))
    ?_ ⟨fun _ => (floatArith F).lit 0, by rw [List.length_ofFn, List.ofFn_const], fun _ => ?_⟩ h
  · rintro t ht r s u ⟨ρ, rfl, hρ⟩ hs hu
    simp only [List.nil_append] at hs hu
    obtain ⟨htl, htb⟩ := (mem_boxFrom (by simp)).1 ht
    have htl : t.length = d := by simpa using htl
    obtain ⟨τ, rfl⟩ : ∃ τ : Fin d → Int, t = List.ofFn τ := by
      subst htl
      exact ⟨fun k => t[k], (List.ofFn_getElem ..).symm⟩
    obtain ⟨v, hv0, hv1⟩ := hvar τ (fun k => by
      have := htb k (by simp)
      simpa [List.getD] using this)
    have hsn : ∀ j : Int, List.ofFn τ ++ [j] = List.ofFn (Fin.snoc τ j : Fin (d + 1) → Int) := fun j => by
      rw [List.ofFn_succ_last]; simp
    rw [hsn] at hs hu hv0 hv1
    obtain ⟨g, rfl, hgf⟩ := gradientBody_step (Nat.succ_pos d) hv0 hs
    obtain ⟨g', rfl, hgf'⟩ := gradientBody_step (Nat.succ_pos d) hv1 hu
    refine ⟨_, rfl, fun hfin => ?_⟩
    refine add_cancel hρ (mul_held _ _) (fun h1 h2 => ?_) hfin
    have hopp := product_opposite hg (hgf (Fin.last d)) (hgf' (Fin.last d)) (mul_finite h1).1 (mul_finite h2).1
    rw [← mul_neg_left]
    exact mul_datum hopp rfl
  · show (Flt.round F false ((0 : ℚ) : ℝ)).datum = _
    rw [Rat.cast_zero, round_zero]

/-- The derivative of a function of a linear basis. -/
theorem linear_slope {S : Spacing Flt} (h1 : (floatArith F).lit 1 = Flt.ofReal 1) (i : Fin 2) {Y X f g : Flt}
    (hf : LagrangeBasis.value (floatArith F) S 2 (i : ℕ) Y = .ok f) (h : LagrangeBasis.gradient (floatArith F) S 2 (i : ℕ) X = .ok g)
    (hg : FiniteFlt g) :
    ∃ δ, LagrangeBasis.gradientOfValueTerm (floatArith F) S (i : ℕ) (i.rev : ℕ) = .ok δ ∧ g.datum = (Flt.mul F δ (Flt.ofReal 1)).datum := by
  obtain ⟨v, hv⟩ := value_terms hf X
  obtain ⟨γ, hγ⟩ := gradientOf_terms h
  refine ⟨γ i.rev, hγ i.rev, ?_⟩
  have hP : ∀ a : Fin 2, foldRight (Flt.mul F) (List.ofFn fun b => .ok (if b = a then Flt.ofReal 1 else v b))
      = .ok (Flt.mul F (if 0 = a then Flt.ofReal 1 else v 0) (if 1 = a then Flt.ofReal 1 else v 1)) := fun _ => rfl
  have h := (gradient_eq_fold (n := 2) h1 hv hγ hP).symm.trans h
  obtain rfl := Res.ok.inj h
  have hzero : γ i = ⟨.finite 0, false⟩ := by
    have := hγ i
    unfold LagrangeBasis.gradientOfValueTerm at this
    rw [if_pos rfl] at this
    refine (Res.ok.inj this).symm.trans ?_
    show Flt.round F false ((0 : ℚ) : ℝ) = _
    rw [Rat.cast_zero, round_zero]
  have h1' : Held F (Flt.ofReal 1) := by
    have := (valueTerm_held h1 (hv i)).1
    rwa [(valueTerm_held h1 (hv i)).2 rfl] at this
  have hone : v i = Flt.ofReal 1 := (valueTerm_held h1 (hv i)).2 rfl
  have hz : ∀ u : Flt, FiniteFlt (Flt.mul F (γ i) u) → (Flt.mul F (γ i) u).datum = .finite 0 := fun u hu =>
    mul_zero_left (by rw [hzero]) (mul_finite hu).2
  obtain ⟨g1, g2⟩ := add_finite hg
  fin_cases i
  · obtain ⟨y, hy⟩ := g2
    have hh := mul_held (F := F) (γ 1) (Flt.mul F (v 0) (Flt.ofReal 1))
    have e : v 0 = Flt.ofReal 1 := hone
    have := add_data (F := F) (hz _ g1) hy (by rw [zero_add]; exact hh y hy)
    rw [zero_add] at this
    refine this.trans (hy.symm.trans ?_)
    show (Flt.mul F (γ 1) (Flt.mul F (v 0) (Flt.ofReal 1))).datum = _
    rw [e, mul_one_flt h1']
    rfl
  · obtain ⟨y, hy⟩ := g1
    have hh := mul_held (F := F) (γ 0) (Flt.mul F (Flt.ofReal 1) (v 1))
    have e : v 1 = Flt.ofReal 1 := hone
    have := add_data (F := F) hy (hz _ g2) (by rw [add_zero]; exact hh y hy)
    rw [add_zero] at this
    refine this.trans (hy.symm.trans ?_)
    show (Flt.mul F (γ 0) (Flt.mul F (Flt.ofReal 1) (v 1))).datum = _
    rw [e, mul_one_flt h1']
    rfl

/-- The two derivatives of a linear basis. -/
theorem linear_gradients {S : Spacing Flt} {C : Fin 2 → Flt} (h1 : (floatArith F).lit 1 = Flt.ofReal 1) (hC : MirroredPoints S 2 C)
    {Y f f' : Flt} (hf : LagrangeBasis.value (floatArith F) S 2 0 Y = .ok f) (hf' : LagrangeBasis.value (floatArith F) S 2 1 Y = .ok f')
    {X γ γ' : Flt} (h : LagrangeBasis.gradient (floatArith F) S 2 0 X = .ok γ) (h' : LagrangeBasis.gradient (floatArith F) S 2 1 X = .ok γ')
    (hγ : FiniteFlt γ) (hγ' : FiniteFlt γ') : γ'.datum = γ.neg.datum := by
  obtain ⟨δ, hδ, e⟩ := linear_slope h1 0 hf h hγ
  obtain ⟨δ', hδ', e'⟩ := linear_slope h1 1 hf' h' hγ'
  have := gradientOf_mirror hC (i := 0) (a := 1) hδ
  rw [e', Res.ok.inj (hδ'.symm.trans this), mul_neg_left]
  exact neg_datum e.symm

/-! ### evaluation -/

/-- A Lagrange basis of which results may be known. -/
def knownBasis (T : RealType) (fam : Family) (order : ℕ) : Basis (Option ℚ) :=
  ⟨((order + 1 : ℕ) : Int), LagrangeBasis.value (evalArith T.format) (fam.spacingIn (evalIn T) ((order + 1 : ℕ) : Int)) ((order + 1 : ℕ) : Int),
    LagrangeBasis.gradient (evalArith T.format) (fam.spacingIn (evalIn T) ((order + 1 : ℕ) : Int)) ((order + 1 : ℕ) : Int)⟩

theorem knownBasis_rel (T : RealType) (fam : Family) (order : ℕ) : BasisRel False Knows (knownBasis T fam order)
    ⟨((order + 1 : ℕ) : Int), LagrangeBasis.value (floatArith T.format) (fam.spacingIn T.arith ((order + 1 : ℕ) : Int)) ((order + 1 : ℕ) : Int),
      LagrangeBasis.gradient (floatArith T.format) (fam.spacingIn T.arith ((order + 1 : ℕ) : Int)) ((order + 1 : ℕ) : Int)⟩ := by
  have hs := family_rel (evalIn_rel T) fam ((order + 1 : ℕ) : Int)
  have he : ArithRel False (evalArith T.format) (floatArith T.format) Knows := eval_rel T.format
  have hd : NodeDivRel False (evalArith T.format) (floatArith T.format) Knows
      (fam.spacingIn (evalIn T) ((order + 1 : ℕ) : Int)) (fam.spacingIn T.arith ((order + 1 : ℕ) : Int)) :=
    fun _ _ _ _ _ h1 h2 => he.div (he.lit _) (he.sub h1 h2)
  exact ⟨rfl, fun i _ _ hx => basisValue_rel he.toOpsRel hs hd _ i hx, fun i _ _ hx => basisGradient_rel he.toOpsRel hs hd _ i hx⟩

theorem knows_some (q : ℚ) : Knows (some q) (Flt.ofReal q) := fun r h => by rw [Option.some.inj h]

theorem knows_all {l : List ℚ} {m : List Flt} (h : List.Forall₂ Knows (l.map some) m) : m = l.map fun q : ℚ => Flt.ofReal q := by
  induction l generalizing m with
  | nil => cases h; rfl
  | cons q l ih =>
    cases h with
    | cons h1 h2 => rw [ih h2, h1 q rfl]; rfl

/-- Gradients of a constant field. -/
def knownConstant (T : RealType) (fam : Family) (order : ℕ) (d : ℕ) (x : List ℚ) (c : ℚ) : Res (List (Option ℚ)) :=
  ParentElement.gradient (evalArith T.format) ⟨.ok d, List.replicate d (knownBasis T fam order)⟩ (x.map some) fun _ => .ok (some c)

theorem knownConstant_sound {T : RealType} {fam : Family} {order d : ℕ} {x : List ℚ} {c : ℚ} {l : List ℚ}
    (h : knownConstant T fam order d x c = .ok (l.map some)) {b : Basis Flt}
    (hb : b = ⟨((order + 1 : ℕ) : Int),
      LagrangeBasis.value (floatArith T.format) (fam.spacingIn T.arith ((order + 1 : ℕ) : Int)) ((order + 1 : ℕ) : Int),
      LagrangeBasis.gradient (floatArith T.format) (fam.spacingIn T.arith ((order + 1 : ℕ) : Int)) ((order + 1 : ℕ) : Int)⟩) :
    ParentElement.gradient (floatArith T.format) ⟨.ok d, List.replicate d b⟩ (x.map fun q : ℚ => Flt.ofReal q) (fun _ => .ok (Flt.ofReal c))
      = .ok (l.map fun q : ℚ => Flt.ofReal q) := by
  have hrel : ResRel False (List.Forall₂ Knows) (knownConstant T fam order d x c)
      (ParentElement.gradient (floatArith T.format) ⟨.ok d, List.replicate d b⟩ (x.map fun q : ℚ => Flt.ofReal q) (fun _ => .ok (Flt.ofReal c))) := by
    refine parentGradient_rel (eval_rel T.format).toOpsRel ⟨rfl, ?_⟩ ?_ fun _ => .ok (knows_some c)
    · subst hb
      clear h
      show List.Forall₂ _ (List.replicate d _) (List.replicate d _)
      generalize hn : d = n
      clear hn
      induction n with
      | zero => exact .nil
      | succ n ih => exact .cons (knownBasis_rel T fam order) ih
    · clear h
      induction x with
      | nil => exact .nil
      | cons q x ih => exact .cons (knows_some q) ih
  rcases hrel _ h with ⟨m, hm, hk⟩ | ⟨hf, -⟩
  · rw [hm, knows_all hk]
  · exact hf.elim

/-- A constant and a point. -/
def constantWitness : RealType → Family → ℕ → ℚ × ℚ
  | .float, .gaussLegendre, 1 => (3, -15 / 16)
  | .double, .gaussLegendre, 1 => (3, -15 / 16)
  | .float, _, 1 => (3, -4194303 / 4194304)
  | .double, _, 1 => (3, -2251799813685247 / 2251799813685248)
  | .float, .gaussLegendre, 2 => (1, -15 / 16)
  | .double, .gaussLegendre, 2 => (1, -15 / 16)
  | .float, _, 2 => (8388609, -15 / 16)
  | .double, _, 2 => (4503599627370497, -15 / 16)
  | .double, .gaussLobatto, 3 => (1, -14 / 16)
  | _, _, _ => (1, -15 / 16)

/-- The first component of the gradient of a constant is known and not zero. -/
def constantDiffers (T : RealType) (fam : Family) (order : ℕ) (d : ℕ) (x : List ℚ) (c : ℚ) : Bool :=
  match knownConstant T fam order d x c with
  | .ok (some q :: l) => decide (q ≠ 0) && l.all Option.isSome && decide (l.length + 1 = d) && decide (evalRound T.format c = some c) && decide (|c| ≤ 2 ^ 56) &&
      x.all fun q => decide (|q| ≤ 1) && decide (evalRound T.format q = some q)
  | _ => false

theorem constant_line_float : ∀ order ∈ [2, 3, 4], ∀ fam ∈ [Family.equal, .gaussLobatto],
    constantDiffers .float fam order 1 [(constantWitness .float fam order).2] (constantWitness .float fam order).1 = true := by decide +kernel

theorem constant_line_double : ∀ order ∈ [2, 3, 4], ∀ fam ∈ [Family.equal, .gaussLobatto],
    constantDiffers .double fam order 1 [(constantWitness .double fam order).2] (constantWitness .double fam order).1 = true := by decide +kernel

theorem constant_line_legendre : ∀ order ∈ [2, 3], ∀ T ∈ types,
    constantDiffers T .gaussLegendre order 1 [(constantWitness T .gaussLegendre order).2] (constantWitness T .gaussLegendre order).1 = true := by
  decide +kernel

theorem constant_square : ∀ T ∈ types, ∀ fam ∈ [Family.equal, .gaussLegendre, .gaussLobatto],
    constantDiffers T fam 1 2 [0, (constantWitness T fam 1).2] (constantWitness T fam 1).1 = true := by decide +kernel

theorem constantDiffers_spec {T : RealType} {fam : Family} {order d : ℕ} {x : List ℚ} {c : ℚ} (h : constantDiffers T fam order d x c = true) :
    ∃ (q : ℚ) (l : List ℚ), q ≠ 0 ∧ knownConstant T fam order d x c = .ok ((q :: l).map some) ∧ l.length + 1 = d ∧
      Represents T.format (c : ℝ) ∧ |c| ≤ 2 ^ 56 ∧ ∀ y ∈ x, |y| ≤ 1 ∧ Represents T.format (y : ℝ) := by
  unfold constantDiffers at h
  split at h
  · next q l e =>
    simp only [Bool.and_eq_true, decide_eq_true_eq, List.all_eq_true] at h
    obtain ⟨⟨⟨⟨⟨h1, h2⟩, hl⟩, h3⟩, h5⟩, h4⟩ := h
    refine ⟨q, l.map fun o => o.getD 0, h1, ?_, by rw [List.length_map]; exact hl, round_represents _ (evalRound_sound _ h3), h5, fun y hy =>
      ⟨(h4 y hy).1, round_represents _ (evalRound_sound _ (h4 y hy).2)⟩⟩
    rw [e, List.map_cons, List.map_map]
    congr 2
    refine (List.map_id l).symm.trans (List.map_congr_left fun o ho => ?_)
    obtain ⟨r, rfl⟩ := Option.isSome_iff_exists.1 (h2 o ho)
    rfl
  · cases h

end

end Verif.Lemmas
