import Verif.Spec.NonFinite
import Verif.Lemmas.NearElement
import Verif.Lemmas.Scaling

/-! Infinities and NaN are kept by the operations. -/

namespace Verif.Lemmas

open Verif.Spec Verif.MathUtilities

/-- A property that an operand passes on to the result. -/
structure Sticky (F : FloatFormat) (P : Flt → Prop) : Prop where
  addl : ∀ {a b}, P a → P (Flt.add F a b)
  addr : ∀ {a b}, P b → P (Flt.add F a b)
  mull : ∀ {a b}, P a → P (Flt.mul F a b)
  mulr : ∀ {a b}, P b → P (Flt.mul F a b)
  neg : ∀ {a}, P a → P (Flt.neg a)

variable {F : FloatFormat} {P : Flt → Prop}

theorem Sticky.subl (h : Sticky F P) {a b : Flt} (ha : P a) : P (Flt.sub F a b) := h.addl ha

theorem Sticky.subr (h : Sticky F P) {a b : Flt} (hb : P b) : P (Flt.sub F a b) := h.addr (h.neg hb)

theorem notFinite_cases {f : Flt} : NotFinite f ↔ f.datum = .nan ∨ ∃ s, f.datum = .inf s := by
  unfold NotFinite
  cases h : f.datum <;> simp

theorem nan_notFinite {f : Flt} (h : IsNaN f) : NotFinite f := notFinite_cases.2 (.inl h)

theorem sticky_nan (F : FloatFormat) : Sticky F IsNaN where
  addl {a b} h := by
    unfold IsNaN at h ⊢
    unfold Flt.add
    rw [h]
  addr {a b} h := by
    unfold IsNaN at h ⊢
    unfold Flt.add
    rw [h]
    cases a.datum <;> rfl
  mull {a b} h := by
    unfold IsNaN at h ⊢
    unfold Flt.mul
    rw [h]
  mulr {a b} h := by
    unfold IsNaN at h ⊢
    unfold Flt.mul
    rw [h]
    cases a.datum <;> rfl
  neg {a} h := by
    unfold IsNaN at h ⊢
    unfold Flt.neg
    rw [h]

theorem sticky_notFinite (F : FloatFormat) : Sticky F NotFinite where
  addl {a b} h := by
    rcases notFinite_cases.1 h with h | ⟨s, h⟩
    · exact nan_notFinite ((sticky_nan F).addl h)
    · unfold NotFinite Flt.add
      rw [h]
      cases b.datum with
      | finite y => simp
      | nan => simp
      | inf t => dsimp only; split <;> simp
  addr {a b} h := by
    rcases notFinite_cases.1 h with h | ⟨s, h⟩
    · exact nan_notFinite ((sticky_nan F).addr h)
    · unfold NotFinite Flt.add
      rw [h]
      cases a.datum with
      | finite y => simp
      | nan => simp
      | inf t => dsimp only; split <;> simp
  mull {a b} h := by
    rcases notFinite_cases.1 h with h | ⟨s, h⟩
    · exact nan_notFinite ((sticky_nan F).mull h)
    · unfold NotFinite Flt.mul
      rw [h]
      cases b.datum with
      | finite y => dsimp only; split <;> simp
      | nan => simp
      | inf t => simp
  mulr {a b} h := by
    rcases notFinite_cases.1 h with h | ⟨s, h⟩
    · exact nan_notFinite ((sticky_nan F).mulr h)
    · unfold NotFinite Flt.mul
      rw [h]
      cases a.datum with
      | finite y => dsimp only; split <;> simp
      | nan => simp
      | inf t => simp
  neg {a} h := by
    rcases notFinite_cases.1 h with h | ⟨s, h⟩
    · exact nan_notFinite ((sticky_nan F).neg h)
    · unfold NotFinite Flt.neg
      rw [h]
      simp

/-- The reciprocal of an infinity is zero, that of NaN is NaN. -/
theorem div_notFinite {a b : Flt} {x : ℝ} (ha : a.datum = .finite x) (hb : NotFinite b) :
    ∃ q, Flt.div F a b = .ok q ∧ (q.datum = .finite 0 ∨ IsNaN q) ∧ (IsNaN b → IsNaN q) := by
  rcases notFinite_cases.1 hb with h | ⟨s, h⟩
  · refine ⟨⟨.nan, a.raised || b.raised⟩, ?_, .inr rfl, fun _ => rfl⟩
    unfold Flt.div
    rw [ha, h]
  · refine ⟨⟨.finite 0, a.raised || b.raised⟩, ?_, .inl rfl, fun h' => ?_⟩
    · unfold Flt.div
      rw [ha, h]
    · unfold IsNaN at h'
      rw [h] at h'
      cases h'

/-- An infinity or NaN times zero or NaN is NaN. -/
theorem mul_nan {a b : Flt} (ha : NotFinite a) (hb : b.datum = .finite 0 ∨ IsNaN b) : IsNaN (Flt.mul F a b) := by
  rcases hb with hb | hb
  · rcases notFinite_cases.1 ha with h | ⟨s, h⟩
    · exact (sticky_nan F).mull h
    · unfold IsNaN Flt.mul
      rw [h, hb]
      simp
  · exact (sticky_nan F).mulr hb

/-! ### sums over support points -/

/-- The result of a loop that adds one product per call. -/
theorem runCalls_sticky {ι κ : Type} {L : List ι} {σ : Type} {mk : (κ → Flt) → σ} {body : ι → σ → Res σ}
    {g y : ι → κ → Flt} (hb : ∀ i r, body i (mk r) = .ok (mk fun k => Flt.add F (r k) (Flt.mul F (g i k) (y i k)))) (r : κ → Flt) :
    ∃ r', runCalls L body (mk r) = .ok (mk r') ∧ ∀ P, Sticky F P → ∀ k, (P (r k) ∨ ∃ i ∈ L, P (g i k) ∨ P (y i k)) → P (r' k) := by
  induction L generalizing r with
  | nil => exact ⟨r, by simp, fun P _ k h => by simpa using h⟩
  | cons i L ih =>
    obtain ⟨r', h1, h2⟩ := ih fun k => Flt.add F (r k) (Flt.mul F (g i k) (y i k))
    refine ⟨r', by rw [runCalls_cons, hb, Res.ok_bind, h1], fun P hP k h => h2 P hP k ?_⟩
    rcases h with h | ⟨j, hj, h⟩
    · exact .inl (hP.addl h)
    · rcases List.mem_cons.1 hj with rfl | hj
      · exact .inl (hP.addr (h.elim hP.mull hP.mulr))
      · exact .inr ⟨j, hj, h⟩

theorem foldRight_sticky (hP : Sticky F P) : ∀ {l : List (Res Flt)} {f : Flt} {z : Res Flt}, foldRight (Flt.mul F) l = .ok f →
    z ∈ l → (∀ g, z = .ok g → P g) → P f
  | [], _, _, h, _, _ => by simp [foldRight] at h
  | [x], f, z, h, hg, hp => by
    rw [foldRight] at h
    exact hp f ((List.mem_singleton.1 hg).trans h)
  | x :: y :: xs, f, z, h, hg, hp => by
    rw [foldRight] at h
    obtain ⟨a, ha, h⟩ := Res.bind_eq_ok.1 h
    obtain ⟨b, hb, h⟩ := Res.bind_eq_ok.1 h
    cases h
    rcases List.mem_cons.1 hg with e | hg
    · exact hP.mull (hp a (e.trans ha))
    · exact hP.mulr (foldRight_sticky hP hb hg hp)

/-! ### basis functions at any coordinate -/

/-- A basis function at an infinity or NaN. -/
theorem basisValue_sticky (hP : Sticky F P) {S : Spacing Flt} {n j : ℕ} (hn : 2 ≤ n) {x f : Flt} (hx : P x)
    (h : LagrangeBasis.value (floatArith F) S n j x = .ok f) : P f := by
  rw [LagrangeBasis.value, makeIntegerSequence_ok (by omega), Res.ok_bind] at h
  obtain ⟨t, ht, hne⟩ : ∃ t : Int, t ∈ upTo 0 (n : Int) ∧ (j : Int) ≠ t := by
    rcases Nat.eq_zero_or_pos j with rfl | hj
    · exact ⟨1, mem_upTo.2 ⟨by omega, by omega⟩, by omega⟩
    · exact ⟨0, mem_upTo.2 ⟨by omega, by omega⟩, by omega⟩
  refine foldRight_sticky hP h (List.mem_map_of_mem ht) fun g hg => ?_
  rw [LagrangeBasis.valueProductTerm, if_neg hne] at hg
  obtain ⟨c, -, hg⟩ := Res.bind_eq_ok.1 hg
  obtain ⟨c', -, hg⟩ := Res.bind_eq_ok.1 hg
  obtain ⟨q, -, hg⟩ := Res.bind_eq_ok.1 hg
  cases hg
  exact hP.mull (hP.subl hx)

private def Any (_ _ : Flt) : Prop := True

private theorem any_ops (F : FloatFormat) : OpsRel (floatArith F) (floatArith F) Any :=
  ⟨fun _ => trivial, fun _ _ => trivial, fun _ _ => trivial, fun _ _ => trivial, fun _ => trivial⟩

private theorem any_refl (x : Res Flt) : ResRel False Any x x := fun a ha => .inl ⟨a, ha, trivial⟩

private theorem any_spacing (S : Spacing Flt) : SpacingRel False Any S S := ⟨rfl, fun _ => any_refl _, fun _ => any_refl _⟩

private theorem any_nodes (F : FloatFormat) (S : Spacing Flt) : NodeDivRel False (floatArith F) (floatArith F) Any S S := by
  intro i j a b a' b' h1 h2 h3 h4 _ _ _
  rw [h1] at h2
  rw [h3] at h4
  cases h2
  cases h4
  exact any_refl _

/-- A basis whose functions have results at all coordinates if they have results at one. -/
theorem any_basis {S : Int → Spacing Flt} {order : Int} {b : Basis Flt} (h : lagrangeBasis (floatArith F) S order = .ok b) :
    BasisRel False (fun _ _ => True) b b := by
  obtain ⟨n, -, h⟩ := Res.bind_eq_ok.1 h
  cases h
  exact ⟨rfl, fun i x y hx => basisValue_rel (any_ops F) (any_spacing _) (any_nodes F _) n i hx,
    fun i x y hx => basisGradient_rel (any_ops F) (any_spacing _) (any_nodes F _) n i hx⟩

theorem forall₂_any {l l' : List Flt} (h : l.length = l'.length) : List.Forall₂ (fun _ _ : Flt => True) l l' := by
  induction l generalizing l' with
  | nil => cases l' with
    | nil => exact .nil
    | cons => simp at h
  | cons a l ih => cases l' with
    | nil => simp at h
    | cons b l' => exact .cons trivial (ih (by simpa using h))

section product
variable {d : ℕ} {n : Fin d → ℕ} {b : Fin d → Basis Flt}

/-- Values and gradients of products exist at all coordinates if they exist at one. -/
theorem product_any (hb : ∀ k, BasisRel False (fun _ _ => True) (b k) (b k)) (idx : List Int) {x : Fin d → Flt} (y : Fin d → Flt) :
    (∀ f, BasisProduct.value (floatArith F) (List.ofFn b) idx (List.ofFn x) = .ok f →
      ∃ g, BasisProduct.value (floatArith F) (List.ofFn b) idx (List.ofFn y) = .ok g) ∧
    (∀ f : Fin d → Flt, BasisProduct.gradient (floatArith F) (List.ofFn b) idx (List.ofFn x) = .ok (List.ofFn f) →
      ∃ g : Fin d → Flt, BasisProduct.gradient (floatArith F) (List.ofFn b) idx (List.ofFn y) = .ok (List.ofFn g)) := by
  have he : ElementRel False (fun _ _ : Flt => True) (elementOf b) (elementOf b) := ⟨rfl, by
    show List.Forall₂ _ (List.ofFn b) (List.ofFn b)
    rw [List.forall₂_same]
    intro c hc
    obtain ⟨k, rfl⟩ := (List.mem_ofFn).1 hc
    exact hb k⟩
  have hx : List.Forall₂ (fun _ _ : Flt => True) (List.ofFn x) (List.ofFn y) := forall₂_any (by simp)
  constructor
  · intro f hf
    rcases productValue_rel (any_ops F) he hx idx f hf with ⟨g, hg, -⟩ | ⟨h, -⟩
    · exact ⟨g, hg⟩
    · exact h.elim
  · intro f hf
    rcases productGradient_rel (any_ops F) he hx idx _ hf with ⟨g, hg, hl⟩ | ⟨h, -⟩
    · obtain ⟨g', rfl⟩ := ofFn_length_eq (d := d) (l := g) (by rw [← hl.length_eq, List.length_ofFn])
      exact ⟨g', hg⟩
    · exact h.elim

theorem productValue_sticky (hP : Sticky F P) {j : (k : Fin d) → Fin (n k)} {x : Fin d → Flt} {f : Flt} (k : Fin d)
    (hb : ∀ g, (b k).value (j k : ℕ) (x k) = .ok g → P g)
    (h : BasisProduct.value (floatArith F) (List.ofFn b) (tup j) (List.ofFn x) = .ok f) : P f := by
  rw [BasisProduct.value, staticAssert_bind_true (by simp [tup_length]), show tup j = List.ofFn fun k => ((j k : ℕ) : Int) from rfl,
    expand_ofFn] at h
  refine foldRight_sticky hP h (List.mem_ofFn.2 ⟨k, rfl⟩) fun g hg => hb g ?_
  rwa [tableAt_ofFn, Res.ok_bind] at hg

end product

/-! ### the 3x3 inverse -/

/-- What `inverse` leaves if there are infinities or NaN among the entries. -/
theorem inverse_notFinite (N : Matrix (Fin 3) (Fin 3) Flt) {one : ℝ} (h1 : ((floatArith F).lit 1).datum = .finite one) :
    ∃ det after, inverseNative (floatArith F) (matMem N) = .ok (det, after) ∧
      (∀ P, Sticky F P → ∀ i j, P (N i j) → P det) ∧
      ((∃ i j, NotFinite (N i j)) → ∃ Q : Matrix (Fin 3) (Fin 3) Flt, after = .ok (matMem Q) ∧
        (∀ i j, NotFinite (N i j) → ∀ p q, p ≠ i → q ≠ j → IsNaN (Q q p)) ∧
        ∀ i j, IsNaN (N i j) → ∀ p q, IsNaN (Q q p)) := by
  obtain ⟨det, hdet⟩ : ∃ det, det = Flt.add F (Flt.add F (Flt.mul F (N 0 0) (Flt.sub F (Flt.mul F (N 1 1) (N 2 2)) (Flt.mul F (N 1 2) (N 2 1))))
      (Flt.mul F (N 1 0) (Flt.sub F (Flt.mul F (N 0 2) (N 2 1)) (Flt.mul F (N 0 1) (N 2 2)))))
      (Flt.mul F (N 2 0) (Flt.sub F (Flt.mul F (N 0 1) (N 1 2)) (Flt.mul F (N 0 2) (N 1 1)))) := ⟨_, rfl⟩
  have e := inverseNative_eq (floatArith F) (N 0 0) (N 0 1) (N 0 2) (N 1 0) (N 1 1) (N 1 2) (N 2 0) (N 2 1) (N 2 2)
  rw [← matMem_three] at e
  have hd : ∀ P, Sticky F P → ∀ i j, P (N i j) → P det := by
    intro P hP i j h
    rw [hdet]
    fin_cases i <;> fin_cases j
    · exact hP.addl (hP.addl (hP.mull h))
    · exact hP.addl (hP.addr (hP.mulr (hP.subr (hP.mull h))))
    · exact hP.addl (hP.addr (hP.mulr (hP.subl (hP.mull h))))
    · exact hP.addl (hP.addr (hP.mull h))
    · exact hP.addl (hP.addl (hP.mulr (hP.subl (hP.mull h))))
    · exact hP.addl (hP.addl (hP.mulr (hP.subr (hP.mull h))))
    · exact hP.addr (hP.mull h)
    · exact hP.addl (hP.addl (hP.mulr (hP.subr (hP.mulr h))))
    · exact hP.addl (hP.addl (hP.mulr (hP.subl (hP.mulr h))))
  refine ⟨_, _, e, fun P hP i j h => by have := hd P hP i j h; rw [hdet] at this; exact this, ?_⟩
  rintro ⟨i₀, j₀, h₀⟩
  obtain ⟨q, hq, hq0, hqn⟩ := div_notFinite (F := F) h1 (hd _ (sticky_notFinite F) i₀ j₀ h₀)
  have hq' : (floatArith F).div ((floatArith F).lit 1) det = .ok q := hq
  rw [hdet] at hq'
  refine ⟨!![Flt.mul F (Flt.sub F (Flt.mul F (N 1 1) (N 2 2)) (Flt.mul F (N 1 2) (N 2 1))) q,
      Flt.mul F (Flt.sub F (Flt.mul F (N 0 2) (N 2 1)) (Flt.mul F (N 0 1) (N 2 2))) q,
      Flt.mul F (Flt.sub F (Flt.mul F (N 0 1) (N 1 2)) (Flt.mul F (N 0 2) (N 1 1))) q;
      Flt.mul F (Flt.sub F (Flt.mul F (N 1 2) (N 2 0)) (Flt.mul F (N 1 0) (N 2 2))) q,
      Flt.mul F (Flt.sub F (Flt.mul F (N 0 0) (N 2 2)) (Flt.mul F (N 0 2) (N 2 0))) q,
      Flt.mul F (Flt.sub F (Flt.mul F (N 0 2) (N 1 0)) (Flt.mul F (N 0 0) (N 1 2))) q;
      Flt.mul F (Flt.sub F (Flt.mul F (N 1 0) (N 2 1)) (Flt.mul F (N 1 1) (N 2 0))) q,
      Flt.mul F (Flt.sub F (Flt.mul F (N 0 1) (N 2 0)) (Flt.mul F (N 0 0) (N 2 1))) q,
      Flt.mul F (Flt.sub F (Flt.mul F (N 0 0) (N 1 1)) (Flt.mul F (N 0 1) (N 1 0))) q], ?_, ?_, ?_⟩
  · rw [matMem_three]
    exact (congrArg (· >>= _) hq').trans rfl
  · intro i j h p q' hp hq1
    have S := sticky_notFinite F
    have key : ∀ {a b c d : Flt}, NotFinite a ∨ NotFinite b ∨ NotFinite c ∨ NotFinite d →
        IsNaN (Flt.mul F (Flt.sub F (Flt.mul F a b) (Flt.mul F c d)) q) := by
      rintro a b c d (h | h | h | h)
      · exact mul_nan (S.subl (S.mull h)) hq0
      · exact mul_nan (S.subl (S.mulr h)) hq0
      · exact mul_nan (S.subr (S.mull h)) hq0
      · exact mul_nan (S.subr (S.mulr h)) hq0
    fin_cases i <;> fin_cases j <;> fin_cases p <;> fin_cases q' <;>
      first
      | exact absurd rfl hp
      | exact absurd rfl hq1
      | exact key (.inl h)
      | exact key (.inr (.inl h))
      | exact key (.inr (.inr (.inl h)))
      | exact key (.inr (.inr (.inr h)))
  · intro i j h p q'
    have hn := hqn (hd _ (sticky_nan F) i j h)
    fin_cases p <;> fin_cases q' <;> exact (sticky_nan F).mulr hn

end Verif.Lemmas
