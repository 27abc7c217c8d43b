import Verif.Lemmas.NodalFloat
import Verif.Lemmas.MixedFloat

/-! Lagrange bases at mirrored points, in `float` and `double`. -/

namespace Verif.Lemmas

open Verif.Spec

section
variable {F : FloatFormat}

/-! ### changes of sign -/

theorem overflows_neg (x : ℝ) : F.Overflows (-x) ↔ F.Overflows x := by
  unfold FloatFormat.Overflows
  rw [nearest_neg, abs_neg]

theorem underflows_neg (x : ℝ) : F.Underflows (-x) ↔ F.Underflows x := by
  unfold FloatFormat.Underflows
  rw [nearest_neg, abs_neg, Ne, neg_inj]

theorem neg_sign {x : ℝ} (h : x ≠ 0) : decide (-x < 0) = !decide (x < 0) := by
  rcases lt_or_gt_of_ne h with h | h
  · rw [decide_eq_true h, decide_eq_false (by linarith)]; rfl
  · rw [decide_eq_true (by linarith : -x < 0), decide_eq_false (by linarith)]; rfl

theorem round_neg (r : Bool) (x : ℝ) : Flt.round F r (-x) = (Flt.round F r x).neg := by
  unfold Flt.round
  by_cases h : F.Overflows x
  · have h0 : x ≠ 0 := by
      rintro rfl
      unfold FloatFormat.Overflows at h
      rw [nearest_zero, abs_zero] at h
      exact absurd h (not_le.2 (by positivity))
    rw [if_pos h, if_pos ((overflows_neg x).2 h)]
    simp only [Flt.neg]
    congr 2
    have := neg_sign h0
    convert this
  · rw [if_neg h, if_neg (fun h' => h ((overflows_neg x).1 h'))]
    simp only [Flt.neg, nearest_neg]
    congr 2
    exact decide_eq_decide.2 (underflows_neg x)

theorem neg_neg_flt (a : Flt) : a.neg.neg = a := by
  rcases a with ⟨_ | _ | _, r⟩ <;> simp [Flt.neg]

theorem sub_neg_neg (a b : Flt) : Flt.sub F a.neg b.neg = (Flt.sub F a b).neg := by
  rcases a with ⟨x | s | _, r⟩ <;> rcases b with ⟨y | t | _, r'⟩ <;> simp only [Flt.sub, Flt.add, Flt.neg]
  · rw [show -x + - -y = -(x + -y) by ring, round_neg]; rfl
  · cases s <;> cases t <;> simp

theorem add_neg_neg (a b : Flt) : Flt.add F a.neg b.neg = (Flt.add F a b).neg := by
  rcases a with ⟨x | s | _, r⟩ <;> rcases b with ⟨y | t | _, r'⟩ <;> simp only [Flt.add, Flt.neg]
  · rw [show -x + -y = -(x + y) by ring, round_neg]; rfl
  · cases s <;> cases t <;> simp

theorem mul_neg_left (a b : Flt) : Flt.mul F a.neg b = (Flt.mul F a b).neg := by
  rcases a with ⟨x | s | _, r⟩ <;> rcases b with ⟨y | t | _, r'⟩ <;> simp only [Flt.mul, Flt.neg]
  · rw [neg_mul, round_neg]; rfl
  · by_cases h : x = 0
    · simp [h]
    · rw [if_neg h, if_neg (neg_ne_zero.2 h), neg_sign h]
      cases t <;> cases decide (x < 0) <;> rfl
  · by_cases h : y = 0
    · simp [h]
    · simp only [if_neg h]
      cases s <;> cases decide (y < 0) <;> rfl
  · cases s <;> cases t <;> rfl

theorem mul_flt_comm (a b : Flt) : Flt.mul F a b = Flt.mul F b a := by
  rcases a with ⟨x | s | _, r⟩ <;> rcases b with ⟨y | t | _, r'⟩ <;> simp only [Flt.mul, Bool.or_comm r r']
  · rw [mul_comm]
  · cases s <;> cases t <;> rfl

theorem add_flt_comm (a b : Flt) : Flt.add F a b = Flt.add F b a := by
  rcases a with ⟨x | s | _, r⟩ <;> rcases b with ⟨y | t | _, r'⟩ <;> simp only [Flt.add, Bool.or_comm r r']
  · rw [add_comm]
  · cases s <;> cases t <;> rfl

theorem mul_neg_right (a b : Flt) : Flt.mul F a b.neg = (Flt.mul F a b).neg := by
  rw [mul_flt_comm, mul_neg_left, mul_flt_comm]

theorem mul_neg_neg (a b : Flt) : Flt.mul F a.neg b.neg = Flt.mul F a b := by
  rw [mul_neg_left, mul_neg_right, neg_neg_flt]

theorem div_neg_right {a b z : Flt} (h : Flt.div F a b = .ok z) : Flt.div F a b.neg = .ok z.neg := by
  rcases a with ⟨x | s | _, r⟩ <;> rcases b with ⟨y | t | _, r'⟩ <;> simp only [Flt.div, Flt.neg] at h ⊢
  · by_cases h0 : y = 0
    · rw [if_pos h0] at h; cases h
    · rw [if_neg h0] at h
      rw [if_neg (neg_ne_zero.2 h0), div_neg, round_neg, Res.ok.inj h]; rfl
  · obtain rfl := Res.ok.inj h; simp
  · obtain rfl := Res.ok.inj h; rfl
  · by_cases h0 : y = 0
    · rw [if_pos h0] at h; cases h
    · rw [if_neg h0] at h
      rw [if_neg (neg_ne_zero.2 h0), neg_sign h0]
      obtain rfl := Res.ok.inj h
      cases s <;> cases decide (y < 0) <;> rfl
  all_goals obtain rfl := Res.ok.inj h; rfl

/-! ### numbers of the format -/

/-- A number of the format, an infinity or not a number. -/
def Held (F : FloatFormat) (f : Flt) : Prop := ∀ x, f.datum = .finite x → Represents F x

theorem mul_held (a b : Flt) : Held F (Flt.mul F a b) := by
  rcases a with ⟨x | s | _, r⟩ <;> rcases b with ⟨y | t | _, r'⟩ <;> intro z hz <;> simp only [Flt.mul] at hz <;>
    first | exact round_datum_represents hz | split_ifs at hz | cases hz

theorem round_held {x : ℝ} (h : Represents F x) (r : Bool) : Flt.round F r x = ⟨.finite x, r⟩ := by
  have ho : ¬ F.Overflows x := by
    unfold FloatFormat.Overflows
    rw [h.1]
    exact not_le.2 h.2
  have hu : ¬ F.Underflows x := fun hu => hu.2 h.1
  simp [Flt.round, ho, h.1, hu]

theorem mul_one_flt {a : Flt} (h : Held F a) : Flt.mul F a (Flt.ofReal 1) = a := by
  rcases a with ⟨x | s | _, r⟩ <;> simp only [Flt.mul, Flt.ofReal]
  · rw [mul_one, round_held (h x rfl), Bool.or_false]
  · rw [if_neg one_ne_zero, decide_eq_false (by norm_num : ¬ (1 : ℝ) < 0)]
    simp
  · simp

theorem one_mul_flt {a : Flt} (h : Held F a) : Flt.mul F (Flt.ofReal 1) a = a := by
  rw [mul_flt_comm, mul_one_flt h]

/-- Three factors of which one is 1, in reverse order. -/
theorem mul_three {x y z : Flt} (hx : Held F x) (hy : Held F y) (hz : Held F z)
    (h : x = Flt.ofReal 1 ∨ y = Flt.ofReal 1 ∨ z = Flt.ofReal 1) :
    Flt.mul F x (Flt.mul F y z) = Flt.mul F z (Flt.mul F y x) := by
  rcases h with rfl | rfl | rfl
  · rw [one_mul_flt (mul_held _ _), mul_one_flt hy, mul_flt_comm]
  · rw [one_mul_flt hz, one_mul_flt hx, mul_flt_comm]
  · rw [mul_one_flt hy, one_mul_flt (mul_held _ _), mul_flt_comm]

theorem add_finite {a b : Flt} (h : FiniteFlt (Flt.add F a b)) : FiniteFlt a ∧ FiniteFlt b := by
  rcases a with ⟨_ | _ | _, r⟩ <;> rcases b with ⟨_ | _ | _, s⟩ <;> obtain ⟨x, hx⟩ := h <;>
    simp only [Flt.add] at hx <;> first | exact ⟨⟨_, rfl⟩, ⟨_, rfl⟩⟩ | split_ifs at hx | cases hx

theorem add_zero_flt {x : ℝ} {r s : Bool} (h : Represents F x) : Flt.add F ⟨.finite x, r⟩ ⟨.finite 0, s⟩ = ⟨.finite x, r || s⟩ := by
  simp only [Flt.add, add_zero]
  exact round_held h _

theorem zero_add_flt {x : ℝ} {r s : Bool} (h : Represents F x) : Flt.add F ⟨.finite 0, s⟩ ⟨.finite x, r⟩ = ⟨.finite x, r || s⟩ := by
  rw [add_flt_comm, add_zero_flt h]

theorem add_held (a b : Flt) : Held F (Flt.add F a b) := by
  rcases a with ⟨x | s | _, r⟩ <;> rcases b with ⟨y | t | _, r'⟩ <;> intro z hz <;> simp only [Flt.add] at hz <;>
    first | exact round_datum_represents hz | split_ifs at hz | cases hz

theorem add_round_zero {r q : Bool} {x : ℝ} (h : FiniteFlt (Flt.round F r x)) :
    Flt.add F (Flt.round F r x) ⟨.finite 0, q⟩ = Flt.round F (r || q) x := by
  obtain ⟨w, hw⟩ := h
  have hw' := round_datum_represents hw
  by_cases ho : F.Overflows x
  · simp [Flt.round, ho] at hw
  · rcases e : Flt.round F r x with ⟨d, s⟩
    rw [e] at hw
    simp only at hw
    subst hw
    rw [add_zero_flt hw']
    simp only [Flt.round, if_neg ho, Flt.mk.injEq] at e ⊢
    rw [← e.1, ← e.2]
    refine ⟨rfl, ?_⟩
    cases r <;> cases q <;> simp

theorem round_finite {r q : Bool} {x : ℝ} (h : FiniteFlt (Flt.round F r x)) : FiniteFlt (Flt.round F q x) := by
  obtain ⟨w, hw⟩ := h
  by_cases ho : F.Overflows x
  · simp [Flt.round, ho] at hw
  · exact ⟨_, by simp [Flt.round, ho]; rfl⟩

/-- Three finite terms of which one is 0, in reverse order. -/
theorem add_three {x y z : Flt} (hx : Held F x) (hy : Held F y) (hz : Held F z)
    (h : x.datum = .finite 0 ∨ y.datum = .finite 0 ∨ z.datum = .finite 0) (hf : FiniteFlt (Flt.add F x (Flt.add F y z))) :
    Flt.add F x (Flt.add F y z) = Flt.add F z (Flt.add F y x) := by
  obtain ⟨⟨a, ha⟩, hfyz⟩ := add_finite hf
  obtain ⟨⟨b, hb⟩, ⟨c, hc⟩⟩ := add_finite hfyz
  have ha' := hx _ ha
  have hb' := hy _ hb
  have hc' := hz _ hc
  obtain ⟨dx, rx⟩ := x
  obtain ⟨dy, ry⟩ := y
  obtain ⟨dz, rz⟩ := z
  simp only at ha hb hc h
  subst ha hb hc
  have hfin : ∀ (u v : ℝ) (p q : Bool), Flt.add F ⟨.finite u, p⟩ ⟨.finite v, q⟩ = Flt.round F (p || q) (u + v) := fun _ _ _ _ => rfl
  rcases h with h | h | h <;> obtain rfl := Datum.finite.inj h
  · rw [add_zero_flt hb', add_flt_comm ⟨.finite 0, rx⟩, hfin, add_round_zero (by rwa [hfin] at hfyz), hfin, add_comm b c]
    congr 1
    cases rx <;> cases ry <;> cases rz <;> rfl
  · rw [zero_add_flt hc', zero_add_flt ha', hfin, hfin, add_comm a c]
    congr 1
    cases rx <;> cases ry <;> cases rz <;> rfl
  · rw [add_zero_flt hb', hfin] at hf
    rw [add_zero_flt hb', add_flt_comm ⟨.finite 0, rz⟩, hfin, hfin, add_comm b a, add_round_zero (round_finite hf)]
    congr 1
    cases rx <;> cases ry <;> cases rz <;> rfl

/-! ### basis functions -/

/-- Points that are mirror images of each other. -/
structure MirroredPoints (S : Spacing Flt) (n : ℕ) (C : Fin n → Flt) : Prop where
  coord : ∀ i : Fin n, S.coordCT (i : ℕ) = .ok (C i)
  rev : ∀ i : Fin n, C i.rev = (C i).neg

variable {S : Spacing Flt} {n : ℕ} {C : Fin n → Flt}

theorem valueTerm_mirror (hC : MirroredPoints S n C) {i a : Fin n} {X v : Flt}
    (h : LagrangeBasis.valueProductTerm (floatArith F) S (i : ℕ) (a : ℕ) X = .ok v) :
    LagrangeBasis.valueProductTerm (floatArith F) S (i.rev : ℕ) (a.rev : ℕ) X.neg = .ok v := by
  unfold LagrangeBasis.valueProductTerm at h ⊢
  by_cases e : i = a
  · subst e
    rw [if_pos rfl] at h ⊢
    exact h
  · rw [if_neg (by intro h'; exact e (Fin.ext (by exact_mod_cast h')))] at h
    rw [if_neg (by intro h'; exact e (Fin.rev_injective (Fin.ext (by exact_mod_cast h'))))]
    rw [hC.coord, hC.coord] at h
    rw [hC.coord, hC.coord, hC.rev, hC.rev]
    simp only [Res.constexpr_ok, Res.ok_bind] at h ⊢
    obtain ⟨d, hd, h⟩ := Res.bind_eq_ok.1 h
    have hd := eq_ok_of_constexpr hd
    obtain rfl := Res.ok.inj h
    have := div_neg_right hd
    rw [show (floatArith F).sub (C i) (C a) = Flt.sub F (C i) (C a) from rfl, ← sub_neg_neg] at this
    rw [show (floatArith F).div ((floatArith F).lit 1) ((floatArith F).sub (C i).neg (C a).neg) = .ok d.neg from this,
      Res.constexpr_ok, Res.ok_bind]
    show Res.ok (Flt.mul F (Flt.sub F X.neg (C a).neg) d.neg) = _
    rw [sub_neg_neg, mul_neg_neg]; rfl

theorem gradientOf_mirror (hC : MirroredPoints S n C) {i a : Fin n} {g : Flt}
    (h : LagrangeBasis.gradientOfValueTerm (floatArith F) S (i : ℕ) (a : ℕ) = .ok g) :
    LagrangeBasis.gradientOfValueTerm (floatArith F) S (i.rev : ℕ) (a.rev : ℕ) = .ok g.neg := by
  unfold LagrangeBasis.gradientOfValueTerm at h ⊢
  by_cases e : i = a
  · subst e
    rw [if_pos rfl] at h ⊢
    rw [← Res.ok.inj h, show (floatArith F).lit 0 = ⟨.finite 0, false⟩ by
      show Flt.round F false ((0 : ℚ) : ℝ) = _
      rw [Rat.cast_zero, round_zero]]
    simp [Flt.neg]
  · rw [if_neg (by intro h'; exact e (Fin.ext (by exact_mod_cast h')))] at h
    rw [if_neg (by intro h'; exact e (Fin.rev_injective (Fin.ext (by exact_mod_cast h'))))]
    rw [hC.coord, hC.coord] at h
    rw [hC.coord, hC.coord, hC.rev, hC.rev]
    simp only [Res.constexpr_ok, Res.ok_bind] at h ⊢
    have := div_neg_right h
    rw [show (floatArith F).sub (C i) (C a) = Flt.sub F (C i) (C a) from rfl, ← sub_neg_neg] at this
    exact this

theorem valueTerm_held {i a : Int} {X v : Flt} (h1 : (floatArith F).lit 1 = Flt.ofReal 1)
    (h : LagrangeBasis.valueProductTerm (floatArith F) S i a X = .ok v) :
    Held F v ∧ (i = a → v = Flt.ofReal 1) := by
  unfold LagrangeBasis.valueProductTerm at h
  by_cases e : i = a
  · rw [if_pos e, h1] at h
    obtain rfl := Res.ok.inj h
    refine ⟨fun x hx => ?_, fun _ => rfl⟩
    obtain rfl := Datum.finite.inj hx
    have : Flt.round F false ((1 : ℚ) : ℝ) = Flt.ofReal 1 := h1
    exact round_represents _ this
  · rw [if_neg e] at h
    obtain ⟨_, -, h⟩ := Res.bind_eq_ok.1 h
    obtain ⟨_, -, h⟩ := Res.bind_eq_ok.1 h
    obtain ⟨_, -, h⟩ := Res.bind_eq_ok.1 h
    obtain rfl := Res.ok.inj h
    exact ⟨mul_held _ _, fun h => absurd h e⟩

/-- Whether a factor can be computed does not depend on the coordinate. -/
theorem valueTerm_any {i a : Int} {X Y v : Flt} (h : LagrangeBasis.valueProductTerm (floatArith F) S i a X = .ok v) :
    ∃ w, LagrangeBasis.valueProductTerm (floatArith F) S i a Y = .ok w := by
  unfold LagrangeBasis.valueProductTerm at h ⊢
  by_cases e : i = a
  · rw [if_pos e]; exact ⟨_, rfl⟩
  · rw [if_neg e] at h ⊢
    obtain ⟨_, h1, h⟩ := Res.bind_eq_ok.1 h
    obtain ⟨_, h2, h⟩ := Res.bind_eq_ok.1 h
    obtain ⟨_, h3, h⟩ := Res.bind_eq_ok.1 h
    rw [h1, Res.ok_bind, h2, Res.ok_bind, h3, Res.ok_bind]
    exact ⟨_, rfl⟩

theorem value_terms {i : Int} {X f : Flt} (h : LagrangeBasis.value (floatArith F) S n i X = .ok f) (Y : Flt) :
    ∃ v : Fin n → Flt, ∀ a : Fin n, LagrangeBasis.valueProductTerm (floatArith F) S i (a : ℕ) Y = .ok (v a) := by
  unfold LagrangeBasis.value at h
  rw [makeIntegerSequence_ok (by omega), Res.ok_bind] at h
  have : ∀ a : Fin n, ∃ w, LagrangeBasis.valueProductTerm (floatArith F) S i (a : ℕ) Y = .ok w := fun a => by
    obtain ⟨v, hv⟩ := foldRight_ok_all h _ (List.mem_map_of_mem
      (f := fun a => LagrangeBasis.valueProductTerm (floatArith F) S i a X) (mem_upTo (i := ((a : ℕ) : Int)).2 ⟨by omega, by have := a.isLt; omega⟩))
    exact valueTerm_any hv
  choose v hv using this
  exact ⟨v, hv⟩

theorem value_eq_fold {i : Int} {X : Flt} {v : Fin n → Flt}
    (h : ∀ a : Fin n, LagrangeBasis.valueProductTerm (floatArith F) S i (a : ℕ) X = .ok (v a)) :
    LagrangeBasis.value (floatArith F) S n i X = foldRight (Flt.mul F) (List.ofFn fun a => .ok (v a)) := by
  unfold LagrangeBasis.value
  rw [makeIntegerSequence_ok (by omega), Res.ok_bind, mapUpTo]
  show foldRight (Flt.mul F) _ = _
  congr 2
  funext a
  exact h a

/-- **Values of functions of orders 1 and 2**, for every coordinate. -/
theorem value_mirror (h1 : (floatArith F).lit 1 = Flt.ofReal 1) (hn : n = 2 ∨ n = 3) (hC : MirroredPoints S n C) {i : Fin n} {Y f : Flt}
    (h : LagrangeBasis.value (floatArith F) S n (i : ℕ) Y = .ok f) (X : Flt) :
    ∃ f, LagrangeBasis.value (floatArith F) S n (i : ℕ) X = .ok f ∧
      LagrangeBasis.value (floatArith F) S n (i.rev : ℕ) X.neg = .ok f := by
  obtain ⟨v, hv⟩ := value_terms h X
  have hv' : ∀ a : Fin n, LagrangeBasis.valueProductTerm (floatArith F) S (i.rev : ℕ) (a : ℕ) X.neg = .ok (v a.rev) := fun a => by
    have := valueTerm_mirror hC (hv a.rev)
    rwa [Fin.rev_rev] at this
  have hheld := fun a => (valueTerm_held h1 (hv a)).1
  have hone : v i = Flt.ofReal 1 := (valueTerm_held h1 (hv i)).2 rfl
  rw [value_eq_fold hv, value_eq_fold hv']
  rcases hn with rfl | rfl
  · refine ⟨Flt.mul F (v 0) (v 1), rfl, ?_⟩
    show Res.ok (Flt.mul F (v 1) (v 0)) = _
    rw [mul_flt_comm]
  · refine ⟨Flt.mul F (v 0) (Flt.mul F (v 1) (v 2)), rfl, ?_⟩
    show Res.ok (Flt.mul F (v 2) (Flt.mul F (v 1) (v 0))) = _
    rw [mul_three (hheld 0) (hheld 1) (hheld 2)]
    fin_cases i
    · exact .inl hone
    · exact .inr (.inl hone)
    · exact .inr (.inr hone)

theorem gradient_eq_fold {i : Int} {X : Flt} {v γ P : Fin n → Flt} (h1 : (floatArith F).lit 1 = Flt.ofReal 1)
    (hv : ∀ a : Fin n, LagrangeBasis.valueProductTerm (floatArith F) S i (a : ℕ) X = .ok (v a))
    (hγ : ∀ a : Fin n, LagrangeBasis.gradientOfValueTerm (floatArith F) S i (a : ℕ) = .ok (γ a))
    (hP : ∀ a : Fin n, foldRight (Flt.mul F) (List.ofFn fun b => .ok (if b = a then Flt.ofReal 1 else v b)) = .ok (P a)) :
    LagrangeBasis.gradient (floatArith F) S n i X = foldRight (Flt.add F) (List.ofFn fun a => .ok (Flt.mul F (γ a) (P a))) := by
  unfold LagrangeBasis.gradient
  rw [makeIntegerSequence_ok (by omega), Res.ok_bind, sequenceRes_fin _ _ hv, Res.ok_bind, mapUpTo]
  show foldRight (Flt.add F) _ = _
  congr 2
  funext a
  unfold LagrangeBasis.gradientTerm
  rw [hγ, Res.ok_bind, mapUpTo]
  have : (List.ofFn fun b : Fin n => LagrangeBasis.valueProductFactor (floatArith F) (List.ofFn v) ((b : ℕ) : Int) ((a : ℕ) : Int))
      = List.ofFn fun b => .ok (if b = a then Flt.ofReal 1 else v b) := by
    congr 1
    funext b
    unfold LagrangeBasis.valueProductFactor
    by_cases e : b = a
    · rw [if_pos (by rw [e]), if_pos e, h1]
    · rw [if_neg (by intro h'; exact e (Fin.ext (by exact_mod_cast h'))), if_neg e, tableAt_ofFn]
  rw [this]
  show (foldRight (Flt.mul F) _ >>= _) = _
  rw [hP, Res.ok_bind]
  rfl

theorem gradientOf_terms {i : Int} {X g : Flt} (h : LagrangeBasis.gradient (floatArith F) S n i X = .ok g) :
    ∃ γ : Fin n → Flt, ∀ a : Fin n, LagrangeBasis.gradientOfValueTerm (floatArith F) S i (a : ℕ) = .ok (γ a) := by
  unfold LagrangeBasis.gradient at h
  rw [makeIntegerSequence_ok (by omega), Res.ok_bind] at h
  obtain ⟨w, -, h⟩ := Res.bind_eq_ok.1 h
  have : ∀ a : Fin n, ∃ γ, LagrangeBasis.gradientOfValueTerm (floatArith F) S i (a : ℕ) = .ok γ := fun a => by
    obtain ⟨v, hv⟩ := foldRight_ok_all h _ (List.mem_map_of_mem
      (f := fun a => LagrangeBasis.gradientTerm (floatArith F) S (upTo 0 n) i w a) (mem_upTo (i := ((a : ℕ) : Int)).2 ⟨by omega, by have := a.isLt; omega⟩))
    unfold LagrangeBasis.gradientTerm at hv
    obtain ⟨γ, hγ, -⟩ := Res.bind_eq_ok.1 hv
    exact ⟨γ, hγ⟩
  choose γ hγ using this
  exact ⟨γ, hγ⟩

/-- **Derivatives of functions of orders 1 and 2**, where they are finite. -/
theorem gradient_mirror (h1 : (floatArith F).lit 1 = Flt.ofReal 1) (hn : n = 2 ∨ n = 3) (hC : MirroredPoints S n C) {i : Fin n} {Y f : Flt}
    (hf : LagrangeBasis.value (floatArith F) S n (i : ℕ) Y = .ok f) {X g : Flt}
    (h : LagrangeBasis.gradient (floatArith F) S n (i : ℕ) X = .ok g) (hg : FiniteFlt g) :
    LagrangeBasis.gradient (floatArith F) S n (i.rev : ℕ) X.neg = .ok g.neg := by
  obtain ⟨v, hv⟩ := value_terms hf X
  obtain ⟨γ, hγ⟩ := gradientOf_terms h
  have hv' : ∀ a : Fin n, LagrangeBasis.valueProductTerm (floatArith F) S (i.rev : ℕ) (a : ℕ) X.neg = .ok (v a.rev) := fun a => by
    have := valueTerm_mirror hC (hv a.rev)
    rwa [Fin.rev_rev] at this
  have hγ' : ∀ a : Fin n, LagrangeBasis.gradientOfValueTerm (floatArith F) S (i.rev : ℕ) (a : ℕ) = .ok (γ a.rev).neg := fun a => by
    have := gradientOf_mirror hC (hγ a.rev)
    rwa [Fin.rev_rev] at this
  have hheld := fun a => (valueTerm_held h1 (hv a)).1
  have h1' : Held F (Flt.ofReal 1) := by
    have := hheld i
    rwa [(valueTerm_held h1 (hv i)).2 rfl] at this
  have hzero : γ i = ⟨.finite 0, false⟩ := by
    have := hγ i
    unfold LagrangeBasis.gradientOfValueTerm at this
    rw [if_pos rfl] at this
    refine (Res.ok.inj this).symm.trans ?_
    show Flt.round F false ((0 : ℚ) : ℝ) = _
    rw [Rat.cast_zero, round_zero]
  rcases hn with rfl | rfl
  · have hP : ∀ (u : Fin 2 → Flt) (a : Fin 2), foldRight (Flt.mul F) (List.ofFn fun b => .ok (if b = a then Flt.ofReal 1 else u b))
        = .ok (Flt.mul F (if 0 = a then Flt.ofReal 1 else u 0) (if 1 = a then Flt.ofReal 1 else u 1)) := fun _ _ => rfl
    rw [gradient_eq_fold h1 hv hγ (hP v)] at h
    rw [gradient_eq_fold h1 hv' hγ' (hP fun a => v a.rev)]
    obtain rfl := Res.ok.inj h
    show Res.ok (Flt.add F (Flt.mul F (γ 1).neg (Flt.mul F (Flt.ofReal 1) (v 0))) (Flt.mul F (γ 0).neg (Flt.mul F (v 1) (Flt.ofReal 1)))) =
      .ok (Flt.add F (Flt.mul F (γ 0) (Flt.mul F (Flt.ofReal 1) (v 1))) (Flt.mul F (γ 1) (Flt.mul F (v 0) (Flt.ofReal 1)))).neg
    rw [mul_neg_left, mul_neg_left, add_neg_neg, add_flt_comm, mul_flt_comm (v 1), mul_flt_comm (v 0)]
  · have hP : ∀ (u : Fin 3 → Flt) (a : Fin 3), foldRight (Flt.mul F) (List.ofFn fun b => .ok (if b = a then Flt.ofReal 1 else u b))
        = .ok (Flt.mul F (if 0 = a then Flt.ofReal 1 else u 0) (Flt.mul F (if 1 = a then Flt.ofReal 1 else u 1)
          (if 2 = a then Flt.ofReal 1 else u 2))) := fun _ _ => rfl
    rw [gradient_eq_fold h1 hv hγ (hP v)] at h
    rw [gradient_eq_fold h1 hv' hγ' (hP fun a => v a.rev)]
    obtain rfl := Res.ok.inj h
    show Res.ok (Flt.add F (Flt.mul F (γ 2).neg (Flt.mul F (Flt.ofReal 1) (Flt.mul F (v 1) (v 0))))
        (Flt.add F (Flt.mul F (γ 1).neg (Flt.mul F (v 2) (Flt.mul F (Flt.ofReal 1) (v 0))))
          (Flt.mul F (γ 0).neg (Flt.mul F (v 2) (Flt.mul F (v 1) (Flt.ofReal 1)))))) =
      .ok (Flt.add F (Flt.mul F (γ 0) (Flt.mul F (Flt.ofReal 1) (Flt.mul F (v 1) (v 2))))
        (Flt.add F (Flt.mul F (γ 1) (Flt.mul F (v 0) (Flt.mul F (Flt.ofReal 1) (v 2))))
          (Flt.mul F (γ 2) (Flt.mul F (v 0) (Flt.mul F (v 1) (Flt.ofReal 1)))))).neg
    change FiniteFlt (Flt.add F (Flt.mul F (γ 0) (Flt.mul F (Flt.ofReal 1) (Flt.mul F (v 1) (v 2))))
        (Flt.add F (Flt.mul F (γ 1) (Flt.mul F (v 0) (Flt.mul F (Flt.ofReal 1) (v 2))))
          (Flt.mul F (γ 2) (Flt.mul F (v 0) (Flt.mul F (v 1) (Flt.ofReal 1)))))) at hg
    rw [mul_neg_left, mul_neg_left, mul_neg_left, add_neg_neg, add_neg_neg,
      mul_three h1' (hheld 1) (hheld 0) (.inl rfl), mul_three (hheld 2) h1' (hheld 0) (.inr (.inl rfl)),
      mul_three (hheld 2) (hheld 1) h1' (.inr (.inr rfl))]
    refine congrArg (fun a => Res.ok a.neg) (add_three (mul_held _ _) (mul_held _ _) (mul_held _ _) ?_ hg).symm
    obtain ⟨hf0, hfr⟩ := add_finite hg
    obtain ⟨hf1, hf2⟩ := add_finite hfr
    have hz : ∀ u : Flt, FiniteFlt (Flt.mul F (γ i) u) → (Flt.mul F (γ i) u).datum = .finite 0 := fun u hu =>
      mul_zero_left (by rw [hzero]) (mul_finite hu).2
    fin_cases i
    · exact .inl (hz _ hf0)
    · exact .inr (.inl (hz _ hf1))
    · exact .inr (.inr (hz _ hf2))

/-! ### products -/

/-- Changing the sign of one factor changes the sign of the product. -/
theorem foldRight_modify {l : List Flt} {j : ℕ} (hj : j < l.length) {y : Flt} (h : foldRight (Flt.mul F) (l.map .ok) = .ok y) :
    foldRight (Flt.mul F) ((l.modify j Flt.neg).map .ok) = .ok y.neg := by
  induction l generalizing j y with
  | nil => cases hj
  | cons a l ih =>
    cases l with
    | nil =>
      obtain rfl : j = 0 := by simpa using hj
      obtain rfl := Res.ok.inj h
      rfl
    | cons b l =>
      rw [List.map_cons, List.map_cons, foldRight, Res.ok_bind] at h
      obtain ⟨z, hz, h⟩ := Res.bind_eq_ok.1 h
      obtain rfl := Res.ok.inj h
      cases j with
      | zero =>
        show foldRight (Flt.mul F) (.ok a.neg :: .ok b :: l.map .ok) = _
        rw [foldRight, Res.ok_bind]
        show (foldRight (Flt.mul F) ((b :: l).map .ok) >>= _) = _
        rw [show foldRight (Flt.mul F) ((b :: l).map .ok) = .ok z from hz, Res.ok_bind, mul_neg_left]
      | succ j =>
        have := ih (j := j) (by simpa using hj) hz
        rw [List.modify_succ_cons]
        rcases e : (b :: l).modify j Flt.neg with _ | ⟨b', l'⟩
        · have := congrArg List.length e
          simp at this
        · rw [e] at this
          rw [List.map_cons, List.map_cons, foldRight, Res.ok_bind, ← List.map_cons, this, Res.ok_bind, mul_neg_right]

/-- A product of which all factors are known. -/
theorem foldRight_exists {l : List Flt} (hl : l ≠ []) : ∃ y, foldRight (Flt.mul F) (l.map .ok) = .ok y := by
  induction l with
  | nil => exact absurd rfl hl
  | cons a l ih =>
    cases l with
    | nil => exact ⟨a, rfl⟩
    | cons b l =>
      obtain ⟨y, hy⟩ := ih (by simp)
      rw [List.map_cons, List.map_cons, foldRight, Res.ok_bind, ← List.map_cons, hy, Res.ok_bind]
      exact ⟨_, rfl⟩

theorem foldRight_finite {l : List Flt} {y : Flt} (h : foldRight (Flt.mul F) (l.map .ok) = .ok y) (hy : FiniteFlt y) :
    ∀ a ∈ l, FiniteFlt a := by
  induction l generalizing y with
  | nil => cases h
  | cons a l ih =>
    cases l with
    | nil =>
      obtain rfl := Res.ok.inj h
      intro x hx
      rwa [List.mem_singleton.1 hx]
    | cons b l =>
      rw [List.map_cons, List.map_cons, foldRight, Res.ok_bind] at h
      obtain ⟨z, hz, h⟩ := Res.bind_eq_ok.1 h
      obtain rfl := Res.ok.inj h
      obtain ⟨h1, h2⟩ := mul_finite hy
      intro x hx
      rcases List.mem_cons.1 hx with rfl | hx
      · exact h1
      · exact ih hz h2 x hx

section tensor
variable {d : ℕ} {m : Fin d → ℕ} {b : Fin d → Basis Flt}

theorem productValue_fold (idx : (k : Fin d) → Fin (m k)) (x : Fin d → Flt) :
    BasisProduct.value (floatArith F) (List.ofFn b) (tup idx) (List.ofFn x)
      = foldRight (Flt.mul F) (List.ofFn fun k => (b k).value ((idx k : ℕ) : Int) (x k)) := by
  unfold BasisProduct.value
  rw [staticAssert_bind_true (by simp [tup_length]), tup, expand_ofFn]
  show foldRight (Flt.mul F) _ = _
  congr 2
  funext k
  rw [tableAt_ofFn, Res.ok_bind]

theorem productGradient_fold (hd : 0 < d) (idx : (k : Fin d) → Fin (m k)) (x : Fin d → Flt) :
    BasisProduct.gradient (floatArith F) (List.ofFn b) (tup idx) (List.ofFn x)
      = sequenceRes (List.ofFn fun a : Fin d => foldRight (Flt.mul F) (List.ofFn fun k =>
          if a = k then (b k).gradient ((idx k : ℕ) : Int) (x k) else (b k).value ((idx k : ℕ) : Int) (x k))) := by
  unfold BasisProduct.gradient
  rw [staticAssert_bind_true (by simp [tup_length]), staticAssert_bind_true (by simpa using hd),
    List.length_ofFn, makeIntegerSequence_ok (by omega), Res.ok_bind, mapUpTo]
  congr 2
  funext a
  rw [tup, expand_ofFn]
  show foldRight (Flt.mul F) _ = _
  congr 2
  funext k
  rw [BasisProduct.gradientComponentHelper, tableAt_ofFn, Res.ok_bind]
  by_cases e : a = k
  · subst e; rw [if_pos rfl, if_pos rfl]
  · rw [if_neg (by intro h; exact e (Fin.ext (by exact_mod_cast h))), if_neg e]

theorem sequenceRes_inv {l : List (Res Flt)} {m : List Flt} (h : sequenceRes l = .ok m) : l = m.map .ok := by
  induction l generalizing m with
  | nil => rw [sequenceRes] at h; rw [← Res.ok.inj h]; rfl
  | cons x l ih =>
    rw [sequenceRes] at h
    obtain ⟨a, ha, h1⟩ := Res.bind_eq_ok.1 h
    obtain ⟨as, has, h2⟩ := Res.bind_eq_ok.1 h1
    rw [← Res.ok.inj h2, ih has, ha]; rfl

/-- Shape functions at a point some of whose coordinates are mirrored. -/
theorem product_mirror (hd : 0 < d) {idx idx' : (k : Fin d) → Fin (m k)} {x x' : Fin d → Flt} (mirrored : Fin d → Bool)
    (hv : ∀ k, ∃ f, (b k).value ((idx k : ℕ) : Int) (x k) = .ok f ∧ (b k).value ((idx' k : ℕ) : Int) (x' k) = .ok f)
    (hg : ∀ k g, (b k).gradient ((idx k : ℕ) : Int) (x k) = .ok g → FiniteFlt g →
      (b k).gradient ((idx' k : ℕ) : Int) (x' k) = .ok (if mirrored k then g.neg else g)) :
    (∃ f, BasisProduct.value (floatArith F) (List.ofFn b) (tup idx) (List.ofFn x) = .ok f ∧
      BasisProduct.value (floatArith F) (List.ofFn b) (tup idx') (List.ofFn x') = .ok f) ∧
    ∀ g : Fin d → Flt, BasisProduct.gradient (floatArith F) (List.ofFn b) (tup idx) (List.ofFn x) = .ok (List.ofFn g) →
      (∀ a, FiniteFlt (g a)) →
      BasisProduct.gradient (floatArith F) (List.ofFn b) (tup idx') (List.ofFn x')
        = .ok (List.ofFn fun a => if mirrored a then (g a).neg else g a) := by
  choose v hv hv' using hv
  refine ⟨?_, fun g h hfin => ?_⟩
  · rw [productValue_fold, productValue_fold]
    simp only [hv, hv']
    obtain ⟨y, hy⟩ := foldRight_exists (F := F) (l := List.ofFn v) (by intro h; have := congrArg List.length h; simp at this; omega)
    rw [List.map_ofFn] at hy
    exact ⟨y, hy, hy⟩
  · rw [productGradient_fold hd] at h ⊢
    have h := sequenceRes_inv h
    rw [List.map_ofFn, List.ofFn_inj] at h
    have hcomp : ∀ a : Fin d, foldRight (Flt.mul F) (List.ofFn fun k =>
        if a = k then (b k).gradient ((idx' k : ℕ) : Int) (x' k) else (b k).value ((idx' k : ℕ) : Int) (x' k))
          = .ok (if mirrored a then (g a).neg else g a) := by
      intro a
      have ha := congrFun h a
      simp only [Function.comp_apply] at ha
      obtain ⟨γ, hγ⟩ := foldRight_ok_all ha _ (List.mem_ofFn.2 ⟨a, rfl⟩)
      rw [if_pos rfl] at hγ
      have e : (fun k => if a = k then (b k).gradient ((idx k : ℕ) : Int) (x k) else (b k).value ((idx k : ℕ) : Int) (x k))
          = fun k => .ok (if a = k then γ else v k) := by
        funext k
        by_cases e : a = k
        · subst e; rw [if_pos rfl, if_pos rfl, hγ]
        · rw [if_neg e, if_neg e, hv]
      rw [e, show (List.ofFn fun k => Res.ok (if a = k then γ else v k)) = (List.ofFn fun k => if a = k then γ else v k).map .ok by
        rw [List.map_ofFn]; rfl] at ha
      have hγfin : FiniteFlt γ := by
        have := foldRight_finite ha (hfin a) _ (List.mem_ofFn.2 ⟨a, rfl⟩)
        rwa [if_pos rfl] at this
      have hγ' := hg a γ hγ hγfin
      have e' : (fun k => if a = k then (b k).gradient ((idx' k : ℕ) : Int) (x' k) else (b k).value ((idx' k : ℕ) : Int) (x' k))
          = fun k => .ok (if a = k then (if mirrored a then γ.neg else γ) else v k) := by
        funext k
        by_cases e : a = k
        · subst e; rw [if_pos rfl, if_pos rfl, hγ']
        · rw [if_neg e, if_neg e, hv']
      rw [e', show (List.ofFn fun k => Res.ok (if a = k then (if mirrored a then γ.neg else γ) else v k))
        = (List.ofFn fun k => if a = k then (if mirrored a then γ.neg else γ) else v k).map .ok by rw [List.map_ofFn]; rfl]
      cases hm : mirrored a
      · simp only [Bool.false_eq_true, if_false]; exact ha
      · simp only [if_true]
        have := foldRight_modify (j := (a : ℕ)) (by simp) ha
        rw [← this]
        congr 2
        apply List.ext_getElem
        · simp
        · intro j h1 h2
          rw [List.getElem_modify, List.getElem_ofFn, List.getElem_ofFn]
          by_cases e : (a : ℕ) = j
          · subst e; simp
          · rw [if_neg (by intro h; exact e (by rw [h])), if_neg e, if_neg (by intro h; exact e (by rw [h]))]
    have := sequenceRes_ok (List.finRange d) (fun a : Fin d => if mirrored a then (g a).neg else g a)
    rw [← List.ofFn_eq_map, ← List.ofFn_eq_map] at this
    simp only [hcomp]
    exact this

end tensor

/-! ### evaluation -/

/-- Point `i`, if known. -/
def knownPoint (T : RealType) (fam : Family) (order : ℕ) (i : Int) : Option ℚ :=
  match (fam.spacingIn (evalIn T) ((order + 1 : ℕ) : Int)).coordCT i with
  | .ok q => q
  | _ => none

theorem knownPoint_sound {T : RealType} {fam : Family} {order : ℕ} {i : Int} {q : ℚ} (h : knownPoint T fam order i = some q) :
    (fam.spacingIn T.arith ((order + 1 : ℕ) : Int)).coordCT i = .ok (Flt.ofReal q) := by
  unfold knownPoint at h
  split at h
  · next e =>
    subst h
    exact eval_known ((family_rel (evalIn_rel T) fam ((order + 1 : ℕ) : Int)).ct i) e
  · cases h

theorem points_mirrored : ∀ T ∈ types, ∀ fam ∈ [Family.equal, .gaussLegendre, .gaussLobatto], ∀ order ∈ [1, 2], ∀ i : Fin (order + 1),
    (knownPoint T fam order (i : ℕ)).isSome = true ∧
      knownPoint T fam order (i.rev : ℕ) = (knownPoint T fam order (i : ℕ)).map (- ·) := by decide +kernel

theorem mirrored_points (T : RealType) (fam : Family) {order : ℕ} (h : order = 1 ∨ order = 2) :
    ∃ C, MirroredPoints (fam.spacingIn T.arith ((order + 1 : ℕ) : Int)) (order + 1) C := by
  have hp := points_mirrored T (mem_types T) fam (by cases fam <;> simp) order (by rcases h with h | h <;> simp [h])
  have hq : ∀ i : Fin (order + 1), ∃ q, knownPoint T fam order (i : ℕ) = some q := fun i => Option.isSome_iff_exists.1 (hp i).1
  choose q hq using hq
  refine ⟨fun i => Flt.ofReal (q i), fun i => knownPoint_sound (hq i), fun i => ?_⟩
  have := (hp i).2
  rw [hq, hq, Option.map_some] at this
  rw [Option.some.inj this, Rat.cast_neg]
  rfl

/-- `value< i >( x )`, if known. -/
def knownValue (T : RealType) (fam : Family) (order : ℕ) (i : Int) (x : ℚ) : Option ℚ :=
  match LagrangeBasis.value (evalArith T.format) (fam.spacingIn (evalIn T) ((order + 1 : ℕ) : Int)) ((order + 1 : ℕ) : Int) i (some x) with
  | .ok q => q
  | _ => none

theorem knownValue_sound {T : RealType} {fam : Family} {order : ℕ} {i : Int} {x q : ℚ} (h : knownValue T fam order i x = some q) :
    LagrangeBasis.value (floatArith T.format) (fam.spacingIn T.arith ((order + 1 : ℕ) : Int)) ((order + 1 : ℕ) : Int) i (Flt.ofReal x)
      = .ok (Flt.ofReal q) := by
  unfold knownValue at h
  split at h
  · next e =>
    subst h
    have hs := family_rel (evalIn_rel T) fam ((order + 1 : ℕ) : Int)
    have he : ArithRel False (evalArith T.format) (floatArith T.format) Knows := eval_rel T.format
    have hd : NodeDivRel False (evalArith T.format) (floatArith T.format) Knows
        (fam.spacingIn (evalIn T) ((order + 1 : ℕ) : Int)) (fam.spacingIn T.arith ((order + 1 : ℕ) : Int)) :=
      fun _ _ _ _ _ h1 h2 => he.div (he.lit _) (he.sub h1 h2)
    refine eval_known (basisValue_rel he.toOpsRel hs hd _ _ (y := Flt.ofReal x) ?_) e
    intro q hq
    obtain rfl := Option.some.inj hq
    rfl
  · cases h

/-- A function and sixteen times a point where mirroring changes the value. -/
def mirrorWitness : RealType → Family → ℕ → ℕ × ℤ
  | .float, .equal, 3 => (1, -15)
  | .float, .equal, 5 => (1, -15)
  | .float, .gaussLegendre, _ => (2, -14)
  | .float, .gaussLobatto, 3 => (1, -14)
  | .float, .gaussLobatto, 4 => (1, -14)
  | .float, .gaussLobatto, 7 => (1, -15)
  | .double, .equal, 3 => (1, -15)
  | .double, .gaussLegendre, _ => (2, -14)
  | .double, .gaussLobatto, 3 => (1, -15)
  | .double, .gaussLobatto, 4 => (1, -15)
  | .double, .gaussLobatto, 5 => (3, -15)
  | .double, .gaussLobatto, 6 => (1, -15)
  | _, _, _ => (0, -15)

/-- Mirroring changes the value of function `w.1` at `w.2 / 16`. -/
def mirrorDiffers (T : RealType) (fam : Family) (order : ℕ) (w : ℕ × ℤ) : Bool :=
  match knownValue T fam order w.1 (w.2 / 16), knownValue T fam order ((order - w.1 : ℕ) : Int) (-(w.2 / 16)) with
  | some y, some z => decide (y ≠ z) && decide (w.1 ≤ order) && decide (|w.2| ≤ 16) && decide (evalRound T.format (w.2 / 16) = some (w.2 / 16 : ℚ))
  | _, _ => false

theorem mirror_equal_float : ∀ order ∈ [3, 4, 5, 6, 7, 8],
    mirrorDiffers .float .equal order (mirrorWitness .float .equal order) = true := by decide +kernel

theorem mirror_equal_double : ∀ order ∈ [3, 4, 5, 6, 7, 8],
    mirrorDiffers .double .equal order (mirrorWitness .double .equal order) = true := by decide +kernel

theorem mirror_legendre : ∀ T ∈ types,
    mirrorDiffers T .gaussLegendre 3 (mirrorWitness T .gaussLegendre 3) = true := by decide +kernel

theorem mirror_lobatto_float : ∀ order ∈ [3, 4, 5, 6, 7, 8],
    mirrorDiffers .float .gaussLobatto order (mirrorWitness .float .gaussLobatto order) = true := by decide +kernel

theorem mirror_lobatto_double : ∀ order ∈ [3, 4, 5, 6, 7, 8],
    mirrorDiffers .double .gaussLobatto order (mirrorWitness .double .gaussLobatto order) = true := by decide +kernel

theorem mirrorDiffers_spec {T : RealType} {fam : Family} {order : ℕ} {w : ℕ × ℤ} (h : mirrorDiffers T fam order w = true) :
    ∃ (i : Fin (order + 1)) (x y z : ℚ), |x| ≤ 1 ∧ Represents T.format (x : ℝ) ∧ y ≠ z ∧
      knownValue T fam order (i : ℕ) x = some y ∧ knownValue T fam order (i.rev : ℕ) (-x) = some z := by
  unfold mirrorDiffers at h
  split at h
  · next y z hy hz =>
    simp only [Bool.and_eq_true, decide_eq_true_eq] at h
    obtain ⟨⟨⟨h1, h2⟩, h3⟩, h4⟩ := h
    refine ⟨⟨w.1, by omega⟩, w.2 / 16, y, z, ?_, round_represents _ (evalRound_sound _ h4), h1, hy, ?_⟩
    · have h3 : (|w.2| : ℚ) ≤ 16 := by exact_mod_cast h3
      rw [abs_div, abs_of_pos (by norm_num : (0 : ℚ) < 16)]
      exact (div_le_one (by norm_num)).2 h3
    · rw [Fin.val_rev]
      simpa using hz
  · cases h

end

end Verif.Lemmas
