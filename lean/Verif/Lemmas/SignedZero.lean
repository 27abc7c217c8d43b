import Verif.Spec.SignedZero
import Verif.Lemmas.KnownTables
import Verif.Lemmas.NonFinite

/-!
Runs with signed zeros and without.
-/

namespace Verif.Lemmas

open Verif.Spec

/-- `a` is `b` without the sign of zero. -/
def Unsigned (a : Flt) (b : SFlt) : Prop := unsigned b = a

theorem unsigned_round (F : FloatFormat) (r s : Bool) (x : ℝ) : unsigned (SFlt.round F r s x) = Flt.round F r x := by
  unfold SFlt.round Flt.round
  split_ifs <;> rfl

theorem unsigned_neg (b : SFlt) : unsigned (SFlt.neg b) = Flt.neg (unsigned b) := by
  obtain ⟨d, r⟩ := b
  cases d <;> rfl

theorem unsigned_add (F : FloatFormat) (a b : SFlt) : unsigned (SFlt.add F a b) = Flt.add F (unsigned a) (unsigned b) := by
  obtain ⟨d, r⟩ := a
  obtain ⟨e, q⟩ := b
  cases d <;> cases e <;> try rfl
  · exact unsigned_round ..
  · show unsigned (if _ then _ else _) = if _ then _ else _
    split_ifs <;> rfl

theorem unsigned_mul (F : FloatFormat) (a b : SFlt) : unsigned (SFlt.mul F a b) = Flt.mul F (unsigned a) (unsigned b) := by
  obtain ⟨d, r⟩ := a
  obtain ⟨e, q⟩ := b
  cases d <;> cases e <;> try rfl
  · exact unsigned_round ..
  · show unsigned (if _ then _ else _) = if _ then _ else _
    split_ifs <;> rfl
  · show unsigned (if _ then _ else _) = if _ then _ else _
    split_ifs <;> rfl

theorem unsigned_div (F : FloatFormat) (a b : SFlt) {q : Flt} (h : Flt.div F (unsigned a) (unsigned b) = .ok q) :
    unsigned (SFlt.div F a b) = q := by
  obtain ⟨d, r⟩ := a
  obtain ⟨e, p⟩ := b
  cases d with
  | nan => cases e <;> exact Res.ok.inj h
  | inf s => cases e with
    | nan => exact Res.ok.inj h
    | inf t => exact Res.ok.inj h
    | finite t y =>
      change (if y = 0 then Res.nonfinite else Res.ok (⟨.inf (s != decide (y < 0)), r || p⟩ : Flt)) = _ at h
      split_ifs at h with hy
      rw [← Res.ok.inj h]
      show (⟨.inf (s != SFlt.sign t y), r || p⟩ : Flt) = _
      rw [SFlt.sign, if_neg hy]
  | finite s x => cases e with
    | nan => exact Res.ok.inj h
    | inf t => exact Res.ok.inj h
    | finite t y =>
      change (if y = 0 then Res.nonfinite else Res.ok (Flt.round F (r || p) (x / y))) = _ at h
      split_ifs at h with hy
      rw [← Res.ok.inj h]
      show unsigned (if y = 0 then _ else _) = _
      rw [if_neg hy]
      exact unsigned_round ..

theorem unsigned_convert (F : FloatFormat) (a : SFlt) : unsigned (SFlt.convert F a) = Flt.convert F (unsigned a) := by
  obtain ⟨d, r⟩ := a
  cases d <;> try rfl
  exact unsigned_round ..

theorem unsigned_arith (F : FloatFormat) : ArithRel False (floatArith F) (signedArith F) Unsigned where
  lit q := unsigned_round ..
  add h h' := by subst h; subst h'; exact unsigned_add ..
  sub h h' := by
    subst h; subst h'
    exact (unsigned_add ..).trans (congrArg _ (unsigned_neg _))
  mul h h' := by subst h; subst h'; exact unsigned_mul ..
  neg h := by subst h; exact unsigned_neg _
  div h h' := by
    subst h; subst h'
    exact fun q hq => .inl ⟨_, rfl, unsigned_div F _ _ hq⟩

/-! ### expressions with `double` literals -/

section mixed
variable {R S V W : Type} {p : Prop}

variable {M : Mixed R V} {N : Mixed S W} {ρ : R → S → Prop} {τ : V → W → Prop} (h : MixedRel p M N ρ τ)
include h

theorem mixed_term_rel {s : Spacing R} {t : Spacing S} (hs : SpacingRel p ρ s t) (bf term : Int) {x : R} {y : S} (hx : ρ x y) :
    ResRel p ρ (Mixed.LagrangeBasis.valueProductTerm M s bf term x) (Mixed.LagrangeBasis.valueProductTerm N t bf term y) := by
  unfold Mixed.LagrangeBasis.valueProductTerm
  refine .ite (.ok (h.lit _)) ?_
  exact (hs.ct _).constexpr.bind fun a b hab => (hs.ct _).constexpr.bind fun a' b' hab' =>
    (h.wide.div (h.wide.lit _) (h.widen (h.real.sub hab' hab))).constexpr.bind
      fun d e hd => .ok (h.real.mul (h.real.sub hx hab) (h.narrow hd))

theorem mixed_basis_rel (order : Int) {S' : Int → Spacing R} {T' : Int → Spacing S} (hS : ∀ n, SpacingRel p ρ (S' n) (T' n))
    {b : Basis R} {b' : Basis S} (hb : M.lagrangeBasis S' order = .ok b) (hb' : N.lagrangeBasis T' order = .ok b') :
    BasisRel p ρ b b' := by
  obtain ⟨n, h1, h2⟩ := Res.bind_eq_ok.1 hb
  obtain ⟨n', h3, h4⟩ := Res.bind_eq_ok.1 hb'
  cases h1.symm.trans h3
  cases h2
  cases h4
  refine ⟨rfl, fun i x y hx => ?_, fun i x y hx => ?_⟩
  · exact .bindEq fun is => foldRight_rel h.real.toOpsRel.mul (forall₂_map is fun a => mixed_term_rel h (hS n) i a hx)
  · show ResRel p ρ (Mixed.LagrangeBasis.gradient M (S' n) n i x) (Mixed.LagrangeBasis.gradient N (T' n) n i y)
    unfold Mixed.LagrangeBasis.gradient
    refine .bindEq fun is => (sequenceRes_rel (forall₂_map is fun a => mixed_term_rel h (hS n) i a hx)).bind
      fun v v' hv => foldRight_rel h.real.toOpsRel.add (forall₂_map is fun a => ?_)
    unfold Mixed.LagrangeBasis.gradientTerm Mixed.LagrangeBasis.gradientOfValueTerm
    refine ResRel.bind (ρ := ρ) ?_ fun g g' hg => ?_
    · refine .ite (.ok (h.lit _)) ?_
      exact ((hS n).ct _).constexpr.bind fun a b hab => ((hS n).ct _).constexpr.bind fun a' b' hab' =>
        (h.wide.div (h.wide.lit _) (h.widen (h.real.sub hab' hab))).bind fun d e hd => .ok (h.narrow hd)
    refine (foldRight_rel h.real.toOpsRel.mul (forall₂_map is fun b => ?_)).bind fun q q' hq => .ok (h.real.mul hg hq)
    unfold Mixed.LagrangeBasis.valueProductFactor
    exact .ite (.ok (h.lit _)) (tableAt_rel hv _)

end mixed

theorem unsigned_mixed (T : RealType) : MixedRel False T.arith T.signed Unsigned Unsigned := by
  cases T with
  | float => exact ⟨unsigned_arith binary32, unsigned_arith binary64, id, fun {a b} h => by
      have h : unsigned b = a := h
      subst h
      exact unsigned_convert .., rfl⟩
  | double => exact ⟨unsigned_arith binary64, unsigned_arith binary64, id, id, rfl⟩

theorem unsigned_element {T : RealType} {d : ℕ} {order : Fin d → ℕ} {e : Element Flt} {e' : Element SFlt}
    (h : SameElement T order e e') : ElementRel False Unsigned e e' := by
  obtain ⟨fam, b, b', h1, h2, h3⟩ := h.bases
  refine ⟨h.shape.1.trans h.shape.2.symm, ?_⟩
  rw [h1, h2, List.ofFn_eq_map, List.ofFn_eq_map, List.forall₂_map_left_iff, List.forall₂_map_right_iff, List.forall₂_same]
  intro k _
  exact mixed_basis_rel (unsigned_mixed T) _ (fun n => family_rel (unsigned_mixed T) (fam k) n)
    (h3 k).2.1 (h3 k).2.2

theorem unsigned_list {l : List Flt} {l' : List SFlt} : List.Forall₂ Unsigned l l' ↔ l'.map unsigned = l := by
  constructor
  · intro h
    induction h with
    | nil => rfl
    | cons h _ ih => rw [List.map_cons, ih, h]
  · rintro rfl
    rw [List.forall₂_map_left_iff, List.forall₂_same]
    intro _ _
    rfl

/-! ### division by zero -/

theorem div_zero_inf {F : FloatFormat} {one det : SFlt} {s : Bool} {x : ℝ} (h1 : one.datum = .finite s x) (h0 : x ≠ 0) (hd : IsZero det) :
    ∃ n, SFlt.div F one det = ⟨.inf n, true⟩ := by
  obtain ⟨n, hn⟩ := hd
  obtain ⟨d, r⟩ := one
  obtain ⟨e, q⟩ := det
  cases h1
  cases hn
  refine ⟨SFlt.sign s x != SFlt.sign n 0, ?_⟩
  show (if (0 : ℝ) = 0 then if x = 0 then _ else _ else _) = _
  rw [if_pos rfl, if_neg h0]

theorem mul_inf_notFinite (F : FloatFormat) (a : SFlt) (n : Bool) :
    NotFinite (unsigned (SFlt.mul F a ⟨.inf n, true⟩)) ∧ (SFlt.mul F a ⟨.inf n, true⟩).raised = true := by
  obtain ⟨d, r⟩ := a
  cases d with
  | nan => exact ⟨notFinite_cases.2 (.inl rfl), Bool.or_true _⟩
  | inf s => exact ⟨notFinite_cases.2 (.inr ⟨_, rfl⟩), Bool.or_true _⟩
  | finite s x =>
    show NotFinite (unsigned (if x = 0 then _ else _)) ∧ SFlt.raised (if x = 0 then _ else _) = true
    split_ifs
    · exact ⟨notFinite_cases.2 (.inl rfl), rfl⟩
    · exact ⟨notFinite_cases.2 (.inr ⟨_, rfl⟩), Bool.or_true _⟩

theorem round_zero_isZero (F : FloatFormat) (r s : Bool) : IsZero (SFlt.round F r s 0) := by
  have h := (unsigned_round F r s 0).trans (round_zero (F := F) r)
  generalize SFlt.round F r s 0 = f at h
  obtain ⟨d, q⟩ := f
  cases d with
  | finite n x =>
    have : x = 0 := by
      have := congrArg Flt.datum h
      exact Datum.finite.inj this
    subst this
    exact ⟨n, rfl⟩
  | inf n => exact absurd (congrArg Flt.datum h) (by rintro ⟨⟩)
  | nan => exact absurd (congrArg Flt.datum h) (by rintro ⟨⟩)

theorem mul_zero_or {F : FloatFormat} {a b : SFlt} (h : (IsZero a ∨ NotFinite (unsigned a)) ∨ (IsZero b ∨ NotFinite (unsigned b))) :
    IsZero (SFlt.mul F a b) ∨ NotFinite (unsigned (SFlt.mul F a b)) := by
  rcases h with (⟨n, h⟩ | h) | (⟨n, h⟩ | h)
  · obtain ⟨d, r⟩ := a
    cases h
    obtain ⟨e, q⟩ := b
    cases e with
    | nan => exact .inr (notFinite_cases.2 (.inl rfl))
    | inf t =>
      refine .inr ?_
      show NotFinite (unsigned (if (0 : ℝ) = 0 then _ else _))
      rw [if_pos rfl]
      exact notFinite_cases.2 (.inl rfl)
    | finite t y =>
      left
      show IsZero (SFlt.round F _ _ (0 * y))
      rw [zero_mul]
      exact round_zero_isZero ..
  · right
    rw [unsigned_mul]
    exact (sticky_notFinite F).mull h
  · obtain ⟨d, r⟩ := b
    cases h
    obtain ⟨e, q⟩ := a
    cases e with
    | nan => exact .inr (notFinite_cases.2 (.inl rfl))
    | inf t =>
      refine .inr ?_
      show NotFinite (unsigned (if (0 : ℝ) = 0 then _ else _))
      rw [if_pos rfl]
      exact notFinite_cases.2 (.inl rfl)
    | finite t y =>
      left
      show IsZero (SFlt.round F _ _ (y * 0))
      rw [mul_zero]
      exact round_zero_isZero ..
  · right
    rw [unsigned_mul]
    exact (sticky_notFinite F).mulr h

end Verif.Lemmas
