import Verif.Lemmas.DyadicCell
import Verif.Spec.Dyadic

/-! # The code on data without roundings gives the exact results -/

namespace Verif.Lemmas

open Verif.Spec

/-- The computed number is the first of the two. -/
def IsFirst {R S : Type} (a : R × S) (x : R) : Prop := x = a.1
/-- The exact number is the second of the two. -/
def IsSecond {R S : Type} (a : R × S) (x : S) : Prop := x = a.2

/-- Two spacings side by side. -/
def pairSpacing {R S : Type} (s : Spacing R) (t : Spacing S) : Spacing (R × S) where
  numPoints := s.numPoints
  coordRT _ := .ub
  coordCT i := s.coordCT i >>= fun x => t.coordCT i >>= fun y => .ok (x, y)

private theorem pair_first {R S : Type} (s : Spacing R) (t : Spacing S) : SpacingRel False IsFirst (pairSpacing s t) s where
  num := rfl
  rt _ := .notOk (by simp [pairSpacing])
  ct i := by
    intro a ha
    obtain ⟨x, h1, ha⟩ := Res.bind_eq_ok.1 ha
    obtain ⟨y, h2, ha⟩ := Res.bind_eq_ok.1 ha
    cases ha
    exact .inl ⟨x, h1, rfl⟩

private theorem pair_second {R S : Type} (s : Spacing R) (t : Spacing S) (h : s.numPoints = t.numPoints) : SpacingRel False IsSecond (pairSpacing s t) t where
  num := h
  rt _ := .notOk (by simp [pairSpacing])
  ct i := by
    intro a ha
    obtain ⟨x, h1, ha⟩ := Res.bind_eq_ok.1 ha
    obtain ⟨y, h2, ha⟩ := Res.bind_eq_ok.1 ha
    cases ha
    exact .inl ⟨y, h2, rfl⟩

/-- A Lagrange basis. -/
private def basisOf {R : Type} (A : Arith R) (s : Spacing R) (n : Int) : Basis R := ⟨n, LagrangeBasis.value A s n, LagrangeBasis.gradient A s n⟩

private theorem basisOf_rel {R R' : Type} {A : Arith R} {B : Arith R'} {ρ : R → R' → Prop} (h : ArithRel False A B ρ) {s : Spacing R} {t : Spacing R'}
    (hs : SpacingRel False ρ s t) (n : Int) : BasisRel False ρ (basisOf A s n) (basisOf B t n) := by
  have hd : NodeDivRel False A B ρ s t := fun _ _ _ _ _ h1 h2 => h.div (h.lit _) (h.sub h1 h2)
  exact ⟨rfl, fun i _ _ hx => basisValue_rel h.toOpsRel hs hd _ i hx, fun i _ _ hx => basisGradient_rel h.toOpsRel hs hd _ i hx⟩

/-- A linear element in `float` or `double`, next to the exact one. -/
theorem dyadic_element {T : RealType} {d : ℕ} {c : (k : Fin d) → Fin 2 → ℝ} {e : Element Flt} (h : IsShippedIn T (fun _ : Fin d => 1) c e)
    (hc : ∀ k, c k 0 = -1 ∧ c k 1 = 1) (hb : ∀ S order, T.arith.lagrangeBasis S order = lagrangeBasis (floatArith T.format) S order)
    {S : ℕ} {s : ℤ} (hS : |s| ≤ S) :
    ∃ (P : Element (Flt × ℝ)) (e' : Element ℝ), IsLagrange (fun _ : Fin d => 1) c e' ∧ ElementRel False (Exact s) (tagElement T.format S d) P ∧
      ElementRel False IsFirst P e ∧ ElementRel False IsSecond P e' := by
  obtain ⟨fam, b, hb', hk⟩ := h.bases
  obtain ⟨sp, hsp⟩ : ∃ sp : Fin d → Spacing Flt, ∀ k, sp k = (fam k).spacingIn T.arith ((1 + 1 : ℕ) : Int) := ⟨_, fun _ => rfl⟩
  obtain ⟨rs, hrs⟩ : ∃ rs : Fin d → Spacing ℝ, ∀ k, rs k = realSpacing (sp k).numPoints (c k) := ⟨_, fun _ => rfl⟩
  have hinj : ∀ k, Function.Injective (c k) := by
    intro k i j hij
    have h0 := (hc k).1
    have h1 := (hc k).2
    fin_cases i <;> fin_cases j <;> simp only [Fin.zero_eta, Fin.mk_one, Fin.isValue] at hij ⊢ <;> rw [h0, h1] at hij <;> norm_num at hij
  have hcoord : ∀ k (i : Fin 2), (sp k).coordCT ((i : ℕ) : Int) = .ok (Flt.ofReal (c k i)) := fun k i => by rw [hsp]; exact (hk k).2.1 i
  have hreal : ∀ k (i : Fin 2), (rs k).coordCT ((i : ℕ) : Int) = .ok (c k i) := fun k i => by
    rw [hrs]; exact realSpacing_coord.2 ⟨le_rfl, i, rfl, rfl⟩
  have hnum : ∀ k, (sp k).numPoints = (rs k).numPoints := fun k => by rw [hrs]; rfl
  have hbk : ∀ k, b k = basisOf (floatArith T.format) (sp k) ((1 + 1 : ℕ) : Int) := fun k => by
    have e1 := ((hb _ _).symm.trans (hk k).2.2)
    rw [hsp]
    exact Res.ok.inj (e1.symm.trans (lagrangeBasis_ok (order := 1) _ _ (by norm_num)))
  refine ⟨⟨.ok d, List.ofFn fun k => basisOf (bothArith (floatArith T.format) (exactArith ℝ)) (pairSpacing (sp k) (rs k)) ((1 + 1 : ℕ) : Int)⟩,
    ⟨.ok d, List.ofFn fun k => basisOf (exactArith ℝ) (rs k) ((1 + 1 : ℕ) : Int)⟩,
    ⟨h.dims, rfl, _, rfl, fun k => ⟨by norm_num, fun _ => rs k, ?_, lagrangeBasis_ok (order := 1) _ _ (by norm_num)⟩⟩, ⟨rfl, ?_⟩, ⟨?_, ?_⟩, ⟨rfl, ?_⟩⟩
  · rw [hrs]; exact realSpacing_nodes (hinj k)
  · refine forall₂_ofFn fun k => basisOf_rel (tag_rel T.format S hS) ?_ _
    refine ⟨?_, fun _ => .notOk (by simp [tagSpacing]), fun i => ?_⟩
    · show (2 : Int) = (sp k).numPoints
      rw [hsp]
      cases fam k <;> rfl
    · intro a ha
      have h01 : i = 0 ∨ i = 1 := by
        simp only [tagSpacing, tableAt] at ha
        split_ifs at ha with hi
        simp only [List.length_map, List.length_cons, List.length_nil] at hi
        omega
      have key : ∀ (j : Fin 2) (q : ℚ), c k j = q → (tagSpacing [-1, 1]).coordCT ((j : ℕ) : Int) = .ok (some (.known q)) →
          ResRel False (Exact s) ((tagSpacing [-1, 1]).coordCT ((j : ℕ) : Int)) ((pairSpacing (sp k) (rs k)).coordCT ((j : ℕ) : Int)) := by
        intro j q hq ht
        have hp : (pairSpacing (sp k) (rs k)).coordCT ((j : ℕ) : Int) = .ok (Flt.ofReal (c k j), c k j) := by
          simp only [pairSpacing, hcoord, hreal]; rfl
        rw [ht, hp]
        refine .ok fun u hu => ?_
        cases hu
        exact ⟨rfl, hq⟩
      rcases h01 with rfl | rfl
      · exact key 0 (-1) (by rw [(hc k).1]; push_cast; rfl) (by rfl) a ha
      · exact key 1 1 (by rw [(hc k).2]; push_cast; rfl) (by rfl) a ha
  · exact h.shape.symm
  · rw [hb']
    refine forall₂_ofFn fun k => ?_
    rw [hbk]
    exact basisOf_rel (pair_fst _ _) (pair_first _ _) _
  · exact forall₂_ofFn fun k => basisOf_rel (pair_snd _ _) (pair_second _ _ (hnum k)) _

theorem exact_point {s : ℤ} {p : ℕ} {x : ℝ} (h : BinaryPoint p x) : Exact s (some (.grid 0 p (2 ^ p))) (Flt.ofReal x, x) := by
  intro u hu
  cases hu
  obtain ⟨k, rfl, hk⟩ := h
  exact ⟨rfl, k, by simp [div_eq_mul_inv], by exact_mod_cast hk⟩

theorem exact_unit {s : ℤ} {m : ℕ} {x : ℝ} (h : InUnits s m x) : Exact s (some (.grid 1 0 m)) (Flt.ofReal x, x) := by
  intro u hu
  cases hu
  obtain ⟨k, rfl, hk⟩ := h
  exact ⟨rfl, k, by simp, hk⟩

private theorem exact_points {s : ℤ} {p : ℕ} {x : Fin 3 → ℝ} (h : ∀ k, BinaryPoint p (x k)) :
    List.Forall₂ (Exact s) (tagPoint p) (List.ofFn fun k => (Flt.ofReal (x k), x k)) :=
  .cons (exact_point (h 0)) (.cons (exact_point (h 1)) (.cons (exact_point (h 2)) .nil))

private theorem first_list {α : Type} (f : α → Flt) (g : α → ℝ) {d : ℕ} (x : Fin d → α) :
    List.Forall₂ IsFirst (List.ofFn fun k => (f (x k), g (x k))) (List.ofFn fun k => f (x k)) := forall₂_ofFn fun _ => rfl

private theorem second_list {α : Type} (f : α → Flt) (g : α → ℝ) {d : ℕ} (x : Fin d → α) :
    List.Forall₂ IsSecond (List.ofFn fun k => (f (x k), g (x k))) (List.ofFn fun k => g (x k)) := forall₂_ofFn fun _ => rfl

/-- Two fields side by side. -/
private def pairField (var : List Int → Res Flt) (var' : List Int → Res ℝ) (idx : List Int) : Res (Flt × ℝ) :=
  var idx >>= fun x => var' idx >>= fun y => .ok (x, y)

private theorem field_first (var : List Int → Res Flt) (var' : List Int → Res ℝ) (idx : List Int) : ResRel False IsFirst (pairField var var' idx) (var idx) := by
  intro a ha
  obtain ⟨x, h1, ha⟩ := Res.bind_eq_ok.1 ha
  obtain ⟨y, h2, ha⟩ := Res.bind_eq_ok.1 ha
  cases ha
  exact .inl ⟨x, h1, rfl⟩

private theorem field_second (var : List Int → Res Flt) (var' : List Int → Res ℝ) (idx : List Int) : ResRel False IsSecond (pairField var var' idx) (var' idx) := by
  intro a ha
  obtain ⟨x, h1, ha⟩ := Res.bind_eq_ok.1 ha
  obtain ⟨y, h2, ha⟩ := Res.bind_eq_ok.1 ha
  cases ha
  exact .inl ⟨y, h2, rfl⟩

private theorem corners_tup : ∀ idx ∈ corners, ∃ a b c : Fin 2, idx = tup ![a, b, c] := by decide

private theorem field_exact {s : ℤ} {m : ℕ} {y : (Fin 3 → Fin 2) → ℝ} (hy : ∀ idx, InUnits s m (y idx)) {var : List Int → Res Flt} {var' : List Int → Res ℝ}
    (hv : ∀ idx : Fin 3 → Fin 2, var (tup idx) = .ok (Flt.ofReal (y idx))) (hv' : ∀ idx : Fin 3 → Fin 2, var' (tup idx) = .ok (y idx)) (idx : List Int) :
    ResRel False (Exact s) (tagField m idx) (pairField var var' idx) := by
  unfold tagField
  split_ifs with h
  · obtain ⟨a, b, c, rfl⟩ := corners_tup idx h
    have : pairField var var' (tup ![a, b, c]) = .ok (Flt.ofReal (y ![a, b, c]), y ![a, b, c]) := by
      simp only [pairField, hv, hv']; rfl
    rw [this]
    exact .ok (exact_unit (hy _))
  · exact .notOk (by simp)

private theorem known_list {s : ℤ} : ∀ {l : List (Option Tag)} {L : List (Flt × ℝ)} {f : List Flt} {x : List ℝ}, List.Forall₂ (Exact s) l L → l.all Option.isSome = true →
    List.Forall₂ IsFirst L f → List.Forall₂ IsSecond L x → f = x.map Flt.ofReal
  | _, _, _, _, .nil, _, .nil, .nil => rfl
  | t :: _, _, _, _, .cons h1 h2, h, .cons f1 f2, .cons x1 x2 => by
    rw [List.all_cons, Bool.and_eq_true] at h
    obtain ⟨u, hu⟩ := Option.isSome_iff_exists.1 h.1
    rw [List.map_cons, known_list h2 h.2 f2 x2]
    congr 1
    rw [show _ = _ from f1, show _ = _ from x1]
    exact (h1 u hu).1

private theorem known_value {s : ℤ} {t : Res (Option Tag)} {p : Res (Flt × ℝ)} {f : Res Flt} {x : Res ℝ} (h0 : ResRel False (Exact s) t p) {u : Tag} (ht : t = .ok (some u))
    (h1 : ResRel False IsFirst p f) (h2 : ResRel False IsSecond p x) : ∃ v, f = .ok (Flt.ofReal v) ∧ x = .ok v := by
  obtain ⟨b, rfl, hb⟩ := h0.total ht
  obtain ⟨y, rfl, hy⟩ := h1.total rfl
  obtain ⟨z, rfl, hz⟩ := h2.total rfl
  refine ⟨z, ?_, rfl⟩
  rw [show y = _ from hy, show z = _ from hz, (hb u rfl).1]

private theorem known_values {s : ℤ} {t : Res (List (Option Tag))} {p : Res (List (Flt × ℝ))} {f : Res (List Flt)} {x : Res (List ℝ)}
    (h0 : ResRel False (List.Forall₂ (Exact s)) t p) {l : List (Option Tag)} (ht : t = .ok l) (hl : l.all Option.isSome = true)
    (h1 : ResRel False (List.Forall₂ IsFirst) p f) (h2 : ResRel False (List.Forall₂ IsSecond) p x) : ∃ v : List ℝ, f = .ok (v.map Flt.ofReal) ∧ x = .ok v := by
  obtain ⟨b, rfl, hb⟩ := h0.total ht
  obtain ⟨y, rfl, hy⟩ := h1.total rfl
  obtain ⟨z, rfl, hz⟩ := h2.total rfl
  exact ⟨z, by rw [known_list hb hl hy hz], rfl⟩

section element
variable {F : FloatFormat} {S : ℕ} {s : ℤ} (hS : |s| ≤ S) {P : Element (Flt × ℝ)} {e : Element Flt} {e' : Element ℝ}
  (h0 : ElementRel False (Exact s) (tagElement F S 3) P) (h1 : ElementRel False IsFirst P e) (h2 : ElementRel False IsSecond P e')
include hS h0 h1 h2

/-- Values of fields. -/
theorem dyadic_value {p m : ℕ} {x : Fin 3 → ℝ} (hx : ∀ k, BinaryPoint p (x k)) {y : (Fin 3 → Fin 2) → ℝ} (hy : ∀ idx, InUnits s m (y idx))
    (hk : valueKnown F S m p = true) {var : List Int → Res Flt} {var' : List Int → Res ℝ} (hv : ∀ idx : Fin 3 → Fin 2, var (tup idx) = .ok (Flt.ofReal (y idx)))
    (hv' : ∀ idx : Fin 3 → Fin 2, var' (tup idx) = .ok (y idx)) :
    ∃ v, ParentElement.value (floatArith F) e (List.ofFn fun k => Flt.ofReal (x k)) var = .ok (Flt.ofReal v) ∧
      ParentElement.value (exactArith ℝ) e' (List.ofFn x) var' = .ok v := by
  have r0 := parentValue_rel (tag_rel F S hS).toOpsRel h0 (exact_points hx) (field_exact hy hv hv')
  have r1 := parentValue_rel (pair_fst (floatArith F) (exactArith ℝ)).toOpsRel h1 (first_list Flt.ofReal id x) (field_first var var')
  have r2 := parentValue_rel (pair_snd (floatArith F) (exactArith ℝ)).toOpsRel h2 (second_list Flt.ofReal id x) (field_second var var')
  unfold valueKnown at hk
  split at hk
  · next u hu => exact known_value r0 hu r1 r2
  · cases hk

/-- Gradients of fields. -/
theorem dyadic_gradient {p m : ℕ} {x : Fin 3 → ℝ} (hx : ∀ k, BinaryPoint p (x k)) {y : (Fin 3 → Fin 2) → ℝ} (hy : ∀ idx, InUnits s m (y idx))
    (hk : gradientKnown F S m p = true) {var : List Int → Res Flt} {var' : List Int → Res ℝ} (hv : ∀ idx : Fin 3 → Fin 2, var (tup idx) = .ok (Flt.ofReal (y idx)))
    (hv' : ∀ idx : Fin 3 → Fin 2, var' (tup idx) = .ok (y idx)) :
    ∃ g : List ℝ, ParentElement.gradient (floatArith F) e (List.ofFn fun k => Flt.ofReal (x k)) var = .ok (g.map Flt.ofReal) ∧
      ParentElement.gradient (exactArith ℝ) e' (List.ofFn x) var' = .ok g := by
  have r0 := parentGradient_rel (tag_rel F S hS).toOpsRel h0 (exact_points hx) (field_exact hy hv hv')
  have r1 := parentGradient_rel (pair_fst (floatArith F) (exactArith ℝ)).toOpsRel h1 (first_list Flt.ofReal id x) (field_first var var')
  have r2 := parentGradient_rel (pair_snd (floatArith F) (exactArith ℝ)).toOpsRel h2 (second_list Flt.ofReal id x) (field_second var var')
  unfold gradientKnown at hk
  split at hk
  · next l hl => exact known_values r0 hl hk r1 r2
  · cases hk

/-- Jacobians. -/
theorem dyadic_jacobian {p m : ℕ} {x : Fin 3 → ℝ} (hx : ∀ k, BinaryPoint p (x k)) {D : List ℝ} (hl : D.length = 24) (hD : ∀ y ∈ D, InUnits s m y) (cfg : Config)
    (hk : jacobianKnown F S m p cfg = true) :
    ∃ J : List ℝ, LinearTransform.jacobianValue cfg (floatArith F) ⟨e, D.map Flt.ofReal⟩ (List.ofFn fun k => Flt.ofReal (x k)) = .ok (J.map Flt.ofReal) ∧
      LinearTransform.jacobianValue cfg (exactArith ℝ) ⟨e', D⟩ (List.ofFn x) = .ok J := by
  have d0 : List.Forall₂ (Exact s) (List.replicate 24 (some (.grid 1 0 m))) (D.map fun y => (Flt.ofReal y, y)) := by
    rw [← hl]
    clear hl
    induction D with
    | nil => exact .nil
    | cons y D ih => exact .cons (exact_unit (hD y (by simp))) (ih fun z hz => hD z (by simp [hz]))
  have d1 : List.Forall₂ IsFirst (D.map fun y => (Flt.ofReal y, y)) (D.map Flt.ofReal) := by
    clear hl hD d0
    induction D with
    | nil => exact .nil
    | cons y D ih => exact .cons rfl ih
  have d2 : List.Forall₂ IsSecond (D.map fun y => (Flt.ofReal y, y)) D := by
    clear hl hD d0 d1
    induction D with
    | nil => exact .nil
    | cons y D ih => exact .cons rfl ih
  have t0 : TransformRel False (Exact s) (tagCell F S m) ⟨P, D.map fun y => (Flt.ofReal y, y)⟩ := ⟨h0, d0⟩
  have t1 : TransformRel False IsFirst ⟨P, D.map fun y => (Flt.ofReal y, y)⟩ ⟨e, D.map Flt.ofReal⟩ := ⟨h1, d1⟩
  have t2 : TransformRel False IsSecond ⟨P, D.map fun y => (Flt.ofReal y, y)⟩ ⟨e', D⟩ := ⟨h2, d2⟩
  have r0 := jacobianValue_rel (tag_rel F S hS).toOpsRel t0 (exact_points hx) cfg
  have r1 := jacobianValue_rel (pair_fst (floatArith F) (exactArith ℝ)).toOpsRel t1 (first_list Flt.ofReal id x) cfg
  have r2 := jacobianValue_rel (pair_snd (floatArith F) (exactArith ℝ)).toOpsRel t2 (second_list Flt.ofReal id x) cfg
  unfold jacobianKnown at hk
  split at hk
  · next l hl => exact known_values r0 hl hk r1 r2
  · cases hk

end element

/-- Determinants. -/
theorem dyadic_det {F : FloatFormat} {S : ℕ} {s : ℤ} (hS : |s| ≤ S) {m : ℕ} {J : List ℝ} (hl : J.length = 9) (hJ : ∀ y ∈ J, InUnits s m y) (cfg : Config)
    (hk : detKnown F S m cfg = true) :
    ∃ (det : ℝ) (after : Res (List Flt)) (after' : Res (List ℝ)),
      MathUtilities.inverse (floatArith F) (MathUtilities.carray cfg (CArray.whole [3, 3])) (J.map Flt.ofReal) = .ok (Flt.ofReal det, after) ∧
      MathUtilities.inverse (exactArith ℝ) (MathUtilities.carray cfg (CArray.whole [3, 3])) J = .ok (det, after') := by
  have d0 : List.Forall₂ (Exact s) (List.replicate 9 (some (.grid 1 0 m))) (J.map fun y => (Flt.ofReal y, y)) := by
    rw [← hl]
    clear hl
    induction J with
    | nil => exact .nil
    | cons y D ih => exact .cons (exact_unit (hJ y (by simp))) (ih fun z hz => hJ z (by simp [hz]))
  have d1 : List.Forall₂ IsFirst (J.map fun y => (Flt.ofReal y, y)) (J.map Flt.ofReal) := by
    clear hl hJ d0
    induction J with
    | nil => exact .nil
    | cons y D ih => exact .cons rfl ih
  have d2 : List.Forall₂ IsSecond (J.map fun y => (Flt.ofReal y, y)) J := by
    clear hl hJ d0 d1
    induction J with
    | nil => exact .nil
    | cons y D ih => exact .cons rfl ih
  have r0 := inverse_carray_rel (tag_rel F S hS) cfg (CArray.whole [3, 3]) d0
  have r1 := inverse_carray_rel (pair_fst (floatArith F) (exactArith ℝ)) cfg (CArray.whole [3, 3]) d1
  have r2 := inverse_carray_rel (pair_snd (floatArith F) (exactArith ℝ)) cfg (CArray.whole [3, 3]) d2
  unfold detKnown at hk
  split at hk
  · next u after hu =>
    obtain ⟨⟨b, ba⟩, hb, hb'⟩ := r0.total hu
    obtain ⟨⟨y, ya⟩, hy, hy'⟩ := r1.total hb
    obtain ⟨⟨z, za⟩, hz, hz'⟩ := r2.total hb
    refine ⟨z, ya, za, ?_, hz⟩
    rw [hy]
    have e1 : y = b.1 := hy'.1
    have e2 : z = b.2 := hz'.1
    rw [e1, e2, (hb'.1 u rfl).1]
  · cases hk

end Verif.Lemmas
