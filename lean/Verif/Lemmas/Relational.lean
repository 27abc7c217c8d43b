import Verif.Model.LinearTransform
import Verif.Model.Quadrature
import Verif.Model.Scaling
import Mathlib.Data.List.Forall2

/-!
Running the same code in two arithmetics: if the inputs are related, so are the results.
-/

namespace Verif.Lemmas

variable {α β γ δ R S : Type} {p : Prop}

/-- If `x` has a value, then `y` has a related one, or, if `p`, `y` has none. -/
def ResRel (p : Prop) (ρ : α → β → Prop) (x : Res α) (y : Res β) : Prop :=
  ∀ a, x = .ok a → (∃ b, y = .ok b ∧ ρ a b) ∨ (p ∧ ∀ b, y ≠ .ok b)

theorem ResRel.ok {ρ : α → β → Prop} {a : α} {b : β} (h : ρ a b) : ResRel p ρ (.ok a) (.ok b) := by
  intro a' h'
  cases h'
  exact .inl ⟨b, rfl, h⟩

theorem ResRel.bind {ρ : α → β → Prop} {τ : γ → δ → Prop} {x : Res α} {y : Res β} {f : α → Res γ} {g : β → Res δ}
    (h : ResRel p ρ x y) (hf : ∀ a b, ρ a b → ResRel p τ (f a) (g b)) : ResRel p τ (x >>= f) (y >>= g) := by
  intro c hc
  obtain ⟨a, rfl, hfa⟩ := Res.bind_eq_ok.1 hc
  rcases h a rfl with ⟨b, rfl, hab⟩ | ⟨hp, hn⟩
  · exact hf a b hab c hfa
  · refine .inr ⟨hp, fun d hd => ?_⟩
    obtain ⟨b, hb, -⟩ := Res.bind_eq_ok.1 hd
    exact hn b hb

theorem ResRel.refl (x : Res α) : ResRel p (fun a b => a = b) x x := fun a ha => .inl ⟨a, ha, rfl⟩

theorem ResRel.bindEq {τ : γ → δ → Prop} {x : Res α} {f : α → Res γ} {g : α → Res δ}
    (hf : ∀ a, ResRel p τ (f a) (g a)) : ResRel p τ (x >>= f) (x >>= g) :=
  (ResRel.refl x).bind fun a _ h => h ▸ hf a

theorem ResRel.constexpr {ρ : α → β → Prop} {x : Res α} {y : Res β} (h : ResRel p ρ x y) :
    ResRel p ρ x.constexpr y.constexpr := by
  intro a ha
  have hx : x = .ok a := by cases x <;> simp_all
  rcases h a hx with ⟨b, rfl, hb⟩ | ⟨hp, hn⟩
  · exact .inl ⟨b, rfl, hb⟩
  · refine .inr ⟨hp, fun b hb => ?_⟩
    have hy : y = .ok b := by cases y <;> simp_all
    exact hn b hy

theorem ResRel.notOk {ρ : α → β → Prop} {x : Res α} {y : Res β} (h : ∀ a, x ≠ .ok a) : ResRel p ρ x y :=
  fun a ha => absurd ha (h a)

theorem ResRel.ite {ρ : α → β → Prop} {c : Prop} [Decidable c] {x x' : Res α} {y y' : Res β}
    (h : ResRel p ρ x y) (h' : ResRel p ρ x' y') : ResRel p ρ (if c then x else x') (if c then y else y') := by
  split_ifs
  exacts [h, h']

/-- Two arithmetics with a relation preserved by all operations but division. -/
structure OpsRel (A : Arith R) (B : Arith S) (ρ : R → S → Prop) : Prop where
  lit : ∀ q, ρ (A.lit q) (B.lit q)
  add : ∀ {a b a' b'}, ρ a b → ρ a' b' → ρ (A.add a a') (B.add b b')
  sub : ∀ {a b a' b'}, ρ a b → ρ a' b' → ρ (A.sub a a') (B.sub b b')
  mul : ∀ {a b a' b'}, ρ a b → ρ a' b' → ρ (A.mul a a') (B.mul b b')
  neg : ∀ {a b}, ρ a b → ρ (A.neg a) (B.neg b)

/-- Two arithmetics with a relation preserved by all operations. -/
structure ArithRel (p : Prop) (A : Arith R) (B : Arith S) (ρ : R → S → Prop) : Prop extends OpsRel A B ρ where
  div : ∀ {a b a' b'}, ρ a b → ρ a' b' → ResRel p ρ (A.div a a') (B.div b b')

/-- Two spacings with related points. -/
structure SpacingRel (p : Prop) (ρ : R → S → Prop) (s : Spacing R) (t : Spacing S) : Prop where
  num : s.numPoints = t.numPoints
  rt : ∀ i, ResRel p ρ (s.coordRT i) (t.coordRT i)
  ct : ∀ i, ResRel p ρ (s.coordCT i) (t.coordCT i)

/-- Two bases that give related results for related coordinates. -/
structure BasisRel (p : Prop) (ρ : R → S → Prop) (b : Basis R) (b' : Basis S) : Prop where
  num : b.numSupportPoints = b'.numSupportPoints
  value : ∀ i {x y}, ρ x y → ResRel p ρ (b.value i x) (b'.value i y)
  gradient : ∀ i {x y}, ρ x y → ResRel p ρ (b.gradient i x) (b'.gradient i y)

/-- Two elements made of related bases. -/
structure ElementRel (p : Prop) (ρ : R → S → Prop) (e : Element R) (e' : Element S) : Prop where
  dims : e.shapeDims = e'.shapeDims
  bases : List.Forall₂ (BasisRel p ρ) e.bases e'.bases

/-- Two transforms with related shapes and data. -/
structure TransformRel (p : Prop) (ρ : R → S → Prop) (t : LinearTransform R) (t' : LinearTransform S) : Prop where
  shape : ElementRel p ρ t.shape t'.shape
  data : List.Forall₂ ρ t.data t'.data

section lists
variable {ρ : α → β → Prop}

theorem tableAt_rel {s : List α} {t : List β} (h : List.Forall₂ ρ s t) (i : Int) :
    ResRel p ρ (tableAt s i) (tableAt t i) := by
  unfold tableAt
  by_cases hi : 0 ≤ i ∧ i < s.length
  · rw [dif_pos hi, dif_pos (by rw [← h.length_eq]; exact hi)]
    exact .ok (h.get _ _)
  · rw [dif_neg hi]; exact .notOk (by simp)

theorem tableCT_rel {s : List α} {t : List β} (h : List.Forall₂ ρ s t) {d : α} {d' : β} (hd : ρ d d') (i : Int) :
    ρ (tableCT s d i) (tableCT t d' i) := by
  unfold tableCT
  by_cases hi : 0 ≤ i ∧ i < s.length
  · rw [dif_pos hi, dif_pos (by rw [← h.length_eq]; exact hi)]
    exact h.get _ _
  · rw [dif_neg hi, dif_neg (by rw [← h.length_eq]; exact hi)]
    exact hd

theorem load_rel {s : List α} {t : List β} (h : List.Forall₂ ρ s t) (i : Int) :
    ResRel p ρ (CArray.load s i) (CArray.load t i) := tableAt_rel h i

theorem forall₂_set {s : List α} {t : List β} (h : List.Forall₂ ρ s t) (k : ℕ) {x : α} {y : β} (hx : ρ x y) :
    List.Forall₂ ρ (s.set k x) (t.set k y) := by
  induction h generalizing k with
  | nil => simp
  | cons h1 h2 ih => cases k with
    | zero => exact .cons hx h2
    | succ k => exact .cons h1 (ih k)

theorem store_rel {s : List α} {t : List β} (h : List.Forall₂ ρ s t) (i : Int) {x : α} {y : β} (hx : ρ x y) :
    ResRel p (List.Forall₂ ρ) (CArray.store s i x) (CArray.store t i y) := by
  unfold CArray.store
  rw [← h.length_eq]
  exact .ite (.ok (forall₂_set h _ hx)) (.notOk (by simp))

theorem read_rel (cfg : Config) {s : List α} {t : List β} (h : List.Forall₂ ρ s t) (v : View) (idx : List Int) :
    ResRel p ρ (CArray.read cfg s v idx) (CArray.read cfg t v idx) := by
  unfold CArray.read
  rw [← h.length_eq]
  exact .bindEq fun a => load_rel h a

theorem write_rel (cfg : Config) {s : List α} {t : List β} (h : List.Forall₂ ρ s t) (v : View) (idx : List Int)
    {x : α} {y : β} (hx : ρ x y) :
    ResRel p (List.Forall₂ ρ) (CArray.write cfg s v idx x) (CArray.write cfg t v idx y) := by
  unfold CArray.write
  rw [← h.length_eq]
  exact .bindEq fun a => store_rel h a hx

theorem listInit_rel {z : α} {z' : β} (hz : ρ z z') (dims : List Int) {args : List α} {args' : List β}
    (h : List.Forall₂ ρ args args') :
    ResRel p (List.Forall₂ ρ) (CArray.listInit z dims args) (CArray.listInit z' dims args') := by
  unfold CArray.listInit
  rw [← h.length_eq]
  refine .bindEq fun n => .bindEq fun _ => .bindEq fun _ => .ok ?_
  refine List.rel_append h ?_
  generalize n.toNat - args.length = k
  induction k with
  | zero => exact .nil
  | succ k ih => exact .cons hz ih

theorem sequenceRes_rel {s : List (Res α)} {t : List (Res β)} (h : List.Forall₂ (ResRel p ρ) s t) :
    ResRel p (List.Forall₂ ρ) (sequenceRes s) (sequenceRes t) := by
  induction h with
  | nil => exact .ok .nil
  | cons h1 _ ih => exact h1.bind fun a b hab => ih.bind fun as bs hs => .ok (.cons hab hs)

theorem foldRight_rel {op : α → α → α} {op' : β → β → β}
    (hop : ∀ {a b a' b'}, ρ a b → ρ a' b' → ρ (op a a') (op' b b'))
    {s : List (Res α)} {t : List (Res β)} (h : List.Forall₂ (ResRel p ρ) s t) :
    ResRel p ρ (foldRight op s) (foldRight op' t) := by
  induction h with
  | nil => exact .notOk (by simp [foldRight])
  | cons h1 h2 ih => cases h2 with
    | nil => exact h1
    | cons h3 h4 => exact h1.bind fun a b hab => ih.bind fun a' b' hab' => .ok (hop hab hab')

theorem forall₂_map {ι : Type} (is : List ι) {f : ι → Res α} {g : ι → Res β} (h : ∀ i, ResRel p ρ (f i) (g i)) :
    List.Forall₂ (ResRel p ρ) (is.map f) (is.map g) := by
  induction is with
  | nil => exact .nil
  | cons i is ih => exact .cons (h i) ih

theorem commaFold_rel {f : Int → α → Res α} {g : Int → β → Res β}
    (h : ∀ i {s t}, ρ s t → ResRel p ρ (f i s) (g i t)) (is : List Int) {s : α} {t : β} (hs : ρ s t) :
    ResRel p ρ (Sequence.commaFold f is s) (Sequence.commaFold g is t) := by
  induction is generalizing s t with
  | nil => exact .ok hs
  | cons i is ih => exact (h i hs).bind fun _ _ => ih

theorem forSequence_rel {f : Int → α → Res α} {g : Int → β → Res β}
    (h : ∀ i {s t}, ρ s t → ResRel p ρ (f i s) (g i t)) (n : Int) {s : α} {t : β} (hs : ρ s t) :
    ResRel p ρ (Sequence.forSequence n f s) (Sequence.forSequence n g t) :=
  .bindEq fun is => commaFold_rel h is hs

theorem staticForNested_rel {f : List Int → α → Res α} {g : List Int → β → Res β}
    (h : ∀ i {s t}, ρ s t → ResRel p ρ (f i s) (g i t)) (ends : List Int) (idx : List Int) {s : α} {t : β}
    (hs : ρ s t) : ResRel p ρ (Sequence.staticForNested f ends idx s) (Sequence.staticForNested g ends idx t) := by
  induction ends generalizing idx s t with
  | nil => exact .notOk (by simp [Sequence.staticForNested])
  | cons e es ih => cases es with
    | nil => exact forSequence_rel (fun i _ _ hs => h (idx ++ [i]) hs) e hs
    | cons e' es => exact forSequence_rel (fun i _ _ hs => ih (idx ++ [i]) hs) e hs

theorem forNestedSequence_rel {f : List Int → α → Res α} {g : List Int → β → Res β}
    (h : ∀ i {s t}, ρ s t → ResRel p ρ (f i s) (g i t)) (ends : List Int) {s : α} {t : β} (hs : ρ s t) :
    ResRel p ρ (Sequence.forNestedSequence ends f s) (Sequence.forNestedSequence ends g t) :=
  staticForNested_rel h ends [] hs

end lists

section arith
variable {A : Arith R} {B : Arith S} {ρ : R → S → Prop} (h : ArithRel p A B ρ)
include h

theorem equal_interval_rel (n : Int) : ResRel p ρ (EqualSpacing.interval A n) (EqualSpacing.interval B n) :=
  .bindEq fun _ => h.div (h.lit _) (h.lit _)

theorem equalSpacing_rel (n : Int) : SpacingRel p ρ (equalSpacing A n) (equalSpacing B n) where
  num := rfl
  rt _ := (equal_interval_rel h n).bind fun _ _ hab => .ok (h.add (h.lit _) (h.mul (h.lit _) hab))
  ct _ := (equal_interval_rel h n).bind fun _ _ hab => .ok (h.add (h.neg (h.lit _)) (h.mul (h.lit _) hab))

end arith

section tables
variable {A : Arith R} {B : Arith S} {ρ : R → S → Prop} (h : OpsRel A B ρ)
include h

/-- Related tables, entry by entry. -/
macro "rel_table" h:ident : tactic => `(tactic|
  repeat' first
    | exact List.Forall₂.nil
    | apply List.Forall₂.cons
    | exact OpsRel.lit $h _
    | apply OpsRel.neg $h
    | apply OpsRel.mul $h
    | apply OpsRel.add $h
    | apply OpsRel.sub $h)

theorem gaussLegendre_rel (n : Int) : SpacingRel p ρ (gaussLegendreSpacing A n) (gaussLegendreSpacing B n) where
  num := rfl
  rt i := by
    show ResRel p ρ (GaussLegendre.coordRT A n i) (GaussLegendre.coordRT B n i)
    unfold GaussLegendre.coordRT GaussLegendre.invSqrt3 GaussLegendre.sqrt3div5 GaussLegendre.c4
    refine .ite (.bindEq fun k => .ok ?_) (.ite (.ok ?_) (.ite (.bindEq fun k => ?_) (.ok ?_)))
    · rel_table h
    · rel_table h
    · refine (tableAt_rel (ρ := ρ) ?_ _).bind fun a b hab => .ok (h.mul hab (h.lit _))
      rel_table h
    · rel_table h
  ct i := by
    show ResRel p ρ (GaussLegendre.coordCT A n i) (GaussLegendre.coordCT B n i)
    unfold GaussLegendre.coordCT GaussLegendre.invSqrt3 GaussLegendre.sqrt3div5
    refine .ite (.ok ?_) (.ite (.ok ?_) (.ite (.ok (tableCT_rel ?_ ?_ _)) (.ok ?_)))
    all_goals rel_table h

theorem gaussLobatto_rel (n : Int) : SpacingRel p ρ (gaussLobattoSpacing A n) (gaussLobattoSpacing B n) where
  num := rfl
  rt i := by
    show ResRel p ρ (GaussLobatto.coordRT A n i) (GaussLobatto.coordRT B n i)
    unfold GaussLobatto.coordRT GaussLobatto.invSqrt5 GaussLobatto.sqrt3div7
    refine .ite (.ok ?_) (.ite (.ok ?_) (.ite (.bindEq fun k => .ok ?_) (.ite (tableAt_rel ?_ _) (.ok ?_))))
    all_goals rel_table h
  ct i := by
    show ResRel p ρ (GaussLobatto.coordCT A n i) (GaussLobatto.coordCT B n i)
    unfold GaussLobatto.coordCT GaussLobatto.invSqrt5 GaussLobatto.sqrt3div7
    refine .ite (.ok ?_) (.ite (.ok ?_) (.ite (.ok (tableCT_rel ?_ ?_ _)) (.ite (.ok (tableCT_rel ?_ ?_ _))
      (.ite (.ok (tableCT_rel ?_ ?_ _)) (.ite (.ok (tableCT_rel ?_ ?_ _)) (.ite (.ok (tableCT_rel ?_ ?_ _))
      (.ite (.ok (tableCT_rel ?_ ?_ _)) (.ok ?_))))))))
    all_goals rel_table h

theorem legendreWeight_rel (n i : Int) :
    ResRel p ρ (QuadratureGaussLegendre.weightRT A n i) (QuadratureGaussLegendre.weightRT B n i) ∧
    ResRel p ρ (QuadratureGaussLegendre.weightCT A n i) (QuadratureGaussLegendre.weightCT B n i) := by
  constructor
  · unfold QuadratureGaussLegendre.weightRT
    refine .bindEq fun _ => .ite (.ok ?_) (.ite (.ok ?_) (.ite (.bindEq fun k => .ok ?_) (.ok ?_)))
    all_goals rel_table h
  · unfold QuadratureGaussLegendre.weightCT
    refine .bindEq fun _ => .ite (.ok ?_) (.ite (.ok (tableCT_rel ?_ ?_ _)) (.ite (.ok (tableCT_rel ?_ ?_ _)) (.ok ?_)))
    all_goals rel_table h

theorem lobattoWeight_rel (n i : Int) :
    ResRel p ρ (QuadratureGaussLobatto.weightRT A n i) (QuadratureGaussLobatto.weightRT B n i) ∧
    ResRel p ρ (QuadratureGaussLobatto.weightCT A n i) (QuadratureGaussLobatto.weightCT B n i) := by
  constructor
  · unfold QuadratureGaussLobatto.weightRT
    refine .bindEq fun _ => .ite (.ok ?_) (.ite (.ok ?_) (.ite (.bindEq fun k => .ok ?_)
      (.ite (.bindEq fun k => .ok ?_) (.ok ?_))))
    all_goals rel_table h
  · unfold QuadratureGaussLobatto.weightCT
    refine .bindEq fun _ => .ite (.ok ?_) (.ite (.ok ?_) (.ite (.ok (tableCT_rel ?_ ?_ _)) (.ite (.ok (tableCT_rel ?_ ?_ _))
      (.ite (.ok (tableCT_rel ?_ ?_ _)) (.ite (.ok (tableCT_rel ?_ ?_ _)) (.ite (.ok (tableCT_rel ?_ ?_ _))
      (.ite (.ok (tableCT_rel ?_ ?_ _)) (.ok ?_))))))))
    all_goals rel_table h

end tables

/-- The division of the Lagrange basis, by the difference of two nodes, gives related results. -/
def NodeDivRel (p : Prop) (A : Arith R) (B : Arith S) (ρ : R → S → Prop) (s : Spacing R) (t : Spacing S) : Prop :=
  ∀ {i j a b a' b'}, s.coordCT i = .ok a → t.coordCT i = .ok b → s.coordCT j = .ok a' → t.coordCT j = .ok b' →
    i ≠ j → ρ a b → ρ a' b' → ResRel p ρ (A.div (A.lit 1) (A.sub a a')) (B.div (B.lit 1) (B.sub b b'))

theorem ResRel.bindOk {ρ : α → β → Prop} {τ : γ → δ → Prop} {x : Res α} {y : Res β} {f : α → Res γ} {g : β → Res δ}
    (h : ResRel p ρ x y) (hf : ∀ a b, x = .ok a → y = .ok b → ρ a b → ResRel p τ (f a) (g b)) :
    ResRel p τ (x >>= f) (y >>= g) := by
  intro c hc
  obtain ⟨a, rfl, hfa⟩ := Res.bind_eq_ok.1 hc
  rcases h a rfl with ⟨b, rfl, hab⟩ | ⟨hp, hn⟩
  · exact hf a b rfl rfl hab c hfa
  · refine .inr ⟨hp, fun d hd => ?_⟩
    obtain ⟨b, hb, -⟩ := Res.bind_eq_ok.1 hd
    exact hn b hb

theorem eq_ok_of_constexpr {x : Res α} {a : α} : x.constexpr = .ok a → x = .ok a := by cases x <;> simp

section basis
variable {A : Arith R} {B : Arith S} {ρ : R → S → Prop} (h : OpsRel A B ρ) {s : Spacing R} {t : Spacing S}
  (hs : SpacingRel p ρ s t) (hd : NodeDivRel p A B ρ s t)
include h hs hd

theorem valueProductTerm_rel (bf term : Int) {x : R} {y : S} (hx : ρ x y) :
    ResRel p ρ (LagrangeBasis.valueProductTerm A s bf term x) (LagrangeBasis.valueProductTerm B t bf term y) := by
  unfold LagrangeBasis.valueProductTerm
  by_cases e : bf = term
  · rw [if_pos e, if_pos e]; exact .ok (h.lit _)
  rw [if_neg e, if_neg e]
  exact (hs.ct _).constexpr.bindOk fun a b ha hb hab => (hs.ct _).constexpr.bindOk fun a' b' ha' hb' hab' =>
    (hd (eq_ok_of_constexpr ha') (eq_ok_of_constexpr hb') (eq_ok_of_constexpr ha) (eq_ok_of_constexpr hb) e hab' hab).constexpr.bind
      fun d e hd => .ok (h.mul (h.sub hx hab) hd)

theorem basisValue_rel (n bf : Int) {x : R} {y : S}
    (hx : ρ x y) : ResRel p ρ (LagrangeBasis.value A s n bf x) (LagrangeBasis.value B t n bf y) :=
  .bindEq fun is => foldRight_rel h.mul (forall₂_map is fun a => valueProductTerm_rel h hs hd bf a hx)

theorem basisGradient_rel (n bf : Int) {x : R} {y : S}
    (hx : ρ x y) : ResRel p ρ (LagrangeBasis.gradient A s n bf x) (LagrangeBasis.gradient B t n bf y) := by
  unfold LagrangeBasis.gradient
  refine .bindEq fun is => (sequenceRes_rel (forall₂_map is fun a => valueProductTerm_rel h hs hd bf a hx)).bind
    fun v v' hv => foldRight_rel h.add (forall₂_map is fun a => ?_)
  unfold LagrangeBasis.gradientTerm LagrangeBasis.gradientOfValueTerm
  refine ResRel.bind (ρ := ρ) ?_ fun g g' hg => ?_
  · by_cases e : bf = a
    · rw [if_pos e, if_pos e]; exact .ok (h.lit _)
    rw [if_neg e, if_neg e]
    exact (hs.ct _).constexpr.bindOk fun a b ha hb hab => (hs.ct _).constexpr.bindOk fun a' b' ha' hb' hab' =>
      hd (eq_ok_of_constexpr ha') (eq_ok_of_constexpr hb') (eq_ok_of_constexpr ha) (eq_ok_of_constexpr hb) e hab' hab
  refine (foldRight_rel h.mul (forall₂_map is fun b => ?_)).bind fun q q' hq => .ok (h.mul hg hq)
  unfold LagrangeBasis.valueProductFactor
  exact .ite (.ok (h.lit _)) (tableAt_rel hv _)

end basis

theorem expand_rel {ρ : R → S → Prop} {bs : List (Basis R)} {bs' : List (Basis S)}
    (hb : List.Forall₂ (BasisRel p ρ) bs bs') (idx : List Int) {f : Basis R → Int → Int → Res R}
    {g : Basis S → Int → Int → Res S} (hf : ∀ b b' i k, BasisRel p ρ b b' → ResRel p ρ (f b i k) (g b' i k)) :
    List.Forall₂ (ResRel p ρ) (BasisProduct.expand bs idx f) (BasisProduct.expand bs' idx g) := by
  unfold BasisProduct.expand
  rw [← hb.length_eq]
  generalize List.range bs.length = ks
  induction hb generalizing idx ks with
  | nil => cases ks <;> exact .nil
  | cons h1 h2 ih => cases idx with
    | nil => cases ks <;> exact .nil
    | cons i idx => cases ks with
      | nil => exact .nil
      | cons k ks => exact .cons (hf _ _ _ _ h1) (ih idx ks)

theorem numSupportPoints_rel {ρ : R → S → Prop} {bs : List (Basis R)} {bs' : List (Basis S)}
    (hb : List.Forall₂ (BasisRel p ρ) bs bs') :
    bs.map Basis.numSupportPoints = bs'.map Basis.numSupportPoints := by
  induction hb with
  | nil => rfl
  | cons h1 _ ih => simp [h1.num, ih]

section element
variable {A : Arith R} {B : Arith S} {ρ : R → S → Prop} (h : OpsRel A B ρ)
  {e : Element R} {e' : Element S} (he : ElementRel p ρ e e')
  {x : List R} {y : List S} (hx : List.Forall₂ ρ x y)
include he

theorem instantiate_rel : e.instantiate = e'.instantiate := by
  unfold Element.instantiate
  rw [he.dims, he.bases.length_eq]

include h hx

theorem productValue_rel (idx : List Int) :
    ResRel p ρ (BasisProduct.value A e.bases idx x) (BasisProduct.value B e'.bases idx y) := by
  unfold BasisProduct.value
  rw [he.bases.length_eq]
  exact .bindEq fun _ => foldRight_rel h.mul (expand_rel he.bases idx fun b b' i k hb =>
    (tableAt_rel hx k).bind fun a a' ha => hb.value i ha)

theorem productGradient_rel (idx : List Int) :
    ResRel p (List.Forall₂ ρ) (BasisProduct.gradient A e.bases idx x) (BasisProduct.gradient B e'.bases idx y) := by
  unfold BasisProduct.gradient
  rw [he.bases.length_eq]
  refine .bindEq fun _ => .bindEq fun _ => .bindEq fun dims => sequenceRes_rel (forall₂_map dims fun a =>
    foldRight_rel h.mul (expand_rel he.bases idx fun b b' i k hb => ?_))
  exact (tableAt_rel hx k).bind fun c c' hc => .ite (hb.gradient i hc) (hb.value i hc)

theorem shapeValue_rel (idx : List Int) :
    ResRel p ρ (InterpolatedShape.value A e idx x) (InterpolatedShape.value B e' idx y) := by
  unfold InterpolatedShape.value
  rw [instantiate_rel he, he.bases.length_eq]
  exact .bindEq fun _ => .bindEq fun _ => productValue_rel h he hx idx

theorem shapeGradient_rel (idx : List Int) :
    ResRel p (List.Forall₂ ρ) (InterpolatedShape.gradient A e idx x) (InterpolatedShape.gradient B e' idx y) := by
  unfold InterpolatedShape.gradient
  rw [instantiate_rel he, he.bases.length_eq]
  exact .bindEq fun _ => .bindEq fun _ => productGradient_rel h he hx idx

theorem parentValue_rel {var : List Int → Res R} {var' : List Int → Res S} (hv : ∀ i, ResRel p ρ (var i) (var' i)) :
    ResRel p ρ (ParentElement.value A e x var) (ParentElement.value B e' y var') := by
  unfold ParentElement.value
  rw [instantiate_rel he, numSupportPoints_rel he.bases]
  refine .bindEq fun _ => forNestedSequence_rel (fun i s t hs => ?_) _ (h.lit _)
  exact (shapeValue_rel h he hx i).bind fun a b hab => (hv i).bind fun c d hcd => .ok (h.add hs (h.mul hab hcd))

theorem parentGradient_rel {var : List Int → Res R} {var' : List Int → Res S}
    (hv : ∀ i, ResRel p ρ (var i) (var' i)) :
    ResRel p (List.Forall₂ ρ) (ParentElement.gradient A e x var) (ParentElement.gradient B e' y var') := by
  unfold ParentElement.gradient
  rw [instantiate_rel he, numSupportPoints_rel he.bases, he.bases.length_eq]
  refine .bindEq fun _ => forNestedSequence_rel (fun i s t hs => ?_) _ ?_
  · unfold ParentElement.gradientBody
    rw [he.bases.length_eq]
    refine (shapeGradient_rel h he hx i).bind fun g g' hg => forSequence_rel (fun a s t hs => ?_) _ hs
    exact (tableAt_rel hs a).bind fun r r' hr => (tableAt_rel hg a).bind fun c c' hc =>
      (hv i).bind fun d d' hd => .ok (forall₂_set hs _ (h.add hr (h.mul hc hd)))
  · generalize e'.bases.length = n
    induction n with
    | zero => exact .nil
    | succ n ih => exact .cons (h.lit _) ih

end element

/-- The value left in `det` and the matrix left behind. -/
def InverseRel (p : Prop) (ρ : R → S → Prop) (τ : α → β → Prop) (x : R × Res α) (y : S × Res β) : Prop :=
  ρ x.1 y.1 ∧ ResRel p τ x.2 y.2

section inverse
open MathUtilities
variable {A : Arith R} {B : Arith S} {ρ : R → S → Prop} (h : ArithRel p A B ρ)
  {M : MatrixOps α R} {N : MatrixOps β S} {τ : α → β → Prop}
  (hg : ∀ {s t} i j, τ s t → ResRel p ρ (M.get s i j) (N.get t i j))
  (hs : ∀ {s t} i j {x y}, τ s t → ρ x y → ResRel p τ (M.set s i j x) (N.set t i j y))
include h hg hs

theorem inverse_rel {s : α} {t : β} (hst : τ s t) :
    ResRel p (InverseRel p ρ τ) (inverse A M s) (inverse B N t) := by
  unfold inverse
  refine (hg 0 0 hst).bind fun a00 b00 h00 => (hg 0 1 hst).bind fun a01 b01 h01 => (hg 0 2 hst).bind fun a02 b02 h02 =>
    (hg 1 0 hst).bind fun a10 b10 h10 => (hg 1 1 hst).bind fun a11 b11 h11 => (hg 1 2 hst).bind fun a12 b12 h12 =>
    (hg 2 0 hst).bind fun a20 b20 h20 => (hg 2 1 hst).bind fun a21 b21 h21 => (hg 2 2 hst).bind fun a22 b22 h22 => ?_
  refine (hs 0 0 hst (h.sub (h.mul h11 h22) (h.mul h12 h21))).bind fun m0 n0 hm0 =>
    (hs 0 1 hm0 (h.sub (h.mul h02 h21) (h.mul h01 h22))).bind fun m1 n1 hm1 =>
    (hs 0 2 hm1 (h.sub (h.mul h01 h12) (h.mul h02 h11))).bind fun m2 n2 hm2 => ?_
  refine (hg 0 0 hm2).bind fun c0 d0 hc0 => (hg 0 1 hm2).bind fun c1 d1 hc1 => (hg 0 2 hm2).bind fun c2 d2 hc2 => ?_
  have hd := h.add (h.add (h.mul h00 hc0) (h.mul h10 hc1)) (h.mul h20 hc2)
  refine .ok ⟨hd, (h.div (h.lit _) hd).bind fun i i' hi => ?_⟩
  have hscale : ∀ {s t} j, τ s t → ResRel p τ (M.scale A s 0 j i) (N.scale B t 0 j i') := fun j hst =>
    (hg 0 j hst).bind fun a b hab => hs 0 j hst (h.mul hab hi)
  unfold inverseFinish
  exact (hscale 0 hm2).bind fun _ _ k0 => (hscale 1 k0).bind fun _ _ k1 => (hscale 2 k1).bind fun _ _ k2 =>
    (hs 1 0 k2 (h.mul (h.sub (h.mul h12 h20) (h.mul h10 h22)) hi)).bind fun _ _ k3 =>
    (hs 1 1 k3 (h.mul (h.sub (h.mul h00 h22) (h.mul h02 h20)) hi)).bind fun _ _ k4 =>
    (hs 1 2 k4 (h.mul (h.sub (h.mul h02 h10) (h.mul h00 h12)) hi)).bind fun _ _ k5 =>
    (hs 2 0 k5 (h.mul (h.sub (h.mul h10 h21) (h.mul h11 h20)) hi)).bind fun _ _ k6 =>
    (hs 2 1 k6 (h.mul (h.sub (h.mul h01 h20) (h.mul h00 h21)) hi)).bind fun _ _ k7 =>
    hs 2 2 k7 (h.mul (h.sub (h.mul h00 h11) (h.mul h01 h10)) hi)

end inverse

section transform
open MathUtilities
variable {A : Arith R} {B : Arith S} {ρ : R → S → Prop}

theorem inverse_native_rel (h : ArithRel p A B ρ) {s : List R} {t : List S} (hst : List.Forall₂ ρ s t) :
    ResRel p (InverseRel p ρ (List.Forall₂ ρ)) (inverseNative A s) (inverseNative B t) :=
  inverse_rel (M := native3) (N := native3) h (fun _ _ hst => .bindEq fun k => load_rel hst k)
    (fun _ _ _ _ hst hx => .bindEq fun k => store_rel hst k hx) hst

theorem inverse_carray_rel (h : ArithRel p A B ρ) (cfg : Config) (v : View) {s : List R} {t : List S} (hst : List.Forall₂ ρ s t) :
    ResRel p (InverseRel p ρ (List.Forall₂ ρ)) (inverse A (carray cfg v) s) (inverse B (carray cfg v) t) :=
  inverse_rel (M := carray cfg v) (N := carray cfg v) h (fun _ _ hst => read_rel cfg hst v _)
    (fun _ _ _ _ hst hx => write_rel cfg hst v _ hx) hst

variable (h : OpsRel A B ρ) {t : LinearTransform R} {t' : LinearTransform S} (ht : TransformRel p ρ t t')
  {x : List R} {y : List S} (hx : List.Forall₂ ρ x y)
include ht

theorem numDims_rel : t.numDims = t'.numDims := by
  unfold LinearTransform.numDims; rw [ht.shape.bases.length_eq]

theorem jacobianView_rel : t.jacobianView = t'.jacobianView := by
  unfold LinearTransform.jacobianView; rw [numDims_rel ht]

theorem dataView_rel : t.dataView = t'.dataView := by
  unfold LinearTransform.dataView; rw [numDims_rel ht, numSupportPoints_rel ht.shape.bases]

include h

theorem accumulate_rel (cfg : Config) {g : List R} {g' : List S} (hg : List.Forall₂ ρ g g') (sp : List Int) (i j : Int)
    {J : List R} {J' : List S} (hJ : List.Forall₂ ρ J J') :
    ResRel p (List.Forall₂ ρ) (LinearTransform.accumulate cfg A t g sp i j J)
      (LinearTransform.accumulate cfg B t' g' sp i j J') := by
  unfold LinearTransform.accumulate
  rw [jacobianView_rel ht, dataView_rel ht]
  exact (read_rel cfg hJ _ _).bind fun r r' hr => (tableAt_rel hg j).bind fun a a' ha =>
    (read_rel cfg ht.data _ _).bind fun c c' hc => write_rel cfg hJ _ _ (h.add hr (h.mul ha hc))

include hx

theorem jacobian_rel (cfg : Config) {J : List R} {J' : List S} (hJ : List.Forall₂ ρ J J') :
    ResRel p (List.Forall₂ ρ) (LinearTransform.jacobian cfg A t x J) (LinearTransform.jacobian cfg B t' y J') := by
  unfold LinearTransform.jacobian InterpolatedShape.supportLoop BasisProduct.supportLoop
  rw [instantiate_rel ht.shape, numSupportPoints_rel ht.shape.bases]
  refine .bindEq fun _ => forNestedSequence_rel (fun i s s' hs => ?_) _ hJ
  unfold LinearTransform.jacobianBody
  rw [numDims_rel ht]
  refine (shapeGradient_rel h ht.shape hx i).bind fun g g' hg => forNestedSequence_rel (fun ij s s' hs => ?_) _ hs
  exact .bindEq fun a => .bindEq fun b => accumulate_rel h ht cfg hg i a b hs

theorem jacobianValue_rel (cfg : Config) :
    ResRel p (List.Forall₂ ρ) (LinearTransform.jacobianValue cfg A t x) (LinearTransform.jacobianValue cfg B t' y) := by
  unfold LinearTransform.jacobianValue
  rw [hx.length_eq, numDims_rel ht]
  exact .bindEq fun _ => (listInit_rel (h.lit _) _ (.cons (h.lit _) .nil)).bind fun J J' hJ =>
    jacobian_rel h ht hx cfg hJ

omit h in
theorem inverseJacobianValue_rel (h : ArithRel p A B ρ) (cfg : Config) :
    ResRel p (InverseRel p ρ (List.Forall₂ ρ)) (LinearTransform.inverseJacobianValue cfg A t x)
      (LinearTransform.inverseJacobianValue cfg B t' y) := by
  unfold LinearTransform.inverseJacobianValue LinearTransform.inverseJacobian
  rw [hx.length_eq, numDims_rel ht, jacobianView_rel ht]
  exact .bindEq fun _ => (listInit_rel (h.lit _) _ (.cons (h.lit _) .nil)).bind fun J J' hJ =>
    (jacobian_rel h.toOpsRel ht hx cfg hJ).bind fun K K' hK => inverse_carray_rel h cfg _ hK

end transform

end Verif.Lemmas
