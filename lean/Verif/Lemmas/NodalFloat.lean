import Verif.Lemmas.KnownTables
import Verif.Lemmas.Tensor
import Verif.Lemmas.FloatElement

/-! Lagrange bases at their own points, in `float` and `double`. -/

namespace Verif.Lemmas

open Verif.Spec

/-! ### products with a factor of zero -/

/-- A finite number. -/
def FiniteFlt (f : Flt) : Prop := ∃ x, f.datum = .finite x

theorem mul_finite {F : FloatFormat} {a b : Flt} (h : FiniteFlt (Flt.mul F a b)) : FiniteFlt a ∧ FiniteFlt b := by
  rcases a with ⟨_ | _ | _, r⟩ <;> rcases b with ⟨_ | _ | _, s⟩ <;> obtain ⟨x, hx⟩ := h <;>
    simp only [Flt.mul] at hx <;> first | exact ⟨⟨_, rfl⟩, ⟨_, rfl⟩⟩ | split_ifs at hx | cases hx

theorem mul_zero_left {F : FloatFormat} {a b : Flt} (ha : a.datum = .finite 0) (h : FiniteFlt b) :
    (Flt.mul F a b).datum = .finite 0 := by
  obtain ⟨y, hy⟩ := h
  simp [Flt.mul, ha, hy, round_zero]

theorem mul_zero_right {F : FloatFormat} {a b : Flt} (ha : FiniteFlt a) (h : b.datum = .finite 0) :
    (Flt.mul F a b).datum = .finite 0 := by
  obtain ⟨y, hy⟩ := ha
  simp [Flt.mul, h, hy, round_zero]

/-- A product that is finite and has a factor that is zero if finite, is zero. -/
theorem foldRight_zero {F : FloatFormat} {l : List (Res Flt)} {z : Flt}
    (hz : .ok z ∈ l) (h0 : FiniteFlt z → z.datum = .finite 0) {y : Flt}
    (hy : foldRight (Flt.mul F) l = .ok y) (hf : FiniteFlt y) : y.datum = .finite 0 := by
  induction l generalizing y with
  | nil => cases hz
  | cons a l ih =>
    cases l with
    | nil =>
      rw [foldRight] at hy
      rw [List.mem_singleton] at hz
      have e := Res.ok.inj (hz.trans hy)
      exact e ▸ h0 (e ▸ hf)
    | cons b l =>
      rw [foldRight] at hy
      obtain ⟨u, hu, hy⟩ := Res.bind_eq_ok.1 hy
      obtain ⟨v, hv, hy⟩ := Res.bind_eq_ok.1 hy
      obtain rfl := Res.ok.inj hy
      obtain ⟨hfu, hfv⟩ := mul_finite hf
      rcases List.mem_cons.1 hz with e | hz
      · have e := Res.ok.inj (e.trans hu)
        exact mul_zero_left (e ▸ h0 (e ▸ hfu)) hfv
      · exact mul_zero_right hfu (ih hz hv hfv)

theorem sub_self_zero {F : FloatFormat} {a : Flt} (h : FiniteFlt (Flt.sub F a a)) : (Flt.sub F a a).datum = .finite 0 := by
  rcases a with ⟨x | s | _, r⟩
  · simp [Flt.sub, Flt.add, Flt.neg, round_zero]
  · obtain ⟨x, hx⟩ := h
    cases s <;> simp [Flt.sub, Flt.add, Flt.neg] at hx
  · obtain ⟨x, hx⟩ := h
    simp [Flt.sub, Flt.add, Flt.neg] at hx

theorem foldRight_ok_all {op : Flt → Flt → Flt} {l : List (Res Flt)} {y : Flt} (h : foldRight op l = .ok y) :
    ∀ x ∈ l, ∃ z, x = .ok z := by
  induction l generalizing y with
  | nil => exact fun x hx => by cases hx
  | cons a l ih =>
    cases l with
    | nil =>
      rw [foldRight] at h
      intro x hx
      rw [List.mem_singleton] at hx
      exact ⟨y, hx.trans h⟩
    | cons b l =>
      rw [foldRight] at h
      obtain ⟨u, hu, h⟩ := Res.bind_eq_ok.1 h
      obtain ⟨v, hv, h⟩ := Res.bind_eq_ok.1 h
      intro x hx
      rcases List.mem_cons.1 hx with rfl | hx
      · exact ⟨u, hu⟩
      · exact ih hv x hx

/-- A basis function that is finite at the point of another function is zero there. -/
theorem value_zero {F : FloatFormat} {S : Spacing Flt} {n : ℕ} {i j : Fin n} (hij : j ≠ i) {X : Flt}
    (hX : S.coordCT (i : ℕ) = .ok X) {f : Flt} (hf : LagrangeBasis.value (floatArith F) S n (j : ℕ) X = .ok f)
    (hfin : FiniteFlt f) : f.datum = .finite 0 := by
  unfold LagrangeBasis.value at hf
  rw [makeIntegerSequence_ok (by omega), Res.ok_bind] at hf
  have hm : LagrangeBasis.valueProductTerm (floatArith F) S (j : ℕ) (i : ℕ) X ∈
      (upTo 0 n).map fun a => LagrangeBasis.valueProductTerm (floatArith F) S (j : ℕ) a X :=
    List.mem_map_of_mem (f := fun a => LagrangeBasis.valueProductTerm (floatArith F) S (j : ℕ) a X)
      (mem_upTo.2 ⟨by omega, by have := i.isLt; omega⟩)
  obtain ⟨z, hz⟩ := foldRight_ok_all hf _ hm
  refine foldRight_zero (hz ▸ hm) (fun hfz => ?_) hf hfin
  unfold LagrangeBasis.valueProductTerm at hz
  rw [if_neg (by intro h; exact hij (Fin.ext (by exact_mod_cast h))), hX] at hz
  obtain ⟨c, hc, hz⟩ := Res.bind_eq_ok.1 hz
  obtain rfl : X = c := Res.ok.inj (eq_ok_of_constexpr hc)
  obtain ⟨c', -, hz⟩ := Res.bind_eq_ok.1 hz
  obtain ⟨q, -, hz⟩ := Res.bind_eq_ok.1 hz
  obtain rfl : Flt.mul F (Flt.sub F X X) q = z := Res.ok.inj hz
  obtain ⟨h1, h2⟩ := mul_finite hfz
  exact mul_zero_left (sub_self_zero h1) h2

/-! ### elements -/

section element
variable {F : FloatFormat} {d : ℕ} {n : Fin d → ℕ} {b : Fin d → Basis Flt} {X : Fin d → Flt}
  {δ : (k : Fin d) → Fin (n k)}

/-- A shape function that is finite at the point of another function is zero there. -/
theorem product_zero (h0 : ∀ k (j : Fin (n k)), j ≠ δ k → ∀ f, (b k).value (j : ℕ) (X k) = .ok f → FiniteFlt f → f.datum = .finite 0)
    {idx : (k : Fin d) → Fin (n k)} (hne : idx ≠ δ) {f : Flt}
    (hf : BasisProduct.value (floatArith F) (List.ofFn b) (tup idx) (List.ofFn X) = .ok f) (hfin : FiniteFlt f) :
    f.datum = .finite 0 := by
  obtain ⟨k, hk⟩ := Function.ne_iff.1 hne
  unfold BasisProduct.value at hf
  rw [staticAssert_bind_true (by simp [tup_length]), tup, expand_ofFn] at hf
  have hm := (List.mem_ofFn (f := fun k : Fin d => tableAt (List.ofFn X) ((k : ℕ) : Int) >>= fun x =>
    (b k).value ((idx k : ℕ) : Int) x)).2 ⟨k, rfl⟩
  obtain ⟨z, hz⟩ := foldRight_ok_all hf _ hm
  refine foldRight_zero (hz ▸ hm) (fun hfz => ?_) hf hfin
  rw [tableAt_ofFn, Res.ok_bind] at hz
  exact h0 k _ hk z hz hfz

theorem round_represented {x : ℝ} (h : Represents F x) (r : Bool) : (Flt.round F r x).datum = .finite x := by
  have ho : ¬ F.Overflows x := by
    unfold FloatFormat.Overflows
    rw [h.1]
    exact not_le.2 h.2
  simp [Flt.round, ho, h.1]

/-- Zero or one. -/
def Bit (f : Flt) : Prop := f.datum = .finite 0 ∨ f.datum = .finite 1

theorem mul_one_one (hF : Represents F 1) {a b : Flt} (ha : a.datum = .finite 1) (hb : b.datum = .finite 1) :
    (Flt.mul F a b).datum = .finite 1 := by
  simp only [Flt.mul, ha, hb, mul_one]
  exact round_represented hF _

theorem foldRight_bits (hF : Represents F 1) {l : List (Res Flt)} (hl : l ≠ []) (h : ∀ x ∈ l, ∃ f, x = .ok f ∧ Bit f) :
    ∃ y, foldRight (Flt.mul F) l = .ok y ∧ Bit y ∧ ((∀ x ∈ l, ∃ f, x = .ok f ∧ f.datum = .finite 1) → y.datum = .finite 1) := by
  induction l with
  | nil => exact absurd rfl hl
  | cons a l ih =>
    obtain ⟨f, rfl, hf⟩ := h a (by simp)
    cases l with
    | nil =>
      refine ⟨f, rfl, hf, fun h1 => ?_⟩
      obtain ⟨g, hg, h1⟩ := h1 _ (List.mem_singleton.2 rfl)
      exact (Res.ok.inj hg) ▸ h1
    | cons b l =>
      obtain ⟨y, hy, hb, h1⟩ := ih (by simp) fun x hx => h x (List.mem_cons_of_mem _ hx)
      refine ⟨Flt.mul F f y, ?_, ?_, fun ha => ?_⟩
      · rw [foldRight, hy]; rfl
      · have hfy : FiniteFlt y := by rcases hb with hb | hb <;> exact ⟨_, hb⟩
        have hff : FiniteFlt f := by rcases hf with hb | hb <;> exact ⟨_, hb⟩
        rcases hf with hf | hf
        · exact .inl (mul_zero_left hf hfy)
        · rcases hb with hb | hb
          · exact .inl (mul_zero_right hff hb)
          · exact .inr (mul_one_one hF hf hb)
      · obtain ⟨g, hg, h2⟩ := ha _ (List.mem_cons_self ..)
        exact mul_one_one hF ((Res.ok.inj hg) ▸ h2) (h1 fun x hx => ha x (List.mem_cons_of_mem _ hx))

/-- Shape functions at a support point, if the basis functions of every direction are 1 at their own point and 0 at
the others. -/
theorem product_bits (hd : 0 < d) (hF : Represents F 1)
    (h : ∀ k (j : Fin (n k)), ∃ f, (b k).value (j : ℕ) (X k) = .ok f ∧ f.datum = .finite (if j = δ k then 1 else 0))
    (idx : (k : Fin d) → Fin (n k)) :
    ∃ f, BasisProduct.value (floatArith F) (List.ofFn b) (tup idx) (List.ofFn X) = .ok f ∧
      f.datum = .finite (if idx = δ then 1 else 0) := by
  have hb : ∀ x ∈ List.ofFn (fun k : Fin d => tableAt (List.ofFn X) ((k : ℕ) : Int) >>= fun x =>
      (b k).value ((idx k : ℕ) : Int) x), ∃ f, x = .ok f ∧ Bit f := by
    intro x hx
    obtain ⟨k, rfl⟩ := List.mem_ofFn.1 hx
    obtain ⟨f, hf, hv⟩ := h k (idx k)
    refine ⟨f, by rw [tableAt_ofFn, Res.ok_bind, hf], ?_⟩
    by_cases e : idx k = δ k
    · exact .inr (by rw [hv, if_pos e])
    · exact .inl (by rw [hv, if_neg e])
  obtain ⟨y, hy, hbit, h1⟩ := foldRight_bits hF
    (by intro h0; have := congrArg List.length h0; simp at this; omega) hb
  have hv : BasisProduct.value (floatArith F) (List.ofFn b) (tup idx) (List.ofFn X) = .ok y := by
    unfold BasisProduct.value
    rw [staticAssert_bind_true (by simp [tup_length]), tup, expand_ofFn]
    exact hy
  refine ⟨y, hv, ?_⟩
  by_cases e : idx = δ
  · rw [if_pos e]
    refine h1 fun x hx => ?_
    obtain ⟨k, rfl⟩ := List.mem_ofFn.1 hx
    obtain ⟨f, hf, hv⟩ := h k (idx k)
    exact ⟨f, by rw [tableAt_ofFn, Res.ok_bind, hf], by rw [hv, if_pos (congrFun e k)]⟩
  · rw [if_neg e]
    refine product_zero (fun k j hj f hf _ => ?_) e hv (by rcases hbit with h | h <;> exact ⟨_, h⟩)
    obtain ⟨g, hg, hv⟩ := h k j
    rw [if_neg hj] at hv
    exact (Res.ok.inj (hg.symm.trans hf)) ▸ hv

theorem valueBody_eq (var : List Int → Res Flt) {idx : (k : Fin d) → Fin (n k)} {f y : Flt}
    (hf : BasisProduct.value (floatArith F) (List.ofFn b) (tup idx) (List.ofFn X) = .ok f) (hv : var (tup idx) = .ok y) (r : Flt) :
    ParentElement.valueBody (floatArith F) (elementOf b) (List.ofFn X) var (tup idx) r = .ok (Flt.add F r (Flt.mul F f y)) := by
  rw [ParentElement.valueBody, (basisValue_eq _ (elementOf_instantiate b) (by simp [tup_length, elementOf]) _).1,
    show (elementOf b).bases = List.ofFn b from rfl, hf, Res.ok_bind, hv, Res.ok_bind]
  rfl

theorem add_data {a b : Flt} {x y : ℝ} (ha : a.datum = .finite x) (hb : b.datum = .finite y) (h : Represents F (x + y)) :
    (Flt.add F a b).datum = .finite (x + y) := by
  simp only [Flt.add, ha, hb]
  exact round_represented h _

theorem represents_zero (F : FloatFormat) : Represents F 0 :=
  ⟨nearest_zero F, by rw [abs_zero]; positivity⟩

/-- Adding up terms of which only the one of `i₀` is not zero. -/
theorem runCalls_single {ι : Type} [DecidableEq ι] {L : List ι} (hL : L.Nodup) {i₀ : ι} {body : ι → Flt → Res Flt} {g : ι → Flt} {v : ℝ}
    (hv : Represents F v) (hb : ∀ i r, body i r = .ok (Flt.add F r (g i))) (hg : ∀ i, (g i).datum = .finite (if i = i₀ then v else 0)) {r : Flt}
    {w : ℝ} (hr : r.datum = .finite w) (hw : i₀ ∈ L ∧ w = 0 ∨ i₀ ∉ L ∧ w = v) :
    ∃ s, runCalls L body r = .ok s ∧ s.datum = .finite v := by
  induction L generalizing r w with
  | nil =>
    rcases hw with ⟨h, -⟩ | ⟨-, rfl⟩
    · cases h
    · exact ⟨r, rfl, hr⟩
  | cons i L ih =>
    obtain ⟨hi, hL⟩ := List.nodup_cons.1 hL
    rw [runCalls_cons, hb, Res.ok_bind]
    by_cases e : i = i₀
    · subst e
      rcases hw with ⟨-, rfl⟩ | ⟨h, -⟩
      · have := hg i
        rw [if_pos rfl] at this
        have := add_data (F := F) hr this (by rwa [zero_add])
        rw [zero_add] at this
        exact ih hL this (.inr ⟨hi, rfl⟩)
      · exact absurd (List.mem_cons_self ..) h
    · have h0 := hg i
      rw [if_neg e] at h0
      have hw' : Represents F (w + 0) := by
        rw [add_zero]
        rcases hw with ⟨-, rfl⟩ | ⟨-, rfl⟩
        · exact represents_zero F
        · exact hv
      have := add_data (F := F) hr h0 hw'
      rw [add_zero] at this
      refine ih hL this (hw.imp (And.imp_left fun h => ?_) (And.imp_left fun h => ?_))
      · exact (List.mem_cons.1 h).resolve_left fun h => e h.symm
      · exact fun h' => h (List.mem_cons_of_mem _ h')

/-- Interpolation at a point where one shape function is `t` and the others are 0. -/
theorem parent_value_exact (hd : 0 < d) (hc : ∀ k, (b k).numSupportPoints = n k) {t : ℝ}
    (h : ∀ idx : (k : Fin d) → Fin (n k), ∃ f, BasisProduct.value (floatArith F) (List.ofFn b) (tup idx) (List.ofFn X) = .ok f ∧
      f.datum = .finite (if idx = δ then t else 0))
    {var : List Int → Res Flt} {y : ((k : Fin d) → Fin (n k)) → ℝ}
    (hvar : ∀ idx, var (tup idx) = .ok (Flt.ofReal (y idx))) (hy : Represents F (t * y δ)) :
    ∃ r, ParentElement.value (floatArith F) (elementOf b) (List.ofFn X) var = .ok r ∧ r.datum = .finite (t * y δ) := by
  obtain ⟨L, hL, hnd, hall⟩ := box_list n
  choose f hf hv using h
  rw [ParentElement.value, elementOf_instantiate, Res.ok_bind]
  rw [show (elementOf b).bases = List.ofFn b from rfl, forNested_box hd hc hL]
  refine runCalls_single (F := F) (i₀ := δ) (g := fun idx => Flt.mul F (f idx) (Flt.ofReal (y idx))) (w := 0) hnd hy
    (fun idx r => valueBody_eq var (hf idx) (hvar idx) r) (fun idx => ?_) ?_ (.inl ⟨hall δ, rfl⟩)
  · have hv := hv idx
    by_cases e : idx = δ
    · rw [if_pos e] at hv ⊢
      simp only [Flt.mul, hv, Flt.ofReal]
      rw [e]
      exact round_represented hy _
    · rw [if_neg e] at hv ⊢
      exact mul_zero_left hv ⟨_, rfl⟩
  · show (Flt.round F false ((0 : ℚ) : ℝ)).datum = _
    rw [Rat.cast_zero]
    exact round_represented (represents_zero F) _

/-- Interpolation at a point where all shape functions but one are 0 uses one nodal value only. -/
theorem parent_value_local (hd : 0 < d) (hc : ∀ k, (b k).numSupportPoints = n k)
    (h : ∀ idx : (k : Fin d) → Fin (n k), ∃ f, BasisProduct.value (floatArith F) (List.ofFn b) (tup idx) (List.ofFn X) = .ok f ∧
      (idx ≠ δ → f.datum = .finite 0))
    {u v : List Int → Res Flt} {y z : ((k : Fin d) → Fin (n k)) → ℝ}
    (hu : ∀ idx, u (tup idx) = .ok (Flt.ofReal (y idx))) (hv : ∀ idx, v (tup idx) = .ok (Flt.ofReal (z idx))) (hyz : y δ = z δ) :
    ParentElement.value (floatArith F) (elementOf b) (List.ofFn X) u
      = ParentElement.value (floatArith F) (elementOf b) (List.ofFn X) v := by
  obtain ⟨L, hL, -, -⟩ := box_list n
  choose f hf h0 using h
  rw [ParentElement.value, ParentElement.value, elementOf_instantiate, Res.ok_bind, Res.ok_bind]
  rw [show (elementOf b).bases = List.ofFn b from rfl, forNested_box hd hc hL, forNested_box hd hc hL]
  congr 1
  funext idx r
  rw [valueBody_eq u (hf idx) (hu idx), valueBody_eq v (hf idx) (hv idx)]
  by_cases e : idx = δ
  · rw [e, hyz]
  · have hz := h0 idx e
    simp only [Flt.mul, hz, Flt.ofReal, zero_mul]

/-- One direction. -/
theorem product_one (F : FloatFormat) {m : ℕ} (b : Fin 1 → Basis Flt) (X : Fin 1 → Flt) (idx : Fin 1 → Fin m) :
    BasisProduct.value (floatArith F) (List.ofFn b) (tup (n := fun _ : Fin 1 => m) idx) (List.ofFn X) = (b 0).value ((idx 0 : ℕ) : Int) (X 0) := by
  unfold BasisProduct.value
  rw [staticAssert_bind_true (by simp [tup_length]), tup, expand_ofFn, List.ofFn_succ, List.ofFn_zero, foldRight]
  exact (congrArg (fun x => x >>= fun x => (b 0).value ((idx 0 : ℕ) : Int) x) (tableAt_ofFn X 0)).trans (Res.ok_bind ..)

end element

/-! ### the functions at their own points -/

/-- `value< i >` at point `i`, if known. -/
def nodalValue (T : RealType) (fam : Family) (order : ℕ) (i : Int) : Res (Option ℚ) := do
  let x ← (fam.spacingIn (evalIn T) ((order + 1 : ℕ) : Int)).coordCT i
  LagrangeBasis.value (evalArith T.format) (fam.spacingIn (evalIn T) ((order + 1 : ℕ) : Int)) ((order + 1 : ℕ) : Int) i x

theorem nodalValue_sound {T : RealType} {fam : Family} {order : ℕ} {i : Int} {q : ℚ}
    (h : nodalValue T fam order i = .ok (some q)) {X : Flt}
    (hX : (fam.spacingIn T.arith ((order + 1 : ℕ) : Int)).coordCT i = .ok X) :
    LagrangeBasis.value (floatArith T.format) (fam.spacingIn T.arith ((order + 1 : ℕ) : Int)) ((order + 1 : ℕ) : Int) i X
      = .ok (Flt.ofReal q) := by
  have hs := family_rel (evalIn_rel T) fam ((order + 1 : ℕ) : Int)
  have he : ArithRel False (evalArith T.format) (floatArith T.format) Knows := eval_rel T.format
  have hd : NodeDivRel False (evalArith T.format) (floatArith T.format) Knows
      (fam.spacingIn (evalIn T) ((order + 1 : ℕ) : Int)) (fam.spacingIn T.arith ((order + 1 : ℕ) : Int)) :=
    fun _ _ _ _ _ h1 h2 => he.div (he.lit _) (he.sub h1 h2)
  have hrel : ResRel False Knows (nodalValue T fam order i) (do
      let x ← (fam.spacingIn T.arith ((order + 1 : ℕ) : Int)).coordCT i
      LagrangeBasis.value (floatArith T.format) (fam.spacingIn T.arith ((order + 1 : ℕ) : Int)) ((order + 1 : ℕ) : Int) i x) :=
    (hs.ct i).bind fun a b hab => basisValue_rel he.toOpsRel hs hd _ _ hab
  have := eval_known hrel h
  rwa [hX, Res.ok_bind] at this

theorem nodal_equal_float : ∀ order ∈ [1, 2, 3, 4, 5, 6, 7, 8], ∀ i : Fin (order + 1),
    nodalValue .float .equal order (i : ℕ) = .ok (some 1) := by decide +kernel

theorem nodal_equal_double : ∀ order ∈ [1, 2, 3, 4, 5, 6, 7, 8], ∀ i : Fin (order + 1),
    nodalValue .double .equal order (i : ℕ) = .ok (some 1) := by decide +kernel

theorem nodal_legendre : ∀ T ∈ types, ∀ order ∈ [1, 2, 3], ∀ i : Fin (order + 1),
    nodalValue T .gaussLegendre order (i : ℕ) = .ok (some 1) := by decide +kernel

theorem nodal_lobatto_float : ∀ order ∈ [1, 2, 3, 5], ∀ i : Fin (order + 1),
    nodalValue .float .gaussLobatto order (i : ℕ) = .ok (some 1) := by decide +kernel

theorem nodal_lobatto_double : ∀ order ∈ [1, 2, 3, 4], ∀ i : Fin (order + 1),
    nodalValue .double .gaussLobatto order (i : ℕ) = .ok (some 1) := by decide +kernel

/-- A known number of the format other than 1. -/
def notOne (F : FloatFormat) : Res (Option ℚ) → Bool
  | .ok (some q) => decide (q ≠ 1 ∧ evalRound F q = some q)
  | _ => false

theorem notOne_spec {F : FloatFormat} {x : Res (Option ℚ)} (h : notOne F x = true) :
    ∃ q : ℚ, x = .ok (some q) ∧ q ≠ 1 ∧ Represents F (q : ℝ) := by
  unfold notOne at h
  split at h
  · have h := of_decide_eq_true h
    exact ⟨_, rfl, h.1, round_represents _ (evalRound_sound _ h.2)⟩
  · cases h

/-- Elsewhere the first function is not 1 at its own point. -/
theorem nodal_not_one_float : ∀ order ∈ [4, 6, 7, 8],
    notOne binary32 (nodalValue .float .gaussLobatto order 0) = true := by decide +kernel

theorem nodal_not_one_double : ∀ order ∈ [5, 6, 7, 8],
    notOne binary64 (nodalValue .double .gaussLobatto order 0) = true := by decide +kernel

end Verif.Lemmas
