import Verif.Lemmas.MonotoneFloat
import Verif.Lemmas.DistortedBox
import Verif.Spec.AxisOrder

/-! # Interpolation of order one along an axis -/

namespace Verif.Lemmas

open Verif.Spec

/-! ### exact arithmetic -/

section exact
variable {d : ℕ}

/-- The neighbour of a node in direction `k`. -/
def across (k : Fin d) (i : Fin d → Fin 2) : Fin d → Fin 2 := Function.update i k (1 - i k)

theorem across_across (k : Fin d) (i : Fin d → Fin 2) : across k (across k i) = i := by
  unfold across
  rw [Function.update_self, Function.update_idem, show (1 : Fin 2) - (1 - i k) = i k from (by decide : ∀ a : Fin 2, 1 - (1 - a) = a) _,
    Function.update_eq_self]

/-- How much the interpolated value changes along direction `k`: half of the sum over the nodes of differences along `k`. -/
theorem multi_along {Y : (Fin d → Fin 2) → ℝ} {k : Fin d} {x x' : Fin d → ℝ} (h : ∀ j, j ≠ k → x j = x' j) :
    multi Y x' - multi Y x = (x' k - x k) / 4 *
      ∑ i : Fin d → Fin 2, (∏ j ∈ Finset.univ.erase k, hat (i j) (x j)) * (Y (Function.update i k 1) - Y (Function.update i k 0)) := by
  obtain ⟨P, hP⟩ : ∃ P : (Fin d → Fin 2) → ℝ, P = fun i => ∏ j ∈ Finset.univ.erase k, hat (i j) (x j) := ⟨_, rfl⟩
  have hm : ∀ i, P (across k i) = P i := fun i => by
    rw [hP]
    exact Finset.prod_congr rfl fun j hj => by rw [across, Function.update_of_ne (Finset.ne_of_mem_erase hj)]
  have e : ∀ z : Fin d → ℝ, (∀ j, j ≠ k → x j = z j) → multi Y z = ∑ i, hat (i k) (z k) * P i * Y i := fun z hz => by
    rw [multi, hP]
    refine Finset.sum_congr rfl fun i _ => ?_
    rw [← Finset.mul_prod_erase Finset.univ _ (Finset.mem_univ k)]
    congr 2
    exact Finset.prod_congr rfl fun j hj => by rw [hz j (Finset.ne_of_mem_erase hj)]
  have two : ∀ f : (Fin d → Fin 2) → ℝ, ∑ i, f i = (∑ i, (f i + f (across k i))) / 2 := fun f => by
    have : ∑ i, f (across k i) = ∑ i, f i := Equiv.sum_comp (Function.Involutive.toPerm (across k) (across_across k)) f
    rw [Finset.sum_add_distrib, this]; ring
  rw [e x' h, e x fun _ _ => rfl, ← Finset.sum_sub_distrib, two, Finset.mul_sum, Finset.sum_div]
  refine Finset.sum_congr rfl fun i _ => ?_
  rw [show (∏ j ∈ Finset.univ.erase k, hat (i j) (x j)) = P i by rw [hP], hm]
  have hk : across k i k = 1 - i k := by rw [across, Function.update_self]
  rw [hk]
  rcases (show ∀ a : Fin 2, a = 0 ∨ a = 1 by decide) (i k) with h0 | h1
  · have h2 : Function.update i k 0 = i := by rw [← h0, Function.update_eq_self]
    have h3 : across k i = Function.update i k 1 := by rw [across, h0]; rfl
    rw [h2, h3, h0]
    simp only [hat, show (1 : Fin 2) - 0 = 1 from rfl, if_true, if_neg (show (1 : Fin 2) ≠ 0 by decide)]
    ring
  · have h2 : Function.update i k 1 = i := by rw [← h1, Function.update_eq_self]
    have h3 : across k i = Function.update i k 0 := by rw [across, h1]; rfl
    rw [h2, h3, h1]
    simp only [hat, show (1 : Fin 2) - 1 = 0 from rfl, if_true, if_neg (show (1 : Fin 2) ≠ 0 by decide)]
    ring

theorem multi_increases {Y : (Fin d → Fin 2) → ℝ} {k : Fin d} (hY : NodesIncrease k Y) {x x' : Fin d → ℝ} (hx : ∀ j, |x j| ≤ 1)
    (h : MovedUp k x x') : multi Y x ≤ multi Y x' := by
  have := multi_along (Y := Y) h.other
  have hs : 0 ≤ ∑ i : Fin d → Fin 2, (∏ j ∈ Finset.univ.erase k, hat (i j) (x j)) * (Y (Function.update i k 1) - Y (Function.update i k 0)) :=
    Finset.sum_nonneg fun i _ => mul_nonneg (Finset.prod_nonneg fun j _ => hat_nonneg _ (abs_le.1 (hx j))) (by linarith [hY i])
  have := mul_nonneg (show 0 ≤ (x' k - x k) / 4 by linarith [h.along]) hs
  linarith

/-- The interpolated value increases at least as fast as the least difference of the nodal values. -/
theorem multi_rate {Y : (Fin d → Fin 2) → ℝ} {k : Fin d} {m : ℝ} (hY : ∀ i, m ≤ Y (Function.update i k 1) - Y (Function.update i k 0))
    {x x' : Fin d → ℝ} (hx : ∀ j, |x j| ≤ 1) (h : MovedUp k x x') : m / 2 * (x' k - x k) ≤ multi Y x' - multi Y x := by
  have e := multi_along (Y := Y) h.other
  have e1 := multi_along (Y := fun i => if i k = 0 then 0 else m) h.other
  have hc : ∀ z : Fin d → ℝ, multi (fun i => if i k = 0 then 0 else m) z = m * ((1 + z k) / 2) := fun z => by
    have := multi_coord k 0 m z
    simpa using this
  rw [hc, hc] at e1
  simp only [Function.update_self, if_true, if_neg (show (1 : Fin 2) ≠ 0 by decide), sub_zero] at e1
  rw [e, show m / 2 * (x' k - x k) = m * ((1 + x' k) / 2) - m * ((1 + x k) / 2) by ring, e1]
  refine mul_le_mul_of_nonneg_left (Finset.sum_le_sum fun i _ => ?_) (by linarith [h.along])
  exact mul_le_mul_of_nonneg_left (hY i) (Finset.prod_nonneg fun j _ => hat_nonneg _ (abs_le.1 (hx j)))

end exact

/-! ### `float` and `double` -/

section
variable {F : FloatFormat}

/-- Products of numbers in order that are not negative. -/
theorem mul_below_both {a a' b b' : Flt} (na : Nonneg a) (nb : Nonneg b) (ha : Below a a') (hb : Below b b') (h : FiniteFlt (Flt.mul F a b))
    (h' : FiniteFlt (Flt.mul F a' b')) : Below (Flt.mul F a b) (Flt.mul F a' b') := by
  obtain ⟨x, x', hx, hx', hle⟩ := ha
  obtain ⟨y, y', hy, hy', hle'⟩ := hb
  simp only [Flt.mul, hx, hy, hx', hy'] at h h' ⊢
  exact round_below (mul_le_mul hle hle' (nb y hy) ((na x hx).trans hle)) h h'

/-- Finite numbers in order, if both are finite. -/
def InOrder (a b : Flt) : Prop := FiniteFlt a → FiniteFlt b → Below a b

theorem InOrder.refl (a : Flt) : InOrder a a := fun ⟨x, hx⟩ _ => ⟨x, x, hx, hx, le_rfl⟩

theorem foldRight_inOrder {l l' : List Flt} (hl : List.Forall₂ InOrder l l') (n : ∀ a ∈ l, Nonneg a) {y y' : Flt}
    (h : foldRight (Flt.mul F) (l.map .ok) = .ok y) (h' : foldRight (Flt.mul F) (l'.map .ok) = .ok y') : InOrder y y' := by
  induction hl generalizing y y' with
  | nil => cases h
  | @cons a a' l l' ha hl ih =>
    cases hl with
    | nil => cases h; cases h'; exact ha
    | @cons b b' l l' hb hl =>
      simp only [List.map_cons, foldRight, Res.ok_bind] at h h'
      obtain ⟨z, hz, hy⟩ := Res.bind_eq_ok.1 h
      obtain ⟨z', hz', hy'⟩ := Res.bind_eq_ok.1 h'
      cases hy
      cases hy'
      intro f f'
      obtain ⟨fa, fz⟩ := mul_finite f
      obtain ⟨fa', fz'⟩ := mul_finite f'
      exact mul_below_both (n a (List.mem_cons_self ..)) (foldRight_nonneg (fun c hc => n c (List.mem_cons_of_mem _ hc)) hz) (ha fa fa')
        (ih (fun c hc => n c (List.mem_cons_of_mem _ hc)) hz hz' fz fz') f f'

/-- The first function decreases and the second increases. -/
theorem linear_inOrder (hF : Wide F) {S : Spacing Flt} (hS : EndPoints S) {x x' : ℝ} (h : x ≤ x') {f₀ f₀' f₁ f₁' : Flt}
    (h0 : LagrangeBasis.value (floatArith F) S 2 0 (Flt.ofReal x) = .ok f₀) (h0' : LagrangeBasis.value (floatArith F) S 2 0 (Flt.ofReal x') = .ok f₀')
    (h1 : LagrangeBasis.value (floatArith F) S 2 1 (Flt.ofReal x) = .ok f₁) (h1' : LagrangeBasis.value (floatArith F) S 2 1 (Flt.ofReal x') = .ok f₁') :
    InOrder f₀' f₀ ∧ InOrder f₁ f₁' := by
  obtain ⟨e0, e1⟩ := linear_values hF hS (Flt.ofReal x)
  obtain ⟨e0', e1'⟩ := linear_values hF hS (Flt.ofReal x')
  obtain rfl := Res.ok.inj (h0.symm.trans e0)
  obtain rfl := Res.ok.inj (h0'.symm.trans e0')
  obtain rfl := Res.ok.inj (h1.symm.trans e1)
  obtain rfl := Res.ok.inj (h1'.symm.trans e1')
  constructor
  · intro f f'
    obtain ⟨⟨u, hu⟩, -⟩ := mul_finite f
    obtain ⟨⟨u', hu'⟩, -⟩ := mul_finite f'
    have hle : u' ≤ u := by
      have e := hu
      have e' := hu'
      simp only [Flt.sub, Flt.add, Flt.neg, Flt.ofReal] at e e'
      rw [round_value e, round_value e']
      exact nearest_mono (by linarith)
    obtain ⟨z, hz⟩ := f
    obtain ⟨z', hz'⟩ := f'
    refine ⟨z, z', hz, hz', ?_⟩
    rw [mul_value hu rfl hz, mul_value hu' rfl hz']
    exact nearest_mono (by linarith)
  · intro f f'
    obtain ⟨⟨u, hu⟩, -⟩ := mul_finite f
    obtain ⟨⟨u', hu'⟩, -⟩ := mul_finite f'
    have hle : u ≤ u' := by
      have e := hu
      have e' := hu'
      simp only [Flt.sub, Flt.add, Flt.neg, Flt.ofReal] at e e'
      rw [round_value e, round_value e']
      exact nearest_mono (by linarith)
    obtain ⟨z, hz⟩ := f
    obtain ⟨z', hz'⟩ := f'
    refine ⟨z, z', hz, hz', ?_⟩
    rw [mul_value hu rfl hz, mul_value hu' rfl hz']
    exact nearest_mono (by linarith)

section element
variable {d : ℕ} {S : Fin d → Spacing Flt} {b : Fin d → Basis Flt} {k : Fin d} {x x' : Fin d → ℝ}

/-- Along direction `k` the shape functions of the upper nodes increase and those of the lower nodes decrease. -/
theorem products_inOrder (hd : 0 < d) (hF : Wide F) (hS : ∀ k, EndPoints (S k))
    (hb : ∀ k i x, (b k).value i x = LagrangeBasis.value (floatArith F) (S k) 2 i x) (hx : ∀ j, |x j| ≤ 1) (hx' : ∀ j, |x' j| ≤ 1)
    (h : MovedUp k x x') (idx : Fin d → Fin 2) :
    ∃ f f', BasisProduct.value (floatArith F) (List.ofFn b) (tup (n := fun _ : Fin d => 2) idx) (List.ofFn fun j => Flt.ofReal (x j)) = .ok f ∧
      BasisProduct.value (floatArith F) (List.ofFn b) (tup (n := fun _ : Fin d => 2) idx) (List.ofFn fun j => Flt.ofReal (x' j)) = .ok f' ∧
      Nonneg f ∧ Nonneg f' ∧ (idx k = 0 → InOrder f' f) ∧ (idx k = 1 → InOrder f f') := by
  have hv : ∀ (z : Fin d → ℝ), (∀ j, |z j| ≤ 1) → ∀ j, ∃ f, (b j).value ((idx j : ℕ) : Int) (Flt.ofReal (z j)) = .ok f ∧ Nonneg f := fun z hz j => by
    have hi : ((idx j : ℕ) : Int) = 0 ∨ ((idx j : ℕ) : Int) = 1 := by omega
    obtain ⟨h0, h1⟩ := linear_values hF (hS j) (Flt.ofReal (z j))
    have hX : ∀ w, (Flt.ofReal (z j)).datum = .finite w → |w| ≤ 1 := fun w hw => by rw [← Datum.finite.inj hw]; exact hz j
    rw [hb]
    rcases hi with e | e <;> rw [e]
    · exact ⟨_, h0, linear_nonneg hF (hS j) hX (.inl rfl) h0⟩
    · exact ⟨_, h1, linear_nonneg hF (hS j) hX (.inr rfl) h1⟩
  choose g hg hpos using hv x hx
  choose g' hg' hpos' using hv x' hx'
  have list : ∀ {z : Fin d → ℝ} {g : Fin d → Flt}, (∀ j, (b j).value ((idx j : ℕ) : Int) (Flt.ofReal (z j)) = .ok (g j)) →
      ∃ y, foldRight (Flt.mul F) ((List.ofFn g).map .ok) = .ok y ∧
        BasisProduct.value (floatArith F) (List.ofFn b) (tup (n := fun _ : Fin d => 2) idx) (List.ofFn fun j => Flt.ofReal (z j)) = .ok y := by
    intro z g hg
    have e : (List.ofFn fun j => (b j).value ((idx j : ℕ) : Int) (Flt.ofReal (z j))) = (List.ofFn g).map .ok := by
      rw [List.map_ofFn]; congr 1; funext j; exact hg j
    obtain ⟨y, hy⟩ := foldRight_exists (F := F) (l := List.ofFn g) (by
      intro h0
      have := congrArg List.length h0
      simp at this; omega)
    exact ⟨y, hy, by rw [productValue_fold (m := fun _ => 2), e, hy]⟩
  obtain ⟨y, hy, hY⟩ := list hg
  obtain ⟨y', hy', hY'⟩ := list hg'
  have mem : ∀ a ∈ List.ofFn g, Nonneg a := fun a ha => by obtain ⟨j, rfl⟩ := List.mem_ofFn.1 ha; exact hpos j
  have mem' : ∀ a ∈ List.ofFn g', Nonneg a := fun a ha => by obtain ⟨j, rfl⟩ := List.mem_ofFn.1 ha; exact hpos' j
  have same : ∀ j, j ≠ k → g j = g' j := fun j hj => Res.ok.inj ((hg j).symm.trans (by rw [h.other j hj]; exact hg' j))
  have lists : ∀ {u v : Fin d → Flt}, (∀ j, InOrder (u j) (v j)) → List.Forall₂ InOrder (List.ofFn u) (List.ofFn v) := by
    intro u v huv
    rw [List.forall₂_iff_get]
    refine ⟨by simp, fun i h1 h2 => ?_⟩
    simp only [List.get_ofFn]
    exact huv _
  refine ⟨y, y', hY, hY', foldRight_nonneg mem hy, foldRight_nonneg mem' hy', fun hk => ?_, fun hk => ?_⟩
  · refine foldRight_inOrder (lists fun j => ?_) mem' hy' hy
    rcases eq_or_ne j k with rfl | hj
    · have a := hg j
      have a' := hg' j
      rw [hb, hk] at a a'
      exact (linear_inOrder hF (hS j) h.along a a' (linear_values hF (hS j) _).2 (linear_values hF (hS j) _).2).1
    · rw [same j hj]; exact .refl _
  · refine foldRight_inOrder (lists fun j => ?_) mem hy hy'
    rcases eq_or_ne j k with rfl | hj
    · have a := hg j
      have a' := hg' j
      rw [hb, hk] at a a'
      exact (linear_inOrder hF (hS j) h.along (linear_values hF (hS j) _).1 (linear_values hF (hS j) _).1 a a').2
    · rw [same j hj]; exact .refl _

/-- If the terms of the sum are in order, so are the interpolated values. -/
private theorem value_inOrder {n : Fin d → ℕ} (hd : 0 < d) (hc : ∀ k, (b k).numSupportPoints = n k) {X X' : Fin d → Flt}
    {f f' y : ((k : Fin d) → Fin (n k)) → Flt}
    (hf : ∀ idx, BasisProduct.value (floatArith F) (List.ofFn b) (tup idx) (List.ofFn X) = .ok (f idx))
    (hf' : ∀ idx, BasisProduct.value (floatArith F) (List.ofFn b) (tup idx) (List.ofFn X') = .ok (f' idx))
    {u : List Int → Res Flt} (hu : ∀ idx, u (tup idx) = .ok (y idx)) (hyz : ∀ idx, InOrder (Flt.mul F (f idx) (y idx)) (Flt.mul F (f' idx) (y idx)))
    {r s : Flt} (hr : ParentElement.value (floatArith F) (elementOf b) (List.ofFn X) u = .ok r)
    (hs : ParentElement.value (floatArith F) (elementOf b) (List.ofFn X') u = .ok s) (fr : FiniteFlt r) (fs : FiniteFlt s) : Below r s := by
  obtain ⟨L, hL, -, -⟩ := box_list n
  rw [ParentElement.value, elementOf_instantiate, Res.ok_bind, show (elementOf b).bases = List.ofFn b from rfl, forNested_box hd hc hL] at hr hs
  have h0 : ((floatArith F).lit 0).datum = .finite 0 := by
    show (Flt.round F false ((0 : ℚ) : ℝ)).datum = _
    rw [Rat.cast_zero, round_zero]
  exact runCalls_below (F := F) (g := fun idx => Flt.mul F (f idx) (y idx)) (g' := fun idx => Flt.mul F (f' idx) (y idx))
    (fun idx r => valueBody_eq u (hf idx) (hu idx) r) (fun idx r => valueBody_eq u (hf' idx) (hu idx) r)
    (fun idx h1 h2 => hyz idx h1 h2) ⟨0, 0, h0, h0, le_refl _⟩ hr hs fr fs

private theorem mul_pos_inOrder {f f' : Flt} (h : InOrder f f') {y : ℝ} (hy : 0 ≤ y) :
    InOrder (Flt.mul F f (Flt.ofReal y)) (Flt.mul F f' (Flt.ofReal y)) := by
  intro p q
  obtain ⟨u, v, hu, hv, hle⟩ := h (mul_finite p).1 (mul_finite q).1
  simp only [Flt.mul, hu, hv, Flt.ofReal] at p q ⊢
  exact round_below (mul_le_mul_of_nonneg_right hle hy) p q

private theorem mul_neg_inOrder {f f' : Flt} (h : InOrder f' f) {y : ℝ} (hy : y ≤ 0) :
    InOrder (Flt.mul F f (Flt.ofReal y)) (Flt.mul F f' (Flt.ofReal y)) := by
  intro p q
  obtain ⟨u, v, hu, hv, hle⟩ := h (mul_finite q).1 (mul_finite p).1
  simp only [Flt.mul, hu, hv, Flt.ofReal] at p q ⊢
  exact round_below (mul_le_mul_of_nonpos_right hle hy) p q

/-- Interpolated values along direction `k` are in order, if the signs of the nodal values are. -/
theorem value_along (hd : 0 < d) (hF : Wide F) (hS : ∀ k, EndPoints (S k)) (hc : ∀ k, (b k).numSupportPoints = (2 : ℕ))
    (hb : ∀ k i x, (b k).value i x = LagrangeBasis.value (floatArith F) (S k) 2 i x) (hx : ∀ j, |x j| ≤ 1) (hx' : ∀ j, |x' j| ≤ 1)
    (h : MovedUp k x x') {u : List Int → Res Flt} {y : (Fin d → Fin 2) → ℝ} (hu : ∀ i, u (tup (n := fun _ : Fin d => 2) i) = .ok (Flt.ofReal (y i)))
    {r s : Flt} (hr : ParentElement.value (floatArith F) (elementOf b) (List.ofFn fun j => Flt.ofReal (x j)) u = .ok r)
    (hs : ParentElement.value (floatArith F) (elementOf b) (List.ofFn fun j => Flt.ofReal (x' j)) u = .ok s) (fr : FiniteFlt r) (fs : FiniteFlt s) :
    ((∀ i, (i k = 0 → y i ≤ 0) ∧ (i k = 1 → 0 ≤ y i)) → Below r s) ∧ ((∀ i, (i k = 0 → 0 ≤ y i) ∧ (i k = 1 → y i ≤ 0)) → Below s r) := by
  choose f f' hf hf' _ _ hlow hup using products_inOrder hd hF hS hb hx hx' h
  constructor
  · intro hy
    refine value_inOrder (n := fun _ => 2) hd hc hf hf' hu (fun i => ?_) hr hs fr fs
    rcases (show ∀ a : Fin 2, a = 0 ∨ a = 1 by decide) (i k) with h0 | h1
    · exact mul_neg_inOrder (hlow i h0) ((hy i).1 h0)
    · exact mul_pos_inOrder (hup i h1) ((hy i).2 h1)
  · intro hy
    refine value_inOrder (n := fun _ => 2) hd hc hf' hf hu (fun i => ?_) hs hr fs fr
    rcases (show ∀ a : Fin 2, a = 0 ∨ a = 1 by decide) (i k) with h0 | h1
    · exact mul_pos_inOrder (hlow i h0) ((hy i).1 h0)
    · exact mul_neg_inOrder (hup i h1) ((hy i).2 h1)

end element

/-! ### witnesses -/

/-- Interpolation of order one of a field given by its nodal values. -/
def axisField (T : RealType) (fam : Family) (d : ℕ) (x : List ℚ) (y : List Int → ℚ) : Res (Option ℚ) :=
  ParentElement.value (evalArith T.format) ⟨.ok d, List.replicate d (knownBasis T fam 1)⟩ (x.map some) fun l => .ok (some (y l))

theorem axisField_sound {T : RealType} {fam : Family} {d : ℕ} {x : List ℚ} {y : List Int → ℚ} {q : ℚ}
    (h : axisField T fam d x y = .ok (some q)) {b : Basis Flt}
    (hb : b = ⟨((1 + 1 : ℕ) : Int),
      LagrangeBasis.value (floatArith T.format) (fam.spacingIn T.arith ((1 + 1 : ℕ) : Int)) ((1 + 1 : ℕ) : Int),
      LagrangeBasis.gradient (floatArith T.format) (fam.spacingIn T.arith ((1 + 1 : ℕ) : Int)) ((1 + 1 : ℕ) : Int)⟩) :
    ParentElement.value (floatArith T.format) ⟨.ok d, List.replicate d b⟩ (x.map fun q : ℚ => Flt.ofReal q) (fun l => .ok (Flt.ofReal (y l)))
      = .ok (Flt.ofReal q) := by
  have hrel : ResRel False Knows (axisField T fam d x y)
      (ParentElement.value (floatArith T.format) ⟨.ok d, List.replicate d b⟩ (x.map fun q : ℚ => Flt.ofReal q) (fun l => .ok (Flt.ofReal (y l)))) := by
    refine parentValue_rel (eval_rel T.format).toOpsRel ⟨rfl, ?_⟩ ?_ fun l => .ok (knows_some (y l))
    · subst hb
      clear h
      show List.Forall₂ _ (List.replicate d _) (List.replicate d _)
      generalize hn : d = n
      clear hn
      induction n with
      | zero => exact .nil
      | succ n ih => exact .cons (knownBasis_rel T fam 1) ih
    · clear h
      induction x with
      | nil => exact .nil
      | cons q x ih => exact .cons (knows_some q) ih
  rcases hrel _ h with ⟨m, hm, hk⟩ | ⟨hf, -⟩
  · rw [hm, hk q rfl]
  · exact hf.elim

/-- The nodal values 3 at the lower and 4 at the upper nodes of the first direction. -/
def threeFour (l : List Int) : ℚ := if l.head? = some 1 then 4 else 3

/-- At the second point, further along the first axis, the interpolated value is less than at the first point. -/
def decreasesBetween (T : RealType) (fam : Family) (d : ℕ) (x x' : List ℚ) : Bool :=
  match axisField T fam d x threeFour, axisField T fam d x' threeFour with
  | .ok (some p), .ok (some q) => decide (q < p)
  | _, _ => false

/-- The two points, in `d` dimensions. -/
def lowPoint (T : RealType) (d : ℕ) : List ℚ := (24 * belowOne T) :: List.replicate (d - 1) 1
def highPoint (T : RealType) (d : ℕ) : List ℚ := (25 * belowOne T) :: List.replicate (d - 1) 1

theorem decreases_all : ∀ T ∈ types, ∀ fam ∈ [Family.equal, .gaussLobatto], ∀ d ∈ [1, 2, 3],
    decreasesBetween T fam d (lowPoint T d) (highPoint T d) = true := by decide +kernel

theorem decreases_points : ∀ T ∈ types, ∀ n ∈ [24, 25], evalRound T.format (n * belowOne T) = some (n * belowOne T) ∧
    0 < belowOne T ∧ |n * belowOne T| ≤ 1 := by decide +kernel

end

end Verif.Lemmas
