import Verif.Lemmas.AxisOrder
import Verif.Lemmas.ControlValues

/-! # Derivatives of interpolation of order one along an axis -/

namespace Verif.Lemmas

open Verif.Spec

/-! ### exact arithmetic -/

section exact
variable {d : ℕ}

/-- The derivative of `hat`. -/
noncomputable def hatSlope (a : Fin 2) : ℝ := if a = 0 then -1 / 2 else 1 / 2

/-- The sum of derivatives of shape functions is the derivative of the interpolated value. -/
theorem cellSlope_sum (Y : (Fin d → Fin 2) → ℝ) (x : Fin d → ℝ) (a : Fin d) :
    ∑ i : Fin d → Fin 2, (∏ k, if a = k then hatSlope (i k) else hat (i k) (x k)) * Y i = cellSlope Y x a := by
  have split : ∀ (i : Fin d → Fin 2) (f g : Fin d → ℝ), (∀ k, k ≠ a → f k = g k) →
      ∏ k, f k = f a * ∏ k ∈ Finset.univ.erase a, g k := fun i f g h => by
    rw [← Finset.mul_prod_erase Finset.univ _ (Finset.mem_univ a)]
    congr 1
    exact Finset.prod_congr rfl fun k hk => h k (Finset.ne_of_mem_erase hk)
  unfold cellSlope multi
  rw [← Finset.sum_sub_distrib, Finset.sum_div]
  refine Finset.sum_congr rfl fun i _ => ?_
  rw [split i _ (fun k => hat (i k) (x k)) (fun k hk => if_neg (Ne.symm hk)),
    split i (fun k => hat (i k) (Function.update x a 1 k)) (fun k => hat (i k) (x k)) (fun k hk => by rw [Function.update_of_ne hk]),
    split i (fun k => hat (i k) (Function.update x a (-1) k)) (fun k => hat (i k) (x k)) (fun k hk => by rw [Function.update_of_ne hk])]
  simp only [if_true, Function.update_self]
  rcases (show ∀ a : Fin 2, a = 0 ∨ a = 1 by decide) (i a) with h | h <;> rw [h] <;>
    simp only [hat, hatSlope, if_true, if_neg (show (1 : Fin 2) ≠ 0 by decide)] <;> ring

/-- The derivative is between half of the least and half of the greatest difference of nodal values. -/
theorem cellSlope_bounds {Y : (Fin d → Fin 2) → ℝ} {k : Fin d} {x : Fin d → ℝ} (hx : ∀ j, |x j| ≤ 1) (m : ℝ) :
    ((∀ i, m ≤ Y (Function.update i k 1) - Y (Function.update i k 0)) → m / 2 ≤ cellSlope Y x k) ∧
      ((∀ i, Y (Function.update i k 1) - Y (Function.update i k 0) ≤ m) → cellSlope Y x k ≤ m / 2) := by
  have hx' : ∀ j, |Function.update x k (-1) j| ≤ 1 := fun j => by
    rcases eq_or_ne j k with rfl | hj
    · rw [Function.update_self]; norm_num
    · rw [Function.update_of_ne hj]; exact hx j
  have hm : MovedUp k (Function.update x k (-1)) (Function.update x k 1) := ⟨fun j hj => by
    rw [Function.update_of_ne hj, Function.update_of_ne hj], by rw [Function.update_self, Function.update_self]; norm_num⟩
  constructor
  · intro h
    have := multi_rate h hx' hm
    rw [Function.update_self, Function.update_self] at this
    unfold cellSlope
    linarith
  · intro h
    have := multi_rate (Y := fun i => -Y i) (m := -m) (fun i => by linarith [h i]) hx' hm
    have hn : ∀ z, multi (fun i => -Y i) z = -multi Y z := fun z => by simp [multi]
    rw [Function.update_self, Function.update_self, hn, hn] at this
    unfold cellSlope
    linarith

theorem sum_hatSlope (x : Fin d → ℝ) (hx : ∀ j, |x j| ≤ 1) (a : Fin d) :
    ∑ i : Fin d → Fin 2, ∏ k, (if a = k then 1 / 2 else |hat (i k) (x k)|) = 1 := by
  have := (Fintype.prod_sum fun (k : Fin d) (j : Fin 2) => if a = k then (1 / 2 : ℝ) else |hat j (x k)|).symm
  rw [this]
  refine Finset.prod_eq_one fun k _ => ?_
  rw [Fin.sum_univ_two]
  split_ifs
  · norm_num
  · rw [abs_of_nonneg (hat_nonneg 0 (abs_le.1 (hx k))), abs_of_nonneg (hat_nonneg 1 (abs_le.1 (hx k)))]
    simp only [hat, if_true, if_neg (show (1 : Fin 2) ≠ 0 by decide)]
    ring

end exact

/-! ### `float` and `double` -/

section
variable {F : FloatFormat}

/-- The derivatives of the two functions are opposite numbers, of which the second is not negative. -/
theorem linear_slopes (hF : Wide F) {S : Spacing Flt} (hS : EndPoints S) {X γ : Flt} {i : Fin 2}
    (h : LagrangeBasis.gradient (floatArith F) S 2 (i : ℕ) X = .ok γ) (hγ : FiniteFlt γ) : γ.datum = .finite (hatSlope i) := by
  have r1 : Represents F 1 := by have := hF.pow (k := 0) (by norm_num) (by norm_num); rwa [zpow_zero] at this
  have r2 : Represents F 2 := by have := hF.pow (k := 1) (by norm_num) (by norm_num); rwa [zpow_one] at this
  have rh : Represents F (1 / 2) := by have := hF.pow (k := -1) (by norm_num) (by norm_num); rwa [zpow_neg_one, inv_eq_one_div] at this
  have rn : Represents F (-1 / 2) := by have := represents_neg rh; rwa [show -(1 / 2 : ℝ) = -1 / 2 by norm_num] at this
  have h1 : (floatArith F).lit 1 = Flt.ofReal 1 := by
    show Flt.round F false ((1 : ℚ) : ℝ) = _
    rw [Rat.cast_one]; exact round_held r1 false
  rcases (show ∀ i : Fin 2, i = 0 ∨ i = 1 by decide) i with rfl | rfl
  · obtain ⟨δ, hδ, e⟩ := linear_slope h1 0 (linear_values hF hS X).1 h hγ
    have d1 : Flt.div F (Flt.ofReal 1) (Flt.sub F (Flt.ofReal (-1)) (Flt.ofReal 1)) = .ok (Flt.ofReal (-1 / 2)) := by
      have : Flt.sub F (Flt.ofReal (-1)) (Flt.ofReal 1) = Flt.ofReal (-2) := by
        simp only [Flt.sub, Flt.neg, Flt.add, Flt.ofReal, Bool.or_self]
        rw [show (-1 : ℝ) + -1 = -2 by norm_num]
        exact round_held (represents_neg r2) false
      rw [this]
      simp only [Flt.div, Flt.ofReal, Bool.or_self]
      rw [if_neg (by norm_num), show (1 : ℝ) / -2 = -1 / 2 by norm_num]
      exact congrArg Res.ok (round_held rn false)
    have : LagrangeBasis.gradientOfValueTerm (floatArith F) S 0 1 = .ok (Flt.ofReal (-1 / 2)) := by
      rw [LagrangeBasis.gradientOfValueTerm, if_neg (by decide), hS.left, hS.right, h1]
      exact d1
    obtain rfl := Res.ok.inj (hδ.symm.trans this)
    rw [e, hatSlope, if_pos rfl]
    simp only [Flt.mul, Flt.ofReal, mul_one]
    rw [round_held rn]
  · obtain ⟨δ, hδ, e⟩ := linear_slope h1 1 (linear_values hF hS X).2 h hγ
    have d2 : Flt.div F (Flt.ofReal 1) (Flt.sub F (Flt.ofReal 1) (Flt.ofReal (-1))) = .ok (Flt.ofReal (1 / 2)) := by
      have : Flt.sub F (Flt.ofReal 1) (Flt.ofReal (-1)) = Flt.ofReal 2 := by
        simp only [Flt.sub, Flt.neg, Flt.add, Flt.ofReal, Bool.or_self]
        rw [show (1 : ℝ) + - -1 = 2 by norm_num]
        exact round_held r2 false
      rw [this]
      simp only [Flt.div, Flt.ofReal, Bool.or_self]
      rw [if_neg (by norm_num)]
      exact congrArg Res.ok (round_held rh false)
    have : LagrangeBasis.gradientOfValueTerm (floatArith F) S 1 0 = .ok (Flt.ofReal (1 / 2)) := by
      rw [LagrangeBasis.gradientOfValueTerm, if_neg (by decide), hS.left, hS.right, h1]
      exact d2
    obtain rfl := Res.ok.inj (hδ.symm.trans this)
    rw [e, hatSlope, if_neg (by decide)]
    simp only [Flt.mul, Flt.ofReal, mul_one]
    rw [round_held rh]

/-- Adding a product and then a product of the opposite factor with a greater number does not make a sum negative. -/
theorem add_pair {r w w' v v' : Flt} (hr : Nonneg r) (hw : FiniteFlt w → FiniteFlt w' → w'.datum = w.neg.datum) (hw' : Nonneg w')
    (hv : InOrder v v') : Nonneg (Flt.add F (Flt.add F r (Flt.mul F w v)) (Flt.mul F w' v')) := by
  intro z hz
  obtain ⟨⟨s, hs⟩, t, ht⟩ := add_finite (F := F) ⟨z, hz⟩
  obtain ⟨⟨ρ, hρ⟩, m, hm⟩ := add_finite (F := F) ⟨s, hs⟩
  obtain ⟨⟨a, ha⟩, p, hp⟩ := mul_finite (F := F) ⟨m, hm⟩
  obtain ⟨⟨b, hb⟩, q, hq⟩ := mul_finite (F := F) ⟨t, ht⟩
  have hab : b = -a := by
    have := hw ⟨a, ha⟩ ⟨b, hb⟩
    rw [hb, Flt.neg, ha] at this
    exact Datum.finite.inj this
  obtain ⟨p', q', hp', hq', hle⟩ := hv ⟨p, hp⟩ ⟨q, hq⟩
  obtain rfl := Datum.finite.inj (hp.symm.trans hp')
  obtain rfl := Datum.finite.inj (hq.symm.trans hq')
  have e1 := mul_value ha hp hm
  have e2 := mul_value hb hq ht
  have e3 := add_value hρ hm hs
  have e4 := add_value hs ht hz
  have h0 := hr ρ hρ
  have hb0 := hw' b hb
  have l1 : -m ≤ t := by
    rw [e1, e2, ← nearest_neg]
    exact nearest_mono (by rw [hab] at hb0 ⊢; nlinarith)
  have l2 : m ≤ s := by
    rw [e3]
    have : F.nearest m = m := by rw [e1, nearest_nearest]
    calc m = F.nearest m := this.symm
      _ ≤ _ := nearest_mono (by linarith)
  rw [e4]
  exact nearest_nonneg F (by linarith)

/-- The same with a smaller number. -/
theorem add_pair_neg {r w w' v v' : Flt} (hr : Nonneg r.neg) (hw : FiniteFlt w → FiniteFlt w' → w'.datum = w.neg.datum) (hw' : Nonneg w')
    (hv : InOrder v' v) : Nonneg (Flt.add F (Flt.add F r (Flt.mul F w v)) (Flt.mul F w' v')).neg := by
  have neg_of : ∀ {f : Flt} {y : ℝ}, f.neg.datum = .finite y → f.datum = .finite (-y) := by
    rintro ⟨x | x | _, b⟩ y h
    · rw [← Datum.finite.inj h, neg_neg]
    · cases h
    · cases h
  intro y hy
  obtain ⟨z, hyz⟩ : ∃ z, z = -y := ⟨_, rfl⟩
  have hz := neg_of hy
  rw [← hyz] at hz
  obtain ⟨⟨s, hs⟩, t, ht⟩ := add_finite (F := F) ⟨z, hz⟩
  obtain ⟨⟨ρ, hρ⟩, m, hm⟩ := add_finite (F := F) ⟨s, hs⟩
  obtain ⟨⟨a, ha⟩, p, hp⟩ := mul_finite (F := F) ⟨m, hm⟩
  obtain ⟨⟨b, hb⟩, q, hq⟩ := mul_finite (F := F) ⟨t, ht⟩
  have hab : b = -a := by
    have := hw ⟨a, ha⟩ ⟨b, hb⟩
    rw [hb, Flt.neg, ha] at this
    exact Datum.finite.inj this
  obtain ⟨q', p', hq', hp', hle⟩ := hv ⟨q, hq⟩ ⟨p, hp⟩
  obtain rfl := Datum.finite.inj (hp.symm.trans hp')
  obtain rfl := Datum.finite.inj (hq.symm.trans hq')
  have e1 := mul_value ha hp hm
  have e2 := mul_value hb hq ht
  have e3 := add_value hρ hm hs
  have e4 := add_value hs ht hz
  have h0 := hr (-ρ) (by rw [Flt.neg, hρ])
  have hb0 := hw' b hb
  have l1 : t ≤ -m := by
    rw [e1, e2, ← nearest_neg]
    exact nearest_mono (by rw [hab] at hb0 ⊢; nlinarith)
  have l2 : s ≤ m := by
    rw [e3]
    have : F.nearest m = m := by rw [e1, nearest_nearest]
    calc _ ≤ F.nearest m := nearest_mono (by linarith)
      _ = m := this
  have : z ≤ 0 := by
    rw [e4, ← nearest_zero F]
    exact nearest_mono (by linarith)
  linarith

section last
variable {d : ℕ} {b : Fin (d + 1) → Basis Flt} {S : Fin (d + 1) → Spacing Flt} {x : Fin (d + 1) → Flt}

/-- The derivative in the last direction of the shape function of an upper node is not negative. -/
theorem product_last_nonneg (hF : Wide F) (hS : ∀ k, EndPoints (S k))
    (hb : ∀ k i x, (b k).value i x = LagrangeBasis.value (floatArith F) (S k) 2 i x)
    (hg : ∀ k i x, (b k).gradient i x = LagrangeBasis.gradient (floatArith F) (S k) 2 i x)
    (hx : ∀ k w, (x k).datum = .finite w → |w| ≤ 1) {τ : Fin d → Int} (hτ : ∀ k, τ k = 0 ∨ τ k = 1) {y : Flt}
    (h : foldRight (Flt.mul F) (List.ofFn fun k => if Fin.last d = k then (b k).gradient ((Fin.snoc τ 1 : Fin (d + 1) → Int) k) (x k)
      else (b k).value ((Fin.snoc τ 1 : Fin (d + 1) → Int) k) (x k)) = .ok y) (hy : FiniteFlt y) : Nonneg y := by
  have hok := fun k => foldRight_ok_all h _ (List.mem_ofFn.2 ⟨k, rfl⟩)
  choose v hv using hok
  have e : (List.ofFn fun k => if Fin.last d = k then (b k).gradient ((Fin.snoc τ 1 : Fin (d + 1) → Int) k) (x k)
      else (b k).value ((Fin.snoc τ 1 : Fin (d + 1) → Int) k) (x k)) = (List.ofFn v).map .ok := by
    rw [List.map_ofFn]; congr 1; funext k; exact hv k
  rw [e] at h
  refine foldRight_nonneg (fun a ha => ?_) h
  have hfin := foldRight_finite h hy a ha
  obtain ⟨k, rfl⟩ := List.mem_ofFn.1 ha
  have hk := hv k
  revert hk hfin
  refine Fin.lastCases (fun hk hfin => ?_) (fun k hk hfin => ?_) k
  · rw [if_pos rfl, Fin.snoc_last, hg] at hfin
    have := linear_slopes hF (hS _) (i := 1) hfin hk
    intro z hz
    rw [← Datum.finite.inj (this.symm.trans hz), hatSlope, if_neg (by decide)]
    norm_num
  · rw [if_neg (by intro h; exact absurd h.symm (Fin.castSucc_lt_last k).ne), Fin.snoc_castSucc, hb] at hfin
    exact linear_nonneg hF (hS _) (hx _) (hτ k) hfin

/-- **The sign of the last derivative.** -/
theorem gradient_last_sign (hF : Wide F) (hS : ∀ k, EndPoints (S k)) (hc : ∀ k, (b k).numSupportPoints = (2 : ℕ))
    (hb : ∀ k i x, (b k).value i x = LagrangeBasis.value (floatArith F) (S k) 2 i x)
    (hg : ∀ k i x, (b k).gradient i x = LagrangeBasis.gradient (floatArith F) (S k) 2 i x)
    (hx : ∀ k w, (x k).datum = .finite w → |w| ≤ 1) {var : List Int → Res Flt} (R : Flt → Flt → Prop) (P : Flt → Prop)
    (hP : P ((floatArith F).lit 0))
    (hstep : ∀ r w w' v v' : Flt, P r → (FiniteFlt w → FiniteFlt w' → w'.datum = w.neg.datum) → Nonneg w' → R v v' →
      P (Flt.add F (Flt.add F r (Flt.mul F w v)) (Flt.mul F w' v')))
    (hvar : ∀ τ : Fin d → Int, (∀ k, τ k = 0 ∨ τ k = 1) → ∃ v v', var (List.ofFn τ ++ [0]) = .ok v ∧ var (List.ofFn τ ++ [1]) = .ok v' ∧ R v v')
    {s : List Flt} (h : ParentElement.gradient (floatArith F) (elementOf b) (List.ofFn x) var = .ok s) :
    ∃ g : Fin (d + 1) → Flt, s = List.ofFn g ∧ P (g (Fin.last d)) := by
  rw [ParentElement.gradient, elementOf_instantiate, Res.ok_bind, show (elementOf b).bases = List.ofFn b from rfl] at h
  have e0 : (List.ofFn b).map Basis.numSupportPoints = (List.ofFn fun _ : Fin d => (2 : Int)) ++ [2] := by
    rw [List.map_ofFn, List.ofFn_succ_last]
    congr 1
    · congr 1; funext k; exact hc _
    · show [(b (Fin.last d)).numSupportPoints] = _
      rw [hc]; rfl
  rw [e0, Sequence.forNestedSequence, staticForNested_eq (by simp) (by
    intro e he
    rcases List.mem_append.1 he with he | he
    · obtain ⟨k, rfl⟩ := List.mem_ofFn.1 he; decide
    · rw [List.mem_singleton.1 he]; decide), boxFrom_snoc] at h
  refine runCalls_pairs (P := fun r => ∃ g : Fin (d + 1) → Flt, r = List.ofFn g ∧ P (g (Fin.last d)))
    ?_ ⟨fun _ => (floatArith F).lit 0, by rw [List.length_ofFn, List.ofFn_const], hP⟩ h
  rintro t ht r s u ⟨ρ, rfl, hρ⟩ hs hu
  simp only [List.nil_append] at hs hu
  obtain ⟨htl, htb⟩ := (mem_boxFrom (by simp)).1 ht
  have htl : t.length = d := by simpa using htl
  obtain ⟨τ, rfl⟩ : ∃ τ : Fin d → Int, t = List.ofFn τ := by
    subst htl
    exact ⟨fun k => t[k], (List.ofFn_getElem ..).symm⟩
  have hτ : ∀ k, τ k = 0 ∨ τ k = 1 := fun k => by
    have := htb k (by simp)
    have : 0 ≤ τ k ∧ τ k < 2 := by simpa [List.getD] using this
    omega
  obtain ⟨v, v', hv0, hv1, hR⟩ := hvar τ hτ
  have hsn : ∀ j : Int, List.ofFn τ ++ [j] = List.ofFn (Fin.snoc τ j : Fin (d + 1) → Int) := fun j => by
    rw [List.ofFn_succ_last]; simp
  rw [hsn] at hs hu hv0 hv1
  obtain ⟨g, rfl, hgf⟩ := gradientBody_step (Nat.succ_pos d) hv0 hs
  obtain ⟨g', rfl, hgf'⟩ := gradientBody_step (Nat.succ_pos d) hv1 hu
  refine ⟨_, rfl, hstep _ _ _ _ _ hρ (fun h1 h2 => ?_) ?_ hR⟩
  · refine product_opposite (fun γ γ' hγ hγ' f f' => ?_) (hgf (Fin.last d)) (hgf' (Fin.last d)) h1 h2
    rw [hg] at hγ hγ'
    have a := linear_slopes hF (hS _) (i := 0) hγ f
    have a' := linear_slopes hF (hS _) (i := 1) hγ' f'
    rw [a', Flt.neg, a, hatSlope, hatSlope, if_pos rfl, if_neg (by decide)]
    norm_num
  · intro z hz
    exact product_last_nonneg hF hS hb hg hx hτ (hgf' (Fin.last d)) ⟨z, hz⟩ z hz

end last

/-! ### a witness -/

/-- Gradients of order one of a field given by its nodal values. -/
def axisGradient (T : RealType) (fam : Family) (d : ℕ) (x : List ℚ) (y : List Int → ℚ) : Res (List (Option ℚ)) :=
  ParentElement.gradient (evalArith T.format) ⟨.ok d, List.replicate d (knownBasis T fam 1)⟩ (x.map some) fun l => .ok (some (y l))

theorem axisGradient_sound {T : RealType} {fam : Family} {d : ℕ} {x : List ℚ} {y : List Int → ℚ} {l : List ℚ}
    (h : axisGradient T fam d x y = .ok (l.map some)) {b : Basis Flt}
    (hb : b = ⟨((1 + 1 : ℕ) : Int),
      LagrangeBasis.value (floatArith T.format) (fam.spacingIn T.arith ((1 + 1 : ℕ) : Int)) ((1 + 1 : ℕ) : Int),
      LagrangeBasis.gradient (floatArith T.format) (fam.spacingIn T.arith ((1 + 1 : ℕ) : Int)) ((1 + 1 : ℕ) : Int)⟩) :
    ParentElement.gradient (floatArith T.format) ⟨.ok d, List.replicate d b⟩ (x.map fun q : ℚ => Flt.ofReal q) (fun l => .ok (Flt.ofReal (y l)))
      = .ok (l.map fun q : ℚ => Flt.ofReal q) := by
  have hrel : ResRel False (List.Forall₂ Knows) (axisGradient T fam d x y)
      (ParentElement.gradient (floatArith T.format) ⟨.ok d, List.replicate d b⟩ (x.map fun q : ℚ => Flt.ofReal q)
        (fun l => .ok (Flt.ofReal (y l)))) := by
    refine parentGradient_rel (eval_rel T.format).toOpsRel ⟨rfl, ?_⟩ ?_ fun l => .ok (knows_some (y l))
    · subst hb
      clear h
      show List.Forall₂ _ (List.replicate d _) (List.replicate d _)
      generalize hn : d = n
      clear hn
      induction n with
      | zero => exact .nil
      | succ n ih => exact .cons (knownBasis_rel T fam 1) ih
    · clear h
      induction x with
      | nil => exact .nil
      | cons q x ih => exact .cons (knows_some q) ih
  rcases hrel _ h with ⟨m, hm, hk⟩ | ⟨hf, -⟩
  · rw [hm, knows_all hk]
  · exact hf.elim

/-- Nodal values of a square that increase in the first direction: 3 and 1 at the lower nodes, and each a little more at the upper nodes. -/
def slightlyUp (T : RealType) (l : List Int) : ℚ :=
  if l = [0, 0] then 3 else if l = [0, 1] then 1 else if l = [1, 0] then 3 + 4 * belowOne T else 1 + 2 * belowOne T

/-- The first derivative is known and negative. -/
def slopeNegative (T : RealType) (fam : Family) : Bool :=
  match axisGradient T fam 2 [0, -7 / 8 - 4 * belowOne T] (slightlyUp T) with
  | .ok [some p, some _] => decide (p < 0)
  | _ => false

theorem slopes_negative : ∀ T ∈ types, ∀ fam ∈ [Family.equal, .gaussLobatto], slopeNegative T fam = true := by decide +kernel

theorem slope_values : ∀ T ∈ types, 0 < belowOne T ∧ belowOne T ≤ 1 / 100 ∧ ∀ q ∈ [3, 1, 3 + 4 * belowOne T, 1 + 2 * belowOne T, 0, -7 / 8 - 4 * belowOne T],
    evalRound T.format q = some q := by decide +kernel

end

end Verif.Lemmas
