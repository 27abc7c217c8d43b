import Verif.Lemmas.FusedOrder
import Verif.Lemmas.MonotoneFloat
import Verif.Props.Evaluation

/-!
# C152: signs and order of order-one interpolation, whatever is fused and however results are rounded

The rounding function is any that does not reverse the order of numbers and keeps zero: to nearest, up, down or towards zero.  Compilers may fuse a product with the sum that
uses it.  The elements have order one in every direction, their nodes are the ends of the interval in each direction, and the point lies between the nodes.
-/

namespace Verif.Props

open Verif.Spec Verif.Lemmas

variable {fl : ℝ → ℝ} {d : ℕ} {c : Fin d → Fin 2 → ℝ} {e : Element Term}

private theorem element_form (h : IsLagrangeOn (fun _ => 1) c e) : ∃ b : Fin d → Basis Term, e = elementOf b ∧
    ∀ k, (b k).numSupportPoints = ((2 : ℕ) : Int) ∧ ∀ (j : Fin 2) x, (b k).value ((j : ℕ) : Int) (.num x) = .ok (hatValue (c k) j x) := by
  obtain ⟨b, hb, hk⟩ := h.bases
  choose hlt S hS hbk using hk
  refine ⟨b, ?_, fun k => ?_⟩
  · cases e; simp only [elementOf]; congr 1; exact h.shape
  · have := hbk k
    rw [basis_ok_term (hlt k), Res.ok.injEq] at this
    rw [← this]
    exact ⟨rfl, fun j x => hatValue_eq (hS k) j x⟩

private theorem shape_form (h : IsLagrangeOn (fun _ => 1) c e) (idx : Fin d → Fin 2) (x : Fin d → ℝ) :
    ∃ t, ParentElement.basisValue termArith e (tup idx) (List.ofFn fun k => .num (x k)) = .ok t ∧
      foldRight (Term.op .mul) (List.ofFn fun k => .ok (hatValue (c k) (idx k) (x k))) = .ok t := by
  obtain ⟨b, rfl, hb⟩ := element_form h
  have hp : ParentElement.basisValue termArith (elementOf b) (tup idx) (List.ofFn fun k => .num (x k))
      = foldRight (Term.op .mul) (List.ofFn fun k => .ok (hatValue (c k) (idx k) (x k))) := by
    rw [(basisValue_eq _ (elementOf_instantiate b) (by simp [tup_length, elementOf]) _).1, BasisProduct.value,
      staticAssert_bind_true (by simp [tup_length, elementOf]), show (elementOf b).bases = List.ofFn b from rfl, tup, expand_ofFn]
    show foldRight (Term.op .mul) _ = _
    congr 2
    funext k
    rw [tableAt_ofFn, Res.ok_bind]
    exact (hb k).2 _ _
  have hd := h.dims
  have : ∀ l : List Term, l ≠ [] → ∃ t, foldRight (Term.op .mul) (l.map .ok) = .ok t := by
    intro l hl
    induction l with
    | nil => exact absurd rfl hl
    | cons a l ih =>
      cases l with
      | nil => exact ⟨a, rfl⟩
      | cons a' l =>
        obtain ⟨t, ht⟩ := ih (by simp)
        refine ⟨.op .mul a t, ?_⟩
        rw [List.map_cons] at ht
        rw [List.map_cons, List.map_cons, foldRight, Res.ok_bind, ht, Res.ok_bind]
  obtain ⟨t, ht⟩ := this (List.ofFn fun k => hatValue (c k) (idx k) (x k)) (by intro h; have := congrArg List.length h; simp at this; omega)
  rw [List.map_ofFn] at ht
  exact ⟨t, hp.trans ht, ht⟩

/-- The interpolated value is the sum, over the support points in one order, of products of shape functions and nodal values. -/
private theorem value_form (h : IsLagrangeOn (fun _ => 1) c e) : ∃ L : List (Fin d → Fin 2), ∀ (var : List Int → Res Term) (y : (Fin d → Fin 2) → ℝ)
    (_ : ∀ idx : Fin d → Fin 2, var (tup idx) = .ok (.num (y idx))) (x : Fin d → ℝ) (f : (Fin d → Fin 2) → Term)
    (_ : ∀ idx : Fin d → Fin 2, ParentElement.basisValue termArith e (tup idx) (List.ofFn fun k => .num (x k)) = .ok (f idx)),
    ParentElement.value termArith e (List.ofFn fun k => .num (x k)) var = .ok (sumTerm f y L (.lit 0)) := by
  obtain ⟨b, rfl, hb⟩ := element_form h
  obtain ⟨L, hL, -, -⟩ := box_list fun _ : Fin d => 2
  refine ⟨L, fun var y hy x f hf => ?_⟩
  have hbody : ∀ (idx : Fin d → Fin 2) r, ParentElement.valueBody termArith (elementOf b) (List.ofFn fun k => .num (x k)) var (tup idx) r
      = .ok (.op .add r (.op .mul (f idx) (.num (y idx)))) := fun idx r => by
    rw [ParentElement.valueBody, hf, Res.ok_bind, hy, Res.ok_bind]
    rfl
  rw [ParentElement.value, elementOf_instantiate, Res.ok_bind]
  rw [show (elementOf b).bases = List.ofFn b from rfl, forNested_box h.dims (fun k => (hb k).1) hL]
  exact runCalls_sum L hbody _

private theorem lit_zero (h0 : fl 0 = 0) : NotNeg fl (.lit 0) := by
  intro v hv
  cases hv
  rw [Rat.cast_zero, h0]

private theorem shape_notNeg (hm : Monotone fl) (h0 : fl 0 = 0) (hc : ∀ k, c k 0 < c k 1) {x : Fin d → ℝ}
    (hx : ∀ k, c k 0 ≤ x k ∧ x k ≤ c k 1) {idx : Fin d → Fin 2} {t : Term}
    (ht : foldRight (Term.op .mul) (List.ofFn fun k => .ok (hatValue (c k) (idx k) (x k))) = .ok t) : NotNeg fl t :=
  (inOrder_foldRight hm h0 (fun _ => inOrder_self _) (fun k => notNeg_hat hm h0 (hc k) (hx k) _) (fun k => notNeg_hat hm h0 (hc k) (hx k) _) ht ht).2.1

/-- **C152, shape functions.** No shape function is negative. -/
theorem C152_shape (hm : Monotone fl) (h0 : fl 0 = 0) (h : IsLagrangeOn (fun _ => 1) c e) (hc : ∀ k, c k 0 < c k 1) (idx : Fin d → Fin 2)
    (x : Fin d → ℝ) (hx : ∀ k, c k 0 ≤ x k ∧ x k ≤ c k 1) :
    ∃ t, ParentElement.basisValue termArith e (tup idx) (List.ofFn fun k => .num (x k)) = .ok t ∧ ∀ v, Contracted fl t v → 0 ≤ v := by
  obtain ⟨t, ht, hf⟩ := shape_form h idx x
  exact ⟨t, ht, shape_notNeg hm h0 hc hx hf⟩

/-- **C152, signs.** If no nodal value is negative, no interpolated value is, whatever is fused. -/
theorem C152_sign (hm : Monotone fl) (h0 : fl 0 = 0) (h : IsLagrangeOn (fun _ => 1) c e) (hc : ∀ k, c k 0 < c k 1)
    (var : List Int → Res Term) (y : (Fin d → Fin 2) → ℝ) (hy : ∀ idx : Fin d → Fin 2, var (tup idx) = .ok (.num (y idx))) (hpos : ∀ idx, 0 ≤ y idx)
    (x : Fin d → ℝ) (hx : ∀ k, c k 0 ≤ x k ∧ x k ≤ c k 1) :
    ∃ t, ParentElement.value termArith e (List.ofFn fun k => .num (x k)) var = .ok t ∧ ∀ v, Contracted fl t v → 0 ≤ v := by
  obtain ⟨L, hL⟩ := value_form h
  choose f hf hf' using fun idx => shape_form h idx x
  exact ⟨_, hL var y hy x f hf, notNeg_sum hm h0 (fun idx => shape_notNeg hm h0 hc hx (hf' idx)) hpos L (by intro a b e; cases e) (lit_zero h0)⟩

/-- **C152, signs, any errors.** The same holds, and nothing is divided by zero, if each operation has its own relative error below 1, as with wider registers. -/
theorem C152_errors {u : ℝ} (hu : u < 1) (h : IsLagrangeOn (fun _ => 1) c e) (hc : ∀ k, c k 0 < c k 1)
    (var : List Int → Res Term) (y : (Fin d → Fin 2) → ℝ) (hy : ∀ idx : Fin d → Fin 2, var (tup idx) = .ok (.num (y idx))) (hpos : ∀ idx, 0 ≤ y idx)
    (x : Fin d → ℝ) (hx : ∀ k, c k 0 ≤ x k ∧ x k ≤ c k 1) :
    ∃ t, ParentElement.value termArith e (List.ofFn fun k => .num (x k)) var = .ok t ∧ ∀ o, Evaluates u t o → ∃ v, o = some v ∧ 0 ≤ v := by
  obtain ⟨L, hL⟩ := value_form h
  choose f hf hf' using fun idx => shape_form h idx x
  refine ⟨_, hL var y hy x f hf, notNegIn_sum hu (fun idx => ?_) hpos L (notNegIn_lit hu le_rfl)⟩
  refine foldRight_closed (P := NotNegIn u) (fun a b => notNegIn_mul hu) (fun z hz a ha => ?_) (hf' idx)
  obtain ⟨k, rfl⟩ := (List.mem_ofFn (f := fun k => Res.ok (hatValue (c k) (idx k) (x k)))).1 hz
  obtain rfl := Res.ok.inj ha
  exact notNegIn_hat hu (hc k) (hx k) _

/-- **C152, comparison.** If no nodal value of one field exceeds that of another, no interpolated value does: the same compiled function, called for both, returns results in
this order. -/
theorem C152_compare (hm : Monotone fl) (h0 : fl 0 = 0) (h : IsLagrangeOn (fun _ => 1) c e) (hc : ∀ k, c k 0 < c k 1)
    (var var' : List Int → Res Term) (y y' : (Fin d → Fin 2) → ℝ) (hy : ∀ idx : Fin d → Fin 2, var (tup idx) = .ok (.num (y idx)))
    (hy' : ∀ idx : Fin d → Fin 2, var' (tup idx) = .ok (.num (y' idx))) (hle : ∀ idx, y idx ≤ y' idx)
    (x : Fin d → ℝ) (hx : ∀ k, c k 0 ≤ x k ∧ x k ≤ c k 1) :
    ∃ t t', ParentElement.value termArith e (List.ofFn fun k => .num (x k)) var = .ok t ∧
      ParentElement.value termArith e (List.ofFn fun k => .num (x k)) var' = .ok t' ∧ InOrder fl t t' := by
  obtain ⟨L, hL⟩ := value_form h
  choose f hf hf' using fun idx => shape_form h idx x
  refine ⟨_, _, hL var y hy x f hf, hL var' y' hy' x f hf, inOrder_sum hm (fun idx w w' hw => ?_) L (by intro a b e; cases e) (inOrder_self _)⟩
  rw [← SameWay.det hw rfl]
  exact mul_le_mul_of_nonneg_left (hle idx) (shape_notNeg hm h0 hc hx (hf' idx) _ (SameWay.left hw))

/-- **C152, shape functions along an axis.** As the point moves up one axis, the shape functions of the upper support points do not decrease, and those of the lower ones do not
increase. -/
theorem C152_axis_shape (hm : Monotone fl) (h0 : fl 0 = 0) (h : IsLagrangeOn (fun _ => 1) c e) (hc : ∀ k, c k 0 < c k 1) (idx : Fin d → Fin 2)
    (x x' : Fin d → ℝ) (k : Fin d) (hx : ∀ i, c i 0 ≤ x i ∧ x i ≤ c i 1) (hx' : ∀ i, c i 0 ≤ x' i ∧ x' i ≤ c i 1) (hup : x k ≤ x' k)
    (hsame : ∀ i, i ≠ k → x i = x' i) :
    ∃ t t', ParentElement.basisValue termArith e (tup idx) (List.ofFn fun k => .num (x k)) = .ok t ∧
      ParentElement.basisValue termArith e (tup idx) (List.ofFn fun k => .num (x' k)) = .ok t' ∧
      (idx k = 1 → InOrder fl t t') ∧ (idx k = 0 → InOrder fl t' t) := by
  obtain ⟨t, ht, hf⟩ := shape_form h idx x
  obtain ⟨t', ht', hf'⟩ := shape_form h idx x'
  have hat := inOrder_hat hm h0 (hc k) (hx k).1 hup (hx' k).2
  refine ⟨t, t', ht, ht', fun hk => ?_, fun hk => ?_⟩
  · refine (inOrder_foldRight hm h0 (fun i => ?_) (fun i => notNeg_hat hm h0 (hc i) (hx i) _) (fun i => notNeg_hat hm h0 (hc i) (hx' i) _) hf hf').1
    by_cases hi : i = k
    · subst hi; rw [hk]; exact hat.2
    · rw [hsame i hi]; exact inOrder_self _
  · refine (inOrder_foldRight hm h0 (fun i => ?_) (fun i => notNeg_hat hm h0 (hc i) (hx' i) _) (fun i => notNeg_hat hm h0 (hc i) (hx i) _) hf' hf).1
    by_cases hi : i = k
    · subst hi; rw [hk]; exact hat.1
    · rw [hsame i hi]; exact inOrder_self _

/-- **C152, along an axis.** If no nodal value on the upper side of an axis is negative and none on the lower side is positive, the interpolated value does not decrease as the
point moves up that axis. -/
theorem C152_axis (hm : Monotone fl) (h0 : fl 0 = 0) (h : IsLagrangeOn (fun _ => 1) c e) (hc : ∀ k, c k 0 < c k 1)
    (var : List Int → Res Term) (y : (Fin d → Fin 2) → ℝ) (hy : ∀ idx : Fin d → Fin 2, var (tup idx) = .ok (.num (y idx))) (k : Fin d)
    (hsign : ∀ idx, (idx k = 0 → y idx ≤ 0) ∧ (idx k = 1 → 0 ≤ y idx))
    (x x' : Fin d → ℝ) (hx : ∀ i, c i 0 ≤ x i ∧ x i ≤ c i 1) (hx' : ∀ i, c i 0 ≤ x' i ∧ x' i ≤ c i 1) (hup : x k ≤ x' k) (hsame : ∀ i, i ≠ k → x i = x' i) :
    ∃ t t', ParentElement.value termArith e (List.ofFn fun k => .num (x k)) var = .ok t ∧
      ParentElement.value termArith e (List.ofFn fun k => .num (x' k)) var = .ok t' ∧ InOrder fl t t' := by
  obtain ⟨L, hL⟩ := value_form h
  choose f f' hf hf' h1 h2 using fun idx => C152_axis_shape hm h0 h hc idx x x' k hx hx' hup hsame
  refine ⟨_, _, hL var y hy x f hf, hL var y hy x' f' hf', inOrder_sum hm (fun idx w w' hw => ?_) L (by intro a b e; cases e) (inOrder_self _)⟩
  rcases (show ∀ i : Fin 2, i = 0 ∨ i = 1 by decide) (idx k) with hk | hk
  · exact mul_le_mul_of_nonpos_right (h2 idx hk _ _ (SameWay.swap hw)) ((hsign idx).1 hk)
  · exact mul_le_mul_of_nonneg_right (h1 idx hk _ _ hw) ((hsign idx).2 hk)

/-! ### the hypotheses can be met -/

/-- Rounding to nearest in `float` and `double`, and rounding down or up to multiples of a number. -/
example (T : RealType) (s : ℝ) (hs : 0 ≤ s) : (Monotone T.format.nearest ∧ T.format.nearest 0 = 0) ∧
    (Monotone (fun x : ℝ => s * ⌊x / s⌋) ∧ s * ((⌊(0 : ℝ) / s⌋ : ℤ) : ℝ) = 0) ∧ (Monotone (fun x : ℝ => s * ⌈x / s⌉) ∧ s * ((⌈(0 : ℝ) / s⌉ : ℤ) : ℝ) = 0) := by
  refine ⟨⟨fun _ _ h => nearest_mono h, nearest_zero _⟩, ⟨fun a b h => ?_, by simp⟩, fun a b h => ?_, by simp⟩
  · exact mul_le_mul_of_nonneg_left (by exact_mod_cast Int.floor_mono (div_le_div_of_nonneg_right h hs)) hs
  · exact mul_le_mul_of_nonneg_left (by exact_mod_cast Int.ceil_mono (div_le_div_of_nonneg_right h hs)) hs

/-- The trilinear element at a point, in `float` and `double`: the interpolated values of any two fields, computed in the same way. -/
example (T : RealType) : ∃ (e : Element Term), IsLagrangeOn (fun _ : Fin 3 => 1) (fun _ => ![-1, 1]) e ∧
    (∀ k : Fin 3, (-1 : ℝ) ≤ (![1 / 3, 0, -1] : Fin 3 → ℝ) k ∧ (![1 / 3, 0, -1] : Fin 3 → ℝ) k ≤ 1) ∧
    ∀ y y' : ℝ, ∃ t t' v v', ParentElement.value termArith e (List.ofFn fun k => .num ((![1 / 3, 0, -1] : Fin 3 → ℝ) k)) (fun _ => .ok (.num y)) = .ok t ∧
      ParentElement.value termArith e (List.ofFn fun k => .num ((![1 / 3, 0, -1] : Fin 3 → ℝ) k)) (fun _ => .ok (.num y')) = .ok t' ∧
      SameWay T.format.nearest t v t' v' := by
  obtain ⟨b, hb, -⟩ := C97_basis (u := 0) le_rfl (by norm_num) (by norm_num) sample_nodes
  have h : IsLagrangeOn (fun _ : Fin 3 => 1) (fun _ => ![-1, 1]) ⟨.ok (3 : ℕ), List.ofFn fun _ : Fin 3 => b⟩ :=
    ⟨by norm_num, rfl, fun _ => b, rfl, fun k => ⟨by norm_num, _, sample_nodes, hb⟩⟩
  refine ⟨_, h, fun k => ?_, fun y y' => ?_⟩
  · fin_cases k <;> norm_num
  obtain ⟨L, hL⟩ := value_form h
  choose f hf hf' using fun idx => shape_form h idx ![1 / 3, 0, -1]
  have two : T.format.nearest (1 - (-1)) ≠ 0 ∧ T.format.nearest (-1 - 1) ≠ 0 := by
    have h2 : T.format.nearest ((2 : ℚ) : ℝ) = ((2 : ℚ) : ℝ) := evalRound_nearest (by cases T <;> decide +kernel)
    have h3 : T.format.nearest ((-2 : ℚ) : ℝ) = ((-2 : ℚ) : ℝ) := evalRound_nearest (by cases T <;> decide +kernel)
    push_cast at h2 h3
    rw [show (1 : ℝ) - (-1) = 2 by norm_num, show (-1 : ℝ) - 1 = -2 by norm_num, h2, h3]
    norm_num
  obtain ⟨v, v', hv⟩ := sameWay_sum (fl := T.format.nearest) (y := fun _ => y) (y' := fun _ => y') (f := f) (fun idx => by
    refine foldRight_closed (P := fun t => ∃ v, Contracted T.format.nearest t v) (fun a b => contracted_mul) (fun z hz a ha => ?_) (hf' idx)
    obtain ⟨k, rfl⟩ := (List.mem_ofFn (f := fun k => Res.ok (hatValue (![-1, 1] : Fin 2 → ℝ) (idx k) ((![1 / 3, 0, -1] : Fin 3 → ℝ) k)))).1 hz
    obtain rfl := Res.ok.inj ha
    exact contracted_hat two.1 two.2 _ _) L (r := .lit 0) (r' := .lit 0) ⟨_, _, .lit 0⟩
  exact ⟨_, _, v, v', hL _ (fun _ => y) (fun _ => rfl) _ f hf, hL _ (fun _ => y') (fun _ => rfl) _ f hf, hv⟩

end Verif.Props
