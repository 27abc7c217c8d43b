import Verif.Lemmas.AxisOrder
import Verif.Props.MonotoneFloat
import Verif.Props.Conformity

/-!
# Property C150: interpolation of order one increases along an axis if the nodal values do

In exact arithmetic it does, and in `float` and `double` it need not.  This file also says what is left with rounding.
-/

namespace Verif.Props

open Verif.Spec Verif.Lemmas

variable {d : ℕ}

private theorem basis_is_hat {v : Fin 2 → ℝ} (h0 : v 0 = -1) (h1 : v 1 = 1) (j : Fin 2) (x : ℝ) :
    (Lagrange.basis Finset.univ v j).eval x = hat j x := by
  rw [← prod_factor_eq, Fin.prod_univ_two]
  rcases (show ∀ j : Fin 2, j = 0 ∨ j = 1 by decide) j with rfl | rfl
  · simp [factor, hat, h0, h1]; ring
  · simp [factor, hat, h0, h1]; ring

/-- **C150, exact arithmetic.** For elements of order one with nodes at -1 and 1, in any number of dimensions: if the nodal values do not decrease
in direction `k`, then moving a point of the parent cube up in direction `k` does not decrease the interpolated value.  If every pair of neighbouring
nodes differs by at least `m` then the interpolated value changes by at least `m / 2` times the distance; so it increases strictly if the nodal
values do. -/
theorem C150_exact {e : Element ℝ} {c : (k : Fin d) → Fin 2 → ℝ} (h : IsLagrange (fun _ : Fin d => 1) c e)
    (hc : ∀ k, c k 0 = -1 ∧ c k 1 = 1) (k : Fin d) {u : List Int → Res ℝ} {y : (Fin d → Fin 2) → ℝ} (hu : ∀ i, u (tup i) = .ok (y i))
    {x x' : Fin d → ℝ} (hx : ∀ j, |x j| ≤ 1) (hm : MovedUp k x x') :
    ∃ p q, ParentElement.value (exactArith ℝ) e (List.ofFn x) u = .ok p ∧ ParentElement.value (exactArith ℝ) e (List.ofFn x') u = .ok q ∧
      (NodesIncrease k y → p ≤ q) ∧
      ∀ m : ℝ, (∀ i, m ≤ y (Function.update i k 1) - y (Function.update i k 0)) → m / 2 * (x' k - x k) ≤ q - p := by
  obtain ⟨b, rfl, hr, -⟩ := isLagrange_realises h
  have e : ∀ z : Fin d → ℝ, ParentElement.value (exactArith ℝ) (Lemmas.elementOf b) (List.ofFn z) u = .ok (multi y z) := fun z => by
    rw [parent_value h.dims hr z u y hu]
    refine congrArg Res.ok (Finset.sum_congr rfl fun i _ => ?_)
    congr 1
    exact Finset.prod_congr rfl fun j _ => basis_is_hat (hc j).1 (hc j).2 _ _
  exact ⟨_, _, e x, e x', fun hy => multi_increases hy hx hm, fun m hy => multi_rate hy hx hm⟩

/-- For order two this is false also in exact arithmetic: interpolating the values 0, 1, 1 gives 9/8 at 1/2 and 1 at 1. -/
theorem C150_order_two :
    (do
      let b ← lagrangeBasis ratArith (equalSpacing ratArith) 2
      let p ← ParentElement.value ratArith ⟨ShapeArgs.numDims ⟨1, -1, 1, 1⟩, [b]⟩ [1 / 2] (fun idx => .ok (if idx = [0] then 0 else 1))
      let q ← ParentElement.value ratArith ⟨ShapeArgs.numDims ⟨1, -1, 1, 1⟩, [b]⟩ [1] (fun idx => .ok (if idx = [0] then 0 else 1))
      .ok (p, q)) = .ok (9 / 8, 1) := by
  decide +kernel

/-- The claim of C150 for `float` and `double`. -/
def IncreasesAlongAxes : Prop :=
  ∀ (T : RealType) (d : ℕ) (c : Fin d → Fin 2 → ℝ) (e : Element Flt), IsLinearIn T e c →
    ∀ (var : List Int → Res Flt) (y : (Fin d → Fin 2) → ℝ), (∀ i, var (tup (n := fun _ : Fin d => 2) i) = .ok (Flt.ofReal (y i))) →
      (∀ i, Represents T.format (y i) ∧ |y i| ≤ 2 ^ 56) → ∀ k, NodesIncrease k y →
      ∀ x x' : Fin d → ℝ, (∀ j, |x j| ≤ 1 ∧ Represents T.format (x j)) → (∀ j, |x' j| ≤ 1 ∧ Represents T.format (x' j)) → MovedUp k x x' →
      ∃ r s p q, ParentElement.value (floatArith T.format) e (List.ofFn fun j => Flt.ofReal (x j)) var = .ok r ∧
        ParentElement.value (floatArith T.format) e (List.ofFn fun j => Flt.ofReal (x' j)) var = .ok s ∧
        r.datum = .finite p ∧ s.datum = .finite q ∧ p ≤ q

section element
variable {T : RealType} {c : Fin d → Fin 2 → ℝ} {e : Element Flt}

/-- **C150, shape functions.** In `float` and `double` and any number of dimensions, moving a point of the parent element up in direction `k` does not
decrease the shape functions of the nodes that are upper in direction `k`, and does not increase those of the nodes that are lower. -/
theorem C150_shape_partial (h : IsLinearIn T e c) (k : Fin d) {x x' : Fin d → ℝ} (hx : ∀ j, |x j| ≤ 1) (hx' : ∀ j, |x' j| ≤ 1)
    (hm : MovedUp k x x') (i : Fin d → Fin 2) :
    ∃ r s, InterpolatedShape.value (floatArith T.format) e (tup (n := fun _ : Fin d => 2) i) (List.ofFn fun j => Flt.ofReal (x j)) = .ok r ∧
      InterpolatedShape.value (floatArith T.format) e (tup (n := fun _ : Fin d => 2) i) (List.ofFn fun j => Flt.ofReal (x' j)) = .ok s ∧
      ∀ p q, r.datum = .finite p → s.datum = .finite q → (i k = 0 → q ≤ p) ∧ (i k = 1 → p ≤ q) := by
  obtain ⟨S, b, rfl, hS, -, hb⟩ := linear_parts h
  obtain ⟨f, f', hf, hf', -, -, hlow, hup⟩ := products_inOrder h.shipped.dims (wide_format T) hS hb hx hx' hm i
  have eq := fun X : List Flt => (basisValue_eq (floatArith T.format) (elementOf_instantiate b)
    (idx := tup (n := fun _ : Fin d => 2) i) (by simp [tup_length, Lemmas.elementOf]) X).2.1
  refine ⟨f, f', (eq _).trans hf, (eq _).trans hf', fun p q hp hq => ⟨fun h0 => ?_, fun h1 => ?_⟩⟩
  · obtain ⟨q', p', hq', hp', hle⟩ := hlow h0 ⟨q, hq⟩ ⟨p, hp⟩
    rw [Datum.finite.inj (hp.symm.trans hp'), Datum.finite.inj (hq.symm.trans hq')]
    exact hle
  · obtain ⟨p', q', hp', hq', hle⟩ := hup h1 ⟨p, hp⟩ ⟨q, hq⟩
    rw [Datum.finite.inj (hp.symm.trans hp'), Datum.finite.inj (hq.symm.trans hq')]
    exact hle

/-- **C150, signs.** In `float` and `double` and any number of dimensions: if no nodal value is positive on the lower face and none is negative on the
upper face, the interpolated value does not decrease in direction `k`, unless it is infinite or not a number; with the signs exchanged, it does not
increase. -/
theorem C150_sign_partial (h : IsLinearIn T e c) (k : Fin d) {u : List Int → Res Flt} {y : (Fin d → Fin 2) → ℝ}
    (hu : ∀ i, u (tup (n := fun _ : Fin d => 2) i) = .ok (Flt.ofReal (y i))) {x x' : Fin d → ℝ} (hx : ∀ j, |x j| ≤ 1) (hx' : ∀ j, |x' j| ≤ 1)
    (hm : MovedUp k x x') {r s : Flt} (hr : ParentElement.value (floatArith T.format) e (List.ofFn fun j => Flt.ofReal (x j)) u = .ok r)
    (hs : ParentElement.value (floatArith T.format) e (List.ofFn fun j => Flt.ofReal (x' j)) u = .ok s) {p q : ℝ}
    (hp : r.datum = .finite p) (hq : s.datum = .finite q) :
    ((∀ i, (i k = 0 → y i ≤ 0) ∧ (i k = 1 → 0 ≤ y i)) → p ≤ q) ∧ ((∀ i, (i k = 0 → 0 ≤ y i) ∧ (i k = 1 → y i ≤ 0)) → q ≤ p) := by
  obtain ⟨S, b, rfl, hS, hc, hb⟩ := linear_parts h
  obtain ⟨h1, h2⟩ := value_along h.shipped.dims (wide_format T) hS hc hb hx hx' hm hu hr hs ⟨p, hp⟩ ⟨q, hq⟩
  constructor
  · intro hy
    obtain ⟨p', q', hp', hq', hle⟩ := h1 hy
    rw [Datum.finite.inj (hp.symm.trans hp'), Datum.finite.inj (hq.symm.trans hq')]
    exact hle
  · intro hy
    obtain ⟨q', p', hq', hp', hle⟩ := h2 hy
    rw [Datum.finite.inj (hp.symm.trans hp'), Datum.finite.inj (hq.symm.trans hq')]
    exact hle

/-- **C150, the decrease.** In up to three dimensions, if the nodal values do not decrease in direction `k`, then moving up in direction `k` decreases
the interpolated value by no more than twice the rounding error of C100.  If every pair of neighbouring nodes differs by at least `m`, the interpolated
value grows by at least `m / 2` times the distance, less that error. -/
theorem C150_error_partial (h : IsLinearIn T e c) (hd : d ≤ 3) (k : Fin d) {u : List Int → Res Flt} {y : (Fin d → Fin 2) → ℝ}
    (hu : ∀ i, u (tup (n := fun _ : Fin d => 2) i) = .ok (Flt.ofReal (y i))) {Y : ℝ} (hY1 : 1 ≤ Y) (hY2 : Y ≤ 2 ^ 56) (hY : ∀ i, |y i| ≤ Y)
    {x x' : Fin d → ℝ} (hx : ∀ j, |x j| ≤ 1) (hx' : ∀ j, |x' j| ≤ 1) (hm : MovedUp k x x') :
    ∃ r s p q, ParentElement.value (floatArith T.format) e (List.ofFn fun j => Flt.ofReal (x j)) u = .ok r ∧
      ParentElement.value (floatArith T.format) e (List.ofFn fun j => Flt.ofReal (x' j)) u = .ok s ∧ r.datum = .finite p ∧ s.datum = .finite q ∧
      (NodesIncrease k y →
        p ≤ q + 2 * (errBound (unitRoundoff T.format) (9 * d + 2 ^ d) * Y + 2 ^ 66 * Y * smallestPositive T.format)) ∧
      ∀ m : ℝ, (∀ i, m ≤ y (Function.update i k 1) - y (Function.update i k 0)) →
        m / 2 * (x' k - x k) ≤ q - p + 2 * (errBound (unitRoundoff T.format) (9 * d + 2 ^ d) * Y + 2 ^ 66 * Y * smallestPositive T.format) := by
  have hE : 0 ≤ errBound (unitRoundoff T.format) (9 * d + 2 ^ d) := by
    unfold errBound
    have : (1 : ℝ) ≤ (1 + unitRoundoff T.format) ^ (9 * d + 2 ^ d) := one_le_pow₀ (by
      have : (0 : ℝ) ≤ unitRoundoff T.format := by unfold unitRoundoff; positivity
      linarith)
    linarith
  have hround : interpolationRoundings (fun _ : Fin d => 1) = 9 * d + 2 ^ d := by
    unfold interpolationRoundings
    simp; ring
  have near : ∀ z : Fin d → ℝ, (∀ j, |z j| ≤ 1) → ∃ r p, ParentElement.value (floatArith T.format) e (List.ofFn fun j => Flt.ofReal (z j)) u = .ok r ∧
      r.datum = .finite p ∧
      |p - multi y z| ≤ errBound (unitRoundoff T.format) (9 * d + 2 ^ d) * Y + 2 ^ 66 * Y * smallestPositive T.format := by
    intro z hz
    obtain ⟨r, hr, p, hp, herr⟩ := C100_interpolation h.shipped hd u y hu hY1 hY2 hY z hz
    have hN : ∀ i : Fin d → Fin 2, (∏ k, ∏ t ∈ Finset.univ.erase (i k), (z k - c k t) / (c k (i k) - c k t)) = ∏ k, hat (i k) (z k) := fun i =>
      Finset.prod_congr rfl fun j _ => by
        rcases (show ∀ a : Fin 2, a = 0 ∨ a = 1 by decide) (i j) with e | e <;> rw [e]
        · rw [show Finset.univ.erase (0 : Fin 2) = {1} by decide, Finset.prod_singleton, (h.ends j).1, (h.ends j).2, hat, if_pos rfl]
          ring
        · rw [show Finset.univ.erase (1 : Fin 2) = {0} by decide, Finset.prod_singleton, (h.ends j).1, (h.ends j).2, hat, if_neg (by decide)]
          ring
    have herr' : |p - ∑ i : Fin d → Fin 2, (∏ k, hat (i k) (z k)) * y i|
        ≤ errBound (unitRoundoff T.format) (interpolationRoundings fun _ : Fin d => 1) * ∑ i : Fin d → Fin 2, |∏ k, hat (i k) (z k)| * |y i|
          + 2 ^ 66 * Y * smallestPositive T.format := by
      have e : (fun i : Fin d → Fin 2 => ∏ k, ∏ t ∈ Finset.univ.erase (i k), (z k - c k t) / (c k (i k) - c k t)) = fun i => ∏ k, hat (i k) (z k) :=
        funext hN
      simp only [← hN]
      exact herr
    rw [hround] at herr'
    refine ⟨r, p, hr, hp, herr'.trans (add_le_add_left (mul_le_mul_of_nonneg_left ?_ hE) _)⟩
    have hpos : ∀ i : Fin d → Fin 2, 0 ≤ ∏ k, hat (i k) (z k) := fun i => Finset.prod_nonneg fun j _ => hat_nonneg _ (abs_le.1 (hz j))
    calc ∑ i : Fin d → Fin 2, |∏ k, hat (i k) (z k)| * |y i| ≤ ∑ i : Fin d → Fin 2, (∏ k, hat (i k) (z k)) * Y :=
          Finset.sum_le_sum fun i _ => by
            rw [abs_of_nonneg (hpos i)]; exact mul_le_mul_of_nonneg_left (hY i) (hpos i)
      _ = Y := by rw [← Finset.sum_mul, sum_hat, one_mul]
  obtain ⟨r, p, hr, hp, h1⟩ := near x hx
  obtain ⟨s, q, hs, hq, h2⟩ := near x' hx'
  rw [abs_le] at h1 h2
  refine ⟨r, s, p, q, hr, hs, hp, hq, fun hy => ?_, fun m hy => ?_⟩
  · linarith [multi_increases hy hx hm]
  · linarith [multi_rate hy hx hm]

end element

/-- **C150 is violated** in `float` and `double`, in one, two and three dimensions, with EqualSpacing and with GaussLobattoSpacing: with the nodal value 3
at the lower and 4 at the upper nodes of the first direction, there are two points of which the second is further up in the first direction and has a
smaller interpolated value. -/
theorem C150_violated : ¬ IncreasesAlongAxes ∧
    ∀ (T : RealType) (fam : Family), fam = .equal ∨ fam = .gaussLobatto → ∃ b : Basis Flt,
      T.arith.lagrangeBasis (fam.spacingIn T.arith) (1 : ℕ) = .ok b ∧
      ∀ (d : ℕ) (hd : 0 < d), d ≤ 3 → ∃ (x x' : Fin d → ℝ) (p q : ℝ), (∀ j, |x j| ≤ 1 ∧ Represents T.format (x j)) ∧
        (∀ j, |x' j| ≤ 1 ∧ Represents T.format (x' j)) ∧ MovedUp ⟨0, hd⟩ x x' ∧
        ParentElement.value (floatArith T.format) ⟨.ok d, List.replicate d b⟩ (List.ofFn fun j => Flt.ofReal (x j))
          (fun l => .ok (Flt.ofReal (if l.head? = some 1 then 4 else 3))) = .ok (Flt.ofReal p) ∧
        ParentElement.value (floatArith T.format) ⟨.ok d, List.replicate d b⟩ (List.ofFn fun j => Flt.ofReal (x' j))
          (fun l => .ok (Flt.ofReal (if l.head? = some 1 then 4 else 3))) = .ok (Flt.ofReal q) ∧ q < p := by
  have rep : ∀ (T : RealType) (d : ℕ), 0 < d → ∀ n ∈ [(24 : ℚ), 25], ∃ x : Fin d → ℝ, (∀ j, |x j| ≤ 1 ∧ Represents T.format (x j)) ∧
      (∀ j, x j = if (j : ℕ) = 0 then ((n * belowOne T : ℚ) : ℝ) else 1) ∧
      (List.ofFn fun j => Flt.ofReal (x j)) = (((n * belowOne T) :: List.replicate (d - 1) 1 : List ℚ).map fun q : ℚ => Flt.ofReal q) := by
    intro T d hd n hn
    obtain ⟨h1, -, h2⟩ := decreases_points T (mem_types T) n hn
    have r1 : Represents T.format 1 := by have := (wide_format T).pow (k := 0) (by norm_num) (by norm_num); rwa [zpow_zero] at this
    refine ⟨fun j => if (j : ℕ) = 0 then ((n * belowOne T : ℚ) : ℝ) else 1, fun j => ?_, fun j => rfl, ?_⟩
    · dsimp only
      split_ifs
      · exact ⟨by rw [← Rat.cast_abs]; exact_mod_cast h2, round_represents _ (evalRound_sound _ h1)⟩
      · exact ⟨by norm_num, r1⟩
    · obtain ⟨d, rfl⟩ : ∃ m, d = m + 1 := ⟨d - 1, by omega⟩
      rw [List.ofFn_succ, List.map_cons]
      congr 1
      simp only [Fin.val_succ, Nat.add_eq_zero_iff, one_ne_zero, and_false, if_false, List.ofFn_const, Nat.add_sub_cancel, List.map_replicate,
        Rat.cast_one]
  have each : ∀ (T : RealType) (fam : Family), fam = .equal ∨ fam = .gaussLobatto → ∀ b : Basis Flt,
      T.arith.lagrangeBasis (fam.spacingIn T.arith) (1 : ℕ) = .ok b →
      ∀ (d : ℕ) (hd : 0 < d), d ≤ 3 → ∃ (x x' : Fin d → ℝ) (p q : ℝ), (∀ j, |x j| ≤ 1 ∧ Represents T.format (x j)) ∧
        (∀ j, |x' j| ≤ 1 ∧ Represents T.format (x' j)) ∧ MovedUp ⟨0, hd⟩ x x' ∧
        ParentElement.value (floatArith T.format) ⟨.ok d, List.replicate d b⟩ (List.ofFn fun j => Flt.ofReal (x j))
          (fun l => .ok (Flt.ofReal (if l.head? = some 1 then 4 else 3))) = .ok (Flt.ofReal p) ∧
        ParentElement.value (floatArith T.format) ⟨.ok d, List.replicate d b⟩ (List.ofFn fun j => Flt.ofReal (x' j))
          (fun l => .ok (Flt.ofReal (if l.head? = some 1 then 4 else 3))) = .ok (Flt.ofReal q) ∧ q < p := by
    intro T fam hfam b hb d hd hd3
    have hm : fam ∈ [Family.equal, .gaussLobatto] := by rcases hfam with rfl | rfl <;> decide
    have hdec := decreases_all T (mem_types T) fam hm d (by simp only [List.mem_cons, List.not_mem_nil, or_false]; omega)
    obtain ⟨x, hx, ex, lx⟩ := rep T d hd 24 (by simp)
    obtain ⟨x', hx', ex', lx'⟩ := rep T d hd 25 (by simp)
    obtain ⟨-, hpos, -⟩ := decreases_points T (mem_types T) 24 (by simp)
    have hvar : (fun l : List Int => (Res.ok (Flt.ofReal (if l.head? = some 1 then 4 else 3)) : Res Flt))
        = fun l => .ok (Flt.ofReal (threeFour l : ℚ)) := by
      funext l
      unfold threeFour
      split_ifs <;> norm_num
    unfold decreasesBetween at hdec
    split at hdec
    · next p q ep eq =>
      refine ⟨x, x', p, q, hx, hx', ⟨fun j hj => ?_, ?_⟩, ?_, ?_, by exact_mod_cast of_decide_eq_true hdec⟩
      · have : (j : ℕ) ≠ 0 := fun h0 => hj (Fin.ext h0)
        rw [ex, ex', if_neg this, if_neg this]
      · rw [ex, ex', if_pos rfl, if_pos rfl]
        have : (24 : ℚ) * belowOne T ≤ 25 * belowOne T := by linarith
        exact_mod_cast this
      · rw [lx, hvar]; exact axisField_sound ep (linear_form T fam hb)
      · rw [lx', hvar]; exact axisField_sound eq (linear_form T fam hb)
    · cases hdec
  refine ⟨fun hall => ?_, fun T fam hfam => ?_⟩
  · obtain ⟨b, c, hb, hlin⟩ := same_linear .double (fam := .equal) (.inl rfl) (d := 1) (by norm_num)
    obtain ⟨x, x', p, q, hx, hx', hm, hp, hq, hlt⟩ := each .double .equal (.inl rfl) b hb 1 (by norm_num) (by norm_num)
    have r4 : Represents RealType.double.format 4 := by
      have := (wide_format .double).pow (k := 2) (by norm_num) (by norm_num); norm_num at this; exact this
    have r3 : Represents RealType.double.format 3 := by
      have := round_represents binary64 (evalRound_sound binary64 (q := 3) (r := 3) (by decide +kernel))
      push_cast at this; exact this
    obtain ⟨r, s, p', q', hr, hs, hp', hq', hle⟩ := hall .double 1 c _ hlin
      (fun l => .ok (Flt.ofReal (if l.head? = some 1 then 4 else 3)))
      (fun i => if (tup (n := fun _ : Fin 1 => 2) i).head? = some 1 then 4 else 3) (fun _ => rfl)
      (fun i => by split_ifs <;> [exact ⟨r4, by norm_num⟩; exact ⟨r3, by norm_num⟩]) 0 (fun i => by
        have : (tup (n := fun _ : Fin 1 => 2) (Function.update i 0 1)).head? = some 1 := by
          revert i; decide
        dsimp only
        rw [if_pos this]
        split_ifs <;> norm_num) x x' hx hx' hm
    obtain rfl := Res.ok.inj (hr.symm.trans hp)
    obtain rfl := Res.ok.inj (hs.symm.trans hq)
    have e1 := Datum.finite.inj hp'
    have e2 := Datum.finite.inj hq'
    linarith
  · obtain ⟨b, -, hb, -⟩ := same_linear T hfam (d := 1) (by norm_num)
    exact ⟨b, hb, each T fam hfam b hb⟩

/-- Non-vacuity of C150: in exact arithmetic a cube whose nodal values are the number of indices that are 1 increases strictly along the second axis;
in `float` a square with the values -1 and 0 on the lower and 2 and 5 on the upper face increases along the first axis between two given points. -/
example : (∃ (e : Element ℝ) (p q : ℝ),
      ParentElement.value (exactArith ℝ) e (List.ofFn ![1 / 3, -1 / 2, 1]) (fun l => .ok ((l.sum : ℤ) : ℝ)) = .ok p ∧
      ParentElement.value (exactArith ℝ) e (List.ofFn ![1 / 3, 3 / 4, 1]) (fun l => .ok ((l.sum : ℤ) : ℝ)) = .ok q ∧ p < q) ∧
    ∃ (b : Basis Flt) (r s : Flt) (p q : ℝ), floatMixed.lagrangeBasis floatMixed.equalSpacing (1 : ℕ) = .ok b ∧
      ParentElement.value (floatArith binary32) ⟨.ok (2 : ℕ), List.replicate 2 b⟩ (List.ofFn fun k : Fin 2 => Flt.ofReal (![-1 / 3, 1 / 7] k))
        (fun l => .ok (Flt.ofReal (if l = [0, 0] then -1 else if l = [0, 1] then 0 else if l = [1, 0] then 2 else 5))) = .ok r ∧
      ParentElement.value (floatArith binary32) ⟨.ok (2 : ℕ), List.replicate 2 b⟩ (List.ofFn fun k : Fin 2 => Flt.ofReal (![1 / 5, 1 / 7] k))
        (fun l => .ok (Flt.ofReal (if l = [0, 0] then -1 else if l = [0, 1] then 0 else if l = [1, 0] then 2 else 5))) = .ok s ∧
      r.datum = .finite p ∧ s.datum = .finite q ∧ p ≤ q := by
  constructor
  · obtain ⟨w, hw, -, -⟩ := C36_supported_nodes .equal 1 ⟨by norm_num, by norm_num⟩
    have hwe := C76_end_nodes .equal 1 (by norm_num) (by decide) ⟨by norm_num, by norm_num⟩ w hw
    obtain ⟨b, hb, -⟩ := (C36_compiles_iff_supported .equal 1 ⟨by norm_num, by norm_num⟩).1 ⟨by norm_num, by norm_num⟩
    obtain ⟨p, q, hp, hq, -, hm⟩ := C150_exact (e := ⟨.ok 3, List.ofFn fun _ : Fin 3 => b⟩) (c := fun _ => w)
      ⟨by norm_num, rfl, _, rfl, fun _ => ⟨by norm_num, _, hw, hb⟩⟩ (fun _ => hwe) 1 (u := fun l => .ok ((l.sum : ℤ) : ℝ))
      (y := fun i => (((tup (n := fun _ : Fin 3 => 2) i).sum : ℤ) : ℝ)) (fun _ => rfl) (x := ![1 / 3, -1 / 2, 1]) (x' := ![1 / 3, 3 / 4, 1])
      (fun j => by rcases (show ∀ j : Fin 3, j = 0 ∨ j = 1 ∨ j = 2 by decide) j with rfl | rfl | rfl <;> rw [abs_le] <;>
        [(constructor <;> norm_num); (constructor <;> norm_num); exact ⟨by show (-1 : ℝ) ≤ 1; norm_num, le_refl (1 : ℝ)⟩])
      ⟨fun j hj => by
        rcases (show ∀ j : Fin 3, j = 0 ∨ j = 1 ∨ j = 2 by decide) j with rfl | rfl | rfl
        · rfl
        · exact absurd rfl hj
        · rfl, by norm_num⟩
    refine ⟨_, p, q, hp, hq, ?_⟩
    have := hm 1 fun i => by
      have h : (tup (n := fun _ : Fin 3 => 2) (Function.update i 1 1)).sum = (tup (n := fun _ : Fin 3 => 2) (Function.update i 1 0)).sum + 1 := by
        revert i; decide
      dsimp only
      rw [h]; push_cast; linarith
    norm_num at this
    linarith
  · obtain ⟨b, c, hb, h⟩ := same_linear .float (fam := .equal) (.inl rfl) (d := 2) (by norm_num)
    have hx : ∀ k : Fin 2, |(![-1 / 3, 1 / 7] : Fin 2 → ℝ) k| ≤ 1 := fun k => by fin_cases k <;> norm_num [abs_le]
    have hx' : ∀ k : Fin 2, |(![1 / 5, 1 / 7] : Fin 2 → ℝ) k| ≤ 1 := fun k => by fin_cases k <;> norm_num [abs_le]
    have hm : MovedUp (0 : Fin 2) ![-1 / 3, 1 / 7] ![1 / 5, 1 / 7] := ⟨fun j hj => by
      rcases (show ∀ j : Fin 2, j = 0 ∨ j = 1 by decide) j with rfl | rfl
      · exact absurd rfl hj
      · rfl, by norm_num⟩
    have val : ∀ i : Fin 2 → Fin 2, tup (n := fun _ : Fin 2 => 2) i = [((i 0 : ℕ) : Int), ((i 1 : ℕ) : Int)] := fun i => rfl
    obtain ⟨r, s, p, q, hr, hs, hp, hq, -, -⟩ := C150_error_partial h (by norm_num) 0
      (u := fun l => .ok (Flt.ofReal (if l = [0, 0] then -1 else if l = [0, 1] then 0 else if l = [1, 0] then 2 else 5)))
      (y := fun i => if tup (n := fun _ : Fin 2 => 2) i = [0, 0] then -1 else if tup (n := fun _ : Fin 2 => 2) i = [0, 1] then 0
        else if tup (n := fun _ : Fin 2 => 2) i = [1, 0] then 2 else 5) (fun _ => rfl) (Y := 5) (by norm_num) (by norm_num)
      (fun i => by split_ifs <;> norm_num) hx hx' hm
    refine ⟨b, r, s, p, q, hb, hr, hs, hp, hq, (C150_sign_partial h 0
      (u := fun l => .ok (Flt.ofReal (if l = [0, 0] then -1 else if l = [0, 1] then 0 else if l = [1, 0] then 2 else 5)))
      (y := fun i => if tup (n := fun _ : Fin 2 => 2) i = [0, 0] then -1 else if tup (n := fun _ : Fin 2 => 2) i = [0, 1] then 0
        else if tup (n := fun _ : Fin 2 => 2) i = [1, 0] then 2 else 5) (fun _ => rfl) hx hx' hm hr hs hp hq).1 fun i => ?_⟩
    have low : i 0 = 0 → tup (n := fun _ : Fin 2 => 2) i = [0, 0] ∨ tup (n := fun _ : Fin 2 => 2) i = [0, 1] := by revert i; decide
    have high : i 0 = 1 → tup (n := fun _ : Fin 2 => 2) i ≠ [0, 0] := by revert i; decide
    constructor
    · intro h0
      rcases low h0 with e | e
      · rw [if_pos e]; norm_num
      · rw [if_neg (by rw [e]; decide), if_pos e]
    · intro h1
      rw [if_neg (high h1)]
      split_ifs <;> norm_num

end Verif.Props
