import Verif.Lemmas.StabilityTables
import Verif.Lemmas.ArithHom
import Verif.Lemmas.MirrorFloat
import Verif.Spec.Stability
import Mathlib.Analysis.Calculus.Deriv.Mul
import Mathlib.Analysis.Calculus.Deriv.Add

/-! Bounds for the sums of the absolute values of basis functions and of their derivatives. -/

namespace Verif.Lemmas

open Verif.Spec

section bounds
variable {n : ℕ} {c : Fin n → ℝ} {x : ℝ} {q : Fin n → ℝ} {p : Fin n → Fin n → ℝ}

private theorem prod_erase (hq0 : ∀ t, 0 < q t) (j : Fin n) : ∏ t ∈ Finset.univ.erase j, q t = (∏ t, q t) / q j := by
  rw [eq_div_iff (hq0 j).ne', Finset.prod_erase_mul _ _ (Finset.mem_univ j)]

private theorem quotient_le (hq : ∀ t, |x - c t| ≤ q t) (hp : ∀ j t, t ≠ j → 0 < p j t ∧ p j t ≤ |c j - c t|) {j t : Fin n} (h : t ≠ j) :
    |(x - c t) / (c j - c t)| ≤ q t / p j t := by
  rw [abs_div]
  exact div_le_div₀ ((abs_nonneg _).trans (hq t)) (hq t) (hp j t h).1 (hp j t h).2

theorem lagrange_le (hq : ∀ t, |x - c t| ≤ q t) (hq0 : ∀ t, 0 < q t) (hp : ∀ j t, t ≠ j → 0 < p j t ∧ p j t ≤ |c j - c t|) (j : Fin n) :
    |∏ t ∈ Finset.univ.erase j, (x - c t) / (c j - c t)| ≤ (∏ t, q t) / (q j * ∏ t ∈ Finset.univ.erase j, p j t) := by
  rw [Finset.abs_prod, ← div_div, ← prod_erase hq0, ← Finset.prod_div_distrib]
  exact Finset.prod_le_prod (fun t _ => abs_nonneg _) fun t ht => quotient_le hq hp (Finset.ne_of_mem_erase ht)

theorem magnitude_le (hq : ∀ t, |x - c t| ≤ q t) (hq0 : ∀ t, 0 < q t) (hp : ∀ j t, t ≠ j → 0 < p j t ∧ p j t ≤ |c j - c t|) (j : Fin n) :
    derivMagnitude c j x ≤ (∏ t, q t) / (q j * ∏ t ∈ Finset.univ.erase j, p j t) * ∑ s ∈ Finset.univ.erase j, 1 / q s := by
  unfold derivMagnitude
  rw [Finset.mul_sum]
  refine Finset.sum_le_sum fun a ha => ?_
  have hpa := hp j a (Finset.ne_of_mem_erase ha)
  rw [← div_div, ← prod_erase hq0, ← Finset.prod_div_distrib, ← Finset.mul_prod_erase _ _ ha,
    show q a / p j a * (∏ t ∈ (Finset.univ.erase j).erase a, q t / p j t) * (1 / q a)
      = 1 / p j a * ∏ t ∈ (Finset.univ.erase j).erase a, q t / p j t by have := (hq0 a).ne'; field_simp]
  refine mul_le_mul ?_ (Finset.prod_le_prod (fun t _ => abs_nonneg _) fun t ht =>
    quotient_le hq hp (Finset.ne_of_mem_erase (Finset.mem_of_mem_erase ht))) (Finset.prod_nonneg fun t _ => abs_nonneg _) (by have := hpa.1; positivity)
  rw [abs_div, abs_one]
  exact one_div_le_one_div_of_le hpa.1 hpa.2

end bounds

private theorem div_up (a : ℕ) {b : ℕ} (hb : 0 < b) : (a : ℝ) / b ≤ ((a / b + 1 : ℕ) : ℝ) := by
  rw [div_le_iff₀ (by exact_mod_cast hb)]
  have := (Nat.lt_mul_div_succ a hb).le
  rw [mul_comm] at this
  exact_mod_cast this

private theorem fold_prod (l : List ℕ) : l.foldr (· * ·) 1 = l.prod := rfl

private theorem gap_cast (m t : ℕ) : ((gap m t : ℕ) : ℝ) = |(m : ℝ) - t| := by
  unfold gap
  rcases le_total m t with h | h
  · have h2 : (m : ℝ) ≤ t := by exact_mod_cast h
    rw [Nat.sub_eq_zero_of_le h, zero_add, Nat.cast_sub h, abs_sub_comm, abs_of_nonneg (sub_nonneg.2 h2)]
  · have h2 : (t : ℝ) ≤ m := by exact_mod_cast h
    rw [Nat.sub_eq_zero_of_le h, add_zero, Nat.cast_sub h, abs_of_nonneg (sub_nonneg.2 h2)]

section cell
variable {ap : List (ℕ × ℕ)} {w m : ℕ} {c : Fin ap.length → ℝ} {x : ℝ}

private theorem apart (hfit : fits ap = true) {i j : Fin ap.length} (h : i ≠ j) : 3 ≤ gap ap[i].1 ap[j].1 ∧ ap[i].1 ≠ ap[j].1 := by
  unfold fits at hfit
  rw [Bool.and_eq_true, decide_eq_true_eq, List.pairwise_iff_getElem] at hfit
  have key := hfit.1
  unfold gap
  rcases lt_or_gt_of_ne h with h | h
  · have := key i j (by simp) (by simp) h
    simp only [List.getElem_map] at this
    simp only [Fin.getElem_fin]
    omega
  · have := key j i (by simp) (by simp) h
    simp only [List.getElem_map] at this
    simp only [Fin.getElem_fin]
    omega

private theorem products (hfit : fits ap = true) (j : Fin ap.length) :
    ((ap[j].2 : ℕ) : ℝ) = ∏ t ∈ Finset.univ.erase j, ((gap ap[j].1 ap[t].1 - 2 : ℕ) : ℝ) := by
  have h2 := hfit
  unfold fits at h2
  rw [Bool.and_eq_true, List.all_eq_true] at h2
  have := h2.2 ap[j] (List.getElem_mem _)
  rw [beq_iff_eq, fold_prod, ← Fin.prod_univ_fun_getElem] at this
  rw [this, Nat.cast_prod, ← Finset.mul_prod_erase _ _ (Finset.mem_univ j)]
  simp only [Fin.getElem_fin, if_true, Nat.cast_one, one_mul]
  refine Finset.prod_congr rfl fun t ht => ?_
  exact congrArg Nat.cast (if_neg (apart hfit (Finset.ne_of_mem_erase ht)).2)

private theorem all_reach : ((reachAll w m ap : ℕ) : ℝ) = ∏ t : Fin ap.length, ((reach w m ap[t].1 : ℕ) : ℝ) := by
  unfold reachAll
  rw [fold_prod, ← Fin.prod_univ_fun_getElem, Nat.cast_prod]
  rfl

private theorem reach_pos (t : ℕ) : 0 < reach w m t := by unfold reach; omega

private theorem product_pos (hfit : fits ap = true) (j : Fin ap.length) : 0 < ap[j].2 := by
  have := products hfit j
  have h2 : (0 : ℝ) < ∏ t ∈ Finset.univ.erase j, ((gap ap[j].1 ap[t].1 - 2 : ℕ) : ℝ) := Finset.prod_pos fun t ht => by
    have := (apart hfit (Finset.ne_of_mem_erase ht).symm).1
    exact_mod_cast (by omega : 0 < gap ap[j].1 ap[t].1 - 2)
  rw [← this] at h2
  exact_mod_cast h2

variable (hfit : fits ap = true) (hc : ∀ i, |c i - ap[i].1| ≤ 1) (hx : |x - m| ≤ w)

include hc hx in
private theorem within_reach (t : Fin ap.length) : |x - c t| ≤ ((reach w m ap[t].1 : ℕ) : ℝ) := by
  unfold reach
  push_cast
  rw [gap_cast]
  have h1 := abs_le.1 (hc t)
  have h2 := abs_le.1 hx
  have h3 := abs_le.1 (le_refl |(m : ℝ) - (ap[t].1 : ℕ)|)
  rw [abs_le]
  constructor <;> linarith

include hfit hc in
private theorem separated (j t : Fin ap.length) (h : t ≠ j) :
    (0 : ℝ) < ((gap ap[j].1 ap[t].1 - 2 : ℕ) : ℝ) ∧ ((gap ap[j].1 ap[t].1 - 2 : ℕ) : ℝ) ≤ |c j - c t| := by
  have h3 := (apart hfit h.symm).1
  refine ⟨by exact_mod_cast (by omega : 0 < gap ap[j].1 ap[t].1 - 2), ?_⟩
  rw [Nat.cast_sub (by omega), gap_cast]
  have h1 := hc j
  have h2 := hc t
  have h4 : |((ap[j].1 : ℕ) : ℝ) - (ap[t].1 : ℕ)| ≤ |c j - c t| + |c j - ap[j].1| + |c t - ap[t].1| := by
    have := abs_add_three (c j - c t) (-(c j - ap[j].1)) (c t - ap[t].1)
    rw [abs_neg] at this
    refine le_trans (le_of_eq ?_) this
    congr 1
    ring
  push_cast
  linarith

include hfit hc hx in
theorem valueCell_bound : ∑ j, |∏ t ∈ Finset.univ.erase j, (x - c t) / (c j - c t)| ≤ (valueCell w m ap : ℝ) / 10000 := by
  unfold valueCell
  rw [← Fin.sum_univ_fun_getElem, Nat.cast_sum, le_div_iff₀ (by norm_num), Finset.sum_mul]
  refine Finset.sum_le_sum fun j _ => ?_
  have := lagrange_le (within_reach hc hx) (fun t => by exact_mod_cast reach_pos (w := w) (m := m) ap[t].1) (separated hfit hc) j
  rw [← products hfit, ← all_reach] at this
  refine le_trans (mul_le_mul_of_nonneg_right this (by norm_num)) ?_
  refine le_trans (le_of_eq ?_) (div_up (reachAll w m ap * 10000) (b := reach w m ap[j].1 * ap[j].2)
    (Nat.mul_pos (reach_pos _) (product_pos hfit j)))
  push_cast
  ring

private theorem reciprocals_bound (j : Fin ap.length) :
    ∑ s ∈ Finset.univ.erase j, 1 / ((reach w m ap[s].1 : ℕ) : ℝ)
      ≤ ((reciprocals w m ap - (1000000000000 / reach w m ap[j].1 + 1) : ℕ) : ℝ) / 1000000000000 := by
  have e : reciprocals w m ap - (1000000000000 / reach w m ap[j].1 + 1)
      = ∑ s ∈ Finset.univ.erase j, (1000000000000 / reach w m ap[s].1 + 1) := by
    unfold reciprocals
    rw [← Fin.sum_univ_fun_getElem, ← Finset.add_sum_erase _ _ (Finset.mem_univ j)]
    exact Nat.add_sub_cancel_left _ _
  rw [e, Nat.cast_sum, le_div_iff₀ (by norm_num), Finset.sum_mul]
  refine Finset.sum_le_sum fun s _ => ?_
  refine le_trans (le_of_eq ?_) (div_up 1000000000000 (reach_pos _))
  push_cast
  ring

include hfit hc hx in
theorem gradientCell_bound : ∑ j, derivMagnitude c j x * 1000000 ≤ (gradientCell w m ap : ℝ) / 10000 := by
  unfold gradientCell
  rw [← Fin.sum_univ_fun_getElem, Nat.cast_sum, le_div_iff₀ (by norm_num), Finset.sum_mul]
  refine Finset.sum_le_sum fun j _ => ?_
  have := magnitude_le (within_reach hc hx) (fun t => by exact_mod_cast reach_pos (w := w) (m := m) ap[t].1) (separated hfit hc) j
  rw [← products hfit, ← all_reach] at this
  have hP := product_pos hfit j
  have hR := reach_pos (w := w) (m := m) ap[j].1
  have h2 := this.trans (mul_le_mul_of_nonneg_left (reciprocals_bound j) (by positivity))
  refine le_trans (mul_le_mul_of_nonneg_right (mul_le_mul_of_nonneg_right h2 (by norm_num)) (by norm_num)) ?_
  refine le_trans (le_of_eq ?_) (div_up (reachAll w m ap * (reciprocals w m ap - (1000000000000 / reach w m ap[j].1 + 1)))
    (b := reach w m ap[j].1 * ap[j].2 * 100) (by positivity))
  generalize (reciprocals w m ap - (1000000000000 / reach w m ap[j].1 + 1)) = T
  have h3 : ((ap[j].2 : ℕ) : ℝ) ≠ 0 := by exact_mod_cast hP.ne'
  have h4 : ((reach w m ap[j].1 : ℕ) : ℝ) ≠ 0 := by exact_mod_cast hR.ne'
  push_cast
  field_simp
  ring

end cell

/-- The cell of a point. -/
private theorem find_cell {X : ℝ} (h0 : 0 ≤ X) (h1 : X ≤ 2000000) : ∃ i < 1000, |X - ((1000 * (2 * i + 1) : ℕ) : ℝ)| ≤ ((1000 : ℕ) : ℝ) := by
  by_cases h : X < 2000000
  · have hf := Nat.floor_le (show 0 ≤ X / 2000 by positivity)
    have hl := Nat.lt_floor_add_one (X / 2000)
    rw [le_div_iff₀ (by norm_num)] at hf
    rw [div_lt_iff₀ (by norm_num)] at hl
    refine ⟨⌊X / 2000⌋₊, ?_, ?_⟩
    · rw [Nat.floor_lt (by positivity), div_lt_iff₀ (by norm_num)]
      norm_num
      linarith
    · push_cast
      rw [abs_le]
      constructor <;> linarith
  · refine ⟨999, by norm_num, ?_⟩
    rw [show X = 2000000 by linarith]
    norm_num

section interval
variable {ap : List (ℕ × ℕ)} {n : ℕ} (hn : ap.length = n) {c : Fin n → ℝ} {x : ℝ} (hfit : fits ap = true)
  (hc : ∀ i : Fin n, |(c i + 1) * 1000000 - (ap.getD i (0, 0)).1| ≤ 1) (hx : |x| ≤ 1)

include hn hfit hc hx

theorem values_bounded {bound : ℕ} (h : valuesFit ap bound = true) :
    ∑ j, |∏ t ∈ Finset.univ.erase j, (x - c t) / (c j - c t)| ≤ (bound : ℝ) / 10000 := by
  subst hn
  have hx := abs_le.1 hx
  obtain ⟨i, hi, hcell⟩ := find_cell (X := (x + 1) * 1000000) (by linarith) (by linarith)
  have hb := List.all_eq_true.1 h i (List.mem_range.2 hi)
  have := valueCell_bound (c := fun t => (c t + 1) * 1000000) hfit (fun t => by
    have := hc t; rwa [List.getD_eq_getElem?_getD, List.getElem?_eq_getElem t.2, Option.getD_some] at this) hcell
  simp only [← sub_mul, add_sub_add_right_eq_sub, mul_div_mul_right _ _ (show (1000000 : ℝ) ≠ 0 by norm_num)] at this
  refine this.trans (div_le_div_of_nonneg_right ?_ (by norm_num))
  exact_mod_cast Nat.le_of_ble_eq_true hb

theorem gradients_bounded {bound : ℕ} (h : gradientsFit ap bound = true) : ∑ j, derivMagnitude c j x ≤ (bound : ℝ) / 10000 := by
  subst hn
  have hx := abs_le.1 hx
  obtain ⟨i, hi, hcell⟩ := find_cell (X := (x + 1) * 1000000) (by linarith) (by linarith)
  have hb := List.all_eq_true.1 h i (List.mem_range.2 hi)
  have := gradientCell_bound (c := fun t => (c t + 1) * 1000000) hfit (fun t => by
    have := hc t; rwa [List.getD_eq_getElem?_getD, List.getElem?_eq_getElem t.2, Option.getD_some] at this) hcell
  have e : ∀ j, derivMagnitude (fun t => (c t + 1) * 1000000) j ((x + 1) * 1000000) * 1000000 = derivMagnitude c j x := by
    intro j
    unfold derivMagnitude
    rw [Finset.sum_mul]
    refine Finset.sum_congr rfl fun a _ => ?_
    simp only [← sub_mul, add_sub_add_right_eq_sub, mul_div_mul_right _ _ (show (1000000 : ℝ) ≠ 0 by norm_num)]
    rw [abs_div, abs_div, abs_mul, abs_of_nonneg (show (0 : ℝ) ≤ 1000000 by norm_num)]
    ring
  simp only [e] at this
  refine this.trans (div_le_div_of_nonneg_right ?_ (by norm_num))
  exact_mod_cast Nat.le_of_ble_eq_true hb

end interval

/-! ### the shipped families -/

/-- The table of a family. -/
def tableOf (fam : Family) (order : ℕ) : List (ℕ × ℕ) :=
  (match fam with
    | .equal => [[], equal1Points, equal2Points, equal3Points, equal4Points, equal5Points, equal6Points, equal7Points, equal8Points]
    | .gaussLegendre => [[], legendre1Points, legendre2Points, legendre3Points]
    | .gaussLobatto => [[], lobatto1Points, lobatto2Points, lobatto3Points, lobatto4Points, lobatto5Points, lobatto6Points, lobatto7Points,
        lobatto8Points]).getD order []

/-- The families with the orders from 1 to 8 they support. -/
def shippedLines : List (Family × ℕ) :=
  [(.equal, 1), (.equal, 2), (.equal, 3), (.equal, 4), (.equal, 5), (.equal, 6), (.equal, 7), (.equal, 8),
    (.gaussLegendre, 1), (.gaussLegendre, 2), (.gaussLegendre, 3),
    (.gaussLobatto, 1), (.gaussLobatto, 2), (.gaussLobatto, 3), (.gaussLobatto, 4), (.gaussLobatto, 5), (.gaussLobatto, 6), (.gaussLobatto, 7),
    (.gaussLobatto, 8)]

theorem mem_shippedLines {fam : Family} {order : ℕ} (h1 : 1 ≤ order) (h8 : order ≤ 8) (hs : fam.Supports order) :
    (fam, order) ∈ shippedLines := by
  obtain ⟨n, rfl⟩ : ∃ n : Fin 9, order = n := ⟨⟨order, by omega⟩, rfl⟩
  cases fam with
  | equal => clear hs; revert n; decide
  | gaussLobatto => clear hs; revert n; decide
  | gaussLegendre =>
    have h3 : (n : ℕ) ≤ 3 := by have := hs.2; omega
    clear hs
    revert n
    decide

/-- Point `i` in exact arithmetic. -/
def exactPoint (fam : Family) (order : ℕ) (i : Int) : Option ℚ :=
  match (fam.spacing ratArith ((order + 1 : ℕ) : Int)).coordCT i with
  | .ok q => some q
  | _ => none

private theorem spacing_hom (fam : Family) (n i : Int) :
    (fam.spacing (exactArith ℝ) n).coordCT i = (fun q : ℚ => (q : ℝ)) <$> (fam.spacing ratArith n).coordCT i := by
  cases fam with
  | equal =>
    show EqualSpacing.coordCT (exactArith ℝ) n i = _ <$> EqualSpacing.coordCT ratArith n i
    unfold EqualSpacing.coordCT
    rw [equal_interval_hom ratCast_hom, map_bind']
    cases EqualSpacing.interval ratArith n with
    | ok q =>
      show Res.ok _ = Res.ok _
      have h := ratCast_hom
      beta_reduce
      rw [h.lit, h.lit, h.mul, h.neg, h.add]
    | _ => rfl
  | gaussLegendre => exact legendre_coordCT_hom ratCast_hom n i
  | gaussLobatto => exact lobatto_coordCT_hom ratCast_hom n i

theorem exactPoint_sound {fam : Family} {order : ℕ} {i : Int} {q : ℚ} (h : exactPoint fam order i = some q) :
    (fam.spacing (exactArith ℝ) ((order + 1 : ℕ) : Int)).coordCT i = .ok (q : ℝ) := by
  unfold exactPoint at h
  rw [spacing_hom]
  split at h
  · next e => cases h; rw [e]; rfl
  · cases h

/-- A point is within a millionth of its entry in the table. -/
def nearTable (fam : Family) (order : ℕ) (i : ℕ) (o : Option ℚ) : Bool :=
  o.any fun q : ℚ => decide ((-1 : ℚ) ≤ (q + 1) * 1000000 - (((tableOf fam order).getD i (0, 0)).1 : ℚ) ∧
    (q + 1) * 1000000 - (((tableOf fam order).getD i (0, 0)).1 : ℚ) ≤ 1)

private theorem exact_near : ∀ l ∈ shippedLines, ∀ i : Fin (l.2 + 1), nearTable l.1 l.2 i (exactPoint l.1 l.2 (i : ℕ)) = true := by decide +kernel

private theorem float_near : ∀ l ∈ shippedLines, ∀ i : Fin (l.2 + 1), nearTable l.1 l.2 i (knownPoint .float l.1 l.2 (i : ℕ)) = true := by decide +kernel

private theorem double_near : ∀ l ∈ shippedLines, ∀ i : Fin (l.2 + 1), nearTable l.1 l.2 i (knownPoint .double l.1 l.2 (i : ℕ)) = true := by
  decide +kernel

/-- The points `c` are within a millionth of those of the table. -/
def CloseTo (fam : Family) (order : ℕ) (c : Fin (order + 1) → ℝ) : Prop :=
  ∀ i : Fin (order + 1), |(c i + 1) * 1000000 - ((tableOf fam order).getD i (0, 0)).1| ≤ 1

private theorem near_close {fam : Family} {order i : ℕ} {o : Option ℚ} (h : nearTable fam order i o = true) :
    ∃ q, o = some q ∧ |((q : ℝ) + 1) * 1000000 - ((tableOf fam order).getD i (0, 0)).1| ≤ 1 := by
  cases o with
  | none => cases h
  | some q =>
    obtain ⟨h1, h2⟩ := of_decide_eq_true (Option.any_some.symm.trans h)
    refine ⟨q, rfl, abs_le.2 ⟨?_, ?_⟩⟩
    · exact_mod_cast h1
    · exact_mod_cast h2

theorem exact_close {fam : Family} {order : ℕ} (h1 : 1 ≤ order) (h8 : order ≤ 8) (hs : fam.Supports order) {c : Fin (order + 1) → ℝ}
    (hc : ∀ i : Fin (order + 1), (fam.spacing (exactArith ℝ) ((order + 1 : ℕ) : Int)).coordCT (i : ℕ) = .ok (c i)) : CloseTo fam order c := by
  intro i
  obtain ⟨q, hq, hn⟩ := near_close (exact_near _ (mem_shippedLines h1 h8 hs) i)
  have := (hc i).symm.trans (exactPoint_sound hq)
  rw [Res.ok.inj this]
  exact hn

theorem float_close (T : RealType) {fam : Family} {order : ℕ} (h1 : 1 ≤ order) (h8 : order ≤ 8) (hs : fam.Supports order) {c : Fin (order + 1) → ℝ}
    (hc : ∀ i : Fin (order + 1), (fam.spacingIn T.arith ((order + 1 : ℕ) : Int)).coordCT (i : ℕ) = .ok (Flt.ofReal (c i))) : CloseTo fam order c := by
  intro i
  have hm := mem_shippedLines h1 h8 hs
  obtain ⟨q, hq, hn⟩ := near_close (show nearTable fam order i (knownPoint T fam order (i : ℕ)) = true from by
    cases T
    · exact float_near _ hm i
    · exact double_near _ hm i)
  have := Res.ok.inj ((hc i).symm.trans (knownPoint_sound hq))
  have e : c i = (q : ℝ) := by
    have := congrArg Flt.datum this
    simpa [Flt.ofReal] using this
  rw [e]
  exact hn

private theorem table_facts : ∀ l ∈ shippedLines, (tableOf l.1 l.2).length = l.2 + 1 ∧ fits (tableOf l.1 l.2) = true ∧
    (∃ V, valuesFit (tableOf l.1 l.2) V = true ∧ (V : ℚ) / 10000 = l.1.amplification l.2) ∧
    ∃ G, gradientsFit (tableOf l.1 l.2) G = true ∧ (G : ℚ) / 10000 = l.1.steepness l.2 := by
  intro l hl
  simp only [shippedLines, List.mem_cons, List.not_mem_nil, or_false] at hl
  rcases hl with rfl | rfl | rfl | rfl | rfl | rfl | rfl | rfl | rfl | rfl | rfl | rfl | rfl | rfl | rfl | rfl | rfl | rfl | rfl
  · exact ⟨rfl, equal1_fits, ⟨_, equal1_values, by norm_num [Family.amplification]⟩, _, equal1_gradients, by norm_num [Family.steepness]⟩
  · exact ⟨rfl, equal2_fits, ⟨_, equal2_values, by norm_num [Family.amplification]⟩, _, equal2_gradients, by norm_num [Family.steepness]⟩
  · exact ⟨rfl, equal3_fits, ⟨_, equal3_values, by norm_num [Family.amplification]⟩, _, equal3_gradients, by norm_num [Family.steepness]⟩
  · exact ⟨rfl, equal4_fits, ⟨_, equal4_values, by norm_num [Family.amplification]⟩, _, equal4_gradients, by norm_num [Family.steepness]⟩
  · exact ⟨rfl, equal5_fits, ⟨_, equal5_values, by norm_num [Family.amplification]⟩, _, equal5_gradients, by norm_num [Family.steepness]⟩
  · exact ⟨rfl, equal6_fits, ⟨_, equal6_values, by norm_num [Family.amplification]⟩, _, equal6_gradients, by norm_num [Family.steepness]⟩
  · exact ⟨rfl, equal7_fits, ⟨_, equal7_values, by norm_num [Family.amplification]⟩, _, equal7_gradients, by norm_num [Family.steepness]⟩
  · exact ⟨rfl, equal8_fits, ⟨_, equal8_values, by norm_num [Family.amplification]⟩, _, equal8_gradients, by norm_num [Family.steepness]⟩
  · exact ⟨rfl, legendre1_fits, ⟨_, legendre1_values, by norm_num [Family.amplification]⟩, _, legendre1_gradients, by norm_num [Family.steepness]⟩
  · exact ⟨rfl, legendre2_fits, ⟨_, legendre2_values, by norm_num [Family.amplification]⟩, _, legendre2_gradients, by norm_num [Family.steepness]⟩
  · exact ⟨rfl, legendre3_fits, ⟨_, legendre3_values, by norm_num [Family.amplification]⟩, _, legendre3_gradients, by norm_num [Family.steepness]⟩
  · exact ⟨rfl, lobatto1_fits, ⟨_, lobatto1_values, by norm_num [Family.amplification]⟩, _, lobatto1_gradients, by norm_num [Family.steepness]⟩
  · exact ⟨rfl, lobatto2_fits, ⟨_, lobatto2_values, by norm_num [Family.amplification]⟩, _, lobatto2_gradients, by norm_num [Family.steepness]⟩
  · exact ⟨rfl, lobatto3_fits, ⟨_, lobatto3_values, by norm_num [Family.amplification]⟩, _, lobatto3_gradients, by norm_num [Family.steepness]⟩
  · exact ⟨rfl, lobatto4_fits, ⟨_, lobatto4_values, by norm_num [Family.amplification]⟩, _, lobatto4_gradients, by norm_num [Family.steepness]⟩
  · exact ⟨rfl, lobatto5_fits, ⟨_, lobatto5_values, by norm_num [Family.amplification]⟩, _, lobatto5_gradients, by norm_num [Family.steepness]⟩
  · exact ⟨rfl, lobatto6_fits, ⟨_, lobatto6_values, by norm_num [Family.amplification]⟩, _, lobatto6_gradients, by norm_num [Family.steepness]⟩
  · exact ⟨rfl, lobatto7_fits, ⟨_, lobatto7_values, by norm_num [Family.amplification]⟩, _, lobatto7_gradients, by norm_num [Family.steepness]⟩
  · exact ⟨rfl, lobatto8_fits, ⟨_, lobatto8_values, by norm_num [Family.amplification]⟩, _, lobatto8_gradients, by norm_num [Family.steepness]⟩

section close
variable {fam : Family} {order : ℕ} {c : Fin (order + 1) → ℝ} {x : ℝ}

theorem values_amplified (h1 : 1 ≤ order) (h8 : order ≤ 8) (hs : fam.Supports order) (hc : CloseTo fam order c) (hx : |x| ≤ 1) :
    ∑ j, |∏ t ∈ Finset.univ.erase j, (x - c t) / (c j - c t)| ≤ (fam.amplification order : ℝ) := by
  obtain ⟨hl, hf, ⟨V, hV, e⟩, -⟩ := table_facts _ (mem_shippedLines h1 h8 hs)
  refine (values_bounded hl hf hc hx hV).trans (le_of_eq ?_)
  rw [← e]
  push_cast
  rfl

theorem gradients_amplified (h1 : 1 ≤ order) (h8 : order ≤ 8) (hs : fam.Supports order) (hc : CloseTo fam order c) (hx : |x| ≤ 1) :
    ∑ j, derivMagnitude c j x ≤ (fam.steepness order : ℝ) := by
  obtain ⟨hl, hf, -, V, hV, e⟩ := table_facts _ (mem_shippedLines h1 h8 hs)
  refine (gradients_bounded hl hf hc hx hV).trans (le_of_eq ?_)
  rw [← e]
  push_cast
  rfl

end close

/-- The derivative is at most the sum of the absolute values of its terms. -/
theorem derivative_le {n : ℕ} (c : Fin n → ℝ) (j : Fin n) (x : ℝ) :
    |deriv (fun x => ∏ t ∈ Finset.univ.erase j, (x - c t) / (c j - c t)) x| ≤ derivMagnitude c j x := by
  have h : HasDerivAt (fun x => ∏ t ∈ Finset.univ.erase j, (x - c t) / (c j - c t))
      (∑ a ∈ Finset.univ.erase j, (∏ t ∈ (Finset.univ.erase j).erase a, (x - c t) / (c j - c t)) • (1 / (c j - c a))) x :=
    HasDerivAt.fun_finsetProd fun t _ => ((hasDerivAt_id x).sub_const (c t)).div_const _
  rw [h.deriv]
  refine (Finset.abs_sum_le_sum_abs _ _).trans (le_of_eq ?_)
  unfold derivMagnitude
  refine Finset.sum_congr rfl fun a _ => ?_
  rw [smul_eq_mul, abs_mul, mul_comm, Finset.abs_prod]

/-- A product of sums of absolute values bounds a tensor-product sum. -/
theorem tensor_sum_le {d : ℕ} {n : Fin d → ℕ} {f : (k : Fin d) → Fin (n k) → ℝ} {A : Fin d → ℝ} (hA : ∀ k, ∑ j, |f k j| ≤ A k)
    {y : ((k : Fin d) → Fin (n k)) → ℝ} {Y : ℝ} (hY : ∀ idx, |y idx| ≤ Y) (hY0 : 0 ≤ Y) :
    ∑ idx : (k : Fin d) → Fin (n k), (∏ k, |f k (idx k)|) * |y idx| ≤ (∏ k, A k) * Y := by
  calc _ ≤ ∑ idx : (k : Fin d) → Fin (n k), (∏ k, |f k (idx k)|) * Y :=
        Finset.sum_le_sum fun idx _ => mul_le_mul_of_nonneg_left (hY idx) (Finset.prod_nonneg fun k _ => abs_nonneg _)
    _ = (∏ k, ∑ j, |f k j|) * Y := by rw [← Finset.sum_mul, Finset.prod_univ_sum, Fintype.piFinset_univ]
    _ ≤ _ := mul_le_mul_of_nonneg_right (Finset.prod_le_prod (fun k _ => Finset.sum_nonneg fun j _ => abs_nonneg _) fun k _ => hA k) hY0

end Verif.Lemmas
