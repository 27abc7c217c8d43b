import Verif.Lemmas.Stability
import Mathlib.Data.Nat.Choose.Sum
import Mathlib.Data.Nat.Choose.Cast

/-! Lower bounds for the sums of the absolute values of basis functions, and their growth for equally spaced points. -/

namespace Verif.Lemmas

open Verif.Spec

/-! ### points where the sums are large -/

/-- Where the sum of the absolute values of the basis functions is nearly largest. -/
def peak (fam : Family) (order : ℕ) : ℚ :=
  (match fam with
    | .equal => [1000, 1000, 500, 699, 792, 844, 878, 901, 917]
    | .gaussLegendre => [1000, 1000, 1000, 1000]
    | .gaussLobatto => [1000, 1000, 500, 0, 339, 0, 239, 0, 184]).getD order 0 / 1000

private def size {n : ℕ} (q : Fin n → ℚ) (x : ℚ) : ℚ := ∑ j, |∏ t ∈ Finset.univ.erase j, (x - q t) / (q j - q t)|

private def slope {n : ℕ} (q : Fin n → ℚ) (x : ℚ) : ℚ :=
  ∑ j, |∑ a ∈ Finset.univ.erase j, (∏ t ∈ (Finset.univ.erase j).erase a, (x - q t) / (q j - q t)) * (1 / (q j - q a))|

private def point (l : Family × ℕ) (i : Fin (l.2 + 1)) : ℚ := (exactPoint l.1 l.2 (i : ℕ)).getD 0

private theorem points_known : ∀ l ∈ shippedLines, ∀ i : Fin (l.2 + 1), (exactPoint l.1 l.2 (i : ℕ)).isSome = true := by decide +kernel

private theorem peaks : ∀ l ∈ shippedLines, -1 ≤ peak l.1 l.2 ∧ peak l.1 l.2 ≤ 1 ∧
    97 / 100 * l.1.amplification l.2 ≤ size (point l) (peak l.1 l.2) := by decide +kernel

private theorem slopes : ∀ l ∈ shippedLines, 97 / 100 * l.1.steepness l.2 ≤ slope (point l) 1 := by decide +kernel

private theorem size_cast {n : ℕ} (q : Fin n → ℚ) (x : ℚ) :
    ((size q x : ℚ) : ℝ) = ∑ j, |∏ t ∈ Finset.univ.erase j, ((x : ℝ) - q t) / ((q j : ℝ) - q t)| := by
  unfold size
  push_cast
  rfl

/-- The derivative of a product of quotients. -/
theorem derivative_terms {n : ℕ} (c : Fin n → ℝ) (j : Fin n) (x : ℝ) :
    deriv (fun x => ∏ t ∈ Finset.univ.erase j, (x - c t) / (c j - c t)) x
      = ∑ a ∈ Finset.univ.erase j, (∏ t ∈ (Finset.univ.erase j).erase a, (x - c t) / (c j - c t)) * (1 / (c j - c a)) := by
  have h : HasDerivAt (fun x => ∏ t ∈ Finset.univ.erase j, (x - c t) / (c j - c t))
      (∑ a ∈ Finset.univ.erase j, (∏ t ∈ (Finset.univ.erase j).erase a, (x - c t) / (c j - c t)) • (1 / (c j - c a))) x :=
    HasDerivAt.fun_finsetProd fun t _ => ((hasDerivAt_id x).sub_const (c t)).div_const _
  exact h.deriv

private theorem slope_cast {n : ℕ} (q : Fin n → ℚ) (x : ℚ) :
    ((slope q x : ℚ) : ℝ) = ∑ j, |deriv (fun x => ∏ t ∈ Finset.univ.erase j, (x - (q t : ℝ)) / ((q j : ℝ) - q t)) (x : ℝ)| := by
  unfold slope
  simp only [derivative_terms (fun t => (q t : ℝ))]
  push_cast
  rfl

section sharp
variable {fam : Family} {order : ℕ} {c : Fin (order + 1) → ℝ} (h1 : 1 ≤ order) (h8 : order ≤ 8) (hs : fam.Supports order)
    (hc : ∀ i : Fin (order + 1), (fam.spacing (exactArith ℝ) ((order + 1 : ℕ) : Int)).coordCT (i : ℕ) = .ok (c i))

include h1 h8 hs hc

private theorem points_eq : c = fun i => ((point (fam, order) i : ℚ) : ℝ) := by
  funext i
  obtain ⟨q, hq⟩ := Option.isSome_iff_exists.1 (points_known _ (mem_shippedLines h1 h8 hs) i)
  have := Res.ok.inj ((hc i).symm.trans (exactPoint_sound hq))
  rw [this, point, hq, Option.getD_some]

theorem values_peak : ∃ x, |x| ≤ 1 ∧
    97 / 100 * (fam.amplification order : ℝ) ≤ ∑ j, |∏ t ∈ Finset.univ.erase j, (x - c t) / (c j - c t)| := by
  obtain ⟨ha, hb, hp⟩ := peaks _ (mem_shippedLines h1 h8 hs)
  refine ⟨(peak fam order : ℝ), abs_le.2 ⟨by exact_mod_cast ha, by exact_mod_cast hb⟩, ?_⟩
  rw [points_eq h1 h8 hs hc]
  have := (Rat.cast_le (K := ℝ)).2 hp
  rw [size_cast] at this
  push_cast at this
  exact this

theorem gradients_peak :
    97 / 100 * (fam.steepness order : ℝ) ≤ ∑ j, |deriv (fun x => ∏ t ∈ Finset.univ.erase j, (x - c t) / (c j - c t)) 1| := by
  rw [points_eq h1 h8 hs hc]
  have := (Rat.cast_le (K := ℝ)).2 (slopes _ (mem_shippedLines h1 h8 hs))
  rw [slope_cast] at this
  push_cast at this
  exact this

end sharp

/-- Nodal values of size 1 for which a tensor-product sum is as large as it can be. -/
theorem tensor_sum_reached {d : ℕ} {n : Fin d → ℕ} (f : (k : Fin d) → Fin (n k) → ℝ) :
    ∃ y : ((k : Fin d) → Fin (n k)) → ℝ, (∀ idx, |y idx| ≤ 1) ∧
      ∑ idx : (k : Fin d) → Fin (n k), (∏ k, f k (idx k)) * y idx = ∏ k, ∑ j, |f k j| := by
  refine ⟨fun idx => if 0 ≤ ∏ k, f k (idx k) then 1 else -1, fun idx => by beta_reduce; split <;> simp, ?_⟩
  rw [Finset.prod_univ_sum, Fintype.piFinset_univ]
  refine Finset.sum_congr rfl fun idx _ => ?_
  rw [← Finset.abs_prod]
  beta_reduce
  split
  · next h => rw [mul_one, abs_of_nonneg h]
  · next h => rw [mul_neg_one, abs_of_neg (not_le.1 h)]

/-! ### equally spaced points -/

/-- Distances of a point between 0 and `n` from all but one of 0, ..., n. -/
theorem distances_le (n : ℕ) : ∀ (s : ℝ) (j : ℕ), 0 ≤ s → s ≤ n → j ≤ n → ∏ t ∈ (Finset.range (n + 1)).erase j, |s - t| ≤ n.factorial := by
  induction n with
  | zero =>
    intro s j _ _ hj
    obtain rfl : j = 0 := by omega
    simp
  | succ n ih =>
    intro s j h0 h1 hj
    by_cases hs : s ≤ n
    · by_cases hjn : j = n + 1
      · subst hjn
        rw [Finset.range_add_one, Finset.erase_insert (by simp), ← Finset.mul_prod_erase _ _ (Finset.mem_range.2 (Nat.lt_succ_self n))]
        rw [Nat.factorial_succ, Nat.cast_mul]
        refine mul_le_mul ?_ (ih s n h0 hs le_rfl) (Finset.prod_nonneg fun _ _ => abs_nonneg _) (by positivity)
        rw [abs_le]; push_cast; constructor <;> linarith
      · rw [Finset.range_add_one, Finset.erase_insert_of_ne (fun h => hjn h.symm), Finset.prod_insert (by simp), Nat.factorial_succ, Nat.cast_mul]
        refine mul_le_mul ?_ (ih s j h0 hs (by omega)) (Finset.prod_nonneg fun _ _ => abs_nonneg _) (by positivity)
        rw [abs_le]; push_cast; constructor <;> linarith
    · have hs := not_le.1 hs
      push_cast at h1
      have hf : ∀ m : ℕ, (m.factorial : ℝ) = ∏ t ∈ Finset.range m, ((m - t : ℕ) : ℝ) := by
        intro m
        rw [← Finset.prod_range_reflect, ← Finset.prod_range_add_one_eq_factorial, Nat.cast_prod]
        refine Finset.prod_congr rfl fun t ht => ?_
        have := Finset.mem_range.1 ht
        congr 1; omega
      have hle : ∏ t ∈ (Finset.range (n + 2)).erase j, |s - t| ≤ ∏ t ∈ (Finset.range (n + 2)).erase j, max 1 ((n + 1 - t : ℕ) : ℝ) := by
        refine Finset.prod_le_prod (fun _ _ => abs_nonneg _) fun t ht => ?_
        have htn : t < n + 2 := Finset.mem_range.1 (Finset.mem_of_mem_erase ht)
        by_cases hl : t = n + 1
        · subst hl
          refine le_max_of_le_left ?_
          rw [abs_le]; push_cast; constructor <;> linarith
        · have h3 : (t : ℝ) ≤ n := by exact_mod_cast (by omega : t ≤ n)
          refine le_max_of_le_right ?_
          rw [Nat.cast_sub (by omega), abs_le]; push_cast; constructor <;> linarith
      refine hle.trans ?_
      have h5 : ∏ t ∈ (Finset.range (n + 2)).erase j, max 1 ((n + 1 - t : ℕ) : ℝ) ≤ ∏ t ∈ Finset.range (n + 2), max 1 ((n + 1 - t : ℕ) : ℝ) := by
        rw [← Finset.mul_prod_erase _ _ (Finset.mem_range.2 (show j < n + 2 by omega))]
        exact le_mul_of_one_le_left (Finset.prod_nonneg fun _ _ => le_max_of_le_left (by norm_num)) (le_max_left _ _)
      refine h5.trans (le_of_eq ?_)
      rw [Finset.prod_range_succ, Nat.sub_self, Nat.cast_zero, max_eq_left (by norm_num), mul_one, hf]
      refine Finset.prod_congr rfl fun t ht => max_eq_right ?_
      have := Finset.mem_range.1 ht
      exact_mod_cast (by omega : 1 ≤ n + 1 - t)

/-- Distances of one of 0, ..., n from the others. -/
theorem distances_between {n j : ℕ} (hj : j ≤ n) :
    ∏ t ∈ (Finset.range (n + 1)).erase j, |(j : ℝ) - t| = j.factorial * (n - j).factorial := by
  have e : (Finset.range (n + 1)).erase j = Finset.range j ∪ (Finset.range (n - j)).image (fun t => j + 1 + t) := by
    ext t
    simp only [Finset.mem_erase, Finset.mem_range, Finset.mem_union, Finset.mem_image]
    constructor
    · rintro ⟨h1, h2⟩
      rcases lt_or_gt_of_ne h1 with h | h
      · exact Or.inl h
      · exact Or.inr ⟨t - j - 1, by omega, by omega⟩
    · rintro (h | ⟨a, ha, rfl⟩) <;> omega
  rw [e, Finset.prod_union, Finset.prod_image (by intro a _ b _ h; simpa using h)]
  · congr 1
    · rw [← Finset.prod_range_reflect, ← Finset.prod_range_add_one_eq_factorial, Nat.cast_prod]
      refine Finset.prod_congr rfl fun t ht => ?_
      have := Finset.mem_range.1 ht
      rw [Nat.cast_sub (by omega), Nat.cast_sub (by omega)]
      push_cast
      rw [show (j : ℝ) - (j - 1 - t) = t + 1 by ring, abs_of_nonneg (by positivity)]
    · rw [← Finset.prod_range_add_one_eq_factorial, Nat.cast_prod]
      refine Finset.prod_congr rfl fun t _ => ?_
      push_cast
      rw [show (j : ℝ) - (j + 1 + t) = -(t + 1) by ring, abs_neg, abs_of_nonneg (by positivity)]
  · rw [Finset.disjoint_left]
    intro a ha hb
    obtain ⟨t, -, rfl⟩ := Finset.mem_image.1 hb
    have := Finset.mem_range.1 ha
    omega

/-- Distances of 1/2 from 0, ..., n. -/
theorem distances_half : ∀ n : ℕ, (n.factorial : ℝ) ≤ 4 * ∏ t ∈ Finset.range (n + 2), |(1 / 2 : ℝ) - t|
  | 0 => by rw [Finset.prod_range_succ, Finset.prod_range_one]; norm_num [abs_of_neg]
  | n + 1 => by
    rw [Finset.prod_range_succ, Nat.factorial_succ, Nat.cast_mul, ← mul_assoc, mul_comm]
    refine mul_le_mul (distances_half n) ?_ (by positivity) (mul_nonneg (by norm_num) (Finset.prod_nonneg fun _ _ => abs_nonneg _))
    push_cast
    rw [abs_of_nonpos (by have := n.cast_nonneg (α := ℝ); linarith)]
    linarith

private theorem to_range {n : ℕ} (j : Fin (n + 1)) (f : ℕ → ℝ) :
    ∏ t ∈ Finset.univ.erase j, f (t : Fin (n + 1)) = ∏ t ∈ (Finset.range (n + 1)).erase j, f t := by
  refine Finset.prod_bij (fun t _ => (t : ℕ)) (fun t ht => ?_) (fun a _ b _ h => Fin.ext h) (fun t ht => ?_) fun _ _ => rfl
  · exact Finset.mem_erase.2 ⟨fun h => Finset.ne_of_mem_erase ht (Fin.ext h), Finset.mem_range.2 t.2⟩
  · have h := Finset.mem_erase.1 ht
    exact ⟨⟨t, Finset.mem_range.1 h.2⟩, Finset.mem_erase.2 ⟨fun e => h.1 (congrArg Fin.val e), Finset.mem_univ _⟩, rfl⟩

section equal
variable {n : ℕ} (hn : 1 ≤ n) {c : Fin (n + 1) → ℝ} (hc : ∀ i : Fin (n + 1), c i = -1 + (i : ℕ) * (2 / n))

include hn hc

private theorem equal_quotients (s : ℝ) (j : Fin (n + 1)) :
    |∏ t ∈ Finset.univ.erase j, ((-1 + s * (2 / n)) - c t) / (c j - c t)|
      = (∏ t ∈ (Finset.range (n + 1)).erase j, |s - t|) / ((j : ℕ).factorial * (n - j).factorial) := by
  have hn0 : (2 / n : ℝ) ≠ 0 := by have : (0 : ℝ) < n := by exact_mod_cast hn
                                   positivity
  rw [← distances_between (by omega), ← Finset.prod_div_distrib, Finset.abs_prod, ← to_range j (fun t => |s - t| / |((j : ℕ) : ℝ) - t|)]
  refine Finset.prod_congr rfl fun t _ => ?_
  rw [hc, hc, ← abs_div, show (-1 + s * (2 / n) - (-1 + (t : ℕ) * (2 / n)) : ℝ) = (s - (t : ℕ)) * (2 / n) by ring,
    show (-1 + (j : ℕ) * (2 / n) - (-1 + (t : ℕ) * (2 / n)) : ℝ) = ((j : ℕ) - (t : ℕ)) * (2 / n) by ring, mul_div_mul_right _ _ hn0]

omit hn hc in
private theorem choose_sum : ∑ j : Fin (n + 1), (n.factorial : ℝ) / ((j : ℕ).factorial * (n - j).factorial) = 2 ^ n := by
  rw [← Nat.cast_two, ← Nat.cast_pow, ← Nat.sum_range_choose, Nat.cast_sum, Finset.sum_range]
  refine Finset.sum_congr rfl fun j _ => ?_
  rw [Nat.cast_choose ℝ (by omega)]

theorem equal_values_le {x : ℝ} (hx : |x| ≤ 1) : ∑ j, |∏ t ∈ Finset.univ.erase j, (x - c t) / (c j - c t)| ≤ 2 ^ n := by
  have h0 : (0 : ℝ) < n := by exact_mod_cast hn
  have hx := abs_le.1 hx
  obtain ⟨s, hs⟩ : ∃ s, s = (x + 1) * n / 2 := ⟨_, rfl⟩
  have e : x = -1 + s * (2 / n) := by rw [hs]; field_simp; ring
  rw [← choose_sum]
  refine Finset.sum_le_sum fun j _ => ?_
  rw [e, equal_quotients hn hc]
  refine div_le_div_of_nonneg_right (distances_le n s j ?_ ?_ (by omega)) (by positivity)
  · rw [hs]; have : 0 ≤ x + 1 := by linarith
    positivity
  · rw [hs]; nlinarith

theorem equal_values_ge : 2 ^ n / (4 * n ^ 2) ≤ ∑ j, |∏ t ∈ Finset.univ.erase j, ((-1 + 1 / 2 * (2 / n)) - c t) / (c j - c t)| := by
  have h0 : (0 : ℝ) < n := by exact_mod_cast hn
  rw [← choose_sum, Finset.sum_div]
  refine Finset.sum_le_sum fun j _ => ?_
  rw [equal_quotients hn hc, div_right_comm]
  refine div_le_div_of_nonneg_right ?_ (by positivity)
  obtain ⟨m, rfl⟩ : ∃ m, n = m + 1 := ⟨n - 1, by omega⟩
  have hhalf := distances_half m
  rw [← Finset.mul_prod_erase _ _ (Finset.mem_range.2 j.2)] at hhalf
  have hj : |(1 / 2 : ℝ) - (j : ℕ)| ≤ (m + 1 : ℕ) := by
    have h1 : ((j : ℕ) : ℝ) ≤ (m + 1 : ℕ) := by exact_mod_cast Nat.lt_succ_iff.1 j.2
    have h2 : (1 : ℝ) ≤ (m + 1 : ℕ) := by exact_mod_cast hn
    rw [abs_le]; constructor <;> linarith [((j : ℕ)).cast_nonneg (α := ℝ)]
  have hp : (0 : ℝ) ≤ ∏ t ∈ (Finset.range (m + 2)).erase (j : ℕ), |(1 / 2 : ℝ) - t| := Finset.prod_nonneg fun _ _ => abs_nonneg _
  rw [div_le_iff₀ (by positivity), Nat.factorial_succ, Nat.cast_mul]
  have h3 := mul_le_mul_of_nonneg_right hj hp
  have h4 : (m.factorial : ℝ) ≤ 4 * ((m + 1 : ℕ) * ∏ t ∈ (Finset.range (m + 2)).erase (j : ℕ), |(1 / 2 : ℝ) - t|) := hhalf.trans (by linarith)
  have h5 := mul_le_mul_of_nonneg_left h4 h0.le
  refine h5.trans (le_of_eq ?_)
  ring

end equal

end Verif.Lemmas
