import Verif.Lemmas.Quadrature
import Mathlib.LinearAlgebra.Lagrange
import Mathlib.Algebra.Polynomial.FieldDivision

/-! # Gauss rules: exactness, and the size of their weights -/

namespace Verif.Lemmas

open Polynomial Verif.Spec

/-! ### Polynomials as lists of coefficients, constant term first -/

noncomputable def toPoly : List ℚ → ℝ[X]
  | [] => 0
  | a :: l => C (a : ℝ) + X * toPoly l

def addL : List ℚ → List ℚ → List ℚ
  | [], m => m
  | l, [] => l
  | a :: l, b :: m => (a + b) :: addL l m

def scaleL (c : ℚ) (l : List ℚ) : List ℚ := l.map (c * ·)

def mulL : List ℚ → List ℚ → List ℚ
  | [], _ => []
  | a :: l, m => addL (scaleL a m) (0 :: mulL l m)

def derL : List ℚ → List ℚ
  | [] => []
  | _ :: l => addL l (0 :: derL l)

theorem toPoly_add : ∀ l m, toPoly (addL l m) = toPoly l + toPoly m
  | [], m => by simp [addL, toPoly]
  | a :: l, [] => by simp [addL, toPoly]
  | a :: l, b :: m => by
    simp only [addL, toPoly, toPoly_add l m]; push_cast; simp only [map_add]; ring

theorem toPoly_scale (c : ℚ) : ∀ l, toPoly (scaleL c l) = C (c : ℝ) * toPoly l
  | [] => by simp [scaleL, toPoly]
  | a :: l => by
    have := toPoly_scale c l
    simp only [scaleL, List.map_cons, toPoly] at this ⊢
    rw [this]; push_cast; simp only [map_mul]; ring

theorem toPoly_mul : ∀ l m, toPoly (mulL l m) = toPoly l * toPoly m
  | [], m => by simp [mulL, toPoly]
  | a :: l, m => by
    simp only [mulL, toPoly_add, toPoly_scale, toPoly, toPoly_mul l m]; push_cast; simp only [map_zero]; ring

theorem toPoly_der : ∀ l, toPoly (derL l) = derivative (toPoly l)
  | [] => by simp [derL, toPoly]
  | a :: l => by
    simp only [derL, toPoly_add, toPoly, toPoly_der l]
    simp

/-- `∫ x^k` over `[-1, 1]`. -/
def monomialIntegral (k : ℕ) : ℚ := (1 - (-1) ^ (k + 1)) / (k + 1)

/-- `∫ x^k p(x)`. -/
def intL : ℕ → List ℚ → ℚ
  | _, [] => 0
  | k, a :: l => a * monomialIntegral k + intL (k + 1) l

theorem integral_toPoly : ∀ (l : List ℚ) (k : ℕ), ∫ x in (-1 : ℝ)..1, x ^ k * (toPoly l).eval x = (intL k l : ℚ)
  | [], k => by simp [toPoly, intL]
  | a :: l, k => by
    have e : (fun x : ℝ => x ^ k * (toPoly (a :: l)).eval x)
        = fun x => (a : ℝ) * x ^ k + x ^ (k + 1) * (toPoly l).eval x := by
      funext x; simp only [toPoly, eval_add, eval_mul, eval_C, eval_X]; ring
    rw [e, intervalIntegral.integral_add, intervalIntegral.integral_const_mul, integral_monomial,
      integral_toPoly l (k + 1)]
    · simp only [intL, monomialIntegral]; push_cast; ring
    · exact Continuous.intervalIntegrable (by fun_prop) _ _
    · exact Continuous.intervalIntegrable (by fun_prop) _ _

/-- The coefficients of `P_n`. -/
def legL : ℕ → List ℚ
  | 0 => [1]
  | 1 => [0, 1]
  | n + 2 => scaleL (1 / ((n : ℚ) + 2)) (addL (mulL [0, 2 * (n : ℚ) + 3] (legL (n + 1))) (scaleL (-((n : ℚ) + 1)) (legL n)))

theorem toPoly_leg : ∀ n, toPoly (legL n) = legendre n
  | 0 => by simp [legL, toPoly, legendre]
  | 1 => by simp [legL, toPoly, legendre]
  | n + 2 => by
    simp only [legL, legendre, toPoly_scale, toPoly_add, toPoly_mul, toPoly_leg (n + 1), toPoly_leg n]
    simp only [toPoly]
    push_cast
    simp only [map_neg, map_zero]
    ring

/-- The coefficients of `(1 - x^2) P'_{N-1}`. -/
def lobL (N : ℕ) : List ℚ := mulL [1, 0, -1] (derL (legL (N - 1)))

theorem toPoly_lob (N : ℕ) : toPoly (lobL N) = lobattoPoly N := by
  simp only [lobL, lobattoPoly, toPoly_mul, toPoly_der, toPoly_leg]
  simp only [toPoly]
  push_cast
  simp only [map_neg, map_zero, map_one]
  ring

/-! ### The rule with given points -/

variable {N : ℕ}

/-- The weights of the interpolatory rule with the points `x`. -/
noncomputable def ruleWeight (x : Fin N → ℝ) (i : Fin N) : ℝ :=
  ∫ t in (-1 : ℝ)..1, (Lagrange.basis Finset.univ x i).eval t

/-- It integrates polynomials of degree below the number of points. -/
theorem rule_interpolatory {x : Fin N → ℝ} (hx : Function.Injective x) {q : ℝ[X]} (hq : q.degree < N) :
    ∑ i, ruleWeight x i * q.eval (x i) = ∫ t in (-1 : ℝ)..1, q.eval t := by
  have h := Lagrange.eq_interpolate (s := Finset.univ) (v := x) (f := q) hx.injOn (by simpa using hq)
  have e : (fun t : ℝ => q.eval t) = fun t => ∑ i, q.eval (x i) * (Lagrange.basis Finset.univ x i).eval t := by
    funext t
    conv_lhs => rw [h]
    simp [Lagrange.interpolate_apply, eval_finsetSum]
  rw [e, intervalIntegral.integral_finsetSum]
  · refine Finset.sum_congr rfl fun i _ => ?_
    rw [intervalIntegral.integral_const_mul, ruleWeight, mul_comm]
  · intro i _
    exact Continuous.intervalIntegrable (by fun_prop) _ _

/-- If the points are the roots of a polynomial that is orthogonal to low degrees, the rule integrates
polynomials of higher degree too. -/
theorem rule_gauss {x : Fin N → ℝ} (hx : Function.Injective x) {p : ℝ[X]} (hp : p ≠ 0) (hd : p.natDegree ≤ N)
    (hroot : ∀ i, p.eval (x i) = 0) {D : ℕ}
    (horth : ∀ k, k + N ≤ D → ∫ t in (-1 : ℝ)..1, t ^ k * p.eval t = 0) {q : ℝ[X]} (hq : q.natDegree ≤ D) :
    ∑ i, ruleWeight x i * q.eval (x i) = ∫ t in (-1 : ℝ)..1, q.eval t := by
  have hdeg : p.natDegree = N := by
    refine le_antisymm hd ?_
    have := card_le_degree_of_subset_roots (p := p) (Z := Finset.univ.image x) (by
      intro y hy
      simp only [Finset.mem_val, Finset.mem_image, Finset.mem_univ, true_and] at hy
      obtain ⟨i, rfl⟩ := hy
      exact (mem_roots hp).2 (hroot i))
    rwa [Finset.card_image_of_injective _ hx, Finset.card_univ, Fintype.card_fin] at this
  have hlc : p.leadingCoeff ≠ 0 := leadingCoeff_ne_zero.2 hp
  obtain ⟨m, hm⟩ : ∃ m, m = p * C p.leadingCoeff⁻¹ := ⟨_, rfl⟩
  have hmon : m.Monic := hm ▸ monic_mul_leadingCoeff_inv hp
  have hmdeg : m.natDegree = N := by
    rw [hm, natDegree_mul_C (inv_ne_zero hlc), hdeg]
  have hsplit := modByMonic_add_div q m
  have hr : (q %ₘ m).degree < N := by
    have := degree_modByMonic_lt q hmon
    rwa [degree_eq_natDegree hmon.ne_zero, hmdeg] at this
  have hs : (q /ₘ m).natDegree = q.natDegree - N := by rw [natDegree_divByMonic q hmon, hmdeg]
  have hzero : ∫ t in (-1 : ℝ)..1, m.eval t * (q /ₘ m).eval t = 0 := by
    by_cases hqN : q.natDegree < N
    · have : q /ₘ m = 0 := by
        rw [divByMonic_eq_zero_iff hmon, degree_eq_natDegree hmon.ne_zero, hmdeg]
        exact (degree_le_natDegree).trans_lt (by exact_mod_cast hqN)
      simp [this]
    have e : (fun t : ℝ => m.eval t * (q /ₘ m).eval t)
        = fun t => ∑ k ∈ Finset.range (q.natDegree - N + 1),
          ((q /ₘ m).coeff k * p.leadingCoeff⁻¹) * (t ^ k * p.eval t) := by
      funext t
      have h1 : m.eval t = p.eval t * p.leadingCoeff⁻¹ := by rw [hm, eval_mul, eval_C]
      rw [h1, eval_eq_sum_range' (p := q /ₘ m) (n := q.natDegree - N + 1) (by omega) t, Finset.mul_sum]
      refine Finset.sum_congr rfl fun k _ => by ring
    rw [e, intervalIntegral.integral_finsetSum]
    · refine Finset.sum_eq_zero fun k hk => ?_
      have := Finset.mem_range.1 hk
      rw [intervalIntegral.integral_const_mul, horth k (by omega), mul_zero]
    · intro k _
      exact Continuous.intervalIntegrable (by fun_prop) _ _
  have hleft : ∀ i, q.eval (x i) = (q %ₘ m).eval (x i) := by
    intro i
    conv_lhs => rw [← hsplit]
    rw [eval_add, eval_mul, show m.eval (x i) = 0 by rw [hm, eval_mul, hroot, zero_mul], zero_mul, add_zero]
  have hright : ∫ t in (-1 : ℝ)..1, q.eval t = ∫ t in (-1 : ℝ)..1, (q %ₘ m).eval t := by
    have e : (fun t : ℝ => q.eval t) = fun t => (q %ₘ m).eval t + m.eval t * (q /ₘ m).eval t := by
      funext t
      conv_lhs => rw [← hsplit]
      rw [eval_add, eval_mul]
    rw [e, intervalIntegral.integral_add, hzero, add_zero]
    · exact Continuous.intervalIntegrable (by fun_prop) _ _
    · exact Continuous.intervalIntegrable (by fun_prop) _ _
  rw [hright, ← rule_interpolatory hx hr]
  exact Finset.sum_congr rfl fun i _ => by rw [hleft i]

/-- The weights are determined by the points. -/
theorem rule_unique {x : Fin N → ℝ} (hx : Function.Injective x) {w : Fin N → ℝ}
    (hw : ∀ q : ℝ[X], q.degree < N → ∑ i, w i * q.eval (x i) = ∫ t in (-1 : ℝ)..1, q.eval t) : w = ruleWeight x := by
  funext i
  have h := hw (Lagrange.basis Finset.univ x i) (by
    rw [Lagrange.degree_basis hx.injOn (Finset.mem_univ i), Finset.card_univ, Fintype.card_fin]
    have := i.2
    exact_mod_cast Nat.sub_lt (by omega) (by norm_num))
  rw [Finset.sum_eq_single i] at h
  · rw [Lagrange.eval_basis_self hx.injOn (Finset.mem_univ i), mul_one] at h
    exact h
  · intro j _ hj
    rw [Lagrange.eval_basis_of_ne hj.symm (Finset.mem_univ j), mul_zero]
  · simp

/-! ### Perturbation of the points -/

/-- `∫ ∏ (t - x j)` over the points other than `i`. -/
noncomputable def numerator (x : Fin N → ℝ) (i : Fin N) : ℝ :=
  ∫ t in (-1 : ℝ)..1, ∏ j ∈ Finset.univ.erase i, (t - x j)

/-- `∏ (x i - x j)` over the points other than `i`. -/
noncomputable def denominator (x : Fin N → ℝ) (i : Fin N) : ℝ := ∏ j ∈ Finset.univ.erase i, (x i - x j)

theorem ruleWeight_eq (x : Fin N → ℝ) (i : Fin N) : ruleWeight x i = numerator x i / denominator x i := by
  have e : (fun t : ℝ => (Lagrange.basis Finset.univ x i).eval t)
      = fun t => (denominator x i)⁻¹ * ∏ j ∈ Finset.univ.erase i, (t - x j) := by
    funext t
    simp only [Lagrange.basis, Lagrange.basisDivisor, eval_prod, eval_mul, eval_C, eval_sub, eval_X,
      Finset.prod_mul_distrib, denominator, Finset.prod_inv_distrib]
  rw [ruleWeight, e, intervalIntegral.integral_const_mul, numerator]
  ring

theorem prod_close {ι : Type} (s : Finset ι) (a b : ι → ℝ) {δ : ℝ} (hδ : 0 ≤ δ) (ha : ∀ j ∈ s, |a j| ≤ 3)
    (hb : ∀ j ∈ s, |b j| ≤ 3) (h : ∀ j ∈ s, |a j - b j| ≤ δ) :
    |∏ j ∈ s, a j - ∏ j ∈ s, b j| ≤ s.card * 3 ^ s.card * δ := by
  classical
  induction s using Finset.induction_on with
  | empty => simp
  | insert i s hi ih =>
    have ih := ih (fun j hj => ha j (Finset.mem_insert_of_mem hj)) (fun j hj => hb j (Finset.mem_insert_of_mem hj))
      fun j hj => h j (Finset.mem_insert_of_mem hj)
    rw [Finset.prod_insert hi, Finset.prod_insert hi, Finset.card_insert_of_notMem hi]
    have hB : |∏ j ∈ s, b j| ≤ 3 ^ s.card := by
      rw [Finset.abs_prod]
      exact (Finset.prod_le_prod (fun j _ => abs_nonneg _) fun j hj => hb j (Finset.mem_insert_of_mem hj)).trans_eq
        (Finset.prod_const _)
    have e : a i * ∏ j ∈ s, a j - b i * ∏ j ∈ s, b j
        = a i * (∏ j ∈ s, a j - ∏ j ∈ s, b j) + (a i - b i) * ∏ j ∈ s, b j := by ring
    rw [e]
    refine (abs_add_le _ _).trans ?_
    rw [abs_mul, abs_mul]
    have h1 := mul_le_mul (ha i (Finset.mem_insert_self i s)) ih (abs_nonneg _) (by norm_num)
    have h2 := mul_le_mul (h i (Finset.mem_insert_self i s)) hB (abs_nonneg _) hδ
    have h3 : (0 : ℝ) ≤ 3 ^ s.card * δ := by positivity
    push_cast
    rw [pow_succ]
    nlinarith

theorem weight_close {x y : Fin N → ℝ} {δ η : ℝ} (hN : N ≤ 9) (hδ : 0 ≤ δ)
    (hx : ∀ i, |x i| ≤ 1 + 1 / 10) (hy : ∀ i, |y i| ≤ 1) (h : ∀ i, |x i - y i| ≤ δ) (i : Fin N)
    (hη : η ≤ |denominator y i|) (hη' : 2 * (2 * 8 * 3 ^ 8 * δ) ≤ η) (hη0 : 0 < η) (hw : |numerator y i / denominator y i| ≤ 2) :
    |ruleWeight x i - numerator y i / denominator y i| ≤ 12 * 8 * 3 ^ 8 * δ / η := by
  have hcard : (Finset.univ.erase i).card ≤ 8 := by
    rw [Finset.card_erase_of_mem (Finset.mem_univ i), Finset.card_univ, Fintype.card_fin]; omega
  have hK : ∀ c : ℕ, c ≤ 8 → (c : ℝ) * 3 ^ c ≤ 8 * 3 ^ 8 := by
    intro c hc
    exact mul_le_mul (by exact_mod_cast hc) (pow_le_pow_right₀ (by norm_num) hc) (by positivity) (by norm_num)
  have hA : |numerator x i - numerator y i| ≤ 2 * (8 * 3 ^ 8 * δ) := by
    unfold numerator
    rw [← intervalIntegral.integral_sub]
    · have := intervalIntegral.norm_integral_le_of_norm_le_const (a := -1) (b := 1) (C := 8 * 3 ^ 8 * δ)
        (f := fun t : ℝ => ∏ j ∈ Finset.univ.erase i, (t - x j) - ∏ j ∈ Finset.univ.erase i, (t - y j)) (by
          intro t ht
          rw [Set.uIoc_of_le (by norm_num)] at ht
          have ht' : |t| ≤ 1 := abs_le.2 ⟨ht.1.le, ht.2⟩
          refine (prod_close _ _ _ hδ (fun j _ => ?_) (fun j _ => ?_) fun j _ => ?_).trans
            (mul_le_mul_of_nonneg_right (hK _ hcard) hδ)
          · have := abs_sub t (x j); have := hx j; linarith
          · have := abs_sub t (y j); have := hy j; linarith
          · have := h j
            rwa [show t - x j - (t - y j) = -(x j - y j) by ring, abs_neg])
      rw [Real.norm_eq_abs] at this
      refine this.trans ?_
      norm_num
      linarith
    · exact Continuous.intervalIntegrable (by fun_prop) _ _
    · exact Continuous.intervalIntegrable (by fun_prop) _ _
  have hB : |denominator x i - denominator y i| ≤ 2 * (8 * 3 ^ 8 * δ) := by
    unfold denominator
    refine (prod_close _ _ _ (δ := 2 * δ) (by linarith) (fun j _ => ?_) (fun j _ => ?_) fun j _ => ?_).trans ?_
    · have := abs_sub (x i) (x j); have := hx i; have := hx j; linarith
    · have := abs_sub (y i) (y j); have := hy i; have := hy j; linarith
    · have h1 := h i; have h2 := h j
      have := abs_sub (x i - y i) (x j - y j)
      rw [show x i - x j - (y i - y j) = x i - y i - (x j - y j) by ring]
      linarith
    · have := mul_le_mul_of_nonneg_right (hK _ hcard) (show 0 ≤ 2 * δ by linarith)
      linarith
  obtain ⟨A, hA0⟩ : ∃ A, A = numerator x i := ⟨_, rfl⟩
  obtain ⟨B, hB0⟩ : ∃ B, B = denominator x i := ⟨_, rfl⟩
  obtain ⟨A', hA1⟩ : ∃ A, A = numerator y i := ⟨_, rfl⟩
  obtain ⟨B', hB1⟩ : ∃ B, B = denominator y i := ⟨_, rfl⟩
  rw [ruleWeight_eq, ← hA0, ← hB0, ← hA1, ← hB1]
  rw [← hA0, ← hA1] at hA
  rw [← hB0, ← hB1] at hB
  rw [← hB1] at hη
  rw [← hA1, ← hB1] at hw
  have hB'0 : B' ≠ 0 := by rintro rfl; simp at hη; linarith
  have hBlow : η / 2 ≤ |B| := by
    have : |B'| ≤ |B| + |B - B'| := by
      have := abs_sub_abs_le_abs_sub B' B
      rw [abs_sub_comm B' B] at this; linarith
    linarith
  have hB00 : B ≠ 0 := by rintro rfl; simp at hBlow; linarith
  have e : A / B - A' / B' = ((A - A') - A' / B' * (B - B')) / B := by field_simp; ring
  rw [e, abs_div, div_le_div_iff₀ (by linarith) hη0]
  have h1 : |(A - A') - A' / B' * (B - B')| ≤ 6 * (8 * 3 ^ 8 * δ) := by
    refine (abs_sub _ _).trans ?_
    rw [abs_mul]
    have := mul_le_mul hw hB (abs_nonneg _) (by norm_num)
    linarith
  have h2 : (0 : ℝ) ≤ 8 * 3 ^ 8 * δ := by positivity
  nlinarith

end Verif.Lemmas
