import Verif.Lemmas.ArithHom
import Verif.Spec.Legendre
import Mathlib.Topology.Order.IntermediateValue
import Mathlib.Topology.Algebra.Polynomial
import Mathlib.Analysis.SpecialFunctions.Integrals.Basic
import Mathlib.Algebra.Polynomial.Roots

/-! Roots of Legendre polynomials near rational points; moments of quadrature rules. -/

namespace Verif.Lemmas

open Polynomial Verif.Spec

/-! ### evaluation by recursion, over any field -/

variable {K : Type} [Field K]

/-- `P_n(x)` by the recursion. -/
def legEval : ℕ → K → K
  | 0, _ => 1
  | 1, x => x
  | n + 2, x => 1 / ((n : K) + 2) * ((2 * (n : K) + 3) * x * legEval (n + 1) x - ((n : K) + 1) * legEval n x)

/-- `P'_n(x)` by the recursion. -/
def legDer : ℕ → K → K
  | 0, _ => 0
  | 1, _ => 1
  | n + 2, x => 1 / ((n : K) + 2) * ((2 * (n : K) + 3) * (legEval (n + 1) x + x * legDer (n + 1) x)
      - ((n : K) + 1) * legDer n x)

theorem eval_legendre (x : ℝ) : ∀ n, (legendre n).eval x = legEval n x
  | 0 => by simp [legendre, legEval]
  | 1 => by simp [legendre, legEval]
  | n + 2 => by
    rw [legendre, legEval, ← eval_legendre x (n + 1), ← eval_legendre x n]
    simp only [eval_mul, eval_sub, eval_C, eval_X]

theorem eval_derivative_legendre (x : ℝ) : ∀ n, (derivative (legendre n)).eval x = legDer n x
  | 0 => by simp [legendre, legDer]
  | 1 => by simp [legendre, legDer]
  | n + 2 => by
    rw [legendre, legDer, ← eval_legendre x (n + 1), ← eval_derivative_legendre x (n + 1),
      ← eval_derivative_legendre x n]
    simp only [derivative_mul, derivative_sub, derivative_C, derivative_X, eval_add, eval_mul, eval_sub,
      eval_C, eval_X, eval_zero, eval_one]
    ring

theorem legEval_cast (q : ℚ) : ∀ n, legEval n (q : ℝ) = ((legEval n q : ℚ) : ℝ)
  | 0 => by simp [legEval]
  | 1 => by simp [legEval]
  | n + 2 => by
    simp only [legEval]
    rw [legEval_cast q (n + 1), legEval_cast q n]; push_cast; ring

theorem legDer_cast (q : ℚ) : ∀ n, legDer n (q : ℝ) = ((legDer n q : ℚ) : ℝ)
  | 0 => by simp [legDer]
  | 1 => by simp [legDer]
  | n + 2 => by
    simp only [legDer]
    rw [legEval_cast q (n + 1), legDer_cast q (n + 1), legDer_cast q n]; push_cast; ring

theorem legEval_one : ∀ n, legEval n (1 : ℝ) = 1
  | 0 => by simp [legEval]
  | 1 => by simp [legEval]
  | n + 2 => by
    have : (n : ℝ) + 2 ≠ 0 := by positivity
    simp only [legEval]
    rw [legEval_one (n + 1), legEval_one n]; field_simp; ring

theorem legDer_one : ∀ n, legDer n (1 : ℝ) = n * (n + 1) / 2
  | 0 => by simp [legDer]
  | 1 => by norm_num [legDer]
  | n + 2 => by
    have : (n : ℝ) + 2 ≠ 0 := by positivity
    simp only [legDer]
    rw [legEval_one (n + 1), legDer_one (n + 1), legDer_one n]; push_cast; field_simp; ring

theorem natDegree_legendre : ∀ n, (legendre n).natDegree ≤ n
  | 0 => by simp [legendre]
  | 1 => by simp [legendre]
  | n + 2 => by
    rw [legendre]
    refine (natDegree_C_mul_le _ _).trans ((natDegree_sub_le _ _).trans (max_le ?_ ?_))
    · refine natDegree_mul_le.trans ?_
      have h1 : (C (2 * (n : ℝ) + 3) * X).natDegree ≤ 1 :=
        (natDegree_C_mul_le _ _).trans natDegree_X_le
      have h2 := natDegree_legendre (n + 1)
      omega
    · exact (natDegree_C_mul_le _ _).trans ((natDegree_legendre n).trans (by omega))

theorem legendre_ne_zero (n : ℕ) : legendre n ≠ 0 := by
  intro h
  have := legEval_one n
  rw [← eval_legendre, h] at this
  simp at this

theorem derivative_legendre_ne_zero (n : ℕ) (hn : 1 ≤ n) : derivative (legendre n) ≠ 0 := by
  intro h
  have := legDer_one n
  rw [← eval_derivative_legendre, h] at this
  have h1 : (0 : ℝ) < n := by exact_mod_cast hn
  have h2 : (0 : ℝ) < n * (n + 1) / 2 := by positivity
  rw [← this] at h2
  simp at h2

theorem lobattoPoly_ne_zero (N : ℕ) (hN : 2 ≤ N) : lobattoPoly N ≠ 0 := by
  refine mul_ne_zero ?_ (derivative_legendre_ne_zero _ (by omega))
  intro h
  have := congrArg (eval 0) h
  simp at this

theorem natDegree_lobattoPoly (N : ℕ) (hN : 2 ≤ N) : (lobattoPoly N).natDegree ≤ N := by
  refine natDegree_mul_le.trans ?_
  have h1 : ((1 : ℝ[X]) - X ^ 2).natDegree ≤ 2 := by
    refine (natDegree_sub_le _ _).trans ?_
    simp
  have h2 : (derivative (legendre (N - 1))).natDegree ≤ N - 1 - 1 :=
    (natDegree_derivative_le _).trans (Nat.sub_le_sub_right (natDegree_legendre _) 1)
  omega

/-- `(1 - x^2) P'_{N-1}(x)` by the recursion. -/
def lobEval (N : ℕ) (x : K) : K := (1 - x ^ 2) * legDer (N - 1) x

theorem eval_lobattoPoly (N : ℕ) (x : ℝ) : (lobattoPoly N).eval x = lobEval N x := by
  simp [lobattoPoly, lobEval, eval_derivative_legendre]

theorem lobEval_cast (N : ℕ) (q : ℚ) : lobEval N (q : ℝ) = ((lobEval N q : ℚ) : ℝ) := by
  simp [lobEval, legDer_cast]

/-! ### roots near given points -/

theorem root_between (p : ℝ[X]) {a b : ℝ} (hab : a ≤ b) (h : p.eval a * p.eval b < 0) :
    ∃ x, a ≤ x ∧ x ≤ b ∧ p.eval x = 0 := by
  have hc : ContinuousOn (fun x => p.eval x) (Set.Icc a b) := p.continuous.continuousOn
  rcases lt_or_gt_of_ne (left_ne_zero_of_mul h.ne) with h1 | h1
  · have h2 : 0 < p.eval b := by nlinarith
    obtain ⟨x, hx, hx0⟩ := intermediate_value_Icc hab hc (show (0 : ℝ) ∈ Set.Icc _ _ from ⟨h1.le, h2.le⟩)
    exact ⟨x, hx.1, hx.2, hx0⟩
  · have h2 : p.eval b < 0 := by nlinarith
    obtain ⟨x, hx, hx0⟩ := intermediate_value_Icc' hab hc (show (0 : ℝ) ∈ Set.Icc _ _ from ⟨h2.le, h1.le⟩)
    exact ⟨x, hx.1, hx.2, hx0⟩

/-- If a polynomial of degree at most `N` changes sign in `N` disjoint intervals around given points,
its roots are exactly one point from each interval. -/
theorem roots_near {N : ℕ} (p : ℝ[X]) (hp : p ≠ 0) (hd : p.natDegree ≤ N) (c : Fin N → ℝ) (ε : ℝ)
    (hε : 0 ≤ ε) (hsign : ∀ i, p.eval (c i - ε) * p.eval (c i + ε) < 0)
    (hsep : ∀ i j, i < j → c i + ε < c j - ε) :
    ∃ x : Fin N → ℝ, StrictMono x ∧ (∀ y, p.eval y = 0 ↔ ∃ i, y = x i) ∧ ∀ i, |c i - x i| ≤ ε := by
  have hex : ∀ i, ∃ x, c i - ε ≤ x ∧ x ≤ c i + ε ∧ p.eval x = 0 := fun i =>
    root_between p (by linarith) (hsign i)
  choose x h1 h2 h3 using hex
  have hmono : StrictMono x := fun i j hij => by linarith [hsep i j hij, h2 i, h1 j]
  refine ⟨x, hmono, fun y => ⟨fun hy => ?_, ?_⟩, fun i => abs_le.2 ⟨by linarith [h2 i], by linarith [h1 i]⟩⟩
  · by_contra hne
    push Not at hne
    have hinj : Function.Injective x := hmono.injective
    let Z : Finset ℝ := insert y (Finset.univ.image x)
    have hcard : Z.card = N + 1 := by
      rw [Finset.card_insert_of_notMem, Finset.card_image_of_injective _ hinj, Finset.card_univ,
        Fintype.card_fin]
      simp only [Finset.mem_image, Finset.mem_univ, true_and, not_exists]
      exact fun i h => hne i h.symm
    have hsub : Z.val ⊆ p.roots := by
      intro z hz
      rw [mem_roots hp, IsRoot]
      have hz' : z ∈ Z := hz
      have : z = y ∨ ∃ i, x i = z := by simpa [Z] using hz'
      rcases this with rfl | ⟨i, rfl⟩
      · exact hy
      · exact h3 i
    have := card_le_degree_of_subset_roots hsub
    omega
  · rintro ⟨i, rfl⟩; exact h3 i

/-! ### moments -/

theorem integral_monomial (k : ℕ) :
    ∫ x in (-1 : ℝ)..1, x ^ k = (1 - (-1) ^ (k + 1)) / ((k : ℝ) + 1) := by
  rw [integral_pow]; simp

theorem integral_polynomial (p : ℝ[X]) (D : ℕ) (hp : p.natDegree < D) :
    ∫ x in (-1 : ℝ)..1, p.eval x
      = ∑ k ∈ Finset.range D, p.coeff k * ((1 - (-1) ^ (k + 1)) / ((k : ℝ) + 1)) := by
  have : (fun x : ℝ => p.eval x) = fun x => ∑ k ∈ Finset.range D, p.coeff k * x ^ k := by
    funext x; exact eval_eq_sum_range' hp x
  rw [this, intervalIntegral.integral_finsetSum]
  · refine Finset.sum_congr rfl fun k _ => ?_
    rw [intervalIntegral.integral_const_mul, integral_monomial]
  · intro k _
    exact (Continuous.intervalIntegrable (by fun_prop) _ _)

/-- Accurate moments give accurate quadrature of every polynomial. -/
theorem quadrature_of_moments {N : ℕ} (c w : Fin N → ℝ) (D : ℕ) (ε : ℝ)
    (hm : ∀ k < D, |∑ i, w i * c i ^ k - (1 - (-1) ^ (k + 1)) / ((k : ℝ) + 1)| ≤ ε)
    (p : ℝ[X]) (hp : p.natDegree < D) :
    |∑ i, w i * p.eval (c i) - ∫ x in (-1 : ℝ)..1, p.eval x|
      ≤ ε * ∑ k ∈ Finset.range D, |p.coeff k| := by
  rw [integral_polynomial p D hp]
  have h1 : ∑ i, w i * p.eval (c i)
      = ∑ k ∈ Finset.range D, p.coeff k * ∑ i, w i * c i ^ k := by
    simp_rw [eval_eq_sum_range' hp, Finset.mul_sum]
    rw [Finset.sum_comm]
    refine Finset.sum_congr rfl fun k _ => Finset.sum_congr rfl fun i _ => by ring
  rw [h1, ← Finset.sum_sub_distrib, Finset.mul_sum]
  refine (Finset.abs_sum_le_sum_abs _ _).trans (Finset.sum_le_sum fun k hk => ?_)
  rw [← mul_sub, abs_mul, mul_comm]
  exact mul_le_mul_of_nonneg_right (hm k (Finset.mem_range.1 hk)) (abs_nonneg _)

/-- The value of a finished computation. -/
def val (r : Res ℚ) : ℚ := match r with
  | .ok q => q
  | _ => 0

/-- All results of a function on `0..N-1` over ℚ are defined. -/
def AllOk (N : ℕ) (f : Int → Res ℚ) : Prop := ∀ i : Fin N, f (i : ℕ) = .ok (val (f (i : ℕ)))

instance (N : ℕ) (f : Int → Res ℚ) : Decidable (AllOk N f) :=
  inferInstanceAs (Decidable (∀ _ : Fin N, _))

/-- The moments of a rule over ℚ agree with those of Lebesgue measure on `[-1,1]` within `ε`. -/
def MomentsOk (N D : ℕ) (c w : Int → Res ℚ) (ε : ℚ) : Prop :=
  ∀ k < D, |∑ i : Fin N, val (w (i : ℕ)) * val (c (i : ℕ)) ^ k
    - (1 - (-1) ^ (k + 1)) / ((k : ℚ) + 1)| ≤ ε

instance (N D : ℕ) (c w : Int → Res ℚ) (ε : ℚ) : Decidable (MomentsOk N D c w ε) :=
  inferInstanceAs (Decidable (∀ k < D, _))

theorem moments_cast {N D : ℕ} {c w : Int → Res ℚ} {ε : ℚ} (h : MomentsOk N D c w ε) :
    ∀ k < D, |∑ i : Fin N, ((val (w (i : ℕ)) : ℚ) : ℝ) * ((val (c (i : ℕ)) : ℚ) : ℝ) ^ k
      - (1 - (-1) ^ (k + 1)) / ((k : ℝ) + 1)| ≤ (ε : ℝ) := by
  intro k hk
  have := h k hk
  have h2 : ((|∑ i : Fin N, val (w (i : ℕ)) * val (c (i : ℕ)) ^ k
    - (1 - (-1) ^ (k + 1)) / ((k : ℚ) + 1)| : ℚ) : ℝ) ≤ (ε : ℝ) := by exact_mod_cast this
  push_cast at h2
  exact h2

end Verif.Lemmas
