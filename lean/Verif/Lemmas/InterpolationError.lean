import Verif.Lemmas.Smooth
import Verif.Spec.Cube
import Mathlib.Algebra.BigOperators.Fin
import Mathlib.Analysis.Calculus.Deriv.Inverse

/-! # The error of interpolation and of its derivative, in one and in several directions -/

namespace Verif.Lemmas

open Verif.Spec Polynomial

local notation "I" => Set.Icc (-1 : ℝ) 1

/-- Distinct points can be sorted. -/
theorem exists_sorted {n : ℕ} {z : Fin n → ℝ} (hz : Function.Injective z) :
    ∃ y : Fin n → ℝ, StrictMono y ∧ ∀ i, ∃ j, z j = y i := by
  have hc : (Finset.univ.image z).card = n := by
    rw [Finset.card_image_of_injective _ hz, Finset.card_univ, Fintype.card_fin]
  refine ⟨_, ((Finset.univ.image z).orderEmbOfFin hc).strictMono, fun i => ?_⟩
  obtain ⟨j, -, hj⟩ := Finset.mem_image.1 (Finset.orderEmbOfFin_mem (Finset.univ.image z) hc i)
  exact ⟨j, hj⟩

section line

variable {n : ℕ} {c : Fin (n + 1) → ℝ} {f : ℝ → ℝ} {D : ℕ → ℝ → ℝ} {M x : ℝ}

theorem interpolate_derivative_top (hc : Function.Injective c) (y : Fin (n + 1) → ℝ) :
    derivative^[n + 1] (Lagrange.interpolate Finset.univ c y) = 0 := by
  refine iterate_derivative_eq_zero_of_degree_lt ?_
  have := Lagrange.degree_interpolate_lt (s := Finset.univ) y hc.injOn
  rwa [Finset.card_univ, Fintype.card_fin] at this

/-- The interpolation error with `n + 1` points. -/
theorem interpolation_error (hc : Function.Injective c) (hI : ∀ i, c i ∈ I) (h : DerivativeBounded (n + 1) f M) (hx : x ∈ I) :
    |∑ j, (Lagrange.basis Finset.univ c j).eval x * f (c j) - f x| ≤ M / (n + 1).factorial * ∏ i, |x - c i| := by
  obtain ⟨D, h, hM⟩ := h
  have hs := HasDerivatives.sub_poly h (Lagrange.interpolate Finset.univ c fun i => f (c i))
  have := zeros_bound hs hc hI (fun i => by rw [Lagrange.eval_interpolate_at_node _ hc.injOn (Finset.mem_univ i), sub_self])
    (M := M) (fun t ht => by simp only [interpolate_derivative_top hc, eval_zero, sub_zero]; exact hM t ht) hx
  rw [abs_sub_comm] at this
  refine le_trans (le_of_eq ?_) this
  congr 2
  rw [Lagrange.interpolate_apply, eval_finsetSum]
  exact Finset.sum_congr rfl fun j _ => by rw [eval_mul, eval_C, mul_comm]

theorem derivative_unique {g g' : ℝ} (hx : x ∈ I) (h : HasDerivWithinAt f g I x) (h' : HasDerivWithinAt f g' I x) : g = g' :=
  (uniqueDiffOn_Icc (by norm_num : (-1 : ℝ) < 1) x hx).eq_deriv _ h h'

/-- The error of the derivative of the interpolation with `n + 1` points. -/
theorem gradient_error (hc : Function.Injective c) (hI : ∀ i, c i ∈ I) (h : DerivativeBounded (n + 1) f M) (hx : x ∈ I)
    {g : ℝ} (hg : HasDerivWithinAt f g I x) :
    |∑ j, (derivative (Lagrange.basis Finset.univ c j)).eval x * f (c j) - g| ≤ M / n.factorial * 2 ^ n := by
  obtain ⟨D, h, hM⟩ := h
  have hM0 : 0 ≤ M := (abs_nonneg _).trans (hM x hx)
  have hs := HasDerivatives.sub_poly h (Lagrange.interpolate Finset.univ c fun i => f (c i))
  obtain ⟨z, hz, hzc⟩ := exists_sorted hc
  obtain ⟨y, hy, hyI, hy0⟩ := rolle_zeros (z := z) (D := fun k x => D k x - (derivative^[k] (Lagrange.interpolate Finset.univ c fun i => f (c i))).eval x)
    ⟨hs.zero, fun k hk => hs.succ k (by omega)⟩ hz (fun i => by obtain ⟨j, hj⟩ := hzc i; rw [← hj]; exact hI j)
    (fun i => by
      obtain ⟨j, hj⟩ := hzc i
      rw [← hj, Function.iterate_zero_apply, Lagrange.eval_interpolate_at_node _ hc.injOn (Finset.mem_univ j), h.zero _ (hI j), sub_self])
  have := zeros_bound (HasDerivatives.shift hs) hy.injective hyI hy0
    (M := M) (fun t ht => by simp only [interpolate_derivative_top hc, eval_zero, sub_zero]; exact hM t ht) hx
  have hg' : D 1 x = g := derivative_unique hx
    ((h.succ 0 (by omega) x hx).congr (fun t ht => (h.zero t ht).symm) (h.zero x hx).symm) hg
  rw [Function.iterate_one, hg', abs_sub_comm] at this
  refine le_trans (le_of_eq ?_) (this.trans ?_)
  · congr 2
    rw [Lagrange.interpolate_apply, derivative_sum, eval_finsetSum]
    exact Finset.sum_congr rfl fun j _ => by rw [derivative_C_mul, eval_mul, eval_C, mul_comm]
  · refine mul_le_mul_of_nonneg_left ?_ (by positivity)
    calc ∏ i, |x - y i| ≤ ∏ _i : Fin n, (2 : ℝ) := Finset.prod_le_prod (fun i _ => abs_nonneg _) fun i _ => by
          rw [abs_le]; constructor <;> linarith [(hyI i).1, (hyI i).2, hx.1, hx.2]
      _ = 2 ^ n := by simp

end line

section tensor

/-- A sum over multi-indices with one direction taken out. -/
theorem sum_insertNth {d : ℕ} {n : Fin (d + 1) → ℕ} (a : Fin (d + 1)) (w : (k : Fin (d + 1)) → Fin (n k) → ℝ)
    (F : ((k : Fin (d + 1)) → Fin (n k)) → ℝ) :
    ∑ idx : (k : Fin (d + 1)) → Fin (n k), (∏ k, w k (idx k)) * F idx
      = ∑ j : Fin (n a), w a j * ∑ r : (k : Fin d) → Fin (n (a.succAbove k)), (∏ k, w (a.succAbove k) (r k)) * F (a.insertNth j r) := by
  rw [← (Fin.insertNthEquiv (fun k => Fin (n k)) a).sum_comp, Fintype.sum_prod_type]
  refine Finset.sum_congr rfl fun j _ => ?_
  rw [Finset.mul_sum]
  refine Finset.sum_congr rfl fun r _ => ?_
  rw [Fin.prod_univ_succAbove _ a]
  simp [Fin.insertNthEquiv, mul_assoc]

theorem insertNth_points {d : ℕ} {n : Fin (d + 1) → ℕ} (c : (k : Fin (d + 1)) → Fin (n k) → ℝ) (a : Fin (d + 1)) (j : Fin (n a))
    (r : (k : Fin d) → Fin (n (a.succAbove k))) :
    (fun k => c k (a.insertNth (α := fun k => Fin (n k)) j r k))
      = a.insertNth (α := fun _ => ℝ) (c a j) (fun k => c (a.succAbove k) (r k)) := by
  funext k
  revert k
  rw [Fin.forall_iff_succAbove a]
  refine ⟨?_, fun k => ?_⟩
  · rw [Fin.insertNth_apply_same, Fin.insertNth_apply_same]
  · rw [Fin.insertNth_apply_succAbove, Fin.insertNth_apply_succAbove]

theorem update_insertNth_points {d : ℕ} (x : Fin (d + 1) → ℝ) (a : Fin (d + 1)) (t : ℝ) :
    Function.update x a t = a.insertNth (α := fun _ => ℝ) t (fun k => x (a.succAbove k)) := by
  rw [Fin.eq_insertNth_iff]
  exact ⟨Function.update_self .., funext fun k => Function.update_of_ne (Fin.succAbove_ne a k) ..⟩

theorem insertNth_cube {d : ℕ} {a : Fin (d + 1)} {t : ℝ} {y : Fin d → ℝ} (ht : t ∈ I) (hy : y ∈ cube d) :
    a.insertNth (α := fun _ => ℝ) t y ∈ cube (d + 1) := by
  intro i
  revert i
  rw [Fin.forall_iff_succAbove a]
  refine ⟨?_, fun i => ?_⟩
  · rw [Fin.insertNth_apply_same]; exact ht
  · rw [Fin.insertNth_apply_succAbove]; exact hy i

theorem tensor_error : ∀ {d : ℕ} {n : Fin d → ℕ} (w c : (k : Fin d) → Fin (n k) → ℝ) (ε : Fin d → ℝ) (f : (Fin d → ℝ) → ℝ) (x : Fin d → ℝ),
    (∀ k j, c k j ∈ I) → x ∈ cube d →
    (∀ k, ∀ y ∈ cube d, |∑ j, w k j * f (Function.update y k (c k j)) - f (Function.update y k (x k))| ≤ ε k) →
    |∑ idx : (k : Fin d) → Fin (n k), (∏ k, w k (idx k)) * f (fun k => c k (idx k)) - f x|
      ≤ ∑ k, (∏ j, if j < k then ∑ i, |w j i| else 1) * ε k := by
  intro d
  induction d with
  | zero =>
    intro n w c ε f x _ _ _
    rw [Fintype.sum_unique]
    simp only [Finset.univ_eq_empty, Finset.prod_empty, Finset.sum_empty, one_mul]
    rw [show (fun k => c k ((default : (k : Fin 0) → Fin (n k)) k)) = x from funext fun k => k.elim0, sub_self, abs_zero]
  | succ d ih =>
    intro n w c ε f x hc hx hε
    rw [sum_insertNth 0]
    have hrest := fun j : Fin (n 0) => ih (n := fun k => n (Fin.succAbove 0 k)) (fun k => w (Fin.succAbove 0 k)) (fun k => c (Fin.succAbove 0 k))
      (fun k => ε (Fin.succAbove 0 k)) (fun y => f ((0 : Fin (d + 1)).insertNth (α := fun _ => ℝ) (c 0 j) y)) (fun k => x (Fin.succAbove 0 k))
      (fun k i => hc _ i) (fun k => hx _) (fun k y hy => by
        have := hε (Fin.succAbove 0 k) ((0 : Fin (d + 1)).insertNth (α := fun _ => ℝ) (c 0 j) y)
          (insertNth_cube (hc 0 j) hy)
        simpa only [Fin.insertNth_update] using this)
    have hfirst := hε 0 x hx
    have hup := update_insertNth_points x 0
    rw [Function.update_eq_self] at hfirst
    simp only [hup] at hfirst
    have hins : ∀ (j : Fin (n 0)) (r : (k : Fin d) → Fin (n (Fin.succAbove 0 k))),
        (fun k => c k ((0 : Fin (d + 1)).insertNth (α := fun k => Fin (n k)) j r k))
          = (0 : Fin (d + 1)).insertNth (α := fun _ => ℝ) (c 0 j) (fun k => c (Fin.succAbove 0 k) (r k)) := fun j r => by
      exact insertNth_points c 0 j r
    simp only [hins]
    rw [Fin.sum_univ_succAbove _ 0]
    have e1 : (∏ j, if j < (0 : Fin (d + 1)) then ∑ i, |w j i| else 1) = 1 := Finset.prod_eq_one fun j _ => if_neg (by simp)
    have e2 : ∀ k : Fin d, (∏ j, if j < Fin.succAbove 0 k then ∑ i, |w j i| else 1)
        = (∑ i, |w 0 i|) * ∏ j : Fin d, if j < k then ∑ i, |w (Fin.succAbove 0 j) i| else 1 := fun k => by
      rw [Fin.prod_univ_succAbove _ 0, if_pos (by simp)]
      congr 1
      exact Finset.prod_congr rfl fun j _ => by simp
    rw [e1, one_mul]
    simp only [e2, mul_assoc]
    rw [← Finset.mul_sum]
    set E := ∑ k : Fin d, (∏ j : Fin d, if j < k then ∑ i, |w (Fin.succAbove 0 j) i| else 1) * ε (Fin.succAbove 0 k) with hE
    calc _ = |∑ j, w 0 j * (∑ r : (k : Fin d) → Fin (n (Fin.succAbove 0 k)), (∏ k, w (Fin.succAbove 0 k) (r k)) *
              f ((0 : Fin (d + 1)).insertNth (α := fun _ => ℝ) (c 0 j) fun k => c (Fin.succAbove 0 k) (r k))
              - f ((0 : Fin (d + 1)).insertNth (α := fun _ => ℝ) (c 0 j) fun k => x (Fin.succAbove 0 k)))
            + (∑ j, w 0 j * f ((0 : Fin (d + 1)).insertNth (α := fun _ => ℝ) (c 0 j) fun k => x (Fin.succAbove 0 k)) - f x)| := by
          congr 1
          simp only [mul_sub, Finset.sum_sub_distrib]
          ring
      _ ≤ (∑ i, |w 0 i|) * E + ε 0 := by
          refine (abs_add_le _ _).trans (add_le_add ?_ hfirst)
          refine (Finset.abs_sum_le_sum_abs _ _).trans ?_
          rw [Finset.sum_mul]
          refine Finset.sum_le_sum fun j _ => ?_
          rw [abs_mul]
          exact mul_le_mul_of_nonneg_left (hrest j) (abs_nonneg _)
      _ = _ := add_comm _ _

/-- One direction approximates another functional `g` (such as a derivative), the others the value. -/
theorem tensor_error_direction {d : ℕ} {n : Fin (d + 1) → ℕ} (w c : (k : Fin (d + 1)) → Fin (n k) → ℝ) (ε : Fin (d + 1) → ℝ)
    (f : (Fin (d + 1) → ℝ) → ℝ) (x : Fin (d + 1) → ℝ) (a : Fin (d + 1)) (g : ℝ) (hc : ∀ k j, c k j ∈ I) (hx : x ∈ cube (d + 1))
    (hε : ∀ k, k ≠ a → ∀ y ∈ cube (d + 1), |∑ j, w k j * f (Function.update y k (c k j)) - f (Function.update y k (x k))| ≤ ε k)
    (hg : |∑ j, w a j * f (Function.update x a (c a j)) - g| ≤ ε a) :
    |∑ idx : (k : Fin (d + 1)) → Fin (n k), (∏ k, w k (idx k)) * f (fun k => c k (idx k)) - g|
      ≤ ε a + (∑ i, |w a i|) * ∑ k, if k = a then 0 else (∏ j, if j < k ∧ j ≠ a then ∑ i, |w j i| else 1) * ε k := by
  rw [sum_insertNth a]
  have hrest := fun j : Fin (n a) => tensor_error (n := fun k => n (a.succAbove k)) (fun k => w (a.succAbove k)) (fun k => c (a.succAbove k))
    (fun k => ε (a.succAbove k)) (fun y => f (a.insertNth (α := fun _ => ℝ) (c a j) y)) (fun k => x (a.succAbove k))
    (fun k i => hc _ i) (fun k => hx _) (fun k y hy => by
      have := hε (a.succAbove k) (Fin.succAbove_ne a k) (a.insertNth (α := fun _ => ℝ) (c a j) y) (insertNth_cube (hc a j) hy)
      simpa only [Fin.insertNth_update] using this)
  simp only [update_insertNth_points x a] at hg
  simp only [insertNth_points c a]
  rw [Fin.sum_univ_succAbove _ a, if_pos rfl, zero_add]
  have e2 : ∀ k : Fin d, (∏ j, if j < a.succAbove k ∧ j ≠ a then ∑ i, |w j i| else 1)
      = ∏ j : Fin d, if j < k then ∑ i, |w (a.succAbove j) i| else 1 := fun k => by
    rw [Fin.prod_univ_succAbove _ a, if_neg (by simp), one_mul]
    exact Finset.prod_congr rfl fun j _ => by simp [Fin.succAbove_ne]
  simp only [e2, if_neg (Fin.succAbove_ne a _)]
  set E := ∑ k : Fin d, (∏ j : Fin d, if j < k then ∑ i, |w (a.succAbove j) i| else 1) * ε (a.succAbove k) with hE
  calc _ = |∑ j, w a j * (∑ r : (k : Fin d) → Fin (n (a.succAbove k)), (∏ k, w (a.succAbove k) (r k)) *
            f (a.insertNth (α := fun _ => ℝ) (c a j) fun k => c (a.succAbove k) (r k))
            - f (a.insertNth (α := fun _ => ℝ) (c a j) fun k => x (a.succAbove k)))
          + (∑ j, w a j * f (a.insertNth (α := fun _ => ℝ) (c a j) fun k => x (a.succAbove k)) - g)| := by
        congr 1
        simp only [mul_sub, Finset.sum_sub_distrib]
        ring
    _ ≤ (∑ i, |w a i|) * E + ε a := by
        refine (abs_add_le _ _).trans (add_le_add ?_ hg)
        refine (Finset.abs_sum_le_sum_abs _ _).trans ?_
        rw [Finset.sum_mul]
        refine Finset.sum_le_sum fun j _ => ?_
        rw [abs_mul]
        exact mul_le_mul_of_nonneg_left (hrest j) (abs_nonneg _)
    _ = _ := add_comm _ _

end tensor

end Verif.Lemmas
