import Verif.Model.LagrangeBasis
import Verif.Spec.Nodes
import Verif.Lemmas.Sequence
import Mathlib.LinearAlgebra.Lagrange
import Mathlib.Analysis.Calculus.Deriv.Mul
import Mathlib.Analysis.Calculus.Deriv.Add
import Mathlib.Analysis.Calculus.Deriv.Polynomial

/-! # The Lagrange basis in exact arithmetic -/

namespace Verif.Lemmas

open Verif.Spec Polynomial

/-! ### folds -/

theorem foldRight_ok {R ι : Type} (op : R → R → R) (g : List R → R) (h1 : ∀ a, g [a] = a)
    (h2 : ∀ a b l, g (a :: b :: l) = op a (g (b :: l))) {l : List ι} (hl : l ≠ []) (f : ι → R) :
    foldRight op (l.map fun a => .ok (f a)) = .ok (g (l.map f)) := by
  induction l with
  | nil => exact absurd rfl hl
  | cons a l ih =>
    cases l with
    | nil => simp [foldRight, h1]
    | cons b l =>
      have := ih (by simp)
      simp only [List.map_cons] at this ⊢
      rw [foldRight, this, h2]; rfl

theorem foldRight_mul {K ι : Type} [Field K] {l : List ι} (hl : l ≠ []) (f : ι → K) :
    foldRight (exactArith K).mul (l.map fun a => .ok (f a)) = .ok (l.map f).prod :=
  foldRight_ok _ List.prod (by simp) (fun a b l => by simp [exactArith]) hl f

theorem foldRight_add {K ι : Type} [Field K] {l : List ι} (hl : l ≠ []) (f : ι → K) :
    foldRight (exactArith K).add (l.map fun a => .ok (f a)) = .ok (l.map f).sum :=
  foldRight_ok _ List.sum (by simp) (fun a b l => by simp [exactArith]) hl f

theorem sequenceRes_ok {R ι : Type} (l : List ι) (f : ι → R) :
    sequenceRes (l.map fun a => .ok (f a)) = .ok (l.map f) := by
  induction l with
  | nil => rfl
  | cons a l ih => simp [sequenceRes, ih]

theorem upTo_ofFn (n : ℕ) : upTo 0 (n : Int) = List.ofFn fun i : Fin n => ((i : ℕ) : Int) := by
  rw [upTo, List.ofFn_eq_map, ← List.map_coe_finRange_eq_range, List.map_map]
  simp
  rfl

theorem mapUpTo {n : ℕ} {α : Type} (f : Int → α) :
    (upTo 0 (n : Int)).map f = List.ofFn fun i : Fin n => f (i : ℕ) := by
  rw [upTo_ofFn, List.map_ofFn]; rfl

theorem foldRight_mul_fin {K : Type} [Field K] {n : ℕ} (hn : 0 < n) (F : Int → Res K) (f : Fin n → K)
    (h : ∀ i : Fin n, F (i : ℕ) = .ok (f i)) :
    foldRight (exactArith K).mul ((upTo 0 (n : Int)).map F) = .ok (∏ i, f i) := by
  have hne : List.finRange n ≠ [] := by
    intro h0; have := congrArg List.length h0; simp at this; omega
  have e : (upTo 0 (n : Int)).map F = (List.finRange n).map fun i => .ok (f i) := by
    rw [mapUpTo, List.ofFn_eq_map]; exact List.map_congr_left fun i _ => h i
  rw [e, foldRight_mul hne, ← List.ofFn_eq_map, List.prod_ofFn]

theorem foldRight_add_fin {K : Type} [Field K] {n : ℕ} (hn : 0 < n) (F : Int → Res K) (f : Fin n → K)
    (h : ∀ i : Fin n, F (i : ℕ) = .ok (f i)) :
    foldRight (exactArith K).add ((upTo 0 (n : Int)).map F) = .ok (∑ i, f i) := by
  have hne : List.finRange n ≠ [] := by
    intro h0; have := congrArg List.length h0; simp at this; omega
  have e : (upTo 0 (n : Int)).map F = (List.finRange n).map fun i => .ok (f i) := by
    rw [mapUpTo, List.ofFn_eq_map]; exact List.map_congr_left fun i _ => h i
  rw [e, foldRight_add hne, ← List.ofFn_eq_map, List.sum_ofFn]

theorem sequenceRes_fin {K : Type} {n : ℕ} (F : Int → Res K) (f : Fin n → K)
    (h : ∀ i : Fin n, F (i : ℕ) = .ok (f i)) :
    sequenceRes ((upTo 0 (n : Int)).map F) = .ok (List.ofFn f) := by
  have e : (upTo 0 (n : Int)).map F = (List.finRange n).map fun i => .ok (f i) := by
    rw [mapUpTo, List.ofFn_eq_map]; exact List.map_congr_left fun i _ => h i
  rw [e, sequenceRes_ok, ← List.ofFn_eq_map]

theorem tableAt_ofFn {K : Type} {n : ℕ} (f : Fin n → K) (i : Fin n) :
    tableAt (List.ofFn f) ((i : ℕ) : Int) = .ok (f i) := by
  unfold tableAt
  rw [dif_pos (by simp)]
  simp

/-! ### the model in exact arithmetic -/

/-- One factor of the Lagrange polynomial of node `j`. -/
noncomputable def factor {n : ℕ} (c : Fin n → ℝ) (j : Fin n) (x : ℝ) (t : Fin n) : ℝ :=
  if j = t then 1 else (x - c t) * (1 / (c j - c t))

/-- Its derivative. -/
noncomputable def factorDeriv {n : ℕ} (c : Fin n → ℝ) (j t : Fin n) : ℝ :=
  if j = t then 0 else 1 / (c j - c t)

variable {S : Spacing ℝ} {n : ℕ} {c : Fin n → ℝ}

theorem two_le_of_ne {j t : Fin n} (h : j ≠ t) : 2 ≤ n := by
  have : (j : ℕ) ≠ t := fun e => h (Fin.ext e)
  omega

theorem valueProductTerm_eq (h : Nodes S n c) (j t : Fin n) (x : ℝ) :
    LagrangeBasis.valueProductTerm (exactArith ℝ) S (j : ℕ) (t : ℕ) x = .ok (factor c j x t) := by
  unfold LagrangeBasis.valueProductTerm factor
  by_cases e : j = t
  · subst e; simp [exactArith]
  · have e' : ((j : ℕ) : Int) ≠ (t : ℕ) := by
      intro h; exact e (Fin.ext (by exact_mod_cast h))
    have hd : c j - c t ≠ 0 := sub_ne_zero.2 fun h' => e (h.distinct h')
    rw [if_neg e', if_neg e, h.coord (two_le_of_ne e) t, h.coord (two_le_of_ne e) j]
    simp [exactArith, hd]

theorem gradientOfValueTerm_eq (h : Nodes S n c) (j t : Fin n) :
    LagrangeBasis.gradientOfValueTerm (exactArith ℝ) S (j : ℕ) (t : ℕ) = .ok (factorDeriv c j t) := by
  unfold LagrangeBasis.gradientOfValueTerm factorDeriv
  by_cases e : j = t
  · subst e; simp [exactArith]
  · have e' : ((j : ℕ) : Int) ≠ (t : ℕ) := by
      intro h; exact e (Fin.ext (by exact_mod_cast h))
    have hd : c j - c t ≠ 0 := sub_ne_zero.2 fun h' => e (h.distinct h')
    rw [if_neg e', if_neg e, h.coord (two_le_of_ne e) t, h.coord (two_le_of_ne e) j]
    simp [exactArith, hd]

theorem value_eq (h : Nodes S n c) (j : Fin n) (x : ℝ) :
    LagrangeBasis.value (exactArith ℝ) S n (j : ℕ) x = .ok (∏ t, factor c j x t) := by
  unfold LagrangeBasis.value
  rw [makeIntegerSequence_ok (by omega), Res.ok_bind]
  exact foldRight_mul_fin j.pos _ _ fun t => valueProductTerm_eq h j t x

theorem gradient_eq (h : Nodes S n c) (j : Fin n) (x : ℝ) :
    LagrangeBasis.gradient (exactArith ℝ) S n (j : ℕ) x
      = .ok (∑ a, factorDeriv c j a * ∏ b, if b = a then 1 else factor c j x b) := by
  unfold LagrangeBasis.gradient
  rw [makeIntegerSequence_ok (by omega), Res.ok_bind,
    sequenceRes_fin _ _ (fun t => valueProductTerm_eq h j t x), Res.ok_bind]
  refine foldRight_add_fin j.pos _ _ fun a => ?_
  unfold LagrangeBasis.gradientTerm
  rw [gradientOfValueTerm_eq h j a, Res.ok_bind,
    foldRight_mul_fin j.pos _ (fun b => if b = a then 1 else factor c j x b), Res.ok_bind]
  · rfl
  · intro b
    unfold LagrangeBasis.valueProductFactor
    by_cases e : b = a
    · subst e; simp [exactArith]
    · have e' : ((b : ℕ) : Int) ≠ (a : ℕ) := by
        intro h; exact e (Fin.ext (by exact_mod_cast h))
      rw [if_neg e', if_neg e, tableAt_ofFn]

theorem prod_factor_eq (j : Fin n) (x : ℝ) :
    ∏ t, factor c j x t = (Lagrange.basis Finset.univ c j).eval x := by
  rw [Lagrange.basis, eval_prod, ← Finset.mul_prod_erase _ _ (Finset.mem_univ j)]
  rw [factor, if_pos rfl, one_mul]
  refine Finset.prod_congr rfl fun t ht => ?_
  have : j ≠ t := (Finset.ne_of_mem_erase ht).symm
  simp [factor, this, Lagrange.basisDivisor, mul_comm]

theorem hasDerivAt_prod_factor (j : Fin n) (x : ℝ) :
    HasDerivAt (fun x => ∏ t, factor c j x t)
      (∑ a, factorDeriv c j a * ∏ b, if b = a then 1 else factor c j x b) x := by
  have h1 : ∀ t ∈ Finset.univ, HasDerivAt (fun x => factor c j x t) (factorDeriv c j t) x := by
    intro t _
    by_cases e : j = t
    · simp only [factor, factorDeriv, if_pos e]
      exact hasDerivAt_const x 1
    · simp only [factor, factorDeriv, if_neg e]
      simpa using ((hasDerivAt_id x).sub_const (c t)).mul_const (1 / (c j - c t))
  have h2 := HasDerivAt.fun_finsetProd h1
  refine h2.congr_deriv ?_
  refine Finset.sum_congr rfl fun a _ => ?_
  rw [smul_eq_mul, mul_comm, ← Finset.mul_prod_erase Finset.univ _ (Finset.mem_univ a), if_pos rfl, one_mul]
  congr 1
  exact Finset.prod_congr rfl fun b hb => (if_neg (Finset.ne_of_mem_erase hb)).symm

/-- The value is Mathlib's Lagrange basis polynomial. -/
theorem value_eq_basis (h : Nodes S n c) (j : Fin n) (x : ℝ) :
    LagrangeBasis.value (exactArith ℝ) S n (j : ℕ) x
      = .ok ((Lagrange.basis Finset.univ c j).eval x) := by
  rw [value_eq h, prod_factor_eq]

/-- The gradient is the derivative of that polynomial. -/
theorem gradient_eq_basis (h : Nodes S n c) (j : Fin n) (x : ℝ) :
    LagrangeBasis.gradient (exactArith ℝ) S n (j : ℕ) x
      = .ok ((derivative (Lagrange.basis Finset.univ c j)).eval x) := by
  rw [gradient_eq h]
  congr 1
  refine HasDerivAt.unique (hasDerivAt_prod_factor j x) ?_
  have := (Lagrange.basis Finset.univ c j).hasDerivAt x
  simpa only [prod_factor_eq] using this

end Verif.Lemmas
