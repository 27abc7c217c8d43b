import Verif.Lemmas.CellVolume
import Verif.Spec.DistortedBox
import Mathlib.Analysis.Calculus.Deriv.Pi
import Mathlib.Analysis.Calculus.Deriv.Add
import Mathlib.Analysis.Calculus.Deriv.Mul
import Mathlib.LinearAlgebra.Matrix.Gershgorin
import Mathlib.Topology.Instances.Matrix
import Mathlib.Topology.Order.IntermediateValue

/-! # Multilinear interpolation and diagonally dominant matrices -/

namespace Verif.Lemmas

open Verif.Spec

variable {d : ℕ}

/-! ### multilinear interpolation -/

/-- The two functions with value one at one end of `[-1,1]` and zero at the other. -/
noncomputable def hat (a : Fin 2) (x : ℝ) : ℝ := if a = 0 then (1 - x) / 2 else (1 + x) / 2

theorem hat_affine (a : Fin 2) (x : ℝ) : hat a x = (1 - x) / 2 * hat a (-1) + (1 + x) / 2 * hat a 1 := by
  unfold hat; split <;> ring

theorem hat_nonneg (a : Fin 2) {x : ℝ} (h : -1 ≤ x ∧ x ≤ 1) : 0 ≤ hat a x := by
  unfold hat; split <;> linarith [h.1, h.2]

/-- The multilinear interpolant of `Y`. -/
noncomputable def multi (Y : (Fin d → Fin 2) → ℝ) (ξ : Fin d → ℝ) : ℝ :=
  ∑ idx : Fin d → Fin 2, (∏ k, hat (idx k) (ξ k)) * Y idx

theorem multi_add (Y Z : (Fin d → Fin 2) → ℝ) (ξ : Fin d → ℝ) :
    multi (fun idx => Y idx + Z idx) ξ = multi Y ξ + multi Z ξ := by
  simp [multi, mul_add, Finset.sum_add_distrib]

private theorem prod_update (idx : Fin d → Fin 2) (ξ : Fin d → ℝ) (j : Fin d) (s : ℝ) :
    ∏ k, hat (idx k) (Function.update ξ j s k) = hat (idx j) s * ∏ k ∈ Finset.univ.erase j, hat (idx k) (ξ k) := by
  rw [← Finset.mul_prod_erase Finset.univ _ (Finset.mem_univ j), Function.update_self]
  congr 1
  exact Finset.prod_congr rfl fun k hk => by rw [Function.update_of_ne (Finset.ne_of_mem_erase hk)]

theorem multi_update (Y : (Fin d → Fin 2) → ℝ) (ξ : Fin d → ℝ) (j : Fin d) (s : ℝ) :
    multi Y (Function.update ξ j s) = (1 - s) / 2 * multi Y (Function.update ξ j (-1))
      + (1 + s) / 2 * multi Y (Function.update ξ j 1) := by
  simp only [multi, prod_update, Finset.mul_sum, ← Finset.sum_add_distrib]
  refine Finset.sum_congr rfl fun idx _ => ?_
  rw [hat_affine (idx j) s]
  ring

theorem sum_hat_eq_prod (h : (k : Fin d) → Fin 2 → ℝ) (ξ : Fin d → ℝ) :
    ∑ idx : Fin d → Fin 2, (∏ k, hat (idx k) (ξ k)) * ∏ k, h k (idx k)
      = ∏ k, ((1 - ξ k) / 2 * h k 0 + (1 + ξ k) / 2 * h k 1) := by
  have := (Fintype.prod_sum fun (k : Fin d) (a : Fin 2) => hat a (ξ k) * h k a).symm
  simp only [Fin.sum_univ_two, Finset.prod_mul_distrib] at this
  rw [this]
  simp [hat]

theorem sum_hat (ξ : Fin d → ℝ) : ∑ idx : Fin d → Fin 2, ∏ k, hat (idx k) (ξ k) = 1 := by
  have := sum_hat_eq_prod (fun _ _ => 1) ξ
  simp only [Finset.prod_const_one, mul_one] at this
  rw [this]
  exact Finset.prod_eq_one fun k _ => by ring

theorem multi_coord (i : Fin d) (o len : ℝ) (ξ : Fin d → ℝ) :
    multi (fun idx => o + if idx i = 0 then 0 else len) ξ = o + len * ((1 + ξ i) / 2) := by
  rw [multi_add]
  have h1 : multi (fun _ => o) ξ = o := by rw [multi, ← Finset.sum_mul, sum_hat, one_mul]
  have h2 : multi (fun idx => if idx i = 0 then 0 else len) ξ = len * ((1 + ξ i) / 2) := by
    have := sum_hat_eq_prod (fun k a => if k = i then (if a = 0 then 0 else len) else 1) ξ
    simp only [Finset.prod_ite_eq', Finset.mem_univ, if_true] at this
    rw [multi, this, ← Finset.mul_prod_erase Finset.univ _ (Finset.mem_univ i)]
    rw [Finset.prod_eq_one fun k hk => by
      rw [if_neg (Finset.ne_of_mem_erase hk), if_neg (Finset.ne_of_mem_erase hk)]; ring]
    simp
    ring
  rw [h1, h2]

theorem abs_multi_le {Y : (Fin d → Fin 2) → ℝ} {δ : ℝ} (hY : ∀ idx, |Y idx| ≤ δ) {ξ : Fin d → ℝ}
    (hξ : ξ ∈ cube d) : |multi Y ξ| ≤ δ := by
  refine (Finset.abs_sum_le_sum_abs _ _).trans ?_
  calc ∑ idx, |(∏ k, hat (idx k) (ξ k)) * Y idx| ≤ ∑ idx : Fin d → Fin 2, (∏ k, hat (idx k) (ξ k)) * δ := by
        refine Finset.sum_le_sum fun idx _ => ?_
        have h0 := Finset.prod_nonneg fun (k : Fin d) (_ : k ∈ Finset.univ) => hat_nonneg (idx k) (hξ k)
        rw [abs_mul, abs_of_nonneg h0]
        exact mul_le_mul_of_nonneg_left (hY idx) h0
    _ = δ := by rw [← Finset.sum_mul, sum_hat, one_mul]

theorem update_mem_cube {ξ : Fin d → ℝ} (hξ : ξ ∈ cube d) (j : Fin d) {s : ℝ} (hs : -1 ≤ s ∧ s ≤ 1) :
    Function.update ξ j s ∈ cube d := by
  intro k
  by_cases h : k = j
  · subst h; simpa using hs
  · rw [Function.update_of_ne h]; exact hξ k

theorem abs_slope_le {Y : (Fin d → Fin 2) → ℝ} {δ : ℝ} (hY : ∀ idx, |Y idx| ≤ δ) {ξ : Fin d → ℝ}
    (hξ : ξ ∈ cube d) (j : Fin d) :
    |(multi Y (Function.update ξ j 1) - multi Y (Function.update ξ j (-1))) / 2| ≤ δ := by
  have h1 := abs_le.1 (abs_multi_le hY (update_mem_cube hξ j (s := 1) ⟨by norm_num, le_refl _⟩))
  have h2 := abs_le.1 (abs_multi_le hY (update_mem_cube hξ j (s := -1) ⟨le_refl _, by norm_num⟩))
  rw [abs_le]
  constructor <;> linarith [h1.1, h1.2, h2.1, h2.2]

theorem piecewise_mem_cube {ξ η : Fin d → ℝ} (hξ : ξ ∈ cube d) (hη : η ∈ cube d) (s : Finset (Fin d)) :
    s.piecewise ξ η ∈ cube d := by
  intro k
  by_cases h : k ∈ s
  · rw [Finset.piecewise_eq_of_mem _ _ _ h]; exact hξ k
  · rw [Finset.piecewise_eq_of_notMem _ _ _ h]; exact hη k

theorem multi_lipschitz {Y : (Fin d → Fin 2) → ℝ} {δ : ℝ} (hY : ∀ idx, |Y idx| ≤ δ) {ξ η : Fin d → ℝ}
    (hξ : ξ ∈ cube d) (hη : η ∈ cube d) : |multi Y ξ - multi Y η| ≤ δ * ∑ k, |ξ k - η k| := by
  have key : ∀ s : Finset (Fin d), |multi Y (s.piecewise ξ η) - multi Y η| ≤ δ * ∑ k ∈ s, |ξ k - η k| := by
    intro s
    induction s using Finset.induction_on with
    | empty => simp
    | insert j s hj ih =>
      have hζ := piecewise_mem_cube hξ hη s
      obtain ⟨ζ, hz⟩ : ∃ ζ, ζ = s.piecewise ξ η := ⟨_, rfl⟩
      rw [Finset.piecewise_insert, Finset.sum_insert hj]
      have hj' : ζ j = η j := by rw [hz, Finset.piecewise_eq_of_notMem _ _ _ hj]
      rw [← hz] at ih hζ ⊢
      have e1 := multi_update Y ζ j (ξ j)
      have e2 := multi_update Y ζ j (ζ j)
      rw [Function.update_eq_self] at e2
      have e3 : multi Y (Function.update ζ j (ξ j)) - multi Y ζ
          = (ξ j - η j) * ((multi Y (Function.update ζ j 1) - multi Y (Function.update ζ j (-1))) / 2) := by
        rw [e1, e2, hj']; ring
      calc |multi Y (Function.update ζ j (ξ j)) - multi Y η|
          ≤ |multi Y (Function.update ζ j (ξ j)) - multi Y ζ| + |multi Y ζ - multi Y η| := abs_sub_le _ _ _
        _ ≤ |ξ j - η j| * δ + δ * ∑ k ∈ s, |ξ k - η k| := by
            refine add_le_add ?_ ih
            rw [e3, abs_mul]
            exact mul_le_mul_of_nonneg_left (abs_slope_le hY hζ j) (abs_nonneg _)
        _ = _ := by ring
  have := key Finset.univ
  rwa [Finset.piecewise_univ] at this

/-! ### near a box -/

/-- The displacement of component `i` of the vertices. -/
noncomputable def displacement (o len : Fin d → ℝ) (V : (Fin d → Fin 2) → Fin d → ℝ) (i : Fin d)
    (idx : Fin d → Fin 2) : ℝ := V idx i - (o i + if idx i = 0 then 0 else len i)

theorem multi_near (o len : Fin d → ℝ) (V : (Fin d → Fin 2) → Fin d → ℝ) (i : Fin d) (ξ : Fin d → ℝ) :
    multi (fun idx => V idx i) ξ = o i + len i * ((1 + ξ i) / 2) + multi (displacement o len V i) ξ := by
  rw [← multi_coord i (o i) (len i) ξ, ← multi_add]
  simp [displacement]

theorem injOn_near {o len δ : Fin d → ℝ} {V : (Fin d → Fin 2) → Fin d → ℝ} (hV : NearBox o len δ V)
    (hδ : ∀ i, 2 * d * δ i < len i) :
    Set.InjOn (fun ξ i => multi (fun idx => V idx i) ξ) (cube d) := by
  intro ξ hξ η hη he
  by_contra hne
  obtain ⟨k, hk⟩ : ∃ k, ξ k ≠ η k := by
    by_contra hall
    push Not at hall
    exact hne (funext hall)
  obtain ⟨i, -, hi⟩ := Finset.exists_max_image Finset.univ (fun k => |ξ k - η k|) ⟨k, Finset.mem_univ k⟩
  have hpos : 0 < |ξ i - η i| := lt_of_lt_of_le (abs_pos.2 (sub_ne_zero.2 hk)) (hi k (Finset.mem_univ k))
  have h1 : multi (fun idx => V idx i) ξ = multi (fun idx => V idx i) η := congrFun he i
  rw [multi_near o len, multi_near o len] at h1
  have hd : ∀ idx, |displacement o len V i idx| ≤ δ i := fun idx => hV idx i
  have h2 := multi_lipschitz hd hξ hη
  have h0 : 0 ≤ δ i := (abs_nonneg _).trans (hd fun _ => 0)
  have h3 : ∑ k, |ξ k - η k| ≤ d * |ξ i - η i| := by
    refine (Finset.sum_le_sum fun k hk => hi k hk).trans ?_
    simp
  have h4 : len i * (ξ i - η i) / 2
      = -(multi (displacement o len V i) ξ - multi (displacement o len V i) η) := by linarith
  have hl : 0 < len i := lt_of_le_of_lt (by positivity) (hδ i)
  have h5 : len i * |ξ i - η i| / 2 ≤ δ i * (d * |ξ i - η i|) := by
    have : |len i * (ξ i - η i) / 2| = len i * |ξ i - η i| / 2 := by
      rw [abs_div, abs_mul, abs_of_pos hl, abs_of_pos (by norm_num : (0 : ℝ) < 2)]
    rw [← this, h4, abs_neg]
    exact h2.trans (mul_le_mul_of_nonneg_left h3 h0)
  nlinarith [hδ i]

/-! ### derivatives -/

theorem pderiv_multi {Y : (Fin d → Fin 2) → ℝ} {p : MvPolynomial (Fin d) ℝ}
    (hp : ∀ ξ, MvPolynomial.eval ξ p = multi Y ξ) (ξ : Fin d → ℝ) (j : Fin d) :
    MvPolynomial.eval ξ (MvPolynomial.pderiv j p)
      = (multi Y (Function.update ξ j 1) - multi Y (Function.update ξ j (-1))) / 2 := by
  have h1 : HasFDerivAt (fun ξ : Fin d → ℝ => MvPolynomial.eval ξ p)
      (∑ k, MvPolynomial.eval ξ (MvPolynomial.pderiv k p) • (ContinuousLinearMap.proj k : (Fin d → ℝ) →L[ℝ] ℝ))
      (Function.update ξ j (ξ j)) := by
    rw [Function.update_eq_self]; exact hasFDerivAt_eval p ξ
  have h2 := h1.comp_hasDerivAt (ξ j) (hasDerivAt_update ξ j (ξ j))
  obtain ⟨a, ha⟩ : ∃ a, a = multi Y (Function.update ξ j (-1)) := ⟨_, rfl⟩
  obtain ⟨b, hb⟩ : ∃ b, b = multi Y (Function.update ξ j 1) := ⟨_, rfl⟩
  have h3 : ((fun ξ : Fin d → ℝ => MvPolynomial.eval ξ p) ∘ Function.update ξ j)
      = fun s => (1 - s) / 2 * a + (1 + s) / 2 * b := by
    funext s
    rw [Function.comp, hp, multi_update, ← ha, ← hb]
  rw [h3] at h2
  have h4 : HasDerivAt (fun s : ℝ => (1 - s) / 2 * a + (1 + s) / 2 * b) ((b - a) / 2) (ξ j) := by
    have e : (fun s : ℝ => (1 - s) / 2 * a + (1 + s) / 2 * b) = fun s => (b - a) / 2 * s + (a + b) / 2 := by
      funext s; ring
    rw [e]
    simpa using ((hasDerivAt_id (ξ j)).const_mul ((b - a) / 2)).add_const ((a + b) / 2)
  rw [← ha, ← hb, ← h2.unique h4]
  simp [Pi.single_apply]

/-! ### diagonally dominant matrices -/

theorem det_pos_of_dominant {M : Matrix (Fin d) (Fin d) ℝ} (hd : ∀ i, 0 < M i i)
    (h : ∀ i, ∑ j ∈ Finset.univ.erase i, |M i j| < M i i) : 0 < M.det := by
  obtain ⟨f, hf⟩ : ∃ f : ℝ → ℝ, f = fun t => (Matrix.of fun i j => if i = j then M i j else t * M i j).det := ⟨_, rfl⟩
  have hc : Continuous f := by
    rw [hf]
    refine Continuous.matrix_det (continuous_matrix fun i j => ?_)
    simp only [Matrix.of_apply]
    split
    · exact continuous_const
    · exact continuous_id.mul continuous_const
  have h0 : 0 < f 0 := by
    have : f 0 = ∏ i, M i i := by
      rw [hf]
      have e : (Matrix.of fun i j => if i = j then M i j else 0 * M i j) = Matrix.diagonal fun i => M i i := by
        ext i j
        by_cases hij : i = j
        · subst hij; simp
        · simp [hij]
      simp only [e, Matrix.det_diagonal]
    rw [this]
    exact Finset.prod_pos fun i _ => hd i
  have h1 : f 1 = M.det := by
    rw [hf]
    simp only [one_mul, ite_self]
    rfl
  have hne : ∀ t ∈ Set.Icc (0 : ℝ) 1, f t ≠ 0 := by
    intro t ht
    rw [hf]
    refine det_ne_zero_of_sum_row_lt_diag fun i => ?_
    simp only [Matrix.of_apply, if_true, Real.norm_eq_abs, abs_of_pos (hd i)]
    refine lt_of_le_of_lt (Finset.sum_le_sum fun j hj => ?_) (h i)
    rw [if_neg (Ne.symm (Finset.ne_of_mem_erase hj)), abs_mul, abs_of_nonneg ht.1]
    exact mul_le_of_le_one_left (abs_nonneg _) ht.2
  rw [← h1]
  by_contra hneg
  obtain ⟨t, ht, h2⟩ := intermediate_value_Icc' (by norm_num : (0 : ℝ) ≤ 1) hc.continuousOn
    (⟨not_lt.1 hneg, h0.le⟩ : (0 : ℝ) ∈ Set.Icc (f 1) (f 0))
  exact hne t ht h2

/-- The matrix of partial derivatives of a map near that of a box has a positive determinant. -/
theorem det_near {o len δ : Fin d → ℝ} {V : (Fin d → Fin 2) → Fin d → ℝ} (hV : NearBox o len δ V)
    (hδ : ∀ i, 2 * d * δ i < len i) {ξ : Fin d → ℝ} (hξ : ξ ∈ cube d) :
    0 < (Matrix.of fun i j : Fin d => (multi (fun idx => V idx i) (Function.update ξ j 1)
      - multi (fun idx => V idx i) (Function.update ξ j (-1))) / 2).det := by
  have hd : ∀ i idx, |displacement o len V i idx| ≤ δ i := fun i idx => hV idx i
  have h0 : ∀ i, 0 ≤ δ i := fun i => (abs_nonneg _).trans (hd i fun _ => 0)
  have hdiag : ∀ i, len i / 2 - δ i ≤ (multi (fun idx => V idx i) (Function.update ξ i 1)
      - multi (fun idx => V idx i) (Function.update ξ i (-1))) / 2 := by
    intro i
    have := (abs_le.1 (abs_slope_le (hd i) hξ i)).1
    rw [multi_near o len, multi_near o len, Function.update_self, Function.update_self]
    linarith
  have hoff : ∀ i j, j ≠ i → |(multi (fun idx => V idx i) (Function.update ξ j 1)
      - multi (fun idx => V idx i) (Function.update ξ j (-1))) / 2| ≤ δ i := by
    intro i j hij
    have := abs_slope_le (hd i) hξ j
    rw [multi_near o len, multi_near o len, Function.update_of_ne (Ne.symm hij),
      Function.update_of_ne (Ne.symm hij), add_sub_add_left_eq_sub]
    exact this
  have hpos : ∀ i : Fin d, (1 : ℝ) ≤ d := fun i => by exact_mod_cast Nat.one_le_iff_ne_zero.2 (by have := i.2; omega)
  refine det_pos_of_dominant (fun i => ?_) fun i => ?_
  · simp only [Matrix.of_apply]
    nlinarith [hdiag i, hδ i, h0 i, hpos i]
  · simp only [Matrix.of_apply]
    calc _ ≤ ∑ j ∈ Finset.univ.erase i, δ i :=
          Finset.sum_le_sum fun j hj => hoff i j (Finset.ne_of_mem_erase hj)
      _ = (d - 1) * δ i := by
          rw [Finset.sum_const, Finset.card_erase_of_mem (Finset.mem_univ i), Finset.card_univ, Fintype.card_fin,
            nsmul_eq_mul, Nat.cast_sub (by have := i.2; omega), Nat.cast_one]
      _ < len i / 2 - δ i := by linarith [hδ i]
      _ ≤ _ := hdiag i

end Verif.Lemmas
