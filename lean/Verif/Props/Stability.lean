import Verif.Lemmas.StabilitySharp
import Verif.Props.Finite
import Verif.Props.InterpolationError
import Verif.Props.Evaluation

/-!
# Property C134: interpolation amplifies nodal values, and errors in them, only by known factors

`Spec/Stability.lean` lists a factor for each family and order: how much larger than the nodal values an interpolated value, or a
derivative, can become.
-/

namespace Verif.Props

open Verif.Spec Verif.Lemmas

variable {d : ℕ} {fam : Fin d → Family} {order : Fin d → ℕ}

theorem values_line {f : Family} {n : ℕ} {c : Fin (n + 1) → ℝ} {x : ℝ} (h8 : n ≤ 8) (hs : f.Supports n) (hc : 1 ≤ n → CloseTo f n c)
    (hx : |x| ≤ 1) : ∑ j, |∏ t ∈ Finset.univ.erase j, (x - c t) / (c j - c t)| ≤ (f.amplification n : ℝ) := by
  by_cases h0 : n = 0
  · subst h0
    cases f <;> simp [Family.amplification]
  · exact values_amplified (by omega) h8 hs (hc (by omega)) hx

theorem gradients_line {f : Family} {n : ℕ} {c : Fin (n + 1) → ℝ} {x : ℝ} (h8 : n ≤ 8) (hs : f.Supports n) (hc : 1 ≤ n → CloseTo f n c)
    (hx : |x| ≤ 1) : ∑ j, derivMagnitude c j x ≤ (f.steepness n : ℝ) := by
  by_cases h0 : n = 0
  · subst h0
    cases f <;> simp [Family.steepness, derivMagnitude]
  · exact gradients_amplified (by omega) h8 hs (hc (by omega)) hx

private theorem nodes_of {e : Element ℝ} (h : IsShippedExactly fam order e) : ∃ c : (k : Fin d) → Fin (order k + 1) → ℝ,
    IsLagrange order c e ∧ ∀ k, 1 ≤ order k → ∀ i : Fin (order k + 1),
      ((fam k).spacing (exactArith ℝ) ((order k + 1 : ℕ) : Int)).coordCT (i : ℕ) = .ok (c k i) := by
  choose c hc using fun k => C36_supported_nodes (fam k) (order k) (h.orders k).1
  obtain ⟨b, hb, hk⟩ := h.bases
  exact ⟨c, ⟨h.dims, h.shape, b, hb, fun k => ⟨by have := (h.orders k).2; omega, _, (hc k).1, hk k⟩⟩, fun k h1 => (hc k).1.coord (by omega)⟩

theorem cast_valueFactor : ((valueFactor fam order : ℚ) : ℝ) = ∏ k, ((fam k).amplification (order k) : ℝ) := by
  unfold valueFactor
  push_cast
  rfl

theorem cast_gradientFactor (a : Fin d) : ((gradientFactor fam order a : ℚ) : ℝ)
    = ∏ k, if a = k then ((fam k).steepness (order k) : ℝ) else ((fam k).amplification (order k) : ℝ) := by
  unfold gradientFactor
  rw [Rat.cast_prod]
  exact Finset.prod_congr rfl fun k _ => by split <;> rfl

private theorem exists_var {n : Fin d → ℕ} (y : ((k : Fin d) → Fin (n k)) → ℝ) : ∃ var : List Int → Res ℝ, ∀ idx, var (tup idx) = .ok (y idx) := by
  classical
  refine ⟨fun l => if h : ∃ idx, tup idx = l then .ok (y h.choose) else .ub, fun idx => ?_⟩
  have h : ∃ idx', tup idx' = tup idx := ⟨idx, rfl⟩
  exact (dif_pos h).trans (by rw [tup_injective h.choose_spec])

/-- Basis function `j` of the points `c`. -/
noncomputable def lineFunction {n : ℕ} (c : Fin n → ℝ) (j : Fin n) (x : ℝ) : ℝ := ∏ t ∈ Finset.univ.erase j, (x - c t) / (c j - c t)

/-- The factors of component `a` of a gradient. -/
noncomputable def lineSlopes {n : Fin d → ℕ} (c : (k : Fin d) → Fin (n k) → ℝ) (x : Fin d → ℝ) (a k : Fin d) (j : Fin (n k)) : ℝ :=
  if a = k then deriv (lineFunction (c k) j) (x k) else lineFunction (c k) j (x k)

/-! ### exact arithmetic -/

/-- What the element computes. -/
private theorem forms {e : Element ℝ} (h : IsShippedExactly fam order e) : ∃ c : (k : Fin d) → Fin (order k + 1) → ℝ,
    (∀ k, 1 ≤ order k → ∀ i : Fin (order k + 1), ((fam k).spacing (exactArith ℝ) ((order k + 1 : ℕ) : Int)).coordCT (i : ℕ) = .ok (c k i)) ∧
    ∀ (x : Fin d → ℝ) (var : List Int → Res ℝ) (y : ((k : Fin d) → Fin (order k + 1)) → ℝ), (∀ idx, var (tup idx) = .ok (y idx)) →
      ParentElement.value (exactArith ℝ) e (List.ofFn x) var
        = .ok (∑ idx : (k : Fin d) → Fin (order k + 1), (∏ k, lineFunction (c k) (idx k) (x k)) * y idx) ∧
      ParentElement.gradient (exactArith ℝ) e (List.ofFn x) var
        = .ok (List.ofFn fun a => ∑ idx : (k : Fin d) → Fin (order k + 1), (∏ k, lineSlopes c x a k (idx k)) * y idx) := by
  obtain ⟨c, hl, hc⟩ := nodes_of h
  obtain ⟨b, rfl, hr, -⟩ := isLagrange_realises hl
  refine ⟨c, hc, fun x var y hy => ⟨?_, ?_⟩⟩
  · have := parent_value h.dims hr x var y hy
    simp only [lagrange_quotients] at this
    exact this
  · have := parent_gradient h.dims hr x var y hy
    simp only [lagrange_quotients, ← deriv_quotients] at this
    exact this

section bounds
variable {c : (k : Fin d) → Fin (order k + 1) → ℝ} (ho : ∀ k, (fam k).Supports (order k) ∧ order k ≤ 8)
    (hc : ∀ k, 1 ≤ order k → CloseTo (fam k) (order k) (c k)) {x : Fin d → ℝ} (hx : ∀ k, |x k| ≤ 1)

include ho hc hx

theorem lineFunction_le (k : Fin d) : ∑ j, |lineFunction (c k) j (x k)| ≤ ((fam k).amplification (order k) : ℝ) :=
  values_line (ho k).2 (ho k).1 (hc k) (hx k)

theorem lineSlopes_le (a k : Fin d) :
    ∑ j, |lineSlopes c x a k j| ≤ if a = k then ((fam k).steepness (order k) : ℝ) else ((fam k).amplification (order k) : ℝ) := by
  unfold lineSlopes
  by_cases ha : a = k
  · simp only [if_pos ha]
    exact (Finset.sum_le_sum fun j _ => derivative_le (c k) j (x k)).trans (gradients_line (ho k).2 (ho k).1 (hc k) (hx k))
  · simp only [if_neg ha]
    exact lineFunction_le ho hc hx k

end bounds

theorem sum_abs_le {n : Fin d → ℕ} {f : (k : Fin d) → Fin (n k) → ℝ} {A : Fin d → ℝ} (hA : ∀ k, ∑ j, |f k j| ≤ A k)
    {y : ((k : Fin d) → Fin (n k)) → ℝ} {Y : ℝ} (hY0 : 0 ≤ Y) (hY : ∀ idx, |y idx| ≤ Y) :
    |∑ idx : (k : Fin d) → Fin (n k), (∏ k, f k (idx k)) * y idx| ≤ (∏ k, A k) * Y := by
  refine (Finset.abs_sum_le_sum_abs _ _).trans ?_
  simp only [abs_mul, Finset.abs_prod]
  exact tensor_sum_le hA hY hY0

private theorem close_of {e : Element ℝ} (h : IsShippedExactly fam order e) {c : (k : Fin d) → Fin (order k + 1) → ℝ}
    (hc : ∀ k, 1 ≤ order k → ∀ i : Fin (order k + 1), ((fam k).spacing (exactArith ℝ) ((order k + 1 : ℕ) : Int)).coordCT (i : ℕ) = .ok (c k i))
    (k : Fin d) (h1 : 1 ≤ order k) : CloseTo (fam k) (order k) (c k) := exact_close h1 (h.orders k).2 (h.orders k).1 (hc k h1)

/-- **C134, values.** The interpolated value at a point of the parent cell is at most the factor times the largest nodal value. -/
theorem C134_value {e : Element ℝ} (h : IsShippedExactly fam order e) (var : List Int → Res ℝ) (y : ((k : Fin d) → Fin (order k + 1)) → ℝ)
    (hy : ∀ idx, var (tup idx) = .ok (y idx)) {Y : ℝ} (hY : ∀ idx, |y idx| ≤ Y) (x : Fin d → ℝ) (hx : ∀ k, |x k| ≤ 1) :
    ∃ v, ParentElement.value (exactArith ℝ) e (List.ofFn x) var = .ok v ∧ |v| ≤ valueFactor fam order * Y := by
  obtain ⟨c, hc, hf⟩ := forms h
  refine ⟨_, (hf x var y hy).1, ?_⟩
  rw [cast_valueFactor]
  exact sum_abs_le (lineFunction_le h.orders (close_of h hc) hx) ((abs_nonneg _).trans (hY fun k => 0)) hY

/-- **C134, gradients.** Component `a` of the gradient is at most its factor times the largest nodal value. -/
theorem C134_gradient {e : Element ℝ} (h : IsShippedExactly fam order e) (var : List Int → Res ℝ) (y : ((k : Fin d) → Fin (order k + 1)) → ℝ)
    (hy : ∀ idx, var (tup idx) = .ok (y idx)) {Y : ℝ} (hY : ∀ idx, |y idx| ≤ Y) (x : Fin d → ℝ) (hx : ∀ k, |x k| ≤ 1) :
    ∃ g : Fin d → ℝ, ParentElement.gradient (exactArith ℝ) e (List.ofFn x) var = .ok (List.ofFn g) ∧
      ∀ a, |g a| ≤ gradientFactor fam order a * Y := by
  obtain ⟨c, hc, hf⟩ := forms h
  refine ⟨_, (hf x var y hy).2, fun a => ?_⟩
  rw [cast_gradientFactor]
  exact sum_abs_le (lineSlopes_le h.orders (close_of h hc) hx a) ((abs_nonneg _).trans (hY fun k => 0)) hY

/-- **C134, errors.** If nodal values change by at most `ε`, then interpolated values and gradients change by at most the factors times `ε`. -/
theorem C134_perturbation {e : Element ℝ} (h : IsShippedExactly fam order e) (var var' : List Int → Res ℝ)
    (y y' : ((k : Fin d) → Fin (order k + 1)) → ℝ) (hy : ∀ idx, var (tup idx) = .ok (y idx)) (hy' : ∀ idx, var' (tup idx) = .ok (y' idx))
    {ε : ℝ} (hε : ∀ idx, |y idx - y' idx| ≤ ε) (x : Fin d → ℝ) (hx : ∀ k, |x k| ≤ 1) :
    (∃ v v', ParentElement.value (exactArith ℝ) e (List.ofFn x) var = .ok v ∧
      ParentElement.value (exactArith ℝ) e (List.ofFn x) var' = .ok v' ∧ |v - v'| ≤ valueFactor fam order * ε) ∧
    ∃ g g' : Fin d → ℝ, ParentElement.gradient (exactArith ℝ) e (List.ofFn x) var = .ok (List.ofFn g) ∧
      ParentElement.gradient (exactArith ℝ) e (List.ofFn x) var' = .ok (List.ofFn g') ∧
      ∀ a, |g a - g' a| ≤ gradientFactor fam order a * ε := by
  have h0 : 0 ≤ ε := (abs_nonneg _).trans (hε fun k => 0)
  obtain ⟨c, hc, hf⟩ := forms h
  refine ⟨⟨_, _, (hf x var y hy).1, (hf x var' y' hy').1, ?_⟩, _, _, (hf x var y hy).2, (hf x var' y' hy').2, fun a => ?_⟩
  · rw [cast_valueFactor, ← Finset.sum_sub_distrib]
    simp only [← mul_sub]
    exact sum_abs_le (y := fun idx => y idx - y' idx) (lineFunction_le h.orders (close_of h hc) hx) h0 hε
  · rw [cast_gradientFactor, ← Finset.sum_sub_distrib]
    simp only [← mul_sub]
    exact sum_abs_le (y := fun idx => y idx - y' idx) (lineSlopes_le h.orders (close_of h hc) hx a) h0 hε

/-! ### the factors cannot be much smaller -/

private theorem reached {n : Fin d → ℕ} (f : (k : Fin d) → Fin (n k) → ℝ) {A : Fin d → ℝ} (h0 : ∀ k, ∑ j, |f k j| ≤ A k)
    (hA : ∀ k, 97 / 100 * A k ≤ ∑ j, |f k j|) : ∃ y : ((k : Fin d) → Fin (n k)) → ℝ, (∀ idx, |y idx| ≤ 1) ∧
      (97 / 100) ^ d * ∏ k, A k ≤ ∑ idx : (k : Fin d) → Fin (n k), (∏ k, f k (idx k)) * y idx := by
  obtain ⟨y, hy, e⟩ := tensor_sum_reached f
  refine ⟨y, hy, ?_⟩
  rw [e, show ((97 : ℝ) / 100) ^ d = ∏ _k : Fin d, (97 / 100 : ℝ) by rw [Finset.prod_const, Finset.card_univ, Fintype.card_fin], ← Finset.prod_mul_distrib]
  exact Finset.prod_le_prod (fun k _ => mul_nonneg (by norm_num) ((Finset.sum_nonneg fun j _ => abs_nonneg _).trans (h0 k))) fun k _ => hA k

private theorem line_peak {f : Family} {n : ℕ} {c : Fin (n + 1) → ℝ} (h8 : n ≤ 8) (hs : f.Supports n)
    (hc : 1 ≤ n → ∀ i : Fin (n + 1), (f.spacing (exactArith ℝ) ((n + 1 : ℕ) : Int)).coordCT (i : ℕ) = .ok (c i)) :
    ∃ x, |x| ≤ 1 ∧ 97 / 100 * (f.amplification n : ℝ) ≤ ∑ j, |lineFunction c j x| := by
  by_cases h0 : n = 0
  · subst h0
    refine ⟨0, by simp, ?_⟩
    cases f <;> simp [Family.amplification, lineFunction] <;> norm_num
  · exact values_peak (by omega) h8 hs (hc (by omega))

private theorem slope_peak {f : Family} {n : ℕ} {c : Fin (n + 1) → ℝ} (h8 : n ≤ 8) (hs : f.Supports n)
    (hc : 1 ≤ n → ∀ i : Fin (n + 1), (f.spacing (exactArith ℝ) ((n + 1 : ℕ) : Int)).coordCT (i : ℕ) = .ok (c i)) :
    97 / 100 * (f.steepness n : ℝ) ≤ ∑ j, |deriv (lineFunction c j) 1| := by
  by_cases h0 : n = 0
  · subst h0
    refine le_trans (le_of_eq ?_) (Finset.sum_nonneg fun _ _ => abs_nonneg _)
    cases f <;> simp [Family.steepness]
  · exact gradients_peak (by omega) h8 hs (hc (by omega))

/-- **C134, the factor for values is nearly reached**, up to 3 percent per direction, for some nodal values of size at most 1 at some point. -/
theorem C134_value_reached {e : Element ℝ} (h : IsShippedExactly fam order e) :
    ∃ (x : Fin d → ℝ) (y : ((k : Fin d) → Fin (order k + 1)) → ℝ) (var : List Int → Res ℝ) (v : ℝ),
      (∀ k, |x k| ≤ 1) ∧ (∀ idx, |y idx| ≤ 1) ∧ (∀ idx, var (tup idx) = .ok (y idx)) ∧
      ParentElement.value (exactArith ℝ) e (List.ofFn x) var = .ok v ∧ (97 / 100) ^ d * valueFactor fam order ≤ v := by
  obtain ⟨c, hc, hf⟩ := forms h
  choose x hx hp using fun k => line_peak (h.orders k).2 (h.orders k).1 (hc k)
  obtain ⟨y, hy, hr⟩ := reached (fun k j => lineFunction (c k) j (x k)) (lineFunction_le h.orders (close_of h hc) hx) hp
  obtain ⟨var, hvar⟩ := exists_var y
  refine ⟨x, y, var, _, hx, hy, hvar, (hf x var y hvar).1, ?_⟩
  rw [cast_valueFactor]
  exact hr

/-- **C134, the factors for gradients are nearly reached** in the same sense. -/
theorem C134_gradient_reached {e : Element ℝ} (h : IsShippedExactly fam order e) (a : Fin d) :
    ∃ (x : Fin d → ℝ) (y : ((k : Fin d) → Fin (order k + 1)) → ℝ) (var : List Int → Res ℝ) (g : Fin d → ℝ),
      (∀ k, |x k| ≤ 1) ∧ (∀ idx, |y idx| ≤ 1) ∧ (∀ idx, var (tup idx) = .ok (y idx)) ∧
      ParentElement.gradient (exactArith ℝ) e (List.ofFn x) var = .ok (List.ofFn g) ∧ (97 / 100) ^ d * gradientFactor fam order a ≤ g a := by
  obtain ⟨c, hc, hf⟩ := forms h
  choose x hx hp using fun k => line_peak (h.orders k).2 (h.orders k).1 (hc k)
  have hx' : ∀ k, |(fun k => if a = k then 1 else x k) k| ≤ 1 := fun k => by
    beta_reduce
    split
    · simp
    · exact hx k
  obtain ⟨y, hy, hr⟩ := reached (lineSlopes c (fun k => if a = k then 1 else x k) a) (lineSlopes_le h.orders (close_of h hc) hx' a) fun k => by
    unfold lineSlopes
    by_cases hk : a = k
    · simp only [if_pos hk]
      exact slope_peak (h.orders k).2 (h.orders k).1 (hc k)
    · simp only [if_neg hk]
      exact hp k
  obtain ⟨var, hvar⟩ := exists_var y
  refine ⟨_, y, var, _, hx', hy, hvar, (hf _ var y hvar).2, ?_⟩
  rw [cast_gradientFactor]
  exact hr

/-! ### equally spaced points of any order -/

/-- **C134, growth.** For equally spaced points of any order `n`, interpolated values are at most `2^n` times the largest nodal value, and there
are nodal values of size at most 1 for which the interpolated value is at least `2^n / (4 n^2)`. -/
theorem C134_equal_growth (n : ℕ) (hn : 1 ≤ n) (hn' : n < 2147483647) :
    ∃ b, lagrangeBasis (exactArith ℝ) (equalSpacing (exactArith ℝ)) n = .ok b ∧
      (∀ x, |x| ≤ 1 → ∃ L, ValuesSumTo b (n + 1) x L ∧ L ≤ 2 ^ n) ∧
      ∃ x L, |x| ≤ 1 ∧ ValuesSumTo b (n + 1) x L ∧ 2 ^ n / (4 * n ^ 2) ≤ L ∧
        ∃ (y : Fin (n + 1) → ℝ) (var : List Int → Res ℝ), (∀ j, |y j| ≤ 1) ∧ (∀ j : Fin (n + 1), var [((j : ℕ) : Int)] = .ok (y j)) ∧
          ParentElement.value (exactArith ℝ) ⟨.ok 1, [b]⟩ [x] var = .ok L := by
  have h0 : (0 : ℝ) < n := by exact_mod_cast hn
  obtain ⟨δ, c, -, hδ, hct, -, hc0, -, hstep, hmono, -⟩ := C23_equalSpacing ((n + 1 : ℕ) : Int) (by omega) (by omega)
  have hδ : δ = 2 / n := by rw [hδ]; push_cast; ring
  have hci : ∀ i : ℕ, c i = -1 + i * (2 / n) := by
    intro i
    induction i with
    | zero => simpa using hc0
    | succ i ih =>
      have := hstep i
      push_cast at this ⊢
      rw [hδ, ih] at this
      linear_combination this
  have hN : Nodes (equalSpacing (exactArith ℝ) ((n + 1 : ℕ) : Int)) (n + 1) fun i => c (i : ℕ) :=
    ⟨fun _ i => hct _, fun i j hij => Fin.ext (by exact_mod_cast hmono.injective hij)⟩
  obtain ⟨b, hb⟩ : ∃ b, lagrangeBasis (exactArith ℝ) (equalSpacing (exactArith ℝ)) n = .ok b := ⟨_, lagrangeBasis_ok _ _ hn'⟩
  have hl : IsLagrange (d := 1) (fun _ => n) (fun _ i => c (i : ℕ)) ⟨.ok (1 : ℕ), List.ofFn fun _ : Fin 1 => b⟩ :=
    ⟨one_pos, rfl, fun _ => b, rfl, fun _ => ⟨hn', _, hN, hb⟩⟩
  obtain ⟨b', he, hr, -⟩ := isLagrange_realises hl
  have hbb : b' 0 = b := (congrFun (List.ofFn_injective (congrArg Element.bases he)) 0).symm
  have hv : ∀ (x : ℝ) (j : Fin (n + 1)), b.value (j : ℕ) x = .ok (lineFunction (fun i : Fin (n + 1) => c (i : ℕ)) j x) := fun x j => by
    have := (hr 0).value j x
    rw [hbb, lagrange_quotients] at this
    exact this
  refine ⟨b, hb, fun x hx => ⟨_, ⟨_, hv x, rfl⟩, equal_values_le hn (fun i => hci i) hx⟩, -1 + 1 / 2 * (2 / n), _, ?_, ⟨_, hv _, rfl⟩,
    equal_values_ge hn (fun i => hci i), ?_⟩
  · have h1 : (1 : ℝ) ≤ n := by exact_mod_cast hn
    have h2 : (2 : ℝ) / n ≤ 2 := by rw [div_le_iff₀ h0]; linarith
    have h3 : (0 : ℝ) < 2 / n := by positivity
    rw [abs_le]
    constructor <;> linarith
  · obtain ⟨y, hy, e⟩ := tensor_sum_reached (d := 1) (n := fun _ => n + 1)
      fun _ j => lineFunction (fun i : Fin (n + 1) => c (i : ℕ)) j (-1 + 1 / 2 * (2 / n))
    obtain ⟨var, hvar⟩ := exists_var y
    refine ⟨fun j => y fun _ => j, var, fun j => hy _, fun j => hvar fun _ => j, ?_⟩
    have := parent_value one_pos hr (fun _ => -1 + 1 / 2 * (2 / n)) var y hvar
    rw [← he] at this
    simp only [lagrange_quotients] at this
    refine this.trans (congrArg Res.ok (e.trans ?_))
    exact Fin.prod_univ_one _

/-! ### `float` and `double` -/

theorem shipped_as {T : RealType} {e : Element Flt} (h : IsShippedAs T fam order e) : ∃ c : (k : Fin d) → Fin (order k + 1) → ℝ,
    IsShippedIn T order c e ∧ ∀ k, CloseTo (fam k) (order k) (c k) := by
  choose c _ _ hc using fun k => C100_points T (fam k) (order k) (h.orders k).2.1 (h.orders k).2.2 (h.orders k).1
  obtain ⟨b, hb, hk⟩ := h.bases
  exact ⟨c, ⟨h.dims, h.shape, fun k => (h.orders k).2, fam, b, hb, fun k => ⟨(h.orders k).1, hc k, hk k⟩⟩,
    fun k => float_close T (h.orders k).2.1 (h.orders k).2.2 (h.orders k).1 (hc k)⟩

theorem roundings_nonneg (T : RealType) (k : ℕ) : 0 ≤ errBound (unitRoundoff T.format) k := by
  unfold errBound
  exact sub_nonneg.2 (one_le_pow₀ (by linarith [roundoff_nonneg T.format]))

/-- **C134, values in `float` and `double`.** Interpolated values are finite, at most the factor times the largest nodal value up to roundings,
and change by at most the factor times the change of the nodal values, up to roundings. -/
theorem C134_value_float {T : RealType} {e : Element Flt} (h : IsShippedAs T fam order e) (hd : d ≤ 3) (var var' : List Int → Res Flt)
    (y y' : ((k : Fin d) → Fin (order k + 1)) → ℝ) (hy : ∀ idx, var (tup idx) = .ok (Flt.ofReal (y idx)))
    (hy' : ∀ idx, var' (tup idx) = .ok (Flt.ofReal (y' idx))) {Y ε : ℝ} (hY1 : 1 ≤ Y) (hY2 : Y ≤ 2 ^ 56) (hY : ∀ idx, |y idx| ≤ Y)
    (hY' : ∀ idx, |y' idx| ≤ Y) (hε : ∀ idx, |y idx - y' idx| ≤ ε) (x : Fin d → ℝ) (hx : ∀ k, |x k| ≤ 1) :
    let rounding := errBound (unitRoundoff T.format) (interpolationRoundings order) * (valueFactor fam order * Y)
      + 2 ^ 66 * Y * smallestPositive T.format
    ∃ f f' v v', ParentElement.value (floatArith T.format) e (List.ofFn fun k => Flt.ofReal (x k)) var = .ok f ∧ f.datum = .finite v ∧
      ParentElement.value (floatArith T.format) e (List.ofFn fun k => Flt.ofReal (x k)) var' = .ok f' ∧ f'.datum = .finite v' ∧
      |v| ≤ valueFactor fam order * Y + rounding ∧ |v - v'| ≤ valueFactor fam order * ε + 2 * rounding := by
  obtain ⟨c, hs, hc⟩ := shipped_as h
  have ho : ∀ k, (fam k).Supports (order k) ∧ order k ≤ 8 := fun k => ⟨(h.orders k).1, (h.orders k).2.2⟩
  have hA := lineFunction_le ho (fun k _ => hc k) hx
  have h0 : 0 ≤ Y := by linarith
  obtain ⟨f, hf, v, hv, hb⟩ := C100_interpolation hs hd var y hy hY1 hY2 hY x hx
  obtain ⟨f', hf', v', hv', hb'⟩ := C100_interpolation hs hd var' y' hy' hY1 hY2 hY' x hx
  have key : ∀ z : ((k : Fin d) → Fin (order k + 1)) → ℝ, (∀ idx, |z idx| ≤ Y) →
      ∑ idx : (k : Fin d) → Fin (order k + 1), |∏ k, lineFunction (c k) (idx k) (x k)| * |z idx| ≤ valueFactor fam order * Y := fun z hz => by
    simp only [Finset.abs_prod]
    rw [cast_valueFactor]
    exact tensor_sum_le hA hz h0
  have he := roundings_nonneg T (interpolationRoundings order)
  have k1 := mul_le_mul_of_nonneg_left (key y hY) he
  have k2 := mul_le_mul_of_nonneg_left (key y' hY') he
  have m1 : |∑ idx : (k : Fin d) → Fin (order k + 1), (∏ k, lineFunction (c k) (idx k) (x k)) * y idx| ≤ valueFactor fam order * Y := by
    rw [cast_valueFactor]; exact sum_abs_le hA h0 hY
  have m2 : |∑ idx : (k : Fin d) → Fin (order k + 1), (∏ k, lineFunction (c k) (idx k) (x k)) * y idx
      - ∑ idx : (k : Fin d) → Fin (order k + 1), (∏ k, lineFunction (c k) (idx k) (x k)) * y' idx| ≤ valueFactor fam order * ε := by
    rw [cast_valueFactor, ← Finset.sum_sub_distrib]
    simp only [← mul_sub]
    exact sum_abs_le (y := fun idx => y idx - y' idx) hA ((abs_nonneg _).trans (hε fun k => 0)) hε
  replace hb := hb.trans (add_le_add_left k1 _)
  replace hb' := hb'.trans (add_le_add_left k2 _)
  refine ⟨f, f', v, v', hf, hv, hf', hv', ?_, ?_⟩
  · have := abs_le.1 hb
    have h2 := abs_le.1 m1
    unfold lineFunction at h2
    rw [abs_le]; constructor <;> linarith [h2.1, h2.2]
  · have g1 := abs_le.1 hb
    have g2 := abs_le.1 hb'
    have h2 := abs_le.1 m2
    unfold lineFunction at h2
    rw [abs_le]; constructor <;> linarith [h2.1, h2.2, g1.1, g1.2, g2.1, g2.2]

theorem derivMagnitude_nonneg {n : ℕ} (c : Fin n → ℝ) (j : Fin n) (x : ℝ) : 0 ≤ derivMagnitude c j x :=
  Finset.sum_nonneg fun _ _ => mul_nonneg (abs_nonneg _) (Finset.prod_nonneg fun _ _ => abs_nonneg _)

/-- The magnitudes that enter the rounding errors of component `a` of a gradient. -/
theorem gradient_magnitude_le {c : (k : Fin d) → Fin (order k + 1) → ℝ} (ho : ∀ k, (fam k).Supports (order k) ∧ order k ≤ 8)
    (hc : ∀ k, CloseTo (fam k) (order k) (c k)) {x : Fin d → ℝ} (hx : ∀ k, |x k| ≤ 1) (a : Fin d) {y : ((k : Fin d) → Fin (order k + 1)) → ℝ}
    {Y : ℝ} (h0 : 0 ≤ Y) (hY : ∀ idx, |y idx| ≤ Y) :
    ∑ idx : (k : Fin d) → Fin (order k + 1), (∏ k, if a = k then derivMagnitude (c k) (idx k) (x k) else |lineFunction (c k) (idx k) (x k)|) * |y idx|
      ≤ gradientFactor fam order a * Y := by
  have hM : ∀ k, ∑ j, abs (if a = k then derivMagnitude (c k) j (x k) else |lineFunction (c k) j (x k)|)
      ≤ if a = k then ((fam k).steepness (order k) : ℝ) else ((fam k).amplification (order k) : ℝ) := fun k => by
    by_cases ha : a = k
    · simp only [if_pos ha, abs_of_nonneg (derivMagnitude_nonneg _ _ _)]
      exact gradients_line (ho k).2 (ho k).1 (fun _ => hc k) (hx k)
    · simp only [if_neg ha, abs_abs]
      exact lineFunction_le ho (fun k _ => hc k) hx k
  rw [cast_gradientFactor]
  refine le_trans (Finset.sum_le_sum fun idx _ => mul_le_mul_of_nonneg_right (Finset.prod_le_prod (fun k _ => ?_) fun k _ => le_abs_self _)
    (abs_nonneg _)) (tensor_sum_le hM hY h0)
  split
  · exact derivMagnitude_nonneg _ _ _
  · exact abs_nonneg _

/-- **C134, gradients in `float` and `double`.** The same for the components of gradients. -/
theorem C134_gradient_float {T : RealType} {e : Element Flt} (h : IsShippedAs T fam order e) (hd : d ≤ 3) (var var' : List Int → Res Flt)
    (y y' : ((k : Fin d) → Fin (order k + 1)) → ℝ) (hy : ∀ idx, var (tup idx) = .ok (Flt.ofReal (y idx)))
    (hy' : ∀ idx, var' (tup idx) = .ok (Flt.ofReal (y' idx))) {Y ε : ℝ} (hY1 : 1 ≤ Y) (hY2 : Y ≤ 2 ^ 56) (hY : ∀ idx, |y idx| ≤ Y)
    (hY' : ∀ idx, |y' idx| ≤ Y) (hε : ∀ idx, |y idx - y' idx| ≤ ε) (x : Fin d → ℝ) (hx : ∀ k, |x k| ≤ 1) :
    let rounding := fun a => errBound (unitRoundoff T.format) (gradientRoundings order) * (gradientFactor fam order a * Y)
      + 2 ^ 78 * Y * smallestPositive T.format
    ∃ (g g' : Fin d → Flt) (v v' : Fin d → ℝ),
      ParentElement.gradient (floatArith T.format) e (List.ofFn fun k => Flt.ofReal (x k)) var = .ok (List.ofFn g) ∧
      ParentElement.gradient (floatArith T.format) e (List.ofFn fun k => Flt.ofReal (x k)) var' = .ok (List.ofFn g') ∧
      ∀ a, (g a).datum = .finite (v a) ∧ (g' a).datum = .finite (v' a) ∧
        |v a| ≤ gradientFactor fam order a * Y + rounding a ∧ |v a - v' a| ≤ gradientFactor fam order a * ε + 2 * rounding a := by
  obtain ⟨c, hs, hc⟩ := shipped_as h
  have ho : ∀ k, (fam k).Supports (order k) ∧ order k ≤ 8 := fun k => ⟨(h.orders k).1, (h.orders k).2.2⟩
  have h0 : 0 ≤ Y := by linarith
  obtain ⟨g, hg, hw⟩ := C100_interpolation_gradient hs hd var y hy hY1 hY2 hY x hx
  obtain ⟨g', hg', hw'⟩ := C100_interpolation_gradient hs hd var' y' hy' hY1 hY2 hY' x hx
  choose v hv hb using hw
  choose v' hv' hb' using hw'
  refine ⟨g, g', v, v', hg, hg', fun a => ⟨hv a, hv' a, ?_⟩⟩
  have hA := lineSlopes_le ho (fun k _ => hc k) hx a
  have key := fun z hz => gradient_magnitude_le ho hc hx a (y := z) h0 hz
  have he := roundings_nonneg T (gradientRoundings order)
  have k1 := mul_le_mul_of_nonneg_left (key y hY) he
  have k2 := mul_le_mul_of_nonneg_left (key y' hY') he
  have m1 : |∑ idx : (k : Fin d) → Fin (order k + 1), (∏ k, lineSlopes c x a k (idx k)) * y idx| ≤ gradientFactor fam order a * Y := by
    rw [cast_gradientFactor]; exact sum_abs_le hA h0 hY
  have m2 : |∑ idx : (k : Fin d) → Fin (order k + 1), (∏ k, lineSlopes c x a k (idx k)) * y idx
      - ∑ idx : (k : Fin d) → Fin (order k + 1), (∏ k, lineSlopes c x a k (idx k)) * y' idx| ≤ gradientFactor fam order a * ε := by
    rw [cast_gradientFactor, ← Finset.sum_sub_distrib]
    simp only [← mul_sub]
    exact sum_abs_le (y := fun idx => y idx - y' idx) hA ((abs_nonneg _).trans (hε fun k => 0)) hε
  have g1 := abs_le.1 ((hb a).trans (add_le_add_left k1 _))
  have g2 := abs_le.1 ((hb' a).trans (add_le_add_left k2 _))
  have e1 := abs_le.1 m1
  have e2 := abs_le.1 m2
  unfold lineSlopes lineFunction at e1 e2
  refine ⟨?_, ?_⟩
  · rw [abs_le]; constructor <;> linarith [e1.1, e1.2, g1.1, g1.2]
  · rw [abs_le]; constructor <;> linarith [e2.1, e2.2, g1.1, g1.2, g2.1, g2.2]

/-- **C134, Gauss-Lobatto points.** Their factor for values stays below 2.1 in each direction, for all orders. -/
theorem C134_lobatto_factor {n : ℕ} (h : Family.gaussLobatto.Supports n) : Family.gaussLobatto.amplification n < 21 / 10 := by
  obtain ⟨m, rfl⟩ : ∃ m : Fin 9, n = m := ⟨⟨n, by have := h.2; omega⟩, rfl⟩
  clear h
  revert m
  decide +kernel

/-! ### the hypotheses can be met -/

/-- Non-vacuity, exact arithmetic: the three families with the orders 8, 3 and 0. -/
example : ∃ e : Element ℝ, IsShippedExactly ![.equal, .gaussLegendre, .gaussLobatto] ![8, 3, 0] e := by
  have hs : ∀ k : Fin 3, ((![.equal, .gaussLegendre, .gaussLobatto] : Fin 3 → Family) k).Supports ((![8, 3, 0] : Fin 3 → ℕ) k) := by
    intro k; fin_cases k <;> exact ⟨by norm_num, by norm_num⟩
  obtain ⟨b, c, hb, hl⟩ := C38_supported_elements (by norm_num) ![.equal, .gaussLegendre, .gaussLobatto] ![8, 3, 0] hs ⟨3, -1, 1, 2⟩
    (by decide) rfl
  exact ⟨_, hl.dims, hl.shape, fun k => ⟨hs k, by fin_cases k <;> simp⟩, b, rfl, hb⟩

/-- Non-vacuity in `float` and `double`: the three families with the orders 8, 3 and 4. -/
example (T : RealType) : ∃ e : Element Flt, IsShippedAs T ![.equal, .gaussLegendre, .gaussLobatto] ![8, 3, 4] e := by
  have hs : ∀ k : Fin 3, ((![.equal, .gaussLegendre, .gaussLobatto] : Fin 3 → Family) k).Supports ((![8, 3, 4] : Fin 3 → ℕ) k) := by
    intro k; fin_cases k <;> exact ⟨by norm_num, by norm_num⟩
  have ho : ∀ k : Fin 3, 1 ≤ (![8, 3, 4] : Fin 3 → ℕ) k ∧ (![8, 3, 4] : Fin 3 → ℕ) k ≤ 8 := by intro k; fin_cases k <;> simp
  choose c hc using fun k => C100_points T _ _ (ho k).1 (ho k).2 (hs k)
  choose b hb using fun k => C100_basis T _ (ho k).1 (ho k).2 (hs k) (hc k).2.2
  exact ⟨⟨.ok (3 : ℕ), List.ofFn b⟩, by norm_num, rfl, fun k => ⟨hs k, ho k⟩, b, rfl, fun k => (hb k).1⟩

/-- The factors in an example: a cell with 27 Gauss-Lobatto points. -/
example : valueFactor (fun _ : Fin 3 => .gaussLobatto) (fun _ => 2) = (126 / 100) ^ 3 ∧
    gradientFactor (fun _ : Fin 3 => .gaussLobatto) (fun _ => 2) 0 = 401 / 100 * (126 / 100) ^ 2 := by
  constructor
  · norm_num [valueFactor, Family.amplification, Fin.prod_univ_three]
  · decide +kernel

end Verif.Props
