import Verif.Lemmas.GaussRule
import Verif.Lemmas.KnownTables
import Verif.Spec.GaussRule

/-! # The exact Gauss rules with up to nine points, enclosed by decimals -/

namespace Verif.Lemmas

open Polynomial Verif.Spec

/-- The positive points, with 44 digits. -/
def decimals : Rule → ℕ → List ℕ
  | .gaussLegendre, 2 => [57735026918962576450914878050195745564760175]
  | .gaussLegendre, 3 => [77459666924148337703585307995647992216658434]
  | .gaussLegendre, 4 => [33998104358485626480266575910324468720057587,
      86113631159405257522394648889280950509572538]
  | .gaussLobatto, 2 => [100000000000000000000000000000000000000000000]
  | .gaussLobatto, 3 => [100000000000000000000000000000000000000000000]
  | .gaussLobatto, 4 => [44721359549995793928183473374625524708812367,
      100000000000000000000000000000000000000000000]
  | .gaussLobatto, 5 => [65465367070797714379829245624685835556920808,
      100000000000000000000000000000000000000000000]
  | .gaussLobatto, 6 => [28523151648064509631415099404087907191900347,
      76505532392946469285100297395933815036573569,
      100000000000000000000000000000000000000000000]
  | .gaussLobatto, 7 => [46884879347071421380377188190876632940559747,
      83022389627856692987203221396746513958717036,
      100000000000000000000000000000000000000000000]
  | .gaussLobatto, 8 => [20929921790247886876865726034535125529554541,
      59170018143314230214451073139795318994570099,
      87174014850960661533744576122066343810378067,
      100000000000000000000000000000000000000000000]
  | .gaussLobatto, 9 => [36311746382617815871075206870865921302064228,
      67718627951073775344588542709134245071102965,
      89975799541146015731234524441833795805148030,
      100000000000000000000000000000000000000000000]
  | _, _ => []

/-- All points with 44 digits. -/
def digitsOf (r : Rule) (n : ℕ) : List ℚ :=
  ((decimals r n).reverse.map fun k => -((k : ℚ) / 10 ^ 44)) ++ (if n % 2 = 1 then [0] else []) ++
    (decimals r n).map fun k => (k : ℚ) / 10 ^ 44

def nearNode (r : Rule) (n : ℕ) (i : Fin n) : ℚ := (digitsOf r n).getD i 0

def nodeEval : Rule → ℕ → ℚ → ℚ
  | .gaussLegendre, n => legEval n
  | .gaussLobatto, n => lobEval n

def nodeList : Rule → ℕ → List ℚ
  | .gaussLegendre, n => legL n
  | .gaussLobatto, n => lobL n

theorem eval_nodePoly (r : Rule) (n : ℕ) (q : ℚ) : (r.nodePoly n).eval (q : ℝ) = ((nodeEval r n q : ℚ) : ℝ) := by
  cases r
  · exact (eval_legendre _ n).trans (legEval_cast q n)
  · exact (eval_lobattoPoly n _).trans (lobEval_cast n q)

theorem toPoly_node (r : Rule) (n : ℕ) : toPoly (nodeList r n) = r.nodePoly n := by
  cases r
  · exact toPoly_leg n
  · exact toPoly_lob n

/-- `∏ (t - y j)` over the points other than `i`. -/
def othersL (r : Rule) (n : ℕ) (i : Fin n) : List ℚ :=
  ((List.finRange n).map fun j => if j = i then [1] else [-nearNode r n j, 1]).foldr mulL [1]

def nearNumerator (r : Rule) (n : ℕ) (i : Fin n) : ℚ := intL 0 (othersL r n i)

def nearDenominator (r : Rule) (n : ℕ) (i : Fin n) : ℚ :=
  ((List.finRange n).map fun j => if j = i then 1 else nearNode r n i - nearNode r n j).prod

def nearWeight (r : Rule) (n : ℕ) (i : Fin n) : ℚ := nearNumerator r n i / nearDenominator r n i

theorem toPoly_foldr : ∀ L : List (List ℚ), toPoly (L.foldr mulL [1]) = (L.map toPoly).prod
  | [] => by simp [toPoly]
  | l :: L => by rw [List.foldr_cons, toPoly_mul, toPoly_foldr L, List.map_cons, List.prod_cons]

theorem prod_others {n : ℕ} (i : Fin n) (f : Fin n → ℝ) :
    ∏ j ∈ Finset.univ.erase i, f j = ((List.finRange n).map fun j => if j = i then 1 else f j).prod := by
  rw [← Fin.prod_univ_def, ← Finset.prod_erase Finset.univ (a := i) (f := fun j => if j = i then 1 else f j) (by simp)]
  refine Finset.prod_congr rfl fun j hj => ?_
  rw [if_neg (Finset.ne_of_mem_erase hj)]

theorem numerator_near (r : Rule) (n : ℕ) (i : Fin n) :
    numerator (fun j => (nearNode r n j : ℝ)) i = ((nearNumerator r n i : ℚ) : ℝ) := by
  rw [nearNumerator, ← integral_toPoly, numerator]
  refine intervalIntegral.integral_congr fun t _ => ?_
  simp only [pow_zero, one_mul]
  rw [prod_others, othersL, toPoly_foldr, List.map_map, eval_list_prod, List.map_map]
  congr 1
  refine List.map_congr_left fun j _ => ?_
  simp only [Function.comp_apply]
  split_ifs <;> simp [toPoly]
  ring

theorem denominator_near (r : Rule) (n : ℕ) (i : Fin n) :
    denominator (fun j => (nearNode r n j : ℝ)) i = ((nearDenominator r n i : ℚ) : ℝ) := by
  rw [denominator, prod_others, nearDenominator, Rat.cast_list_prod, List.map_map]
  congr 1
  refine List.map_congr_left fun j _ => ?_
  simp only [Function.comp_apply]
  split_ifs <;> simp

/-! ### facts about the decimals, by evaluation -/

theorem near_signs : ∀ r ∈ rules, ∀ n ∈ tableSizes r, ∀ i : Fin n,
    nodeEval r n (nearNode r n i - 1 / 10 ^ 44) * nodeEval r n (nearNode r n i + 1 / 10 ^ 44) < 0 := by decide +kernel

theorem near_separate : ∀ r ∈ rules, ∀ n ∈ tableSizes r, ∀ i j : Fin n, i < j →
    nearNode r n i + 1 / 10 ^ 44 < nearNode r n j - 1 / 10 ^ 44 := by decide +kernel

theorem near_range : ∀ r ∈ rules, ∀ n ∈ tableSizes r, ∀ i : Fin n,
    |nearNode r n i| ≤ 1 ∧ 1 / 25 ≤ |nearDenominator r n i| ∧ |nearWeight r n i| ≤ 2 := by decide +kernel

theorem node_orthogonal : ∀ r ∈ rules, ∀ n ∈ tableSizes r, ∀ k < n + 1, k + n ≤ r.degree n →
    intL k (nodeList r n) = 0 := by decide +kernel

/-- The weights written in the source. -/
def sourceWeight : Rule → ℕ → Int → Res ℚ
  | .gaussLegendre, n => QuadratureGaussLegendre.weightCT ratArith n
  | .gaussLobatto, n => QuadratureGaussLobatto.weightCT ratArith n

theorem sourceWeight_known : ∀ r ∈ rules, ∀ n ∈ tableSizes r, AllOk n (sourceWeight r n) := by decide +kernel

theorem source_coordinates : ∀ r ∈ rules, ∀ n ∈ tableSizes r, ∀ i : Fin n,
    |val (sourceCoord r n (i : ℕ)) - nearNode r n i| + 1 / 10 ^ 44 ≤
      if n ≤ 5 then 5 / 10 ^ 39 else 15 / 10 ^ 15 := by decide +kernel

theorem source_weights : ∀ r ∈ rules, ∀ n ∈ tableSizes r, ∀ i : Fin n,
    |val (sourceWeight r n (i : ℕ)) - nearWeight r n i| + 1 / 10 ^ 36 ≤
      if n ≤ 5 then 5 / 10 ^ 35 else 1 / 10 ^ 14 := by decide +kernel

/-- `a` is within `k` unit roundoffs of every number within `d` of `b`, and is zero with `b`. -/
def NearUnits (T : RealType) (k d a b : ℚ) : Prop :=
  |a - b| + d ≤ k * (1 / 2) ^ (T.format.fracBits + 1) * (|b| - d) ∨ a = 0 ∧ b = 0

instance (T : RealType) (k d a b : ℚ) : Decidable (NearUnits T k d a b) := by unfold NearUnits; infer_instance

theorem near_known : ∀ T ∈ types, ∀ r ∈ rules, ∀ n ∈ tableSizes r, ¬ (T = .double ∧ 6 ≤ n) → ∀ i : Fin n,
    NearUnits T 1 (1 / 10 ^ 44) (val (knownCT T r n (i : ℕ))) (nearNode r n i) ∧
    NearUnits T 1 (1 / 10 ^ 36) (val (knownWeightCT T r n (i : ℕ))) (nearWeight r n i) := by
  decide +kernel

theorem near_runtime : ∀ T ∈ types, ∀ r ∈ rules, ∀ n ∈ runtimeSizes r, ∀ i : Fin n,
    NearUnits T (3 / 2) (1 / 10 ^ 44) (val (knownRT T r n (i : ℕ))) (nearNode r n i) ∧
    NearUnits T 1 (1 / 10 ^ 36) (val (knownWeightRT T r n (i : ℕ))) (nearWeight r n i) := by
  decide +kernel

/-- The only decimal near zero is that of a point at zero. -/
theorem near_zero : ∀ r ∈ rules, ∀ n ∈ tableSizes r, ∀ i : Fin n, nearNode r n i = 0 →
    nodeEval r n 0 = 0 ∧ ∀ j : Fin n, |nearNode r n j| ≤ 1 / 10 ^ 44 → j = i := by decide +kernel

theorem nearWeight_ne_zero : ∀ r ∈ rules, ∀ n ∈ tableSizes r, ∀ i : Fin n, nearWeight r n i ≠ 0 := by decide +kernel

/-- `a` is more than a unit roundoff of `double` away from every number within `d` of `b`. -/
def FarUnits (d a b : ℚ) : Prop := (1 / 2) ^ 53 * (|b| + d) + d < |a - b|

instance (d a b : ℚ) : Decidable (FarUnits d a b) := by unfold FarUnits; infer_instance

/-- In `double` every rule with six points or more has a coordinate and a weight that are off by more than the last bit. -/
theorem far_known : ∀ n ∈ [6, 7, 8, 9], ∃ i : Fin n,
    FarUnits (1 / 10 ^ 44) (val (knownCT .double .gaussLobatto n (i : ℕ))) (nearNode .gaussLobatto n i) ∧
    FarUnits (1 / 10 ^ 36) (val (knownWeightCT .double .gaussLobatto n (i : ℕ))) (nearWeight .gaussLobatto n i) := by
  decide +kernel

/-! ### the exact rules -/

theorem points_le {r : Rule} {n : ℕ} (h : r.Points n) : 2 ≤ n ∧ n ≤ 9 := by
  cases r <;> obtain ⟨h1, h2⟩ := h <;> omega

theorem nodePoly_ne_zero {r : Rule} {n : ℕ} (h : 2 ≤ n) : r.nodePoly n ≠ 0 := by
  cases r
  · exact legendre_ne_zero n
  · exact lobattoPoly_ne_zero n h

theorem natDegree_nodePoly {r : Rule} {n : ℕ} (h : 2 ≤ n) : (r.nodePoly n).natDegree ≤ n := by
  cases r
  · exact natDegree_legendre n
  · exact natDegree_lobattoPoly n h

theorem degree_ge {r : Rule} {n : ℕ} (h : 2 ≤ n) : n - 1 ≤ r.degree n := by
  cases r <;> simp only [Rule.degree] <;> omega

/-- The decimals are within 10^-44 of the points, and the weights computed from them within 10^-36. -/
theorem exactRule_near {r : Rule} {n : ℕ} (h : r.Points n) : ∃ x : Fin n → ℝ, ExactRule r n x (ruleWeight x) ∧
    (∀ i, |(nearNode r n i : ℝ) - x i| ≤ 1 / 10 ^ 44) ∧ ∀ i, |(nearWeight r n i : ℝ) - ruleWeight x i| ≤ 1 / 10 ^ 36 := by
  have hm := mem_tableSizes h
  have hr := mem_rules r
  obtain ⟨h2, h9⟩ := points_le h
  obtain ⟨x, hmono, hroots, hnear⟩ := roots_near (r.nodePoly n) (nodePoly_ne_zero h2) (natDegree_nodePoly h2)
    (fun i => (nearNode r n i : ℝ)) (1 / 10 ^ 44) (by positivity) (fun i => by
      have := (Rat.cast_lt (K := ℝ)).2 (near_signs r hr n hm i)
      rw [Rat.cast_mul, ← eval_nodePoly, ← eval_nodePoly] at this
      push_cast at this
      exact this) (fun i j hij => by
      have := (Rat.cast_lt (K := ℝ)).2 (near_separate r hr n hm i j hij)
      push_cast at this
      exact this)
  refine ⟨x, ⟨hmono, hroots, fun p hp => ?_⟩, hnear, fun i => ?_⟩
  · refine rule_gauss hmono.injective (nodePoly_ne_zero h2) (natDegree_nodePoly h2) (fun i => (hroots _).2 ⟨i, rfl⟩)
      (fun k hk => ?_) hp
    have hk' : k < n + 1 := by
      have : r.degree n ≤ 2 * n := by cases r <;> simp only [Rule.degree] <;> omega
      omega
    rw [← toPoly_node, integral_toPoly, node_orthogonal r hr n hm k hk' hk, Rat.cast_zero]
  · have hy : ∀ i, |(nearNode r n i : ℝ)| ≤ 1 := fun i => by
      have := (Rat.cast_le (K := ℝ)).2 (near_range r hr n hm i).1
      push_cast at this; exact this
    have hδ : ∀ i, |x i - (nearNode r n i : ℝ)| ≤ 1 / 10 ^ 44 := fun i => by rw [abs_sub_comm]; exact hnear i
    have hw := weight_close (x := x) (y := fun i => (nearNode r n i : ℝ)) (δ := 1 / 10 ^ 44) (η := 1 / 25) h9 (by positivity)
      (fun i => by
        have h1 := hy i; have h2 := hδ i
        have h3 := abs_add_le (x i - nearNode r n i) (nearNode r n i)
        rw [sub_add_cancel] at h3
        have : (1 : ℝ) / 10 ^ 44 ≤ 1 / 10 := by norm_num
        linarith) hy hδ i (by
        rw [denominator_near]
        have := (Rat.cast_le (K := ℝ)).2 (near_range r hr n hm i).2.1
        push_cast at this; exact this) (by norm_num) (by norm_num) (by
        rw [numerator_near, denominator_near]
        have := (Rat.cast_le (K := ℝ)).2 (near_range r hr n hm i).2.2
        unfold nearWeight at this
        push_cast at this; exact this)
    rw [numerator_near, denominator_near, abs_sub_comm] at hw
    rw [nearWeight, Rat.cast_div]
    exact hw.trans (by norm_num)

/-- A point whose decimal is zero is zero. -/
theorem exactRule_zero {r : Rule} {n : ℕ} (h : r.Points n) {x w : Fin n → ℝ} (hx : ExactRule r n x w)
    (h1 : ∀ i, |(nearNode r n i : ℝ) - x i| ≤ 1 / 10 ^ 44) (i : Fin n) (hi : nearNode r n i = 0) : x i = 0 := by
  obtain ⟨h0, hu⟩ := near_zero r (mem_rules r) n (mem_tableSizes h) i hi
  obtain ⟨j, hj⟩ := (hx.points 0).1 (by
    have := eval_nodePoly r n 0
    rw [h0] at this
    simpa using this)
  have h2 := h1 j
  rw [← hj, sub_zero] at h2
  rw [← hu j ((Rat.cast_le (K := ℝ)).1 (by push_cast; exact h2))]
  exact hj.symm

theorem within_of {T : RealType} {k d a b : ℚ} {x : ℝ} (hk : 0 ≤ k) (h : NearUnits T k d a b)
    (hx : |(b : ℝ) - x| ≤ d) (h0 : b = 0 → x = 0) : T.Within k a x := by
  unfold RealType.Within
  rcases h with h | ⟨ha, hb⟩
  · have h1 := (Rat.cast_le (K := ℝ)).2 h
    push_cast at h1
    have h2 := abs_add_le ((a : ℝ) - b) ((b : ℝ) - x)
    rw [sub_add_sub_cancel] at h2
    have h3 : |(b : ℝ)| - d ≤ |x| := by
      have := abs_sub_abs_le_abs_sub (b : ℝ) x
      linarith
    have h4 : (0 : ℝ) ≤ k * (1 / 2) ^ (T.format.fracBits + 1) := mul_nonneg (by exact_mod_cast hk) (by positivity)
    have := mul_le_mul_of_nonneg_left h3 h4
    linarith
  · rw [h0 hb, ha]; simp

theorem not_accurate_of {d a b : ℚ} {x : ℝ} (h : FarUnits d a b) (hx : |(b : ℝ) - x| ≤ d) :
    ¬ RealType.double.Accurate a x := by
  intro ha
  have h1 := (Rat.cast_lt (K := ℝ)).2 h
  push_cast at h1
  have h2 := abs_sub_le (a : ℝ) x b
  have h3 := abs_sub_abs_le_abs_sub x (b : ℝ)
  rw [abs_sub_comm x] at h2 h3
  simp only [RealType.Accurate, RealType.Within, RealType.format, binary64] at ha
  have h4 : (1 / 2 : ℝ) ^ 53 * |x| ≤ (1 / 2 : ℝ) ^ 53 * (|(b : ℝ)| + d) :=
    mul_le_mul_of_nonneg_left (by linarith) (by positivity)
  linarith

/-- There is only one. -/
theorem exactRule_unique {r : Rule} {n : ℕ} (h : 2 ≤ n) {x w y v : Fin n → ℝ} (hx : ExactRule r n x w)
    (hy : ExactRule r n y v) : x = y ∧ w = v := by
  have hr : Set.range x = Set.range y := by
    ext t
    have h1 := hx.points t
    have h2 := hy.points t
    simp only [Set.mem_range, eq_comm (b := t)]
    rw [← h1, ← h2]
  have e : x = y := (StrictMono.range_inj hx.increasing hy.increasing).1 hr
  subst e
  refine ⟨rfl, ?_⟩
  have key : ∀ {w : Fin n → ℝ}, ExactRule r n x w → w = ruleWeight x := fun hw =>
    rule_unique hx.increasing.injective fun q hq => hw.exact q (by
      have h1 : q.natDegree < n := by
        by_cases hq0 : q = 0
        · rw [hq0, natDegree_zero]; omega
        · exact (natDegree_lt_iff_degree_lt hq0).2 hq
      have := degree_ge (r := r) h
      omega)
  rw [key hx, key hy]

end Verif.Lemmas
