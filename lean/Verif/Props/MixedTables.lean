import Verif.Lemmas.KnownTables
import Verif.Props.Quadrature

/-!
# Properties C85–C87: points and weights in `float` and `double`

Here expressions are evaluated in the types C++ gives them: in the `float` instantiation, operations with a
`double` literal are done in `double`.
-/

namespace Verif.Props

open Verif.Spec Verif.Lemmas

/-! ### C85: run-time and compile-time accessors -/

/-- **C85, coordinates.** In `float` and in `double`, for every spacing and every number of points the run-time
accessor supports, `coordinate( i )` and `coordinate< i >()` are the same number.  Not for the 4-point
Gauss-Lobatto spacing in `double`. -/
theorem C85_coordinates_partial (T : RealType) (fam : Family) (n : ℕ) (h : fam.RuntimePoints n)
    (hne : ¬ (T = .double ∧ fam = .gaussLobatto ∧ n = 4)) (i : Fin n) :
    SameNumber ((fam.spacingIn T.arith n).coordRT (i : ℕ)) ((fam.spacingIn T.arith n).coordCT (i : ℕ)) := by
  have hi := i.isLt
  have key : ∀ r : Rule, r.RuntimePoints n → ¬ (T = .double ∧ r = .gaussLobatto ∧ n = 4) →
      SameNumber ((r.family.spacingIn T.arith n).coordRT (i : ℕ)) ((r.family.spacingIn T.arith n).coordCT (i : ℕ)) := by
    intro r hr hne
    have hm := mem_runtimeSizes hr
    have e := (tables_agree T (mem_types T) r (mem_rules r) n hm hne i).1
    have hk := (runtime_known T (mem_types T) r (mem_rules r) n hm).1 i
    exact ⟨_, knownRT_sound hk, knownCT_sound (e ▸ hk)⟩
  cases fam with
  | equal =>
    obtain ⟨h2, hn⟩ := h
    cases T with
    | float => exact float_equal_agree (by omega) (by omega) (by omega) (by omega)
    | double => exact double_equal_agree (by omega) (by omega) (by omega) (by omega)
  | gaussLegendre => exact key .gaussLegendre h (by simp)
  | gaussLobatto => exact key .gaussLobatto h (by rintro ⟨h1, -, h3⟩; exact hne ⟨h1, rfl, h3⟩)

/-- **C85, weights.** The same for `weight( i )` and `weight< i >()`. -/
theorem C85_weights_partial (T : RealType) (r : Rule) (n : ℕ) (h : r.RuntimePoints n)
    (hne : ¬ (T = .double ∧ r = .gaussLobatto ∧ n = 4)) (i : Fin n) :
    SameNumber ((r.quadratureIn T.arith n).weightRT (i : ℕ)) ((r.quadratureIn T.arith n).weightCT (i : ℕ)) := by
  have hm := mem_runtimeSizes h
  have e := (tables_agree T (mem_types T) r (mem_rules r) n hm hne i).2
  have hk := (runtime_known T (mem_types T) r (mem_rules r) n hm).2 i
  exact ⟨_, knownWeightRT_sound hk, knownWeightCT_sound (e ▸ hk)⟩

/-- The claim of C85. -/
def AccessorsAgree : Prop :=
  (∀ (T : RealType) (fam : Family) (n : ℕ), fam.RuntimePoints n → ∀ i : Fin n,
    SameNumber ((fam.spacingIn T.arith n).coordRT (i : ℕ)) ((fam.spacingIn T.arith n).coordCT (i : ℕ))) ∧
  ∀ (T : RealType) (r : Rule) (n : ℕ), r.RuntimePoints n → ∀ i : Fin n,
    SameNumber ((r.quadratureIn T.arith n).weightRT (i : ℕ)) ((r.quadratureIn T.arith n).weightCT (i : ℕ))

private theorem cast_close {a b e : ℚ} (h : |a - b| ≤ e) : |(a : ℝ) - b| ≤ (e : ℚ) := by
  have : ((|a - b| : ℚ) : ℝ) ≤ (e : ℚ) := Rat.cast_le.2 h
  push_cast at this
  exact this

private theorem lobatto4 : Rule.gaussLobatto.RuntimePoints 4 := ⟨by norm_num, by norm_num⟩

private theorem sub_four {a b : Rule → ℕ → Int → Res ℚ} {x y : Res Flt} {r : Rule} (hab : a r 4 1 ≠ b r 4 1)
    (ha : a r 4 1 = .ok (val (a r 4 1))) (hb : b r 4 1 = .ok (val (b r 4 1)))
    (hx : x = .ok (Flt.ofReal (val (a r 4 1) : ℚ))) (hy : y = .ok (Flt.ofReal (val (b r 4 1) : ℚ))) : ¬ SameNumber x y := by
  rintro ⟨z, h1, h2⟩
  rw [hx] at h1
  rw [hy] at h2
  have e1 := Datum.finite.inj (congrArg Flt.datum (Res.ok.inj h1))
  have e2 := Datum.finite.inj (congrArg Flt.datum (Res.ok.inj h2))
  have : val (a r 4 1) = val (b r 4 1) := by exact_mod_cast e1.trans e2.symm
  exact hab (by rw [ha, hb, this])

/-- **C85 fails** for the coordinates and for the weights of the 4-point Gauss-Lobatto rule in `double`: those
of index 1 differ. -/
theorem C85_violated : ¬ AccessorsAgree ∧
    ¬ SameNumber ((Rule.gaussLobatto.quadratureIn doubleMixed 4).coordRT 1)
      ((Rule.gaussLobatto.quadratureIn doubleMixed 4).coordCT 1) ∧
    ¬ SameNumber ((Rule.gaussLobatto.quadratureIn doubleMixed 4).weightRT 1)
      ((Rule.gaussLobatto.quadratureIn doubleMixed 4).weightCT 1) := by
  have hr := runtime_known .double (mem_types _) .gaussLobatto (mem_rules _) 4 (mem_runtimeSizes lobatto4)
  have ht := tables_known .double (mem_types _) .gaussLobatto (mem_rules _) 4 (by decide)
  have hc : ¬ SameNumber ((Rule.gaussLobatto.quadratureIn doubleMixed 4).coordRT 1)
      ((Rule.gaussLobatto.quadratureIn doubleMixed 4).coordCT 1) :=
    sub_four (a := knownRT .double) (b := knownCT .double) tables_differ.1 (hr.1 1) (ht.1 1)
      (knownRT_sound (hr.1 1)) (knownCT_sound (ht.1 1))
  refine ⟨fun h => hc (h.1 .double .gaussLobatto 4 lobatto4 1), hc, ?_⟩
  exact sub_four (a := knownWeightRT .double) (b := knownWeightCT .double) tables_differ.2 (hr.2 1) (ht.2 1)
      (knownWeightRT_sound (hr.2 1)) (knownWeightCT_sound (ht.2 1))

/-- **C85, how far.** The accessors never differ by more than `2^-53`. -/
theorem C85_close_partial (T : RealType) (r : Rule) (n : ℕ) (h : r.RuntimePoints n) (i : Fin n) :
    ∃ x y v w : ℝ, (r.quadratureIn T.arith n).coordRT (i : ℕ) = .ok (Flt.ofReal x) ∧
      (r.quadratureIn T.arith n).coordCT (i : ℕ) = .ok (Flt.ofReal y) ∧
      (r.quadratureIn T.arith n).weightRT (i : ℕ) = .ok (Flt.ofReal v) ∧
      (r.quadratureIn T.arith n).weightCT (i : ℕ) = .ok (Flt.ofReal w) ∧
      |x - y| ≤ 1 / 2 ^ 53 ∧ |v - w| ≤ 1 / 2 ^ 53 := by
  have hm := mem_runtimeSizes h
  have hm' : n ∈ tableSizes r := mem_tableSizes (by cases r <;> exact ⟨h.1, h.2.trans (by norm_num)⟩)
  have hr := runtime_known T (mem_types T) r (mem_rules r) n hm
  have ht := tables_known T (mem_types T) r (mem_rules r) n hm'
  have hc := tables_close T (mem_types T) r (mem_rules r) n hm i
  rw [(rule_coord T.arith r n).1, (rule_coord T.arith r n).2]
  refine ⟨_, _, _, _, knownRT_sound (hr.1 i), knownCT_sound (ht.1 i), knownWeightRT_sound (hr.2 i),
    knownWeightCT_sound (ht.2 i), ?_, ?_⟩
  · have := cast_close hc.1
    push_cast at this
    exact this
  · have := cast_close hc.2
    push_cast at this
    exact this

/-- Non-vacuity of C85: equal spacing with three points in `float`. -/
example : SameNumber ((floatMixed.equalSpacing 3).coordRT 1) ((floatMixed.equalSpacing 3).coordCT 1) :=
  C85_coordinates_partial .float .equal 3 ⟨by norm_num, by norm_num⟩ (by simp) 1

/-! ### C86: mirror symmetry and end points -/

/-- **C86, Gauss rules.** In `float` and in `double` the coordinates of every Gauss rule are exact mirror images
of each other, the weights of mirrored points are equal (not for 8 Lobatto points in `double`), and Lobatto
points begin at -1 and end at 1. -/
theorem C86_gauss_partial (T : RealType) (r : Rule) (n : ℕ) (h : r.Points n) :
    ∃ c w : Fin n → ℝ,
      (∀ i : Fin n, (r.quadratureIn T.arith n).coordCT (i : ℕ) = .ok (Flt.ofReal (c i))) ∧
      (∀ i : Fin n, (r.quadratureIn T.arith n).weightCT (i : ℕ) = .ok (Flt.ofReal (w i))) ∧
      (∀ i : Fin n, c i.rev = -c i) ∧
      (¬ (T = .double ∧ r = .gaussLobatto ∧ n = 8) → ∀ i : Fin n, w i.rev = w i) ∧
      (r = .gaussLobatto → ∀ i : Fin n, ((i : ℕ) = 0 → c i = -1) ∧ ((i : ℕ) + 1 = n → c i = 1)) := by
  have hm := mem_tableSizes h
  have ht := tables_known T (mem_types T) r (mem_rules r) n hm
  have hr := tables_mirror T (mem_types T) r (mem_rules r) n hm
  rw [(rule_coord T.arith r n).2]
  refine ⟨_, _, fun i => knownCT_sound (ht.1 i), fun i => knownWeightCT_sound (ht.2 i), fun i => ?_, fun hne i => ?_, ?_⟩
  · have := (hr i).1
    exact_mod_cast this
  · have := (hr i).2 hne
    exact_mod_cast this
  · rintro rfl i
    have he := tables_ends T (mem_types T) n hm
    constructor
    · intro hi
      rw [hi, Nat.cast_zero, he.1]
      simp [val]
    · intro hi
      have e : (((i : ℕ) : ℕ) : Int) = (n : Int) - 1 := by omega
      rw [e, he.2]
      simp [val]

/-- **C86, equal spacing, first point.** It is -1 for every number of points. -/
theorem C86_equal_first_partial (T : RealType) (n : ℕ) (h2 : 2 ≤ n) (hn : n ≤ 2147483647) :
    (Family.equal.spacingIn T.arith n).coordCT 0 = .ok (Flt.ofReal (-1)) := by
  exact equal_first T (by omega) (by omega)

/-- **C86, equal spacing, last point.** It is 1 for up to 41 points in `float` and up to 49 in `double`. -/
theorem C86_equal_last_partial (T : RealType) (n : ℕ) (h2 : 2 ≤ n) (hf : T = .float → n ≤ 41) (hd : T = .double → n ≤ 49) :
    (Family.equal.spacingIn T.arith n).coordCT ((n : Int) - 1) = .ok (Flt.ofReal 1) := by
  have h := equal_end T (mem_types T) n (by cases T <;> simp only [exactEnd] <;> simp at hf hd <;> omega) h2
  have := knownEqual_sound h
  rwa [Rat.cast_one] at this

/-- **C86, equal spacing, powers of two.** With `2^k + 1` points, `k` at most 23, every coordinate is exactly
`-1 + 2 i / 2^k`; these are mirror images. -/
theorem C86_equal_power_partial (T : RealType) (k : ℕ) (hk : k ≤ 23) (i : Fin (2 ^ k + 1)) :
    (Family.equal.spacingIn T.arith ((2 ^ k + 1 : ℕ) : Int)).coordCT (i : ℕ) = .ok (Flt.ofReal (-1 + 2 * i / 2 ^ k)) := by
  exact equal_power T hk i

/-- The claim of C86: coordinates are mirror images and equal and Lobatto spacings end at -1 and 1; weights are
mirror images. -/
def TablesSymmetric : Prop :=
  (∀ (T : RealType) (fam : Family) (n : ℕ), fam.Points n → ∃ c : Fin n → ℝ,
    (∀ i : Fin n, (fam.spacingIn T.arith n).coordCT (i : ℕ) = .ok (Flt.ofReal (c i))) ∧
    (∀ i : Fin n, c i.rev = -c i) ∧
    (fam ≠ .gaussLegendre → ∀ i : Fin n, ((i : ℕ) = 0 → c i = -1) ∧ ((i : ℕ) + 1 = n → c i = 1))) ∧
  ∀ (T : RealType) (r : Rule) (n : ℕ), r.Points n → ∃ w : Fin n → ℝ,
    (∀ i : Fin n, (r.quadratureIn T.arith n).weightCT (i : ℕ) = .ok (Flt.ofReal (w i))) ∧ ∀ i : Fin n, w i.rev = w i

private theorem ofReal_inj {a b : ℝ} {x : Res Flt} (h : x = .ok (Flt.ofReal a)) (h' : x = .ok (Flt.ofReal b)) : a = b :=
  Datum.finite.inj (congrArg Flt.datum (Res.ok.inj (h.symm.trans h')))

/-- **C86 fails.**  The last of 42 equally spaced points in `float`, and of 50 in `double`, is not 1.  The
inner two of 4 equally spaced points are not mirror images.  Two weights of the 8-point Gauss-Lobatto rule in
`double` that should be equal differ. -/
theorem C86_violated : ¬ TablesSymmetric ∧
    (∃ x, (floatMixed.equalSpacing 42).coordCT 41 = .ok (Flt.ofReal x) ∧ x ≠ 1) ∧
    (∃ x, (doubleMixed.equalSpacing 50).coordCT 49 = .ok (Flt.ofReal x) ∧ x ≠ 1) ∧
    (∀ T : RealType, ∃ x y, (T.arith.equalSpacing 4).coordCT 1 = .ok (Flt.ofReal x) ∧
      (T.arith.equalSpacing 4).coordCT 2 = .ok (Flt.ofReal y) ∧ y ≠ -x) ∧
    ∃ x y, (doubleMixed.quadratureGaussLobatto 8).weightCT 1 = .ok (Flt.ofReal x) ∧
      (doubleMixed.quadratureGaussLobatto 8).weightCT 6 = .ok (Flt.ofReal y) ∧ x ≠ y := by
  have hend : ∀ T : RealType, ∃ x, (Family.equal.spacingIn T.arith ((exactEnd T + 1 : ℕ) : Int)).coordCT (exactEnd T : ℕ)
      = .ok (Flt.ofReal x) ∧ x ≠ 1 := by
    intro T
    obtain ⟨h1, h2⟩ := equal_not_end T (mem_types T)
    have h3 := h1 ⟨exactEnd T, by omega⟩
    refine ⟨_, knownEqual_sound h3, fun h => h2 (h3.trans ?_)⟩
    congr 1
    exact_mod_cast h
  have hm : ∀ T : RealType, ∃ x y, (T.arith.equalSpacing 4).coordCT 1 = .ok (Flt.ofReal x) ∧
      (T.arith.equalSpacing 4).coordCT 2 = .ok (Flt.ofReal y) ∧ y ≠ -x := by
    intro T
    obtain ⟨h1, h2⟩ := equal_not_mirrored T (mem_types T)
    exact ⟨_, _, knownEqual_sound (h1 1), knownEqual_sound (h1 2), fun h => h2 (by exact_mod_cast h)⟩
  have ht := (tables_known .double (mem_types _) .gaussLobatto (mem_rules _) 8 (by decide)).2
  refine ⟨fun h => ?_, hend .float, hend .double, hm, ?_⟩
  · obtain ⟨c, hc, hc2, -⟩ := h.1 .double .equal 4 ⟨by norm_num, by norm_num⟩
    obtain ⟨x, y, hx, hy, hne⟩ := hm .double
    have e1 := ofReal_inj (hc 1) hx
    have e2 := ofReal_inj (hc 2) hy
    exact hne (by rw [← e1, ← e2]; exact hc2 1)
  · refine ⟨_, _, knownWeightCT_sound (ht 1), knownWeightCT_sound (ht 6), fun h => weights_not_mirrored ?_⟩
    have h1 := ht 1
    have h6 := ht 6
    have : val (knownWeightCT .double .gaussLobatto 8 1) = val (knownWeightCT .double .gaussLobatto 8 6) := by exact_mod_cast h
    exact h1.trans ((congrArg Res.ok this).trans h6.symm)

/-- Non-vacuity of C86: the last of 33 points. -/
example : (Family.equal.spacingIn floatMixed 33).coordCT 32 = .ok (Flt.ofReal 1) :=
  C86_equal_last_partial .float 33 (by norm_num) (fun _ => by norm_num) (by simp)

/-! ### C87: the rules in `float` and `double` -/

private theorem represents_of_eval {F : FloatFormat} {q : ℚ} (h : evalRound F q = some q) : Represents F (q : ℝ) :=
  round_represents F (evalRound_sound F h)

private theorem source_nodes (r : Rule) (n : ℕ) (h : r.Points n) :
    ∃ x : Fin n → ℝ, StrictMono x ∧ (∀ y, (r.nodePoly n).eval y = 0 ↔ ∃ i, y = x i) ∧
      ∀ i : Fin n, |((val (sourceCoord r n (i : ℕ)) : ℚ) : ℝ) - x i| ≤ 1 / 10 ^ 36 + literalError n := by
  have hle : 0 ≤ literalError n := by unfold literalError; split_ifs <;> positivity
  have hok := source_known r (mem_rules r) n (mem_tableSizes h)
  cases r with
  | gaussLegendre =>
    obtain ⟨x, h1, h2, h3⟩ := C26_gaussLegendre_nodes n h.1 h.2
    refine ⟨x, h1, h2, fun i => ?_⟩
    obtain ⟨c, hc, hd⟩ := h3 i
    have e : (gaussLegendreSpacing (exactArith ℝ) n).coordCT (i : ℕ) = .ok ((val (sourceCoord .gaussLegendre n (i : ℕ)) : ℚ) : ℝ) := by
      show GaussLegendre.coordCT (exactArith ℝ) n (i : ℕ) = _
      rw [legendre_coordCT_hom ratCast_hom, show GaussLegendre.coordCT ratArith n (i : ℕ) = _ from hok i]
      rfl
    rw [← Res.ok.inj (hc.symm.trans e)]
    linarith
  | gaussLobatto =>
    obtain ⟨x, h1, h2, h3⟩ := C26_gaussLobatto_nodes n h.1 h.2
    refine ⟨x, h1, h2, fun i => ?_⟩
    obtain ⟨c, hc, hd⟩ := h3 i
    have e : (gaussLobattoSpacing (exactArith ℝ) n).coordCT (i : ℕ) = .ok ((val (sourceCoord .gaussLobatto n (i : ℕ)) : ℚ) : ℝ) := by
      show GaussLobatto.coordCT (exactArith ℝ) n (i : ℕ) = _
      rw [lobatto_coordCT_hom ratCast_hom, show GaussLobatto.coordCT ratArith n (i : ℕ) = _ from hok i]
      rfl
    rw [← Res.ok.inj (hc.symm.trans e)]
    refine hd.trans ?_
    unfold literalError
    split_ifs <;> norm_num

/-- **C87.** For `float` and `double` and every size of either rule, points and weights are numbers of the format
computed without exceptions, the points increase, each is within a unit roundoff (`2^-24`, `2^-53`) of the true
Gauss point, the weights are positive, and polynomials up to the degree of the rule are integrated with an
error of at most two unit roundoffs times the sum of the absolute values of the coefficients.  To both bounds
`2e-14` is added for rules with six points or more, which are tabulated with 14 digits. -/
theorem C87_rules (T : RealType) (r : Rule) (n : ℕ) (h : r.Points n) :
    ∃ c w : Fin n → ℝ,
      (∀ i : Fin n, (r.quadratureIn T.arith n).coordCT (i : ℕ) = .ok (Flt.ofReal (c i))) ∧
      (∀ i : Fin n, (r.quadratureIn T.arith n).weightCT (i : ℕ) = .ok (Flt.ofReal (w i))) ∧
      (∀ i, Represents T.format (c i) ∧ Represents T.format (w i) ∧ 0 < w i) ∧ StrictMono c ∧
      (∃ x : Fin n → ℝ, StrictMono x ∧ (∀ y, (r.nodePoly n).eval y = 0 ↔ ∃ i, y = x i) ∧
        ∀ i, |c i - x i| ≤ unitRoundoff T.format + literalError n) ∧
      ∀ p : Polynomial ℝ, p.natDegree ≤ r.degree n →
        |∑ i, w i * p.eval (c i) - ∫ x in (-1 : ℝ)..1, p.eval x|
          ≤ (2 * unitRoundoff T.format + literalError n) * ∑ k ∈ Finset.range (r.degree n + 1), |p.coeff k| := by
  have hm := mem_tableSizes h
  have ht := tables_known T (mem_types T) r (mem_rules r) n hm
  have hrep := tables_represented T (mem_types T) r (mem_rules r) n hm
  have hinc := tables_increase T (mem_types T) r (mem_rules r) n hm
  have hpos := tables_positive T (mem_types T) r (mem_rules r) n hm
  have hsrc := tables_source T (mem_types T) r (mem_rules r) n hm
  have hmom := tables_moments T (mem_types T) r (mem_rules r) n hm
  rw [(rule_coord T.arith r n).2]
  refine ⟨_, _, fun i => knownCT_sound (ht.1 i), fun i => knownWeightCT_sound (ht.2 i), fun i =>
    ⟨represents_of_eval (hrep i).1, represents_of_eval (hrep i).2, by exact_mod_cast hpos i⟩,
    fun i j hij => Rat.cast_lt.2 (hinc i j hij), ?_, fun p hp => ?_⟩
  · obtain ⟨x, hx, hroot, hclose⟩ := source_nodes r n h
    refine ⟨x, hx, hroot, fun i => ?_⟩
    have h1 : |((val (knownCT T r n (i : ℕ)) : ℚ) : ℝ) - ((val (sourceCoord r n (i : ℕ)) : ℚ) : ℝ)|
        ≤ (1 / 2) ^ (T.format.fracBits + 2) := by
      have := cast_close (hsrc i)
      push_cast at this
      exact this
    have h2 := hclose i
    have h3 : ((1 : ℝ) / 2) ^ (T.format.fracBits + 2) + 1 / 10 ^ 36 ≤ unitRoundoff T.format := by
      unfold unitRoundoff
      cases T <;> norm_num [RealType.format, binary32, binary64]
    have h4 := abs_sub_le ((val (knownCT T r n (i : ℕ)) : ℚ) : ℝ) ((val (sourceCoord r n (i : ℕ)) : ℚ) : ℝ) (x i)
    linarith
  · have := quadrature_of_moments _ _ _ _ (moments_cast hmom) p (by omega)
    refine this.trans_eq ?_
    congr 1
    unfold literalError unitRoundoff
    push_cast
    split_ifs <;> (simp only [pow_succ]; push_cast; ring)

/-- **C87, run-time accessors.** The same for `coordinate( i )` and `weight( i )`. -/
theorem C87_rules_runtime (T : RealType) (r : Rule) (n : ℕ) (h : r.RuntimePoints n) :
    ∃ c w : Fin n → ℝ,
      (∀ i : Fin n, (r.quadratureIn T.arith n).coordRT (i : ℕ) = .ok (Flt.ofReal (c i))) ∧
      (∀ i : Fin n, (r.quadratureIn T.arith n).weightRT (i : ℕ) = .ok (Flt.ofReal (w i))) ∧
      (∀ i, Represents T.format (c i) ∧ Represents T.format (w i) ∧ 0 < w i) ∧
      ∀ p : Polynomial ℝ, p.natDegree ≤ r.degree n →
        |∑ i, w i * p.eval (c i) - ∫ x in (-1 : ℝ)..1, p.eval x|
          ≤ 2 * unitRoundoff T.format * ∑ k ∈ Finset.range (r.degree n + 1), |p.coeff k| := by
  have hm := mem_runtimeSizes h
  have ht := runtime_known T (mem_types T) r (mem_rules r) n hm
  have hrep := runtime_represented T (mem_types T) r (mem_rules r) n hm
  have hmom := runtime_moments T (mem_types T) r (mem_rules r) n hm
  rw [(rule_coord T.arith r n).1]
  refine ⟨_, _, fun i => knownRT_sound (ht.1 i), fun i => knownWeightRT_sound (ht.2 i), fun i =>
    ⟨represents_of_eval (hrep i).1, represents_of_eval (hrep i).2.1, by exact_mod_cast (hrep i).2.2⟩, fun p hp => ?_⟩
  have := quadrature_of_moments _ _ _ _ (moments_cast hmom) p (by omega)
  refine this.trans_eq ?_
  congr 1
  unfold unitRoundoff
  rw [pow_succ]
  push_cast
  ring

/-- Non-vacuity of C87: the 5-point Lobatto rule in `float` and the 9-point rule in `double`. -/
example : Rule.gaussLobatto.RuntimePoints 5 ∧ Rule.gaussLobatto.Points 9 ∧ Rule.gaussLobatto.degree 9 = 15 :=
  ⟨⟨by norm_num, by norm_num⟩, ⟨by norm_num, by norm_num⟩, rfl⟩

end Verif.Props
