import Verif.Props.Dyadic
import Verif.Props.MixedScaling

/-!
# Property C141: boxes as `LinearTransform` and as `Scaling` in `float` and `double`

`C54` says that the two descriptions of a box agree in exact arithmetic.  In `float` and `double`, `Scaling` sees the lengths of the edges and is accurate; `LinearTransform`
sees the coordinates of the vertices.
-/

namespace Verif.Props

open Verif.Spec Verif.Lemmas

variable {T : RealType} {c : (k : Fin 3) → Fin 2 → ℝ} {t : LinearTransform Flt} {s : Scaling Flt} {o len : Fin 3 → ℝ}

/-! ### few digits -/

private theorem units_represents {F : FloatFormat} {x : ℝ} {k r : ℤ} (hx : x = k * 2 ^ r) (hk : |k| < 2 ^ (F.fracBits + 1)) (h1 : F.minExp - F.fracBits ≤ r)
    (h2 : r ≤ F.maxExp - F.fracBits) : Represents F x := represents_iff_isNumber.2 ⟨k, r, hx, hk, h1, h2⟩

private theorem mul_units {F : FloatFormat} {x y : ℝ} (h : Represents F (x * y)) : Flt.mul F (Flt.ofReal x) (Flt.ofReal y) = Flt.ofReal (x * y) :=
  round_held h false

/-- The determinant of a scaling, in `double`, if the lengths have few digits. -/
private theorem eighth_exact {r : ℤ} (hr : |r| ≤ 300) {n : ℕ} (hn : n ≤ 114500) {x y z : ℝ} (hx : InUnits r n x) (hy : InUnits r n y) (hz : InUnits r n z) :
    eighthProduct x y z = Flt.ofReal (x / 2 * (y / 2) * (z / 2)) := by
  obtain ⟨a, rfl, ha⟩ := hx
  obtain ⟨b, rfl, hb⟩ := hy
  obtain ⟨d, rfl, hd⟩ := hz
  obtain ⟨r1, r2⟩ := abs_le.1 hr
  have hn' : (n : ℤ) ≤ 114500 := by exact_mod_cast hn
  have e8 : (1 / 8 : ℝ) = 2 ^ (-3 : ℤ) := by norm_num
  have hz2 : ∀ p q : ℤ, (2 : ℝ) ^ (p + q) = 2 ^ p * 2 ^ q := fun p q => zpow_add₀ (by norm_num) p q
  have k1 : |a * b| ≤ 114500 * 114500 := by
    rw [abs_mul]
    exact mul_le_mul (ha.trans hn') (hb.trans hn') (abs_nonneg _) (by norm_num)
  have k2 : |a * b * d| ≤ 114500 * 114500 * 114500 := by
    rw [abs_mul]
    exact mul_le_mul k1 (hd.trans hn') (abs_nonneg _) (by norm_num)
  have m1 : Represents binary64 (1 / 8 * (a * 2 ^ r)) := units_represents (k := a) (r := -3 + r) (by rw [hz2, e8]; ring)
    (lt_of_le_of_lt (ha.trans hn') (by norm_num [binary64])) (by norm_num [binary64]; omega) (by norm_num [binary64]; omega)
  have m2 : Represents binary64 (1 / 8 * (a * 2 ^ r) * (b * 2 ^ r)) := units_represents (k := a * b) (r := -3 + (r + r)) (by push_cast; rw [hz2, hz2, e8]; ring)
    (lt_of_le_of_lt k1 (by norm_num [binary64])) (by norm_num [binary64]; omega) (by norm_num [binary64]; omega)
  have m3 : Represents binary64 (1 / 8 * (a * 2 ^ r) * (b * 2 ^ r) * (d * 2 ^ r)) := units_represents (k := a * b * d) (r := -3 + (r + r + r))
    (by push_cast; rw [hz2, hz2, hz2, e8]; ring) (lt_of_le_of_lt k2 (by norm_num [binary64])) (by norm_num [binary64]; omega) (by norm_num [binary64]; omega)
  rw [eighthProduct, mul_units m1, mul_units m2, mul_units m3]
  congr 1
  ring

private theorem scaling_exact (T : RealType) {r : ℤ} (hr : |r| ≤ unitRange T) {x y z : ℝ} (hx : InUnits r (detRoom T) x) (hy : InUnits r (detRoom T) y)
    (hz : InUnits r (detRoom T) z) :
    T.arith.narrow (T.arith.wide.mul (T.arith.wide.mul (T.arith.wide.mul (T.arith.wide.lit (1 / 8))
      (T.arith.widen (Flt.ofReal x))) (T.arith.widen (Flt.ofReal y))) (T.arith.widen (Flt.ofReal z))) = Flt.ofReal (x / 2 * (y / 2) * (z / 2)) := by
  rw [narrow_det]
  cases T with
  | double => exact eighth_exact hr le_rfl hx hy hz
  | float =>
    have hr' : |r| ≤ 30 := hr
    show Flt.convert binary32 (eighthProduct x y z) = _
    rw [eighth_exact (hr'.trans (by norm_num)) (n := 140) (by norm_num) hx hy hz]
    obtain ⟨a, rfl, ha⟩ := hx
    obtain ⟨b, rfl, hb⟩ := hy
    obtain ⟨d, rfl, hd⟩ := hz
    obtain ⟨r1, r2⟩ := abs_le.1 hr'
    have hz2 : ∀ p q : ℤ, (2 : ℝ) ^ (p + q) = 2 ^ p * 2 ^ q := fun p q => zpow_add₀ (by norm_num) p q
    have k1 : |a * b| ≤ 140 * 140 := by
      rw [abs_mul]
      exact mul_le_mul ha hb (abs_nonneg _) (by norm_num)
    have k2 : |a * b * d| ≤ 140 * 140 * 140 := by
      rw [abs_mul]
      exact mul_le_mul k1 hd (abs_nonneg _) (by norm_num)
    exact round_held (units_represents (k := a * b * d) (r := -3 + (r + r + r)) (by
        push_cast
        rw [hz2, hz2, hz2, show (2 : ℝ) ^ (-3 : ℤ) = 1 / 8 by norm_num]
        ring) (lt_of_le_of_lt k2 (by norm_num [binary32])) (by norm_num [binary32]; omega) (by norm_num [binary32]; omega)) false

private theorem units_small (T : RealType) {r : ℤ} (hr : |r| ≤ unitRange T) {x : ℝ} (hx : InUnits r (detRoom T) x) :
    Represents T.format x ∧ (x = 0 ∨ 2 ^ (T.format.minExp + 1) ≤ |x|) := by
  obtain ⟨k, rfl, hk⟩ := hx
  obtain ⟨r1, r2⟩ := abs_le.1 hr
  refine ⟨units_represents rfl ?_ ?_ ?_, ?_⟩
  · refine lt_of_le_of_lt hk ?_
    clear * -
    cases T <;> norm_num [detRoom, RealType.format, binary32, binary64]
  · clear hk; revert r1 r2; clear * -
    cases T <;> norm_num [unitRange, RealType.format, binary32, binary64] <;> omega
  · clear hk; revert r1 r2; clear * -
    cases T <;> norm_num [unitRange, RealType.format, binary32, binary64] <;> omega
  · rcases eq_or_ne k 0 with rfl | h0
    · exact .inl (by simp)
    · refine .inr ?_
      have h1 : (1 : ℝ) ≤ |(k : ℝ)| := by exact_mod_cast Int.one_le_abs h0
      have h2 : (2 : ℝ) ^ (T.format.minExp + 1) ≤ 2 ^ r := by
        refine zpow_le_zpow_right₀ (by norm_num) ?_
        clear hk; revert r1 r2; clear * -
        cases T <;> norm_num [unitRange, RealType.format, binary32, binary64] <;> omega
      rw [abs_mul, abs_of_pos (by positivity : (0 : ℝ) < 2 ^ r)]
      nlinarith [show (0 : ℝ) < 2 ^ r by positivity]

/-- **C141 for boxes with few digits.** If the vertices and the point have few binary digits, as in `C140`, the two descriptions of the box give the same
Jacobian, with exactly half of the edges on the diagonal, and the same determinant. -/
theorem C141_exact (h : IsShippedIn T (fun _ : Fin 3 => 1) c t.shape) (hc : ∀ k, c k 0 = -1 ∧ c k 1 = 1) (hl : t.data.length = 24)
    (hX : HoldsPoints t.data fun (idx : Fin 3 → Fin 2) i => Flt.ofReal (o i + if idx i = 0 then 0 else len i))
    (hs : s.getData = List.ofFn fun k => Flt.ofReal (len k)) {r : ℤ} (hr : |r| + 1 ≤ unitRange T) {m p : ℕ}
    (hm : 1 ≤ m) (hp : p ≤ 15) (hmp : m * 4 ^ p < gradientRoom T) (ho : ∀ i, InUnits r m (o i)) (ho' : ∀ i, InUnits r m (o i + len i))
    (hlen : ∀ i, InUnits r (detRoom T) (len i)) {ξ : Fin 3 → ℝ} (hξ : ∀ k, BinaryPoint p (ξ k)) (cfg : Config) (J3 : List Flt) (hJ3 : J3.length = 3) :
    ∃ (J : List Flt) (j : Fin 3 → Flt) (det : Flt) (after after3 : Res (List Flt)),
      LinearTransform.jacobianValue cfg (floatArith T.format) t (List.ofFn fun k => Flt.ofReal (ξ k)) = .ok J ∧
      Mixed.Scaling.jacobian cfg T.arith s J3 = .ok (List.ofFn j) ∧ HoldsMatrix J (Matrix.of fun a b => if a = b then j a else Flt.ofReal 0) ∧
      (∀ k, j k = Flt.ofReal (len k / 2)) ∧
      LinearTransform.inverseJacobianValue cfg (floatArith T.format) t (List.ofFn fun k => Flt.ofReal (ξ k)) = .ok (det, after) ∧
      Mixed.Scaling.inverseJacobian cfg T.arith s J3 = .ok (det, after3) ∧ det = Flt.ofReal (∏ k, len k / 2) := by
  have habs := abs_le.1 (show |r| ≤ (unitRange T : ℤ) - 1 by omega)
  have hr0 : |r| ≤ unitRange T := by omega
  obtain ⟨D, hD⟩ : ∃ D : Matrix (Fin 3) (Fin 3) ℝ, IsDerivative (cellMap (order := fun _ : Fin 3 => 1) c
      fun (idx : Fin 3 → Fin 2) i => o i + if idx i = 0 then 0 else len i) D ξ := ⟨_, cellMap_derivative c _ ξ⟩
  obtain ⟨J, g1, g2⟩ := C140_jacobian h hc hl hX hr0 hm hp hmp (fun idx i => by
      split
      · simpa using ho i
      · exact ho' i) hξ cfg hD
  obtain ⟨after, g3⟩ := C140_box h hc hl hX hr hm hp hmp ho ho' hlen hξ cfg
  obtain ⟨j, g4, -, g5⟩ := C89_jacobian cfg T hs (fun k => (units_small T hr0 (hlen k)).1) J3 hJ3
  obtain ⟨a3, g6, -, -⟩ := mixed_scaling_inverse cfg T.arith s _ hs hJ3
  have g7 := scaling_exact T hr0 (hlen 0) (hlen 1) (hlen 2)
  have hj := fun k => g5 k (units_small T hr0 (hlen k)).2
  refine ⟨J, j, _, after, a3, g1, g4, ?_, hj, g3, ?_, rfl⟩
  · have e : (Matrix.of fun a b => if a = b then j a else Flt.ofReal 0) = Matrix.of fun a b => Flt.ofReal (D a b) := by
      ext1 a b
      simp only [Matrix.of_apply]
      rw [box_derivative hc hD, Matrix.diagonal_apply, hj]
      split <;> rfl
    rw [e]
    exact g2
  · rw [g6, Fin.prod_univ_three, ← g7]

/-! ### all boxes -/

/-- **C141, partial, determinants.** With coordinates of magnitude at most `B` and edges of at least `2^-40`, the two determinants differ by at most `2513 u B³` (`u` is `2^-24` or
`2^-53`).
What is missing is shown by `C141_violated`: the difference can be larger than the determinant, if the box is small compared with its distance from the origin. -/
theorem C141_partial (h : IsShippedIn T (fun _ : Fin 3 => 1) c t.shape) (hc : ∀ k, c k 0 = -1 ∧ c k 1 = 1)
    (hX : HoldsPoints t.data fun (idx : Fin 3 → Fin 2) i => Flt.ofReal (o i + if idx i = 0 then 0 else len i))
    (hs : s.getData = List.ofFn fun k => Flt.ofReal (len k)) (hr : ∀ k, Represents T.format (len k)) {B : ℝ} (hB1 : 1 ≤ B) (hB : B ^ 3 ≤ 2 ^ 120)
    (ho : ∀ i, |o i| ≤ B) (ho' : ∀ i, |o i + len i| ≤ B) (hlen : ∀ i, 1 / 2 ^ 40 ≤ |len i|) {ξ : Fin 3 → ℝ} (hξ : ξ ∈ cube 3) (cfg : Config) (J3 : List Flt)
    (hJ3 : J3.length = 3) :
    ∃ (det : Flt) (x y : ℝ) (after after3 : Res (List Flt)),
      LinearTransform.inverseJacobianValue cfg (floatArith T.format) t (List.ofFn fun k => Flt.ofReal (ξ k)) = .ok (det, after) ∧ det.datum = .finite x ∧
      Mixed.Scaling.inverseJacobian cfg T.arith s J3 = .ok (Flt.ofReal y, after3) ∧ |x - y| ≤ 2513 * unitRoundoff T.format * B ^ 3 := by
  have hXB : ∀ (idx : Fin 3 → Fin 2) i, |o i + if idx i = 0 then 0 else len i| ≤ B := fun idx i => by
    split
    · simpa using ho i
    · exact ho' i
  have hmag := fun i j => hexahedron_magnitude (X := fun (idx : Fin 3 → Fin 2) i => o i + if idx i = 0 then 0 else len i) hc hXB hξ i j
  have hB2 : B ^ 2 * 1 ≤ 2 ^ 120 := by
    have : B ^ 2 ≤ B ^ 3 := pow_le_pow_right₀ hB1 (by norm_num)
    linarith
  obtain ⟨D, det, after, e1, e2, ⟨x, e3, e4⟩, -, -⟩ := C101_inverseJacobian (X := fun (idx : Fin 3 → Fin 2) i => o i + if idx i = 0 then 0 else len i) h hX cfg ξ
    (fun k => abs_le.2 (hξ k)) hB1 hB hXB hmag (Q := 1) le_rfl hB2
  have e5 := e4.trans (small_terms T hB1 (fun i j => cellMagnitude_nonneg i j) hmag).2
  rw [box_derivative hc e1, Matrix.det_diagonal] at e5
  have hhalf : ∀ i, |len i / 2| ≤ B := fun i => by
    have a1 := abs_le.1 (ho i)
    have a2 := abs_le.1 (ho' i)
    rw [abs_le]
    constructor <;> linarith [a1.1, a1.2, a2.1, a2.2]
  have hB0 : 0 ≤ B := by linarith
  have hprod : |∏ k, len k / 2| ≤ B ^ 3 := by
    rw [Fin.prod_univ_three, abs_mul, abs_mul, show B ^ 3 = B * B * B by ring]
    exact mul_le_mul (mul_le_mul (hhalf 0) (hhalf 1) (abs_nonneg _) hB0) (hhalf 2) (abs_nonneg _) (by positivity)
  have hlow : 1 / 2 ^ 123 ≤ |∏ k, len k / 2| := by
    have a : ∀ k, 1 / 2 ^ 41 ≤ |len k / 2| := fun k => by
      rw [abs_div, abs_of_pos (by norm_num : (0 : ℝ) < 2), le_div_iff₀ (by norm_num)]
      exact le_trans (by norm_num) (hlen k)
    rw [Fin.prod_univ_three, abs_mul, abs_mul]
    have a1 := mul_le_mul (a 0) (a 1) (by norm_num) (abs_nonneg _)
    have a2 := mul_le_mul a1 (a 2) (by norm_num) (by positivity)
    exact le_trans (by norm_num) a2
  have hup : ∀ k, |len k| ≤ 2 ^ 121 := fun k => by
    have a1 : B ≤ B ^ 3 := by
      have := pow_le_pow_right₀ hB1 (show 1 ≤ 3 by norm_num)
      simpa using this
    have a2 := hhalf k
    rw [abs_div, abs_of_pos (by norm_num : (0 : ℝ) < 2)] at a2
    have a3 : |len k| ≤ 2 * B := by linarith
    norm_num at hB ⊢
    linarith
  have key : ∃ (y : ℝ) (after3 : Res (List Flt)), Mixed.Scaling.inverseJacobian cfg T.arith s J3 = .ok (Flt.ofReal y, after3) ∧
      |y - ∏ k, len k / 2| ≤ 4 * unitRoundoff T.format * |∏ k, len k / 2| := by
    clear h hX e1 e2 e3 e4 e5 hmag
    have hP := abs_nonneg (∏ k, len k / 2)
    obtain ⟨P, hPe⟩ : ∃ P, P = |∏ k, len k / 2| := ⟨_, rfl⟩
    cases T with
    | float =>
      obtain ⟨d3, a3, f1, f2, f3⟩ := C89_determinant cfg .float hs hr J3 hJ3
      have f4 := f3 ⟨le_trans (by norm_num) hlow, hprod.trans (hB.trans (by norm_num))⟩
      rcases f2 with f2 | ⟨y, rfl, f2⟩
      · rw [f4] at f2; cases f2
      · refine ⟨y, a3, f1, f2.trans ?_⟩
        refine mul_le_mul_of_nonneg_right ?_ hP
        norm_num [unitRoundoff, RealType.format, binary32]
    | double =>
      obtain ⟨d3, a3, f1, f2, f3⟩ := C89_determinant cfg .double hs hr J3 hJ3
      have f4 := f3 fun k => ⟨le_trans (one_div_le_one_div_of_le (by positivity) (pow_le_pow_right₀ (by norm_num) (by norm_num))) (hlen k),
        (hup k).trans (pow_le_pow_right₀ (by norm_num) (by norm_num))⟩
      rcases f2 with f2 | ⟨y, rfl, f2⟩
      · rw [f4] at f2; cases f2
      · refine ⟨y, a3, f1, f2.trans ?_⟩
        refine mul_le_mul_of_nonneg_right ?_ hP
        norm_num [errBound, unitRoundoff, RealType.format, binary64]
  obtain ⟨y, after3, k1, k2⟩ := key
  refine ⟨det, x, y, after, after3, e2, e3, k1, ?_⟩
  have hu0 : 0 ≤ unitRoundoff T.format := roundoff_nonneg T.format
  have k3 := k2.trans (mul_le_mul_of_nonneg_left hprod (by positivity))
  rw [abs_sub_comm] at k3
  have := abs_sub_le x (∏ k, len k / 2) y
  linarith

/-- **C141, partial, Jacobians.** Where `Scaling` has exactly half of the edge, `LinearTransform` has this up to `137 u B`, and the same off the diagonal, where it should be zero. -/
theorem C141_jacobian_partial (h : IsShippedIn T (fun _ : Fin 3 => 1) c t.shape) (hc : ∀ k, c k 0 = -1 ∧ c k 1 = 1)
    (hX : HoldsPoints t.data fun (idx : Fin 3 → Fin 2) i => Flt.ofReal (o i + if idx i = 0 then 0 else len i))
    (hs : s.getData = List.ofFn fun k => Flt.ofReal (len k)) (hr : ∀ k, Represents T.format (len k)) {B : ℝ} (hB1 : 1 ≤ B) (hB : B ≤ 2 ^ 56)
    (ho : ∀ i, |o i| ≤ B) (ho' : ∀ i, |o i + len i| ≤ B) (hlen : ∀ i, 1 / 2 ^ 40 ≤ |len i|) {ξ : Fin 3 → ℝ} (hξ : ξ ∈ cube 3) (cfg : Config) (J3 : List Flt)
    (hJ3 : J3.length = 3) :
    ∃ (J : List Flt) (M : Matrix (Fin 3) (Fin 3) Flt),
      LinearTransform.jacobianValue cfg (floatArith T.format) t (List.ofFn fun k => Flt.ofReal (ξ k)) = .ok J ∧ HoldsMatrix J M ∧
      Mixed.Scaling.jacobian cfg T.arith s J3 = .ok (List.ofFn fun k => Flt.ofReal (len k / 2)) ∧
      ∀ i j, FiniteWithin (M i j) (if i = j then len i / 2 else 0) (137 * unitRoundoff T.format * B) := by
  have hXB : ∀ (idx : Fin 3 → Fin 2) i, |o i + if idx i = 0 then 0 else len i| ≤ B := fun idx i => by
    split
    · simpa using ho i
    · exact ho' i
  obtain ⟨J, D, M, e1, e2, e3, e4⟩ := C100_jacobian (X := fun (idx : Fin 3 → Fin 2) i => o i + if idx i = 0 then 0 else len i) h (by norm_num) hX hB1 hB hXB cfg ξ
    (fun k => abs_le.2 (hξ k)) [] rfl
  obtain ⟨j, g4, -, g5⟩ := C89_jacobian cfg T hs hr J3 hJ3
  have hj : j = fun k => Flt.ofReal (len k / 2) := funext fun k => g5 k (.inr (le_trans (by
    rw [show (1 / 2 ^ 40 : ℝ) = 2 ^ (-40 : ℤ) by norm_num]
    refine zpow_le_zpow_right₀ (by norm_num) ?_
    clear * -
    cases T <;> norm_num [RealType.format, binary32, binary64]) (hlen k)))
  rw [List.append_nil] at e2
  refine ⟨J, M, e2, e3, by rw [← hj]; exact g4, fun a b => ?_⟩
  obtain ⟨y, h1, h2⟩ := e4 a b
  refine ⟨y, h1, ?_⟩
  rw [box_derivative hc e1, Matrix.diagonal_apply] at h2
  refine h2.trans ?_
  have hu0 : 0 ≤ unitRoundoff T.format := roundoff_nonneg T.format
  have hu1 := formats_unit T
  have hB0 : 0 ≤ B := by linarith
  have hrr : errBound (unitRoundoff T.format) (gradientRoundings (fun _ : Fin 3 => 1)) ≤ 136 * unitRoundoff T.format := by
    rw [show gradientRoundings (fun _ : Fin 3 => 1) = 68 by decide, errBound]
    have := pow_roundoff_le hu0 68 (by norm_num at hu1 ⊢; linarith)
    norm_num at this ⊢
    linarith
  have hsm : 2 ^ 78 * smallestPositive T.format ≤ unitRoundoff T.format := by
    have a1 := formats_tiny T
    have a2 : 1 / 2 ^ 53 ≤ unitRoundoff T.format := by
      clear * -
      cases T <;> norm_num [unitRoundoff, RealType.format, binary32, binary64]
    rw [← tiny_smallest]
    norm_num at a1 a2 ⊢
    linarith
  have m1 := mul_le_mul hrr (hexahedron_magnitude (X := fun (idx : Fin 3 → Fin 2) i => o i + if idx i = 0 then 0 else len i) hc hXB hξ a b)
    (cellMagnitude_nonneg a b) (by positivity)
  have m2 := mul_le_mul_of_nonneg_right hsm hB0
  linarith

/-- **C141 is violated** as a statement about all boxes: there is a box, with vertices, edges and point that are numbers of the type, for which `Scaling` gives the
exact, positive determinant, and `LinearTransform` a negative one. -/
theorem C141_violated (T : RealType) : ∃ (t : LinearTransform Flt) (o len : Fin 3 → ℝ) (s : Scaling Flt) (ξ : Fin 3 → ℝ),
    IsShippedIn T (fun _ : Fin 3 => 1) (fun _ => ![-1, 1]) t.shape ∧
    HoldsPoints t.data (fun (idx : Fin 3 → Fin 2) i => Flt.ofReal (o i + if idx i = 0 then 0 else len i)) ∧
    s.getData = (List.ofFn fun k => Flt.ofReal (len k)) ∧
    (∀ i, 0 < len i ∧ Represents T.format (len i) ∧ Represents T.format (o i) ∧ Represents T.format (o i + len i)) ∧
    (∀ k, Represents T.format (ξ k) ∧ |ξ k| ≤ 1) ∧
    ∀ (cfg : Config) (J3 : List Flt), J3.length = 3 → ∃ (x : ℝ) (after after3 : Res (List Flt)), x < 0 ∧
      LinearTransform.inverseJacobianValue cfg (floatArith T.format) t (List.ofFn fun k => Flt.ofReal (ξ k)) = .ok (Flt.ofReal x, after) ∧
      Mixed.Scaling.inverseJacobian cfg T.arith s J3 = .ok (Flt.ofReal (∏ k, len k / 2), after3) := by
  obtain ⟨b, hb, -⟩ := C100_basis T .gaussLobatto (order := 1) le_rfl (by norm_num) ⟨by norm_num, by norm_num⟩ (linear_nodes T)
  have hv : ∀ (idx : Fin 3 → Fin 2) i, ((farVertex T idx i : ℚ) : ℝ) = (farCorner T i : ℝ) + if idx i = 0 then 0 else (farEdge T : ℝ) := fun idx i => by
    unfold farVertex
    split <;> simp [*]
  obtain ⟨r, hr, hu⟩ : ∃ r : ℤ, |r| ≤ unitRange T ∧ InUnits r (detRoom T) (farEdge T : ℝ) := by
    clear * -
    cases T with
    | float => exact ⟨-2, by norm_num [unitRange], 1, by norm_num [farEdge, zpow_neg], by norm_num [detRoom]⟩
    | double => exact ⟨-31, by norm_num [unitRange], 1, by norm_num [farEdge, zpow_neg], by norm_num [detRoom]⟩
  have hrep := (far_represented T).1
  refine ⟨⟨⟨.ok (3 : ℕ), List.ofFn fun _ : Fin 3 => b⟩, (farData T).map fun q : ℚ => Flt.ofReal q⟩, fun i => farCorner T i, fun _ => farEdge T,
    ⟨List.ofFn fun _ : Fin 3 => Flt.ofReal (farEdge T)⟩, fun k => farPoint T k,
    ⟨by norm_num, rfl, fun _ => ⟨le_rfl, by norm_num⟩, fun _ => .gaussLobatto, fun _ => b, rfl,
      fun _ => ⟨⟨by norm_num, by norm_num⟩, linear_nodes T, hb⟩⟩, ?_, rfl, fun i => ⟨?_, (units_small T hr hu).1, ?_, ?_⟩, (far_represented T).2, fun cfg J3 hJ3 => ?_⟩
  · have := far_points T
    simp only [hv] at this
    exact this
  · clear * -
    cases T <;> norm_num [farEdge]
  · have := hrep (fun _ => 0) i
    rw [hv] at this
    simpa using this
  · have := hrep (fun _ => 1) i
    rw [hv] at this
    simpa using this
  · rw [C88_basis, lagrangeBasis_ok _ _ (order := 1) (by norm_num)] at hb
    obtain ⟨x, after, h1, h2⟩ := far_negative T (Res.ok.inj hb).symm cfg
    obtain ⟨a3, g6, -, -⟩ := mixed_scaling_inverse cfg T.arith ⟨List.ofFn fun _ : Fin 3 => Flt.ofReal (farEdge T)⟩ (fun _ => Flt.ofReal (farEdge T)) rfl hJ3
    refine ⟨x, after, a3, h1, h2, ?_⟩
    rw [g6, Fin.prod_univ_three, ← scaling_exact T hr hu hu hu]

/-- Non-vacuity of the theorems about all boxes and those with few digits: the parent cube. -/
example (T : RealType) : ∃ (t : LinearTransform Flt) (s : Scaling Flt),
    IsShippedIn T (fun _ : Fin 3 => 1) (fun _ => ![-1, 1]) t.shape ∧
    HoldsPoints t.data (fun (idx : Fin 3 → Fin 2) i => Flt.ofReal ((fun _ => -1) i + if idx i = 0 then 0 else (fun _ => 2) i)) ∧
    s.getData = (List.ofFn fun _ : Fin 3 => Flt.ofReal 2) ∧ Represents T.format 2 ∧ |(-1 : ℝ)| ≤ 1 ∧ |(-1 + 2 : ℝ)| ≤ 1 ∧ (1 / 2 ^ 40 : ℝ) ≤ |(2 : ℝ)| ∧
    InUnits 0 1 (-1) ∧ InUnits 0 1 (-1 + 2) ∧ InUnits 0 (detRoom T) 2 ∧ 1 * 4 ^ 3 < gradientRoom T := by
  obtain ⟨t, h, hX⟩ := sample_cell_in T
  have hu : InUnits 0 (detRoom T) 2 := ⟨2, by norm_num, by clear * -; cases T <;> norm_num [detRoom]⟩
  have hr := (units_small T (r := 0) (by simp) hu).1
  have e : ∀ a : Fin 2, (![-1, 1] : Fin 2 → ℝ) a = -1 + if a = 0 then 0 else 2 := by
    intro a
    fin_cases a <;> norm_num
  simp only [e] at hX
  refine ⟨t, ⟨List.ofFn fun _ : Fin 3 => Flt.ofReal 2⟩, h, hX, rfl, hr, by norm_num, by norm_num, by norm_num, ⟨-1, by norm_num, by norm_num⟩, ⟨1, by norm_num, by norm_num⟩, hu, ?_⟩
  clear * -
  cases T <;> norm_num [gradientRoom]

end Verif.Props
