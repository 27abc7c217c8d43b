import Verif.Lemmas.ErrorTracking
import Verif.Props.Rounding

/-! # Properties C63 and C64: the shipped nodes and weights in floating point -/

namespace Verif.Props

open Verif.Spec Verif.Lemmas

variable {fl : ℝ → ℝ} {u : ℝ}

private theorem errBound_le (hu : 0 ≤ u) {k m : ℕ} (hkm : k ≤ m) (h : (m : ℝ) * u ≤ 1) :
    errBound u k ≤ 2 * m * u :=
  (errBound_mono hu hkm).trans (C60_bound_first_order hu m h)

/-- Coordinates near increasing ones that are further apart are increasing. -/
private theorem strictMono_near {n : ℕ} {c C : Fin n → ℝ} {ε : ℝ} (h : ∀ i, |c i - C i| ≤ ε)
    (hg : ∀ i j : Fin n, i < j → C i + 2 * ε < C j) : StrictMono c := by
  intro i j hij
  have h1 := abs_le.1 (h i)
  have h2 := abs_le.1 (h j)
  have := hg i j hij
  linarith [h1.2, h2.1]

private def Gaps (N : ℕ) (g : ℚ) (f : Int → Res ℚ) : Prop :=
  ∀ i j : Fin N, i < j → val (f (i : ℕ)) + g < val (f (j : ℕ))

private instance (N : ℕ) (g : ℚ) (f : Int → Res ℚ) : Decidable (Gaps N g f) :=
  inferInstanceAs (Decidable (∀ _ _ : Fin N, _ → _))

private theorem legendre_tracked : ∀ N ∈ [2, 3, 4],
    AllTracked N 3 7 (GaussLegendre.coordCT trackArith N) ∧
    Gaps N (1 / 11) (GaussLegendre.coordCT ratArith N) := by decide +kernel

private theorem lobatto_tracked : ∀ N ∈ [2, 3, 4, 5, 6, 7, 8, 9],
    AllTracked N 3 7 (GaussLobatto.coordCT trackArith N) ∧
    Gaps N (1 / 11) (GaussLobatto.coordCT ratArith N) := by decide +kernel

private theorem equal_interval_rounded (hr : Rounds fl u) {n : Int} (hn : 2 ≤ n) (hn' : n ≤ 2147483647) :
    ∃ h, EqualSpacing.interval (roundedArith fl) n = .ok h ∧ Approx u 4 (2 / ((n : ℝ) - 1)) h := by
  have hn1 : (0 : ℝ) < (n : ℝ) - 1 := by
    have : (2 : ℝ) ≤ n := by exact_mod_cast hn
    linarith
  have hsub : isub n 1 = .ok (n - 1) :=
    tnorm_ok ⟨by show (-2147483648 : Int) ≤ _; omega, by show _ ≤ (2147483647 : Int); omega⟩
  have e : (((n - 1 : Int) : ℚ) : ℝ) = (n : ℝ) - 1 := by push_cast; ring
  have h0 : fl (((n - 1 : Int) : ℚ) : ℝ) ≠ 0 := by rw [e]; exact fl_ne_zero hr hn1.ne'
  refine ⟨fl (fl ((2 : ℚ) : ℝ) / fl (((n - 1 : Int) : ℚ) : ℝ)), ?_, ?_⟩
  · rw [EqualSpacing.interval, hsub, Res.ok_bind]
    simp only [roundedArith, if_neg h0]
  · rw [e]
    have h1 := (approx_fl hr ((2 : ℚ) : ℝ)).mul hr.nonneg (Approx.inv_fl hr hn1.ne')
    have h2 := h1.round hr
    rw [mul_one_div, mul_one_div] at h2
    simpa using h2

private theorem equal_nodes (hr : Rounds fl u) {order : ℕ} (h1 : 1 ≤ order) (ho : order < 2147483647)
    (hu : 1000 * order * u ≤ 1) :
    ∃ c C : Fin (order + 1) → ℝ,
      (∀ i : Fin (order + 1), (equalSpacing (exactArith ℝ) ((order + 1 : ℕ) : Int)).coordCT (i : ℕ) = .ok (C i)) ∧
      (∀ i : Fin (order + 1), (equalSpacing (roundedArith fl) ((order + 1 : ℕ) : Int)).coordCT (i : ℕ) = .ok (c i)) ∧
      (∀ i, |c i - C i| ≤ errBound u 7 * 3) ∧ StrictMono c := by
  have hp : (0 : ℝ) < order := by exact_mod_cast h1
  have hp1 : (1 : ℝ) ≤ order := by exact_mod_cast h1
  have hu0 := hr.nonneg
  obtain ⟨h, hh, ha⟩ := equal_interval_rounded hr (n := ((order + 1 : ℕ) : Int)) (by push_cast; omega)
    (by push_cast; omega)
  have e0 : (((order + 1 : ℕ) : Int) : ℝ) - 1 = order := by push_cast; ring
  rw [e0] at ha
  have hex : EqualSpacing.interval (exactArith ℝ) ((order + 1 : ℕ) : Int) = .ok (2 / (order : ℝ)) := by
    obtain ⟨h', -, hh', e, -⟩ := C23_equalSpacing ((order + 1 : ℕ) : Int) (by push_cast; omega) (by push_cast; omega)
    rw [hh', e, e0]
  have hb : ∀ i : Fin (order + 1),
      |fl (-fl ((1 : ℚ) : ℝ) + fl (fl (((i : ℕ) : ℚ) : ℝ) * h)) - (-1 + (i : ℕ) * (2 / (order : ℝ)))|
        ≤ errBound u 7 * 3 := by
    intro i
    have hi : ((i : ℕ) : ℝ) ≤ order := by exact_mod_cast Nat.lt_succ_iff.1 i.2
    have w1 := ((approx_fl hr ((1 : ℚ) : ℝ)).within.neg).mono hu0 (show 1 ≤ 6 by omega)
    have w2 := (((approx_fl hr (((i : ℕ) : ℚ) : ℝ)).mul hu0 ha).round hr).within
    have w := (w1.add w2).round hr
    have hB : |((1 : ℚ) : ℝ)| + |(((i : ℕ) : ℚ) : ℝ) * (2 / (order : ℝ))| ≤ 3 := by
      have : ((i : ℕ) : ℝ) * (2 / (order : ℝ)) ≤ 2 := by
        rw [mul_div_assoc', div_le_iff₀ hp]; linarith
      have h0 : 0 ≤ ((i : ℕ) : ℝ) * (2 / (order : ℝ)) := by positivity
      push_cast
      rw [abs_of_nonneg h0]; linarith [abs_one (α := ℝ)]
    have := w.2.trans (mul_le_mul_of_nonneg_left hB (errBound_nonneg hu0 7))
    push_cast at this ⊢
    exact this
  refine ⟨_, fun i => -1 + (i : ℕ) * (2 / (order : ℝ)), fun i => ?_, fun i => ?_, hb, strictMono_near hb ?_⟩
  · simp only [equalSpacing, EqualSpacing.coordCT, hex, Res.ok_bind]
    simp [exactArith]
  · simp only [equalSpacing, EqualSpacing.coordCT, hh, Res.ok_bind]
    simp [roundedArith]
  · intro i j hij
    have hij' : ((i : ℕ) : ℝ) + 1 ≤ (j : ℕ) := by exact_mod_cast hij
    have hE := errBound_le hu0 (le_refl 7) (show ((7 : ℕ) : ℝ) * u ≤ 1 by push_cast; nlinarith)
    push_cast at hE
    have h2 : 84 * u < 2 / (order : ℝ) := by rw [lt_div_iff₀ hp]; nlinarith
    have h3 : 0 < 2 / (order : ℝ) := by positivity
    nlinarith

/-- The tables behind the Gauss spacings. -/
private theorem table_nodes (hr : Rounds fl u) {N : ℕ} {f : {R : Type} → Arith R → Int → Res R}
    (hom : ∀ {R S : Type} {A : Arith R} {A' : Arith S} {g : R → S}, ArithHom A A' g →
      ∀ i, f A' i = g <$> f A i)
    (hd : f (noDiv fl) = f (roundedArith fl))
    (hd' : f { ratArith with div := fun _ _ => Res.nonfinite } = f ratArith)
    (h : AllTracked N 3 7 (f trackArith)) (hg : Gaps N (1 / 11) (f ratArith)) (hu : 1000 * u ≤ 1) :
    ∃ c C : Fin N → ℝ,
      (∀ i : Fin N, f (exactArith ℝ) (i : ℕ) = .ok (C i)) ∧
      (∀ i : Fin N, f (roundedArith fl) (i : ℕ) = .ok (c i)) ∧
      (∀ i, |c i - C i| ≤ errBound u 7 * 3) ∧ StrictMono c := by
  obtain ⟨c, C, hC, h1, h2, h3⟩ := table_error hr hom hd hd' h
  have h3' : ∀ i, |c i - C i| ≤ errBound u 7 * 3 := fun i => by have := h3 i; push_cast at this; exact this
  refine ⟨c, C, h1, h2, h3', strictMono_near h3' fun i j hij => ?_⟩
  have hE := errBound_le hr.nonneg (le_refl 7) (show ((7 : ℕ) : ℝ) * u ≤ 1 by push_cast; linarith [hr.nonneg])
  push_cast at hE
  have := (Rat.cast_lt (K := ℝ)).2 (hg i j hij)
  push_cast at this
  rw [hC, hC]
  linarith

/-- **C63.** In floating-point arithmetic with unit roundoff `u`, `1000 * order * u ≤ 1`, the coordinates of
every shipped spacing are within 7 roundings (of magnitude 3) of the exact ones and strictly increasing. -/
theorem C63_coordinates (hr : Rounds fl u) (F : Family) (order : ℕ) (h1 : 1 ≤ order) (hF : F.Supports order)
    (hu : 1000 * order * u ≤ 1) :
    ∃ c C : Fin (order + 1) → ℝ,
      (∀ i : Fin (order + 1), (F.spacing (exactArith ℝ) ((order + 1 : ℕ) : Int)).coordCT (i : ℕ) = .ok (C i)) ∧
      (∀ i : Fin (order + 1), (F.spacing (roundedArith fl) ((order + 1 : ℕ) : Int)).coordCT (i : ℕ) = .ok (c i)) ∧
      (∀ i, |c i - C i| ≤ errBound u 7 * 3) ∧ StrictMono c := by
  have hp1 : (1 : ℝ) ≤ order := by exact_mod_cast h1
  have hu' : 1000 * u ≤ 1 := by nlinarith [hr.nonneg]
  cases F with
  | equal => exact equal_nodes hr h1 (by have := hF.2; omega) hu
  | gaussLegendre =>
    have hm : order + 1 ∈ [2, 3, 4] := by
      have := hF.2
      simp only [List.mem_cons, List.not_mem_nil, or_false]; omega
    obtain ⟨ht, hg⟩ := legendre_tracked _ hm
    exact table_nodes hr (f := fun A => GaussLegendre.coordCT A ((order + 1 : ℕ) : Int))
      (fun h => legendre_coordCT_hom h _) rfl rfl ht hg hu'
  | gaussLobatto =>
    have hm : order + 1 ∈ [2, 3, 4, 5, 6, 7, 8, 9] := by
      have := hF.2
      simp only [List.mem_cons, List.not_mem_nil, or_false]; omega
    obtain ⟨ht, hg⟩ := lobatto_tracked _ hm
    exact table_nodes hr (f := fun A => GaussLobatto.coordCT A ((order + 1 : ℕ) : Int))
      (fun h => lobatto_coordCT_hom h _) rfl rfl ht hg hu'

/-- The coordinates meet the hypothesis of C60–C62, so these apply to every shipped spacing. -/
theorem C63_nodes (hr : Rounds fl u) (F : Family) (order : ℕ) (h1 : 1 ≤ order) (hF : F.Supports order)
    (hu : 1000 * order * u ≤ 1) :
    ∃ c, Nodes (F.spacing (roundedArith fl) ((order + 1 : ℕ) : Int)) (order + 1) c := by
  obtain ⟨c, -, -, h, -, hm⟩ := C63_coordinates hr F order h1 hF hu
  exact ⟨c, fun _ => h, hm.injective⟩

/-! ### quadrature rules -/

private theorem errBound7 (hu : 0 ≤ u) (h : 1000 * u ≤ 1) : errBound u 7 ≤ 71 / 10 * u := by
  unfold errBound
  have h2 : u ^ 2 ≤ u * (1 / 1000) := by nlinarith
  have h3 : u ^ 3 ≤ u * (1 / 1000) := by nlinarith
  have h4 : u ^ 4 ≤ u * (1 / 1000) := by nlinarith [pow_nonneg hu 3]
  have h5 : u ^ 5 ≤ u * (1 / 1000) := by nlinarith [pow_nonneg hu 4]
  have h6 : u ^ 6 ≤ u * (1 / 1000000) := by
    have : u ^ 5 ≤ 1 / 1000000 := by nlinarith [pow_nonneg hu 2, pow_nonneg hu 3, pow_nonneg hu 4]
    nlinarith
  have h7 : u ^ 7 ≤ u * (1 / 1000000) := by nlinarith [pow_nonneg hu 6]
  have h3' : u ^ 3 ≤ u * (1 / 1000000) := by nlinarith
  have h4' : u ^ 4 ≤ u * (1 / 1000000) := by nlinarith
  have h5' : u ^ 5 ≤ u * (1 / 1000000) := by nlinarith
  nlinarith

private theorem errBound2 (hu : 0 ≤ u) (h : 1000 * u ≤ 1) : errBound u 2 ≤ 21 / 10 * u := by
  unfold errBound; nlinarith

/-- Perturbing the nodes and weights of a rule changes its moments little. -/
private theorem moments_near {N : ℕ} (hN : N ≤ 9) {c C w W : Fin N → ℝ} {δ η : ℝ} (hδ0 : 0 ≤ δ) (hη0 : 0 ≤ η)
    (hδ : δ ≤ 1 / 20) (hC : ∀ i, |C i| ≤ 1) (hW : ∀ i, 0 ≤ W i) (hs : ∑ i, W i ≤ 5 / 2)
    (hc : ∀ i, |c i - C i| ≤ δ) (hw : ∀ i, |w i - W i| ≤ η) {k : ℕ} (hk : k ≤ 15) :
    |∑ i, w i * c i ^ k - ∑ i, W i * C i ^ k| ≤ 75 * δ + 19 * η := by
  have hci : ∀ i, |c i| ≤ 21 / 20 := fun i => by
    have := abs_add_le (c i - C i) (C i)
    rw [sub_add_cancel] at this
    linarith [hc i, hC i]
  have hpow : ∀ i, |c i| ^ k ≤ 21 / 10 := fun i =>
    calc |c i| ^ k ≤ (21 / 20) ^ k := pow_le_pow_left₀ (abs_nonneg _) (hci i) k
      _ ≤ (21 / 20 : ℝ) ^ 15 := pow_le_pow_right₀ (by norm_num) hk
      _ ≤ 21 / 10 := by norm_num
  have hdiff : ∀ i, |c i ^ k - C i ^ k| ≤ 30 * δ := fun i => by
    refine (abs_pow_sub_pow_le _ _ k).trans ?_
    have hmax : max |c i| |C i| ^ (k - 1) ≤ 2 :=
      calc max |c i| |C i| ^ (k - 1) ≤ (21 / 20) ^ (k - 1) :=
            pow_le_pow_left₀ (le_max_of_le_left (abs_nonneg _)) (max_le (hci i) ((hC i).trans (by norm_num))) _
        _ ≤ (21 / 20 : ℝ) ^ 14 := pow_le_pow_right₀ (by norm_num) (by omega)
        _ ≤ 2 := by norm_num
    have hk' : (k : ℝ) ≤ 15 := by exact_mod_cast hk
    calc |c i - C i| * k * max |c i| |C i| ^ (k - 1) ≤ δ * 15 * 2 := by
          refine mul_le_mul (mul_le_mul (hc i) hk' (by positivity) hδ0) hmax (by positivity) (by positivity)
      _ = 30 * δ := by ring
  have e : ∑ i, w i * c i ^ k - ∑ i, W i * C i ^ k
      = ∑ i, ((w i - W i) * c i ^ k) + ∑ i, W i * (c i ^ k - C i ^ k) := by
    rw [← Finset.sum_sub_distrib, ← Finset.sum_add_distrib]
    exact Finset.sum_congr rfl fun i _ => by ring
  rw [e]
  refine (abs_add_le _ _).trans ?_
  have t1 : |∑ i, (w i - W i) * c i ^ k| ≤ 19 * η := by
    refine (Finset.abs_sum_le_sum_abs _ _).trans ?_
    have : ∀ i ∈ Finset.univ, |(w i - W i) * c i ^ k| ≤ η * (21 / 10) := fun i _ => by
      rw [abs_mul, abs_pow]
      exact mul_le_mul (hw i) (hpow i) (by positivity) hη0
    refine (Finset.sum_le_card_nsmul _ _ _ this).trans ?_
    rw [Finset.card_univ, Fintype.card_fin, nsmul_eq_mul]
    have hN' : (N : ℝ) ≤ 9 := by exact_mod_cast hN
    nlinarith
  have t2 : |∑ i, W i * (c i ^ k - C i ^ k)| ≤ 75 * δ := by
    refine (Finset.abs_sum_le_sum_abs _ _).trans ?_
    calc ∑ i, |W i * (c i ^ k - C i ^ k)| ≤ ∑ i, W i * (30 * δ) := Finset.sum_le_sum fun i _ => by
          rw [abs_mul, abs_of_nonneg (hW i)]
          exact mul_le_mul_of_nonneg_left (hdiff i) (hW i)
      _ = (∑ i, W i) * (30 * δ) := by rw [Finset.sum_mul]
      _ ≤ 5 / 2 * (30 * δ) := mul_le_mul_of_nonneg_right hs (by positivity)
      _ = 75 * δ := by ring
  linarith

private theorem sum_eval {N : ℕ} (c w : Fin N → ℝ) {p : Polynomial ℝ} {D : ℕ} (hp : p.natDegree < D) :
    ∑ i, w i * p.eval (c i) = ∑ k ∈ Finset.range D, p.coeff k * ∑ i, w i * c i ^ k := by
  simp_rw [Polynomial.eval_eq_sum_range' hp, Finset.mul_sum]
  rw [Finset.sum_comm]
  exact Finset.sum_congr rfl fun k _ => Finset.sum_congr rfl fun i _ => by ring

private theorem rule_near {N : ℕ} (hN : N ≤ 9) {c C w W : Fin N → ℝ} (hr : Rounds fl u) (hu : 1000 * u ≤ 1)
    (hC : ∀ i, |C i| ≤ 1) (hW : ∀ i, 0 ≤ W i) (hs : ∑ i, W i ≤ 5 / 2)
    (hc : ∀ i, |c i - C i| ≤ errBound u 7 * 3) (hw : ∀ i, |w i - W i| ≤ errBound u 2 * (4 / 3))
    {D : ℕ} (hD : D ≤ 16) {ε : ℝ} {p : Polynomial ℝ} (hp : p.natDegree < D)
    (hq : |∑ i, W i * p.eval (C i) - ∫ x in (-1 : ℝ)..1, p.eval x| ≤ ε * ∑ k ∈ Finset.range D, |p.coeff k|) :
    |∑ i, w i * p.eval (c i) - ∫ x in (-1 : ℝ)..1, p.eval x|
      ≤ (ε + 1700 * u) * ∑ k ∈ Finset.range D, |p.coeff k| := by
  have hu0 := hr.nonneg
  have e7 := errBound7 hu0 hu
  have e2 := errBound2 hu0 hu
  have h1 : |∑ i, w i * p.eval (c i) - ∑ i, W i * p.eval (C i)|
      ≤ 1700 * u * ∑ k ∈ Finset.range D, |p.coeff k| := by
    rw [sum_eval c w hp, sum_eval C W hp, ← Finset.sum_sub_distrib, Finset.mul_sum]
    refine (Finset.abs_sum_le_sum_abs _ _).trans (Finset.sum_le_sum fun k hk => ?_)
    have hk' : k ≤ 15 := by have := Finset.mem_range.1 hk; omega
    have := moments_near hN (by have := errBound_nonneg hu0 7; positivity)
      (by have := errBound_nonneg hu0 2; positivity) (by linarith) hC hW hs hc hw hk'
    rw [← mul_sub, abs_mul, mul_comm]
    exact mul_le_mul_of_nonneg_right (by linarith) (abs_nonneg _)
  have h2 := abs_add_le (∑ i, w i * p.eval (c i) - ∑ i, W i * p.eval (C i))
    (∑ i, W i * p.eval (C i) - ∫ x in (-1 : ℝ)..1, p.eval x)
  rw [sub_add_sub_cancel] at h2
  linarith

private theorem weights_tracked :
    (∀ N ∈ [2, 3, 4], AllTracked N (4 / 3) 2 (QuadratureGaussLegendre.weightCT trackArith N) ∧
      ∀ i : Fin N, 1 / 50 ≤ val (QuadratureGaussLegendre.weightCT ratArith N (i : ℕ))) ∧
    (∀ N ∈ [2, 3, 4, 5, 6, 7, 8, 9], AllTracked N (4 / 3) 2 (QuadratureGaussLobatto.weightCT trackArith N) ∧
      ∀ i : Fin N, 1 / 50 ≤ val (QuadratureGaussLobatto.weightCT ratArith N (i : ℕ))) := by decide +kernel

private theorem weight_pos (hr : Rounds fl u) (hu : 1000 * u ≤ 1) {w W : ℝ}
    (h : |w - W| ≤ errBound u 2 * ((4 / 3 : ℚ) : ℝ)) {q : ℚ} (hW : W = (q : ℝ)) (hq : 1 / 50 ≤ q) : 0 < w := by
  have h1 := (abs_le.1 h).1
  have h2 := errBound2 hr.nonneg hu
  have h3 : ((1 / 50 : ℚ) : ℝ) ≤ (q : ℝ) := Rat.cast_le.2 hq
  push_cast at h1 h3
  rw [hW] at h1
  linarith

/-- **C64, Gauss-Legendre.** In floating-point arithmetic with unit roundoff `u ≤ 1/1000`, the weights are
positive and the rule with the computed coordinates and weights integrates every polynomial of degree at
most 2N-1 up to `1e-33 + 1700 * u` times the sum of the absolute values of its coefficients. -/
theorem C64_gaussLegendre (hr : Rounds fl u) (hu : 1000 * u ≤ 1) (N : ℕ) (h : 2 ≤ N) (h' : N ≤ 4) :
    ∃ c w : Fin N → ℝ,
      (∀ i : Fin N, (quadratureGaussLegendre (roundedArith fl) N).coordCT (i : ℕ) = .ok (c i)) ∧
      (∀ i : Fin N, (quadratureGaussLegendre (roundedArith fl) N).weightCT (i : ℕ) = .ok (w i)) ∧
      (∀ i, 0 < w i) ∧
      ∀ p : Polynomial ℝ, p.natDegree ≤ 2 * N - 1 →
        |∑ i, w i * p.eval (c i) - ∫ x in (-1 : ℝ)..1, p.eval x|
          ≤ (1 / 10 ^ 33 + 1700 * u) * ∑ k ∈ Finset.range (2 * N), |p.coeff k| := by
  have hm : N ∈ [2, 3, 4] := by simp only [List.mem_cons, List.not_mem_nil, or_false]; omega
  obtain ⟨C, W, hC, hW, hq⟩ := C29_gaussLegendre_exact N h h'
  obtain ⟨C', hC', -, -, hin⟩ := C24_gaussLegendre_coordinates N h h'
  obtain ⟨W', hW', hpos, -, hsum⟩ := C28_partial.1 N h h'
  have eC : C' = C := funext fun i => Res.ok.inj ((hC' i).symm.trans (hC i))
  have eW : W' = W := funext fun i => Res.ok.inj ((hW' i).symm.trans (hW i))
  subst eC; subst eW
  obtain ⟨c, C'', hcx, hcr, hc, -⟩ := table_nodes hr (f := fun A => GaussLegendre.coordCT A (N : Int))
    (fun h => legendre_coordCT_hom h _) rfl rfl (legendre_tracked N hm).1 (legendre_tracked N hm).2 hu
  obtain ⟨w, W'', hWv, hwx, hwr, hw⟩ := table_error hr
    (f := fun A => QuadratureGaussLegendre.weightCT A (N : Int))
    (fun h => legendre_weightCT_hom h _) rfl rfl (weights_tracked.1 N hm).1
  have eC : C'' = C' := funext fun i => Res.ok.inj ((hcx i).symm.trans (hC i))
  have eW : W'' = W' := funext fun i => Res.ok.inj ((hwx i).symm.trans (hW i))
  subst eC; subst eW
  refine ⟨c, w, hcr, hwr, fun i => weight_pos hr hu (hw i) (hWv i) ((weights_tracked.1 N hm).2 i), fun p hp => ?_⟩
  refine rule_near (by omega) hr hu (fun i => abs_le.2 ⟨(hin i).1.le, (hin i).2.le⟩) (fun i => (hpos i).le) ?_ hc
    (fun i => by have := hw i; push_cast at this; exact this) (by omega) (by omega) (hq p hp)
  have := (abs_le.1 hsum).2
  have h33 : (1 : ℝ) / 10 ^ 33 ≤ 1 / 2 := by norm_num
  linarith

/-- **C64, Gauss-Lobatto.** The same up to degree 2N-3. -/
theorem C64_gaussLobatto (hr : Rounds fl u) (hu : 1000 * u ≤ 1) (N : ℕ) (h : 2 ≤ N) (h' : N ≤ 9) :
    ∃ c w : Fin N → ℝ,
      (∀ i : Fin N, (quadratureGaussLobatto (roundedArith fl) N).coordCT (i : ℕ) = .ok (c i)) ∧
      (∀ i : Fin N, (quadratureGaussLobatto (roundedArith fl) N).weightCT (i : ℕ) = .ok (w i)) ∧
      (∀ i, 0 < w i) ∧
      ∀ p : Polynomial ℝ, p.natDegree ≤ 2 * N - 3 →
        |∑ i, w i * p.eval (c i) - ∫ x in (-1 : ℝ)..1, p.eval x|
          ≤ ((if N ≤ 5 then 2 / 10 ^ 33 else 2 / 10 ^ 14) + 1700 * u)
            * ∑ k ∈ Finset.range (2 * N - 2), |p.coeff k| := by
  have hm : N ∈ [2, 3, 4, 5, 6, 7, 8, 9] := by simp only [List.mem_cons, List.not_mem_nil, or_false]; omega
  obtain ⟨C, W, hC, hW, hq⟩ := C30_gaussLobatto_exact N h h'
  obtain ⟨C', hC', -, -, hin, -⟩ := C24_gaussLobatto_coordinates N h h'
  obtain ⟨W', hW', hpos, -, -, hsum⟩ := C28_partial.2 N h h'
  have eC : C' = C := funext fun i => Res.ok.inj ((hC' i).symm.trans (hC i))
  have eW : W' = W := funext fun i => Res.ok.inj ((hW' i).symm.trans (hW i))
  subst eC; subst eW
  obtain ⟨c, C'', hcx, hcr, hc, -⟩ := table_nodes hr (f := fun A => GaussLobatto.coordCT A (N : Int))
    (fun h => lobatto_coordCT_hom h _) rfl rfl (lobatto_tracked N hm).1 (lobatto_tracked N hm).2 hu
  obtain ⟨w, W'', hWv, hwx, hwr, hw⟩ := table_error hr
    (f := fun A => QuadratureGaussLobatto.weightCT A (N : Int))
    (fun h => lobatto_weightCT_hom h _) rfl rfl (weights_tracked.2 N hm).1
  have eC : C'' = C' := funext fun i => Res.ok.inj ((hcx i).symm.trans (hC i))
  have eW : W'' = W' := funext fun i => Res.ok.inj ((hwx i).symm.trans (hW i))
  subst eC; subst eW
  refine ⟨c, w, hcr, hwr, fun i => weight_pos hr hu (hw i) (hWv i) ((weights_tracked.2 N hm).2 i), fun p hp => ?_⟩
  refine rule_near (by omega) hr hu (fun i => abs_le.2 (hin i)) (fun i => (hpos i).le) ?_ hc
    (fun i => by have := hw i; push_cast at this; exact this) (by omega) (by omega) (hq p hp)
  have := (abs_le.1 hsum).2
  split at this
  · have h33 : (1 : ℝ) / 10 ^ 33 ≤ 1 / 2 := by norm_num
    linarith
  · have h33 : (2 : ℝ) / 10 ^ 14 ≤ 1 / 2 := by norm_num
    linarith

/-! ### the hypotheses can be met -/

/-- Non-vacuity of C60–C64: `double` (without overflow and underflow) and an element of order 2 by 8. -/
example : Rounds (binaryRound 52) (1 / 2 ^ 53) ∧ (1000 : ℝ) * (1 / 2 ^ 53) ≤ 1 ∧
    (1000 : ℝ) * (8 : ℕ) * (1 / 2 ^ 53) ≤ 1 ∧
    ∃ c e, IsLagrangeIn (roundedArith (binaryRound 52)) (d := 2) ![2, 8] c e := by
  have hr := (C60_binaryRound 52).1
  have h8 : (1000 : ℝ) * (8 : ℕ) * (1 / 2 ^ 53) ≤ 1 := by norm_num
  refine ⟨hr, by norm_num, h8, ?_⟩
  obtain ⟨c0, h0⟩ := C63_nodes hr .equal 2 (by norm_num) (by simp [Family.Supports]) (by norm_num)
  obtain ⟨c1, h1⟩ := C63_nodes hr .gaussLobatto 8 (by norm_num) (by simp [Family.Supports]) h8
  obtain ⟨b0, hb0, -⟩ := C60_value_error hr (S := Family.equal.spacing (roundedArith (binaryRound 52)))
    (by norm_num) h0
  obtain ⟨b1, hb1, -⟩ := C60_value_error hr (S := Family.gaussLobatto.spacing (roundedArith (binaryRound 52)))
    (by norm_num) h1
  refine ⟨Fin.cons c0 (Fin.cons c1 finZeroElim), ⟨.ok 2, [b0, b1]⟩, by norm_num, rfl, ![b0, b1], rfl, ?_⟩
  intro k
  fin_cases k
  · exact ⟨by norm_num, _, h0, hb0⟩
  · exact ⟨by norm_num, _, h1, hb1⟩

end Verif.Props
