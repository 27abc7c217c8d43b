import Verif.Lemmas.Quadrature

/-! # Properties C23–C31: spacings and quadrature rules -/

namespace Verif.Props

open Verif.Spec Verif.Lemmas Polynomial

/-! ### EqualSpacing -/

/-- **C23.** `EqualSpacing` with `N ≥ 2` points: both accessors return the same coordinates for every
index; they go from -1 to 1 in equal steps `interval() = 2/(N-1)`, increasing and symmetric. -/
theorem C23_equalSpacing (n : Int) (hn : 2 ≤ n) (hn' : n ≤ 2147483647) :
    ∃ (h : ℝ) (c : Int → ℝ),
      EqualSpacing.interval (exactArith ℝ) n = .ok h ∧ h = 2 / ((n : ℝ) - 1) ∧
      (∀ i, (equalSpacing (exactArith ℝ) n).coordCT i = .ok (c i)) ∧
      (∀ i, (equalSpacing (exactArith ℝ) n).coordRT i = .ok (c i)) ∧
      c 0 = -1 ∧ c (n - 1) = 1 ∧ (∀ i, c (i + 1) - c i = h) ∧ StrictMono c ∧
      ∀ i, c (n - 1 - i) = -c i := by
  have hn1 : (0 : ℝ) < (n : ℝ) - 1 := by
    have : (2 : ℝ) ≤ n := by exact_mod_cast hn
    linarith
  have hint : EqualSpacing.interval (exactArith ℝ) n = .ok (2 / ((n : ℝ) - 1)) := by
    have hsub : isub n 1 = .ok (n - 1) :=
      tnorm_ok ⟨by show (-2147483648 : Int) ≤ _; omega, by show _ ≤ (2147483647 : Int); omega⟩
    have h0 : (((n - 1 : Int) : ℚ) : ℝ) ≠ 0 := by push_cast; exact hn1.ne'
    rw [EqualSpacing.interval, hsub, Res.ok_bind]
    simp only [exactArith, if_neg h0]
    push_cast; rfl
  refine ⟨_, fun i => -1 + i * (2 / ((n : ℝ) - 1)), hint, rfl, fun i => ?_, fun i => ?_, by simp, ?_,
    fun i => by push_cast; ring, ?_, fun i => ?_⟩
  · simp only [equalSpacing, EqualSpacing.coordCT, hint, Res.ok_bind]
    simp [exactArith]
  · simp only [equalSpacing, EqualSpacing.coordRT, hint, Res.ok_bind]
    simp [exactArith]
  · push_cast; field_simp; ring
  · intro i j hij
    have h1 : (i : ℝ) < j := by exact_mod_cast hij
    have h2 : 0 < 2 / ((n : ℝ) - 1) := by positivity
    simp only []
    nlinarith
  · push_cast; field_simp; ring

/-- **C23, the member `numPoints`.** The first point is -1 and the one with index `numPoints - 1` is 1, with both accessors. -/
theorem C23_numPoints (n : Int) (hn : 2 ≤ n) (hn' : n ≤ 2147483647) {S : Spacing ℝ} (hS : S = equalSpacing (exactArith ℝ) n) :
    S.numPoints = n ∧ S.coordCT 0 = .ok (-1) ∧ S.coordCT (S.numPoints - 1) = .ok 1 ∧
      S.coordRT 0 = .ok (-1) ∧ S.coordRT (S.numPoints - 1) = .ok 1 := by
  subst hS
  obtain ⟨h, c, -, -, h1, h2, h3, h4, -⟩ := C23_equalSpacing n hn hn'
  exact ⟨rfl, h3 ▸ h1 0, h4 ▸ h1 (n - 1), h3 ▸ h2 0, h4 ▸ h2 (n - 1)⟩

/-- Non-vacuity of C23: three points. -/
example : (equalSpacing ratArith 3).coordCT 0 = .ok (-1) ∧ (equalSpacing ratArith 3).coordCT 1 = .ok 0 ∧
    (equalSpacing ratArith 3).coordCT 2 = .ok 1 ∧ (equalSpacing ratArith 1).coordCT 0 = .nonfinite := by
  decide +kernel

/-! ### Gauss coordinates -/

/-- Transfer of a table of coordinates or weights to ℝ. -/
private theorem toReal {N : ℕ} {f : Int → Res ℚ} {g : Int → Res ℝ}
    (hom : ∀ i, g i = (fun q : ℚ => (q : ℝ)) <$> f i) (h : AllOk N f) (i : Fin N) :
    g (i : ℕ) = .ok ((val (f (i : ℕ)) : ℚ) : ℝ) := by
  rw [hom, h i]; rfl

private def Ordered (N : ℕ) (f : Int → Res ℚ) : Prop :=
  AllOk N f ∧ (∀ i j : Fin N, i < j → val (f (i : ℕ)) < val (f (j : ℕ))) ∧
    ∀ i : Fin N, val (f (i.rev : ℕ)) = -val (f (i : ℕ))

private instance (N : ℕ) (f : Int → Res ℚ) : Decidable (Ordered N f) :=
  inferInstanceAs (Decidable (_ ∧ _ ∧ _))

private theorem legendre_table : ∀ N ∈ [2, 3, 4],
    Ordered N (GaussLegendre.coordCT ratArith N) ∧
    ∀ i : Fin N, -1 < val (GaussLegendre.coordCT ratArith N (i : ℕ)) ∧
      val (GaussLegendre.coordCT ratArith N (i : ℕ)) < 1 := by decide +kernel

private theorem lobatto_table : ∀ N ∈ [2, 3, 4, 5, 6, 7, 8, 9],
    Ordered N (GaussLobatto.coordCT ratArith N) ∧
    val (GaussLobatto.coordCT ratArith N 0) = -1 ∧
      val (GaussLobatto.coordCT ratArith N ((N : Int) - 1)) = 1 := by decide +kernel

private theorem mem24 {N : ℕ} (h : 2 ≤ N) (h' : N ≤ 4) : N ∈ [2, 3, 4] := by
  simp only [List.mem_cons, List.not_mem_nil, or_false]; omega

private theorem mem29 {N : ℕ} (h : 2 ≤ N) (h' : N ≤ 9) : N ∈ [2, 3, 4, 5, 6, 7, 8, 9] := by
  simp only [List.mem_cons, List.not_mem_nil, or_false]; omega

/-- **C24, Gauss-Legendre.** For 2 to 4 points the coordinates are strictly increasing, symmetric about 0
and strictly inside (-1,1). -/
theorem C24_gaussLegendre_coordinates (N : ℕ) (h : 2 ≤ N) (h' : N ≤ 4) :
    ∃ c : Fin N → ℝ, (∀ i : Fin N, (gaussLegendreSpacing (exactArith ℝ) N).coordCT (i : ℕ) = .ok (c i)) ∧
      StrictMono c ∧ (∀ i, c i.rev = -c i) ∧ ∀ i, -1 < c i ∧ c i < 1 := by
  obtain ⟨⟨h1, h2, h3⟩, h4⟩ := legendre_table N (mem24 h h')
  refine ⟨fun i => ((val (GaussLegendre.coordCT ratArith N (i : ℕ)) : ℚ) : ℝ),
    fun i => toReal (legendre_coordCT_hom ratCast_hom N) h1 i, fun i j hij => Rat.cast_lt.2 (h2 i j hij),
    fun i => ?_, fun i => ⟨?_, ?_⟩⟩
  · have := h3 i
    simp only []; rw [this, Rat.cast_neg]
  · have := (Rat.cast_lt (K := ℝ)).2 (h4 i).1
    push_cast at this; exact this
  · have := (Rat.cast_lt (K := ℝ)).2 (h4 i).2
    push_cast at this; exact this

/-- **C24, Gauss-Lobatto.** For 2 to 9 points the coordinates are strictly increasing, symmetric about 0,
and the first and last are exactly -1 and 1. -/
theorem C24_gaussLobatto_coordinates (N : ℕ) (h : 2 ≤ N) (h' : N ≤ 9) :
    ∃ c : Fin N → ℝ, (∀ i : Fin N, (gaussLobattoSpacing (exactArith ℝ) N).coordCT (i : ℕ) = .ok (c i)) ∧
      StrictMono c ∧ (∀ i, c i.rev = -c i) ∧ (∀ i, -1 ≤ c i ∧ c i ≤ 1) ∧
      c ⟨0, by omega⟩ = -1 ∧ c ⟨N - 1, by omega⟩ = 1 := by
  obtain ⟨⟨h1, h2, h3⟩, h4, h5⟩ := lobatto_table N (mem29 h h')
  have hm : StrictMono fun i : Fin N => ((val (GaussLobatto.coordCT ratArith N (i : ℕ)) : ℚ) : ℝ) :=
    fun i j hij => Rat.cast_lt.2 (h2 i j hij)
  have e : (((N - 1 : ℕ) : ℕ) : Int) = (N : Int) - 1 := by omega
  have hlo : ((val (GaussLobatto.coordCT ratArith N ((0 : ℕ) : Int)) : ℚ) : ℝ) = -1 := by
    have := h4; push_cast; exact_mod_cast this
  have hhi : ((val (GaussLobatto.coordCT ratArith N ((N - 1 : ℕ) : Int)) : ℚ) : ℝ) = 1 := by
    rw [e]; exact_mod_cast h5
  refine ⟨_, fun i => toReal (lobatto_coordCT_hom ratCast_hom N) h1 i, hm,
    fun i => ?_, fun i => ⟨?_, ?_⟩, hlo, hhi⟩
  · have := h3 i
    rw [this, Rat.cast_neg]
  · have := hm.monotone (show (⟨0, by omega⟩ : Fin N) ≤ i from Fin.mk_le_of_le_val (by omega))
    simpa only [hlo] using this
  · have := hm.monotone (show i ≤ (⟨N - 1, by omega⟩ : Fin N) from Fin.mk_le_mk.2 (by omega))
    simpa only [hhi] using this

/-- **C24, the member `numPoints`.** The point with index `numPoints - 1` is the mirror image of the first; for Gauss-Lobatto points it is 1. -/
theorem C24_numPoints :
    (∀ N : ℕ, 2 ≤ N → N ≤ 4 → ∀ S : Spacing ℝ, S = gaussLegendreSpacing (exactArith ℝ) N →
      S.numPoints = N ∧ ∃ x : ℝ, S.coordCT 0 = .ok (-x) ∧ S.coordCT (S.numPoints - 1) = .ok x) ∧
    ∀ N : ℕ, 2 ≤ N → N ≤ 9 → ∀ S : Spacing ℝ, S = gaussLobattoSpacing (exactArith ℝ) N →
      S.numPoints = N ∧ S.coordCT 0 = .ok (-1) ∧ S.coordCT (S.numPoints - 1) = .ok 1 := by
  refine ⟨fun N h h' S hS => ?_, fun N h h' S hS => ?_⟩
  · subst hS
    obtain ⟨c, h1, -, h2, -⟩ := C24_gaussLegendre_coordinates N h h'
    have e : (((N - 1 : ℕ) : ℕ) : Int) = (N : Int) - 1 := by omega
    have h0 := h2 ⟨N - 1, by omega⟩
    rw [show Fin.rev (⟨N - 1, by omega⟩ : Fin N) = ⟨0, by omega⟩ from Fin.ext (by simp [Fin.val_rev]; omega)] at h0
    refine ⟨rfl, c ⟨N - 1, by omega⟩, h0 ▸ h1 ⟨0, by omega⟩, ?_⟩
    have := h1 ⟨N - 1, by omega⟩
    simp only [e] at this
    exact this
  · subst hS
    obtain ⟨c, h1, -, -, -, h2, h3⟩ := C24_gaussLobatto_coordinates N h h'
    have e : (((N - 1 : ℕ) : ℕ) : Int) = (N : Int) - 1 := by omega
    refine ⟨rfl, h2 ▸ h1 ⟨0, by omega⟩, ?_⟩
    have := h1 ⟨N - 1, by omega⟩
    simp only [e, h3] at this
    exact this

/-- Non-vacuity of C24. -/
example : (gaussLobattoSpacing ratArith 3).coordCT 1 = .ok 0 ∧
    (gaussLegendreSpacing ratArith 3).coordCT 1 = .ok 0 := by decide +kernel

/-- **C25 fails.** For 6 to 9 Gauss-Lobatto points the run-time coordinate is 0 for every index, while
the compile-time one is -1 at index 0. -/
theorem C25_violated (N : ℕ) (h : 6 ≤ N) (h' : N ≤ 9) :
    (∀ i : Int, (gaussLobattoSpacing (exactArith ℝ) N).coordRT i = .ok 0) ∧
    (gaussLobattoSpacing (exactArith ℝ) N).coordCT 0 = .ok (-1) := by
  constructor
  · intro i
    have e2 : ((N : ℕ) : Int) ≠ 2 := by omega
    have e3 : ((N : ℕ) : Int) ≠ 3 := by omega
    have e4 : ((N : ℕ) : Int) ≠ 4 := by omega
    have e5 : ((N : ℕ) : Int) ≠ 5 := by omega
    simp [gaussLobattoSpacing, GaussLobatto.coordRT, e2, e3, e4, e5, exactArith]
  · obtain ⟨⟨h1, -, -⟩, h4, -⟩ := lobatto_table N (mem29 (by omega) h')
    have := toReal (lobatto_coordCT_hom ratCast_hom N) h1 ⟨0, by omega⟩
    show GaussLobatto.coordCT (exactArith ℝ) N 0 = _
    rw [show (0 : Int) = ((0 : ℕ) : Int) from rfl, this]
    congr 1
    exact_mod_cast h4

private theorem rt_eq_ct :
    (∀ N ∈ [2, 3, 4], ∀ i : Fin N, GaussLegendre.coordRT ratArith N (i : ℕ)
      = GaussLegendre.coordCT ratArith N (i : ℕ)) ∧
    (∀ N ∈ [2, 3, 4, 5], ∀ i : Fin N, GaussLobatto.coordRT ratArith N (i : ℕ)
      = GaussLobatto.coordCT ratArith N (i : ℕ)) := by decide +kernel

/-- **C25, part that holds.** The run-time and compile-time coordinates agree for equal spacing with any
number of points and any index, for Gauss-Legendre with 2 to 4 points and for Gauss-Lobatto with 2 to
5 points.  Missing: Gauss-Lobatto with 6 to 9 points, where `C25_violated` refutes it. -/
theorem C25_partial :
    (∀ n i : Int, (equalSpacing (exactArith ℝ) n).coordRT i = (equalSpacing (exactArith ℝ) n).coordCT i) ∧
    (∀ N : ℕ, 2 ≤ N → N ≤ 4 → ∀ i : Fin N, (gaussLegendreSpacing (exactArith ℝ) N).coordRT (i : ℕ)
      = (gaussLegendreSpacing (exactArith ℝ) N).coordCT (i : ℕ)) ∧
    (∀ N : ℕ, 2 ≤ N → N ≤ 5 → ∀ i : Fin N, (gaussLobattoSpacing (exactArith ℝ) N).coordRT (i : ℕ)
      = (gaussLobattoSpacing (exactArith ℝ) N).coordCT (i : ℕ)) := by
  refine ⟨fun n i => ?_, fun N h h' i => ?_, fun N h h' i => ?_⟩
  · simp only [equalSpacing, EqualSpacing.coordRT, EqualSpacing.coordCT]
    refine bind_congr' _ fun a => ?_
    simp [exactArith]
  · simp only [gaussLegendreSpacing]
    rw [legendre_coordRT_hom ratCast_hom, legendre_coordCT_hom ratCast_hom,
      rt_eq_ct.1 N (mem24 h h') i]
  · simp only [gaussLobattoSpacing]
    rw [lobatto_coordRT_hom ratCast_hom, lobatto_coordCT_hom ratCast_hom,
      rt_eq_ct.2 N (by simp only [List.mem_cons, List.not_mem_nil, or_false]; omega) i]

/-- Non-vacuity of C25: the run-time formula of the 4-point rule. -/
example : (gaussLobattoSpacing ratArith 4).coordRT 1 = .ok (-0.44721359549995793928183473374625524709) := by
  decide +kernel

/-! ### true nodes -/

private def SignChange (N : ℕ) (p : ℚ → ℚ) (f : Int → Res ℚ) (ε : ℚ) : Prop :=
  (∀ i : Fin N, p (val (f (i : ℕ)) - ε) * p (val (f (i : ℕ)) + ε) < 0) ∧
    ∀ i j : Fin N, i < j → val (f (i : ℕ)) + ε < val (f (j : ℕ)) - ε

private instance (N : ℕ) (p : ℚ → ℚ) (f : Int → Res ℚ) (ε : ℚ) : Decidable (SignChange N p f ε) :=
  inferInstanceAs (Decidable (_ ∧ _))

private theorem legendre_signs : ∀ N ∈ [2, 3, 4],
    SignChange N (legEval N) (GaussLegendre.coordCT ratArith N) (1 / 10 ^ 36) := by decide +kernel

private theorem lobatto_signs_low : ∀ N ∈ [2, 3, 4, 5],
    SignChange N (lobEval N) (GaussLobatto.coordCT ratArith N) (1 / 10 ^ 36) := by decide +kernel

private theorem lobatto_signs : ∀ N ∈ [2, 3, 4, 5, 6, 7, 8, 9],
    SignChange N (lobEval N) (GaussLobatto.coordCT ratArith N) (2 / 10 ^ 14) := by decide +kernel

/-- **C26, Gauss-Legendre.** For 2 to 4 points, the coordinates are within 1e-36 of the roots of the
Legendre polynomial `P_N`, one for one, and these are all its roots. -/
theorem C26_gaussLegendre_nodes (N : ℕ) (h : 2 ≤ N) (h' : N ≤ 4) :
    ∃ x : Fin N → ℝ, StrictMono x ∧ (∀ y, (legendre N).eval y = 0 ↔ ∃ i, y = x i) ∧
      ∀ i : Fin N, ∃ c, (gaussLegendreSpacing (exactArith ℝ) N).coordCT (i : ℕ) = .ok c ∧
        |c - x i| ≤ 1 / 10 ^ 36 := by
  obtain ⟨⟨h1, -, -⟩, -⟩ := legendre_table N (mem24 h h')
  obtain ⟨hs, hsep⟩ := legendre_signs N (mem24 h h')
  obtain ⟨x, hx1, hx2, hx3⟩ := roots_near (legendre N) (legendre_ne_zero N) (natDegree_legendre N)
    (fun i => ((val (GaussLegendre.coordCT ratArith N (i : ℕ)) : ℚ) : ℝ)) (1 / 10 ^ 36) (by positivity)
    (fun i => by
      have := hs i
      rw [eval_legendre, eval_legendre,
        show (1 / 10 ^ 36 : ℝ) = ((1 / 10 ^ 36 : ℚ) : ℝ) by push_cast; rfl, ← Rat.cast_sub, ← Rat.cast_add,
        legEval_cast, legEval_cast]
      exact_mod_cast this)
    (fun i j hij => by
      have := hsep i j hij
      rw [show (1 / 10 ^ 36 : ℝ) = ((1 / 10 ^ 36 : ℚ) : ℝ) by push_cast; rfl]
      exact_mod_cast this)
  exact ⟨x, hx1, hx2, fun i => ⟨_, toReal (legendre_coordCT_hom ratCast_hom N) h1 i, hx3 i⟩⟩

private theorem lobatto_nodes (N : ℕ) (h : 2 ≤ N) (h' : N ≤ 9) (ε : ℚ) (hε : 0 ≤ ε)
    (hsc : SignChange N (lobEval N) (GaussLobatto.coordCT ratArith N) ε) :
    ∃ x : Fin N → ℝ, StrictMono x ∧ (∀ y, (lobattoPoly N).eval y = 0 ↔ ∃ i, y = x i) ∧
      ∀ i : Fin N, ∃ c, (gaussLobattoSpacing (exactArith ℝ) N).coordCT (i : ℕ) = .ok c ∧
        |c - x i| ≤ (ε : ℝ) := by
  obtain ⟨⟨h1, -, -⟩, -, -⟩ := lobatto_table N (mem29 h h')
  obtain ⟨hs, hsep⟩ := hsc
  obtain ⟨x, hx1, hx2, hx3⟩ := roots_near (lobattoPoly N) (lobattoPoly_ne_zero N h)
    (natDegree_lobattoPoly N h)
    (fun i => ((val (GaussLobatto.coordCT ratArith N (i : ℕ)) : ℚ) : ℝ)) (ε : ℝ) (by exact_mod_cast hε)
    (fun i => by
      have := hs i
      rw [eval_lobattoPoly, eval_lobattoPoly, ← Rat.cast_sub, ← Rat.cast_add,
        lobEval_cast, lobEval_cast]
      exact_mod_cast this)
    (fun i j hij => by exact_mod_cast hsep i j hij)
  exact ⟨x, hx1, hx2, fun i => ⟨_, toReal (lobatto_coordCT_hom ratCast_hom N) h1 i, hx3 i⟩⟩

/-- **C26, Gauss-Lobatto.** The coordinates are within 1e-36 (2 to 5 points) or 2e-14 (6 to 9 points) of
the roots of `(1-x^2) P'_{N-1}(x)`, one for one, and these are all its roots. -/
theorem C26_gaussLobatto_nodes (N : ℕ) (h : 2 ≤ N) (h' : N ≤ 9) :
    ∃ x : Fin N → ℝ, StrictMono x ∧ (∀ y, (lobattoPoly N).eval y = 0 ↔ ∃ i, y = x i) ∧
      ∀ i : Fin N, ∃ c, (gaussLobattoSpacing (exactArith ℝ) N).coordCT (i : ℕ) = .ok c ∧
        |c - x i| ≤ if N ≤ 5 then 1 / 10 ^ 36 else 2 / 10 ^ 14 := by
  by_cases h5 : N ≤ 5
  · have := lobatto_nodes N h h' (1 / 10 ^ 36) (by norm_num)
      (lobatto_signs_low N (by simp only [List.mem_cons, List.not_mem_nil, or_false]; omega))
    push_cast at this
    simpa only [if_pos h5] using this
  · have := lobatto_nodes N h h' (2 / 10 ^ 14) (by norm_num) (lobatto_signs N (mem29 h h'))
    push_cast at this
    simpa only [if_neg h5] using this

/-- Non-vacuity of C26: `P_2` is `(3x^2-1)/2`, and the interior Lobatto polynomial for 3 points has the
root 0. -/
example : (∀ x : ℝ, (legendre 2).eval x = (3 * x ^ 2 - 1) / 2) ∧ (lobattoPoly 3).eval 0 = 0 := by
  constructor
  · intro x; rw [eval_legendre]; simp [legEval]; ring
  · rw [eval_lobattoPoly]; simp [lobEval, legDer, legEval]

/-! ### weights -/

private theorem weights_rt_ct :
    (∀ N ∈ [2, 3, 4], AllOk N (QuadratureGaussLegendre.weightRT ratArith N) ∧
      ∀ i : Fin N, |val (QuadratureGaussLegendre.weightRT ratArith N (i : ℕ))
        - val (QuadratureGaussLegendre.weightCT ratArith N (i : ℕ))| ≤ 1 / 10 ^ 33) ∧
    (∀ N ∈ [2, 3, 4, 5], AllOk N (QuadratureGaussLobatto.weightRT ratArith N) ∧
      ∀ i : Fin N, |val (QuadratureGaussLobatto.weightRT ratArith N (i : ℕ))
        - val (QuadratureGaussLobatto.weightCT ratArith N (i : ℕ))| ≤ 1 / 10 ^ 33) := by
  decide +kernel

private theorem weights_ok :
    (∀ N ∈ [2, 3, 4], AllOk N (QuadratureGaussLegendre.weightCT ratArith N)) ∧
    (∀ N ∈ [2, 3, 4, 5, 6, 7, 8, 9], AllOk N (QuadratureGaussLobatto.weightCT ratArith N)) := by
  decide +kernel

/-- **C27.** Wherever the run-time weight compiles, it agrees with the compile-time weight, as exact
decimals, within 1e-33 (the literals are given to 34 digits). -/
theorem C27_weights_agree :
    (∀ N : ℕ, 2 ≤ N → N ≤ 4 → ∀ i : Fin N, ∃ a b,
      (quadratureGaussLegendre (exactArith ℝ) N).weightRT (i : ℕ) = .ok a ∧
      (quadratureGaussLegendre (exactArith ℝ) N).weightCT (i : ℕ) = .ok b ∧ |a - b| ≤ 1 / 10 ^ 33) ∧
    (∀ N : ℕ, 2 ≤ N → N ≤ 5 → ∀ i : Fin N, ∃ a b,
      (quadratureGaussLobatto (exactArith ℝ) N).weightRT (i : ℕ) = .ok a ∧
      (quadratureGaussLobatto (exactArith ℝ) N).weightCT (i : ℕ) = .ok b ∧ |a - b| ≤ 1 / 10 ^ 33) := by
  constructor
  · intro N h h' i
    obtain ⟨h1, h2⟩ := weights_rt_ct.1 N (mem24 h h')
    refine ⟨_, _, toReal (legendre_weightRT_hom ratCast_hom N) h1 i,
      toReal (legendre_weightCT_hom ratCast_hom N) (weights_ok.1 N (mem24 h h')) i, ?_⟩
    have := h2 i
    have e : ((|val (QuadratureGaussLegendre.weightRT ratArith N (i : ℕ))
        - val (QuadratureGaussLegendre.weightCT ratArith N (i : ℕ))| : ℚ) : ℝ)
        ≤ ((1 / 10 ^ 33 : ℚ) : ℝ) := by exact_mod_cast this
    push_cast at e; exact e
  · intro N h h' i
    obtain ⟨h1, h2⟩ := weights_rt_ct.2 N
      (by simp only [List.mem_cons, List.not_mem_nil, or_false]; omega)
    refine ⟨_, _, toReal (lobatto_weightRT_hom ratCast_hom N) h1 i,
      toReal (lobatto_weightCT_hom ratCast_hom N) (weights_ok.2 N (mem29 h (by omega))) i, ?_⟩
    have := h2 i
    have e : ((|val (QuadratureGaussLobatto.weightRT ratArith N (i : ℕ))
        - val (QuadratureGaussLobatto.weightCT ratArith N (i : ℕ))| : ℚ) : ℝ)
        ≤ ((1 / 10 ^ 33 : ℚ) : ℝ) := by exact_mod_cast this
    push_cast at e; exact e

/-- Non-vacuity of C27: the two 4-point Lobatto weights at index 1 differ in the last digit. -/
example : (quadratureGaussLobatto ratArith 4).weightRT 1 ≠ (quadratureGaussLobatto ratArith 4).weightCT 1 := by
  decide +kernel

/-- **C28 fails.** The second weights from the left and right of the 8-point Gauss-Lobatto rule differ. -/
theorem C28_violated :
    (quadratureGaussLobatto ratArith 8).weightCT 1 = .ok 0.2107042271435 ∧
    (quadratureGaussLobatto ratArith 8).weightCT 6 = .ok 0.21070422714351 ∧
    (quadratureGaussLobatto (exactArith ℝ) 8).weightCT 1
      ≠ (quadratureGaussLobatto (exactArith ℝ) 8).weightCT 6 := by
  refine ⟨by decide +kernel, by decide +kernel, ?_⟩
  show QuadratureGaussLobatto.weightCT (exactArith ℝ) 8 1 ≠ QuadratureGaussLobatto.weightCT (exactArith ℝ) 8 6
  rw [lobatto_weightCT_hom ratCast_hom, lobatto_weightCT_hom ratCast_hom,
    show QuadratureGaussLobatto.weightCT ratArith 8 1 = .ok 0.2107042271435 by decide +kernel,
    show QuadratureGaussLobatto.weightCT ratArith 8 6 = .ok 0.21070422714351 by decide +kernel]
  simp only [Res.map_ok, ne_eq, Res.ok.injEq]
  norm_num

private def WeightsGood (N : ℕ) (w : Int → Res ℚ) (ε : ℚ) : Prop :=
  (∀ i : Fin N, 0 < val (w (i : ℕ))) ∧
  (∀ i : Fin N, |val (w (i.rev : ℕ)) - val (w (i : ℕ))| ≤ if N = 8 then 1 / 10 ^ 14 else 0) ∧
  |∑ i : Fin N, val (w (i : ℕ)) - 2| ≤ ε

private instance (N : ℕ) (w : Int → Res ℚ) (ε : ℚ) : Decidable (WeightsGood N w ε) :=
  inferInstanceAs (Decidable (_ ∧ _ ∧ _))

private theorem weights_good :
    (∀ N ∈ [2, 3, 4], WeightsGood N (QuadratureGaussLegendre.weightCT ratArith N) (1 / 10 ^ 33)) ∧
    (∀ N ∈ [2, 3, 4, 5, 6, 7, 8, 9],
      WeightsGood N (QuadratureGaussLobatto.weightCT ratArith N)
        (if N ≤ 5 then 1 / 10 ^ 33 else 2 / 10 ^ 14)) := by
  decide +kernel

private theorem weights_real {N : ℕ} {w : Int → Res ℚ} {g : Int → Res ℝ} {ε : ℚ}
    (hom : ∀ i, g i = (fun q : ℚ => (q : ℝ)) <$> w i) (hok : AllOk N w) (h : WeightsGood N w ε) :
    ∃ v : Fin N → ℝ, (∀ i : Fin N, g (i : ℕ) = .ok (v i)) ∧ (∀ i, 0 < v i) ∧
      (∀ i, |v i.rev - v i| ≤ if N = 8 then 1 / 10 ^ 14 else 0) ∧ |∑ i, v i - 2| ≤ (ε : ℝ) := by
  obtain ⟨h1, h2, h3⟩ := h
  refine ⟨_, fun i => toReal hom hok i, fun i => Rat.cast_pos.2 (h1 i), fun i => ?_, ?_⟩
  · have := h2 i
    have e : ((|val (w (i.rev : ℕ)) - val (w (i : ℕ))| : ℚ) : ℝ)
        ≤ ((if N = 8 then 1 / 10 ^ 14 else 0 : ℚ) : ℝ) := by exact_mod_cast this
    split at e <;> rename_i h5 <;> simp only [h5, if_true, if_false] <;> push_cast at e <;> exact e
  · have e : ((|∑ i : Fin N, val (w (i : ℕ)) - 2| : ℚ) : ℝ) ≤ (ε : ℝ) := by exact_mod_cast h3
    push_cast at e; exact e

/-- **C28, part that holds.** All weights are positive and sum to 2 within 1e-33 (2e-14 for Gauss-Lobatto
with 6 to 9 points), and they are exactly symmetric except for the 8-point Gauss-Lobatto rule, where
symmetry holds within 1e-14.  Missing: exact symmetry of that rule, refuted by `C28_violated`. -/
theorem C28_partial :
    (∀ N : ℕ, 2 ≤ N → N ≤ 4 → ∃ w : Fin N → ℝ,
      (∀ i : Fin N, (quadratureGaussLegendre (exactArith ℝ) N).weightCT (i : ℕ) = .ok (w i)) ∧
      (∀ i, 0 < w i) ∧ (∀ i, w i.rev = w i) ∧ |∑ i, w i - 2| ≤ 1 / 10 ^ 33) ∧
    (∀ N : ℕ, 2 ≤ N → N ≤ 9 → ∃ w : Fin N → ℝ,
      (∀ i : Fin N, (quadratureGaussLobatto (exactArith ℝ) N).weightCT (i : ℕ) = .ok (w i)) ∧
      (∀ i, 0 < w i) ∧ (N ≠ 8 → ∀ i, w i.rev = w i) ∧ (∀ i, |w i.rev - w i| ≤ 1 / 10 ^ 14) ∧
      |∑ i, w i - 2| ≤ if N ≤ 5 then 1 / 10 ^ 33 else 2 / 10 ^ 14) := by
  constructor
  · intro N h h'
    obtain ⟨w, h1, h2, h3, h4⟩ := weights_real (legendre_weightCT_hom ratCast_hom N)
      (weights_ok.1 N (mem24 h h')) (weights_good.1 N (mem24 h h'))
    refine ⟨w, h1, h2, fun i => ?_, by push_cast at h4; exact h4⟩
    have := h3 i
    rw [if_neg (by omega)] at this
    exact sub_eq_zero.1 (abs_nonpos_iff.1 this)
  · intro N h h'
    obtain ⟨w, h1, h2, h3, h4⟩ := weights_real (lobatto_weightCT_hom ratCast_hom N)
      (weights_ok.2 N (mem29 h h')) (weights_good.2 N (mem29 h h'))
    refine ⟨w, h1, h2, fun h8 i => ?_, fun i => (h3 i).trans ?_, by
      split at h4 <;> rename_i h5 <;> simp only [h5, if_true, if_false] <;> push_cast at h4 <;> exact h4⟩
    · have := h3 i
      rw [if_neg h8] at this
      exact sub_eq_zero.1 (abs_nonpos_iff.1 this)
    · split <;> norm_num

/-! ### exactness -/

private theorem legendre_moments : ∀ N ∈ [2, 3, 4],
    MomentsOk N (2 * N) (GaussLegendre.coordCT ratArith N)
      (QuadratureGaussLegendre.weightCT ratArith N) (1 / 10 ^ 33) := by decide +kernel

private theorem legendre_moments_rt : ∀ N ∈ [2, 3, 4],
    MomentsOk N (2 * N) (GaussLegendre.coordCT ratArith N)
      (QuadratureGaussLegendre.weightRT ratArith N) (1 / 10 ^ 33) := by decide +kernel

private theorem lobatto_moments : ∀ N ∈ [2, 3, 4, 5, 6, 7, 8, 9],
    MomentsOk N (2 * N - 2) (GaussLobatto.coordCT ratArith N)
      (QuadratureGaussLobatto.weightCT ratArith N)
      (if N ≤ 5 then 2 / 10 ^ 33 else 2 / 10 ^ 14) := by decide +kernel

private theorem lobatto_moments_rt : ∀ N ∈ [2, 3, 4, 5],
    MomentsOk N (2 * N - 2) (GaussLobatto.coordCT ratArith N)
      (QuadratureGaussLobatto.weightRT ratArith N) (2 / 10 ^ 33) := by decide +kernel

/-- **C29.** The N-point Gauss-Legendre rule integrates every polynomial of degree at most 2N-1 over
[-1,1], up to 1e-33 times the sum of the absolute values of its coefficients (the literals are given to
about 34 digits). -/
theorem C29_gaussLegendre_exact (N : ℕ) (h : 2 ≤ N) (h' : N ≤ 4) :
    ∃ c w : Fin N → ℝ,
      (∀ i : Fin N, (quadratureGaussLegendre (exactArith ℝ) N).coordCT (i : ℕ) = .ok (c i)) ∧
      (∀ i : Fin N, (quadratureGaussLegendre (exactArith ℝ) N).weightCT (i : ℕ) = .ok (w i)) ∧
      ∀ p : ℝ[X], p.natDegree ≤ 2 * N - 1 →
        |∑ i, w i * p.eval (c i) - ∫ x in (-1 : ℝ)..1, p.eval x|
          ≤ 1 / 10 ^ 33 * ∑ k ∈ Finset.range (2 * N), |p.coeff k| := by
  obtain ⟨⟨h1, -, -⟩, -⟩ := legendre_table N (mem24 h h')
  refine ⟨_, _, fun i => toReal (legendre_coordCT_hom ratCast_hom N) h1 i,
    fun i => toReal (legendre_weightCT_hom ratCast_hom N) (weights_ok.1 N (mem24 h h')) i, fun p hp => ?_⟩
  have := quadrature_of_moments _ _ (2 * N) _ (moments_cast (legendre_moments N (mem24 h h'))) p (by omega)
  push_cast at this; exact this

/-- **C29, run-time accessors.** The same with `coordinate( i )` and `weight( i )`. -/
theorem C29_gaussLegendre_exact_runtime (N : ℕ) (h : 2 ≤ N) (h' : N ≤ 4) :
    ∃ c w : Fin N → ℝ,
      (∀ i : Fin N, (quadratureGaussLegendre (exactArith ℝ) N).coordRT (i : ℕ) = .ok (c i)) ∧
      (∀ i : Fin N, (quadratureGaussLegendre (exactArith ℝ) N).weightRT (i : ℕ) = .ok (w i)) ∧
      ∀ p : ℝ[X], p.natDegree ≤ 2 * N - 1 →
        |∑ i, w i * p.eval (c i) - ∫ x in (-1 : ℝ)..1, p.eval x|
          ≤ 1 / 10 ^ 33 * ∑ k ∈ Finset.range (2 * N), |p.coeff k| := by
  obtain ⟨⟨h1, -, -⟩, -⟩ := legendre_table N (mem24 h h')
  refine ⟨_, _, fun i => (C25_partial.2.1 N h h' i).trans (toReal (legendre_coordCT_hom ratCast_hom N) h1 i),
    fun i => toReal (legendre_weightRT_hom ratCast_hom N) (weights_rt_ct.1 N (mem24 h h')).1 i,
    fun p hp => ?_⟩
  have := quadrature_of_moments _ _ (2 * N) _ (moments_cast (legendre_moments_rt N (mem24 h h'))) p (by omega)
  push_cast at this; exact this

/-- **C30.** The N-point Gauss-Lobatto rule integrates every polynomial of degree at most 2N-3 over
[-1,1], up to 2e-33 (2 to 5 points) or 2e-14 (6 to 9 points) times the sum of the absolute values of its
coefficients. -/
theorem C30_gaussLobatto_exact (N : ℕ) (h : 2 ≤ N) (h' : N ≤ 9) :
    ∃ c w : Fin N → ℝ,
      (∀ i : Fin N, (quadratureGaussLobatto (exactArith ℝ) N).coordCT (i : ℕ) = .ok (c i)) ∧
      (∀ i : Fin N, (quadratureGaussLobatto (exactArith ℝ) N).weightCT (i : ℕ) = .ok (w i)) ∧
      ∀ p : ℝ[X], p.natDegree ≤ 2 * N - 3 →
        |∑ i, w i * p.eval (c i) - ∫ x in (-1 : ℝ)..1, p.eval x|
          ≤ (if N ≤ 5 then 2 / 10 ^ 33 else 2 / 10 ^ 14)
            * ∑ k ∈ Finset.range (2 * N - 2), |p.coeff k| := by
  obtain ⟨⟨h1, -, -⟩, -, -⟩ := lobatto_table N (mem29 h h')
  refine ⟨_, _, fun i => toReal (lobatto_coordCT_hom ratCast_hom N) h1 i,
    fun i => toReal (lobatto_weightCT_hom ratCast_hom N) (weights_ok.2 N (mem29 h h')) i, fun p hp => ?_⟩
  have := quadrature_of_moments _ _ (2 * N - 2) _ (moments_cast (lobatto_moments N (mem29 h h'))) p (by omega)
  split at this <;> rename_i h5 <;> simp only [h5, if_true, if_false] <;> push_cast at this <;> exact this

/-- **C30, run-time accessors.** The same with `coordinate( i )` and `weight( i )`, which exist for 2 to
5 points. -/
theorem C30_gaussLobatto_exact_runtime (N : ℕ) (h : 2 ≤ N) (h' : N ≤ 5) :
    ∃ c w : Fin N → ℝ,
      (∀ i : Fin N, (quadratureGaussLobatto (exactArith ℝ) N).coordRT (i : ℕ) = .ok (c i)) ∧
      (∀ i : Fin N, (quadratureGaussLobatto (exactArith ℝ) N).weightRT (i : ℕ) = .ok (w i)) ∧
      ∀ p : ℝ[X], p.natDegree ≤ 2 * N - 3 →
        |∑ i, w i * p.eval (c i) - ∫ x in (-1 : ℝ)..1, p.eval x|
          ≤ 2 / 10 ^ 33 * ∑ k ∈ Finset.range (2 * N - 2), |p.coeff k| := by
  have hm : N ∈ [2, 3, 4, 5] := by simp only [List.mem_cons, List.not_mem_nil, or_false]; omega
  obtain ⟨⟨h1, -, -⟩, -, -⟩ := lobatto_table N (mem29 h (by omega))
  refine ⟨_, _, fun i => (C25_partial.2.2 N h h' i).trans (toReal (lobatto_coordCT_hom ratCast_hom N) h1 i),
    fun i => toReal (lobatto_weightRT_hom ratCast_hom N) (weights_rt_ct.2 N hm).1 i, fun p hp => ?_⟩
  have := quadrature_of_moments _ _ (2 * N - 2) _ (moments_cast (lobatto_moments_rt N hm)) p (by omega)
  push_cast at this; exact this

/-- Non-vacuity of C29 and C30: a polynomial of the highest degree covered, with non-zero integral
part. -/
example : (X ^ 5 + X ^ 4 : ℝ[X]).natDegree ≤ 2 * 3 - 1 ∧ (X ^ 5 + X ^ 4 : ℝ[X]).natDegree ≤ 2 * 4 - 3 := by
  have : (X ^ 5 + X ^ 4 : ℝ[X]).natDegree ≤ 5 := by
    refine (natDegree_add_le _ _).trans ?_
    simp
  exact ⟨this, this⟩

/-- **C31, weights.** A weight of either rule is rejected by the compiler for every unsupported number of
points.  For the supported ones it has a value, by `C27_weights_agree` and `C28_partial`. -/
theorem C31_weights_partial {R : Type} (A : Arith R) (n i : Int) :
    (¬ (2 ≤ n ∧ n ≤ 4) → (quadratureGaussLegendre A n).weightRT i = .illFormed ∧
      (quadratureGaussLegendre A n).weightCT i = .illFormed) ∧
    (¬ (2 ≤ n ∧ n ≤ 5) → (quadratureGaussLobatto A n).weightRT i = .illFormed) ∧
    (¬ (2 ≤ n ∧ n ≤ 9) → (quadratureGaussLobatto A n).weightCT i = .illFormed) := by
  refine ⟨fun h => ⟨?_, ?_⟩, fun h => ?_, fun h => ?_⟩
  · exact staticAssert_bind_false h _
  · exact staticAssert_bind_false h _
  · exact staticAssert_bind_false h _
  · exact staticAssert_bind_false h _

/-- **C31 fails for coordinates.** For every unsupported number of points, each coordinate is silently 0. -/
theorem C31_violated {R : Type} (A : Arith R) (n i : Int) :
    (¬ (2 ≤ n ∧ n ≤ 4) → (gaussLegendreSpacing A n).coordRT i = .ok (A.lit 0) ∧
      (gaussLegendreSpacing A n).coordCT i = .ok (A.lit 0)) ∧
    (¬ (2 ≤ n ∧ n ≤ 5) → (gaussLobattoSpacing A n).coordRT i = .ok (A.lit 0)) ∧
    (¬ (2 ≤ n ∧ n ≤ 9) → (gaussLobattoSpacing A n).coordCT i = .ok (A.lit 0)) := by
  refine ⟨fun h => ⟨?_, ?_⟩, fun h => ?_, fun h => ?_⟩
  · have e2 : n ≠ 2 := by omega
    have e3 : n ≠ 3 := by omega
    have e4 : n ≠ 4 := by omega
    simp [gaussLegendreSpacing, GaussLegendre.coordRT, e2, e3, e4]
  · have e2 : n ≠ 2 := by omega
    have e3 : n ≠ 3 := by omega
    have e4 : n ≠ 4 := by omega
    simp [gaussLegendreSpacing, GaussLegendre.coordCT, e2, e3, e4]
  · have e2 : n ≠ 2 := by omega
    have e3 : n ≠ 3 := by omega
    have e4 : n ≠ 4 := by omega
    have e5 : n ≠ 5 := by omega
    simp [gaussLobattoSpacing, GaussLobatto.coordRT, e2, e3, e4, e5]
  · have e2 : n ≠ 2 := by omega
    have e3 : n ≠ 3 := by omega
    have e4 : n ≠ 4 := by omega
    have e5 : n ≠ 5 := by omega
    have e6 : n ≠ 6 := by omega
    have e7 : n ≠ 7 := by omega
    have e8 : n ≠ 8 := by omega
    have e9 : n ≠ 9 := by omega
    simp [gaussLobattoSpacing, GaussLobatto.coordCT, e2, e3, e4, e5, e6, e7, e8, e9]

/-- Non-vacuity of C31: the supported side, and an unsupported count. -/
example : (quadratureGaussLobatto ratArith 9).weightCT 4 = .ok 0.37151927437642 ∧
    (quadratureGaussLobatto ratArith 10).weightCT 4 = .illFormed ∧
    (gaussLobattoSpacing ratArith 10).coordCT 4 = .ok 0 := by decide +kernel

end Verif.Props
