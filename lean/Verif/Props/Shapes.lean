import Verif.Lemmas.Counting
import Verif.Lemmas.Volume

/-! # Properties C17–C22: powers, factorials, face counts and volumes -/

namespace Verif.Props

open Verif.Spec Verif.Lemmas MeasureTheory

/-- **C17, pow.** For a two's complement type and a non-negative exponent, `pow< T, E >( b )` is `b^E` if
that fits in `T`, and has no defined value otherwise.  A negative exponent gives 1. -/
theorem C17_pow (t : IntType) (ht : t.min = -t.max - 1) (h1 : 1 ≤ t.max) (e b : Int) :
    (0 ≤ e → MathUtilities.powInt t e b
      = if t.min ≤ b ^ e.toNat ∧ b ^ e.toNat ≤ t.max then .ok (b ^ e.toNat) else .ub) ∧
    (e < 0 → MathUtilities.powInt t e b = .ok 1) := by
  constructor
  · intro he
    obtain ⟨n, rfl⟩ := Int.eq_ofNat_of_zero_le he
    rw [powInt_eq ⟨ht, h1⟩]; rfl
  · intro he
    have : e.toNat = 0 := by omega
    simp [MathUtilities.powInt, MathUtilities.pow, this, MathUtilities.powLoop]

/-- **C17, pow, floating point.** In exact arithmetic `pow< T, E >( b )` is `b^E`. -/
theorem C17_pow_real (e : Int) (b : ℝ) :
    MathUtilities.powReal (exactArith ℝ) e b = .ok (b ^ e.toNat) := by
  have h : ∀ n (r : ℝ), MathUtilities.powLoop (fun a b : ℝ => .ok ((exactArith ℝ).mul a b)) b n r
      = .ok (r * b ^ n) := by
    intro n
    induction n with
    | zero => intro r; simp [MathUtilities.powLoop]
    | succ n ih =>
      intro r
      rw [MathUtilities.powLoop, Res.ok_bind, ih]
      simp only [exactArith]
      congr 1; ring
  rw [MathUtilities.powReal, MathUtilities.pow, h]
  simp [exactArith]

/-- **C17, factorial.** `factorial< T, N >::value` is `N!` and compiles exactly if `N ≥ 0` and `N!` fits. -/
theorem C17_factorial (t : IntType) (ht : t.min = -t.max - 1) (h1 : 1 ≤ t.max) (n : Int) :
    MathUtilities.factorial t n
      = if 0 ≤ n ∧ (n.toNat.factorial : Int) ≤ t.max then .ok (n.toNat.factorial : Int)
        else .illFormed := by
  by_cases h : 0 ≤ n
  · obtain ⟨k, rfl⟩ := Int.eq_ofNat_of_zero_le h
    rw [factorial_nat ⟨ht, h1⟩]
    simp
  · rw [factorial_neg (by omega), if_neg (fun hc => h hc.1)]

/-- **C17, binomial coefficient.** `binomialCoefficient< T, N, K >::value` is "N choose K" and compiles
exactly if `0 ≤ K ≤ N` and `N!` fits. -/
theorem C17_binomialCoefficient (t : IntType) (ht : t.min = -t.max - 1) (h1 : 1 ≤ t.max) (n k : Int) :
    MathUtilities.binomialCoefficient t n k
      = if (0 ≤ k ∧ k ≤ n) ∧ (n.toNat.factorial : Int) ≤ t.max
        then .ok (n.toNat.choose k.toNat : Int) else .illFormed := by
  by_cases h : 0 ≤ k ∧ k ≤ n
  · obtain ⟨k', rfl⟩ := Int.eq_ofNat_of_zero_le h.1
    obtain ⟨n', rfl⟩ := Int.eq_ofNat_of_zero_le (h.1.trans h.2)
    rw [binomial_nat ⟨ht, h1⟩ _ _ (by omega)]
    simp [h]
  · rw [binomial_bad h, if_neg (fun hc => h hc.1)]

/-- Non-vacuity of C17, at the edges of `int`. -/
example : MathUtilities.powInt int32 31 (-2) = .ok (-2147483648) ∧
    MathUtilities.powInt int32 31 2 = .ub ∧
    MathUtilities.factorial int32 12 = .ok 479001600 ∧
    MathUtilities.factorial int32 13 = .illFormed ∧
    MathUtilities.factorial int64 13 = .ok 6227020800 ∧
    MathUtilities.binomialCoefficient int32 5 2 = .ok 10 ∧
    MathUtilities.binomialCoefficient int32 5 6 = .illFormed := by decide +kernel

/-- **C18.** A defined result of `numMCubes< M >()` is the number of `M`-faces of the `N`-cube. -/
theorem C18_numMCubes (s : ShapeArgs) (m v : Int) (h : NCube.numMCubes s m = .ok v) :
    0 ≤ m ∧ m ≤ s.n ∧ v = ((cubeFaces s.n.toNat m.toNat).card : Int) := by
  by_cases hm : 0 ≤ m ∧ m ≤ s.n
  · refine ⟨hm.1, hm.2, ?_⟩
    obtain ⟨m', rfl⟩ := Int.eq_ofNat_of_zero_le hm.1
    obtain ⟨n', hn⟩ := Int.eq_ofNat_of_zero_le (hm.1.trans hm.2)
    have hs : s.instantiate = .ok () := by
      rcases instantiate_dich s with ⟨e, -⟩ | e
      · exact e
      · rw [NCube.numMCubes, e, Res.illFormed_bind] at h; cases h
    rw [numMCubes_nat hs n' m' hn (by omega)] at h
    split at h
    · split at h
      · have : (2 : Int) ^ (n' - m') * (n'.choose m' : Int) = v := by simpa using h
        rw [← this, hn, Int.toNat_natCast, Int.toNat_natCast, card_cubeFaces]
        push_cast; ring
      · cases h
    · cases h
  · rw [numMCubes_bad hm] at h; cases h

private theorem ok_instantiate {s : ShapeArgs} {α : Type} {x : Unit → Res α} {v : α}
    (h : (s.instantiate >>= x) = .ok v) : s.instantiate = .ok () ∧ 0 ≤ s.n := by
  rcases instantiate_dich s with ⟨e, -, -, h0⟩ | e
  · exact ⟨e, h0⟩
  · rw [e, Res.illFormed_bind] at h; cases h

/-- **C18, named counts.** Vertices, edges, faces, cells and hyperfaces are the faces of dimension
0, 1, 2, 3 and N-1; when the dimension exceeds N there are none. -/
theorem C18_named_counts (s : ShapeArgs) (v : Int) :
    (NCube.numVertices s = .ok v → v = ((cubeFaces s.n.toNat 0).card : Int)) ∧
    (NCube.numEdges s = .ok v → v = ((cubeFaces s.n.toNat 1).card : Int)) ∧
    (NCube.numFaces s = .ok v → v = ((cubeFaces s.n.toNat 2).card : Int)) ∧
    (NCube.numCells s = .ok v → v = ((cubeFaces s.n.toNat 3).card : Int)) ∧
    (NCube.numHyperFaces s = .ok v → 1 ≤ s.n →
      v = ((cubeFaces s.n.toNat (s.n.toNat - 1)).card : Int)) := by
  have hz : ∀ m : ℕ, s.n.toNat < m → ((cubeFaces s.n.toNat m).card : Int) = 0 := by
    intro m hm; rw [card_cubeFaces, Nat.choose_eq_zero_of_lt hm]; simp
  refine ⟨fun h => (C18_numMCubes s 0 v h).2.2, fun h => ?_, fun h => ?_, fun h => ?_, fun h h1 => ?_⟩
  · rw [NCube.numEdges] at h
    split at h
    · exact (C18_numMCubes s 1 v h).2.2
    · obtain ⟨e, h0⟩ := ok_instantiate h
      rw [e] at h; rw [hz 1 (by omega)]; simpa [eq_comm] using h
  · rw [NCube.numFaces] at h
    split at h
    · exact (C18_numMCubes s 2 v h).2.2
    · obtain ⟨e, h0⟩ := ok_instantiate h
      rw [e] at h; rw [hz 2 (by omega)]; simpa [eq_comm] using h
  · rw [NCube.numCells] at h
    split at h
    · exact (C18_numMCubes s 3 v h).2.2
    · obtain ⟨e, h0⟩ := ok_instantiate h
      rw [e] at h; rw [hz 3 (by omega)]; simpa [eq_comm] using h
  · rw [NCube.numHyperFaces] at h
    obtain ⟨e, h0⟩ := ok_instantiate h
    rw [e, Res.ok_bind] at h
    have hv := (norm_eq_ok.1 h).1
    obtain ⟨n, hn⟩ : ∃ n : ℕ, s.n = (n + 1 : ℕ) := ⟨(s.n - 1).toNat, by omega⟩
    rw [hv, hn, Int.toNat_natCast, card_cubeFaces, Nat.add_sub_cancel, Nat.choose_succ_self_right]
    simp [mul_comm]

/-- Non-vacuity of C18: the cube. -/
example : NCube.numMCubes ⟨3, -1, 1, 1⟩ 1 = .ok 12 ∧ (cubeFaces 3 1).card = 12 ∧
    NCube.numHyperFaces ⟨3, -1, 1, 1⟩ = .ok 6 := by decide +kernel

/-- **C19.** A defined result of `numMSimplexes< M >()` (`M ≥ 0`) is the number of `M`-faces of the
`N`-simplex. -/
theorem C19_numMSimplexes (s : ShapeArgs) (m v : Int) (h0 : 0 ≤ m)
    (h : NSimplex.numMSimplexes s m = .ok v) :
    m ≤ s.n ∧ v = ((simplexFaces s.n.toNat m.toNat).card : Int) := by
  by_cases hm : -1 ≤ m ∧ m ≤ s.n
  · refine ⟨hm.2, ?_⟩
    obtain ⟨m', rfl⟩ := Int.eq_ofNat_of_zero_le h0
    obtain ⟨n', hn⟩ := Int.eq_ofNat_of_zero_le (h0.trans hm.2)
    have hs := (ok_instantiate h).1
    have e : ((m' : ℕ) : Int) = ((m' + 1 : ℕ) : Int) - 1 := by push_cast; ring
    rw [e, numMSimplexes_nat hs n' (m' + 1) hn (by omega)] at h
    split at h
    · have : ((n' + 1).choose (m' + 1) : Int) = v := by simpa using h
      rw [← this, hn, Int.toNat_natCast, Int.toNat_natCast, card_simplexFaces]
    · cases h
  · rw [numMSimplexes_bad hm] at h; cases h

/-- **C19, every M.** `numMSimplexes< M >()` has a defined value only if `-1 ≤ M ≤ N`, and the value is the number of sets of `M + 1`
of the `N + 1` vertices. -/
theorem C19_every_m (s : ShapeArgs) (m v : Int) (h : NSimplex.numMSimplexes s m = .ok v) :
    (-1 ≤ m ∧ m ≤ s.n) ∧
      v = ((Finset.univ.filter fun f : Finset (Fin (s.n.toNat + 1)) => (f.card : Int) = m + 1).card : Int) := by
  by_cases hm : -1 ≤ m ∧ m ≤ s.n
  · refine ⟨hm, ?_⟩
    obtain ⟨hs, h0⟩ := ok_instantiate h
    obtain ⟨m1, hm1⟩ := Int.eq_ofNat_of_zero_le (show 0 ≤ m + 1 by omega)
    obtain ⟨n', hn⟩ := Int.eq_ofNat_of_zero_le (show 0 ≤ s.n by omega)
    obtain rfl : m = (m1 : Int) - 1 := by omega
    rw [numMSimplexes_nat hs n' m1 hn (by omega)] at h
    split at h
    · have : ((n' + 1).choose m1 : Int) = v := by simpa using h
      rw [← this, hn, Int.toNat_natCast]
      have e : (Finset.univ.filter fun f : Finset (Fin (n' + 1)) => (f.card : Int) = (m1 : Int) - 1 + 1)
          = Finset.powersetCard m1 Finset.univ := by
        ext f; simp [Finset.mem_powersetCard]
      rw [e, Finset.card_powersetCard, Finset.card_univ, Fintype.card_fin]
    · cases h
  · rw [numMSimplexes_bad hm] at h; cases h

/-- The empty face of the triangle is counted once. -/
example : NSimplex.numMSimplexes ⟨2, 0, 1, 1⟩ (-1) = .ok 1 := by decide +kernel

/-- **C19, named counts.** -/
theorem C19_named_counts (s : ShapeArgs) (v : Int) :
    (NSimplex.numVertices s = .ok v → v = ((simplexFaces s.n.toNat 0).card : Int)) ∧
    (NSimplex.numEdges s = .ok v → v = ((simplexFaces s.n.toNat 1).card : Int)) ∧
    (NSimplex.numFaces s = .ok v → v = ((simplexFaces s.n.toNat 2).card : Int)) ∧
    (NSimplex.numCells s = .ok v → v = ((simplexFaces s.n.toNat 3).card : Int)) ∧
    (NSimplex.numHyperFaces s = .ok v → 1 ≤ s.n →
      v = ((simplexFaces s.n.toNat (s.n.toNat - 1)).card : Int)) := by
  have hz : ∀ m : ℕ, s.n.toNat < m → ((simplexFaces s.n.toNat m).card : Int) = 0 := by
    intro m hm; rw [card_simplexFaces, Nat.choose_eq_zero_of_lt (by omega)]; simp
  refine ⟨fun h => (C19_numMSimplexes s 0 v le_rfl h).2, fun h => ?_, fun h => ?_, fun h => ?_,
    fun h h1 => ?_⟩
  · rw [NSimplex.numEdges] at h
    split at h
    · exact (C19_numMSimplexes s 1 v (by norm_num) h).2
    · obtain ⟨e, h0⟩ := ok_instantiate h
      rw [e] at h; rw [hz 1 (by omega)]; simpa [eq_comm] using h
  · rw [NSimplex.numFaces] at h
    split at h
    · exact (C19_numMSimplexes s 2 v (by norm_num) h).2
    · obtain ⟨e, h0⟩ := ok_instantiate h
      rw [e] at h; rw [hz 2 (by omega)]; simpa [eq_comm] using h
  · rw [NSimplex.numCells] at h
    split at h
    · exact (C19_numMSimplexes s 3 v (by norm_num) h).2
    · obtain ⟨e, h0⟩ := ok_instantiate h
      rw [e] at h; rw [hz 3 (by omega)]; simpa [eq_comm] using h
  · rw [NSimplex.numHyperFaces] at h
    obtain ⟨e, h0⟩ := ok_instantiate h
    rw [e, Res.ok_bind] at h
    rcases constexpr_dich (isub s.n 1) with ⟨w, hw, e2⟩ | e2
    · rw [e2, Res.ok_bind] at h
      have hw' := (norm_eq_ok.1 hw).1
      have := (C19_numMSimplexes s w v (by omega) h).2
      rw [this, hw']
      congr 4; omega
    · rw [e2, Res.illFormed_bind] at h; cases h

/-- Non-vacuity of C19: the tetrahedron. -/
example : NSimplex.numMSimplexes ⟨3, 0, 1, 1⟩ 1 = .ok 6 ∧ (simplexFaces 3 1).card = 6 ∧
    NSimplex.numHyperFaces ⟨3, 0, 1, 1⟩ = .ok 4 := by decide +kernel

/-- **C20 fails.** The 10-cube has 1024 vertices and the 12-simplex has 13, but the code has no
defined value for either. -/
theorem C20_violated :
    ((cubeFaces 10 0).card = 1024 ∧ NCube.numVertices ⟨10, -1, 1, 1⟩ = .ub) ∧
    ((simplexFaces 12 0).card = 13 ∧ NSimplex.numVertices ⟨12, 0, 1, 1⟩ = .illFormed) := by
  refine ⟨⟨by rw [card_cubeFaces]; decide, by decide +kernel⟩,
    ⟨by rw [card_simplexFaces]; decide, by decide +kernel⟩⟩

/-- **C20, exact boundary.** The counts are defined exactly when `2^(N-M)·N!`, respectively `(N+1)!`,
fits in `int`. -/
theorem C20_defined_iff (s : ShapeArgs) (hs : s.min < s.max ∧ s.divisor > 0 ∧ 0 ≤ s.n) (m : Int)
    (hm : 0 ≤ m ∧ m ≤ s.n) :
    ((∃ v, NCube.numMCubes s m = .ok v) ↔
      (2 : Int) ^ (s.n - m).toNat * (s.n.toNat.factorial : Int) ≤ 2147483647) ∧
    ((∃ v, NSimplex.numMSimplexes s m = .ok v) ↔
      ((s.n.toNat + 1).factorial : Int) ≤ 2147483647) := by
  have hi := instantiate_ok hs
  obtain ⟨m', rfl⟩ := Int.eq_ofNat_of_zero_le hm.1
  obtain ⟨n', hn⟩ := Int.eq_ofNat_of_zero_le (hm.1.trans hm.2)
  constructor
  · rw [numMCubes_nat hi n' m' hn (by omega), hn, Int.toNat_natCast,
      show ((n' : Int) - (m' : Int)).toNat = n' - m' by omega]
    have hp : (1 : Int) ≤ 2 ^ (n' - m') := one_le_pow₀ (by norm_num)
    have hf : (0 : Int) < (n'.factorial : Int) := by positivity
    by_cases h : (2 : Int) ^ (n' - m') * (n'.factorial : Int) ≤ 2147483647
    · have h' : (n'.factorial : Int) ≤ 2147483647 := by nlinarith
      simp [h, h']
    · by_cases h' : (n'.factorial : Int) ≤ 2147483647 <;> simp [h, h']
  · have e : ((m' : ℕ) : Int) = ((m' + 1 : ℕ) : Int) - 1 := by push_cast; ring
    rw [e, numMSimplexes_nat hi n' (m' + 1) hn (by omega), hn, Int.toNat_natCast]
    by_cases h : ((n' + 1).factorial : Int) ≤ 2147483647 <;> simp [h]

/-- **C20, part that holds.** All counts of cubes up to dimension 9 and simplices up to dimension 11 are
available.  Missing: larger shapes whose counts nevertheless fit, see `C20_defined_iff`. -/
theorem C20_partial (s : ShapeArgs) (hs : s.min < s.max ∧ s.divisor > 0 ∧ 0 ≤ s.n) (m : Int)
    (hm : 0 ≤ m ∧ m ≤ s.n) :
    (s.n ≤ 9 → NCube.numMCubes s m = .ok ((cubeFaces s.n.toNat m.toNat).card : Int)) ∧
    (s.n ≤ 11 → NSimplex.numMSimplexes s m = .ok ((simplexFaces s.n.toNat m.toNat).card : Int)) := by
  obtain ⟨hc, hx⟩ := C20_defined_iff s hs m hm
  constructor
  · intro h9
    have hb : (2 : Int) ^ (s.n - m).toNat * (s.n.toNat.factorial : Int) ≤ 2147483647 := by
      have h1 : (2 : Int) ^ (s.n - m).toNat ≤ 2 ^ 9 := pow_le_pow_right₀ (by norm_num) (by omega)
      have h2 : (s.n.toNat.factorial : Int) ≤ ((9 : ℕ).factorial : Int) := by
        exact_mod_cast Nat.factorial_le (by omega)
      have h3 : ((9 : ℕ).factorial : Int) = 362880 := by decide
      have h4 : (0 : Int) ≤ (s.n.toNat.factorial : Int) := by positivity
      calc _ ≤ (2 : Int) ^ 9 * 362880 := mul_le_mul h1 (by omega) h4 (by norm_num)
        _ ≤ 2147483647 := by norm_num
    obtain ⟨v, hv⟩ := hc.2 hb
    rw [hv, (C18_numMCubes s m v hv).2.2]
  · intro h11
    have hb : ((s.n.toNat + 1).factorial : Int) ≤ 2147483647 := by
      have h2 : ((s.n.toNat + 1).factorial : Int) ≤ ((12 : ℕ).factorial : Int) := by
        exact_mod_cast Nat.factorial_le (by omega)
      have h3 : ((12 : ℕ).factorial : Int) = 479001600 := by decide
      omega
    obtain ⟨v, hv⟩ := hx.2 hb
    rw [hv, (C19_numMSimplexes s m v hm.1 hv).2]

/-- Non-vacuity of C20: the largest dimensions covered. -/
example : NCube.numMCubes ⟨9, -1, 1, 1⟩ 0 = .ok 512 ∧
    NSimplex.numMSimplexes ⟨11, 0, 1, 1⟩ 5 = .ok 924 := by decide +kernel

private theorem length_ok {s : ShapeArgs} (hs : s.min < s.max ∧ s.divisor > 0 ∧ 0 ≤ s.n)
    (hd : s.max - s.min ≤ 2147483647) :
    s.length (exactArith ℝ) = .ok (((s.max : ℝ) - s.min) / s.divisor) := by
  have h0 : ((s.divisor : ℚ) : ℝ) ≠ 0 := by
    have := hs.2.1; simp; omega
  have hsub : isub s.max s.min = .ok (s.max - s.min) :=
    tnorm_ok ⟨by show (-2147483648 : Int) ≤ _; omega, by show _ ≤ (2147483647 : Int); omega⟩
  rw [ShapeArgs.length, instantiate_ok hs, Res.ok_bind, hsub, Res.ok_bind]
  simp only [exactArith, if_neg h0]
  push_cast; rfl

private theorem coords_ok {s : ShapeArgs} (hs : s.min < s.max ∧ s.divisor > 0 ∧ 0 ≤ s.n) :
    s.minCoord (exactArith ℝ) = .ok ((s.min : ℝ) / s.divisor) ∧
    s.maxCoord (exactArith ℝ) = .ok ((s.max : ℝ) / s.divisor) := by
  have h0 : ((s.divisor : ℚ) : ℝ) ≠ 0 := by
    have := hs.2.1; simp; omega
  constructor
  · rw [ShapeArgs.minCoord, instantiate_ok hs, Res.ok_bind]
    simp only [exactArith, if_neg h0]
    push_cast; rfl
  · rw [ShapeArgs.maxCoord, instantiate_ok hs, Res.ok_bind]
    simp only [exactArith, if_neg h0]
    push_cast; rfl

private theorem cube_volumeHelper {s : ShapeArgs} {l : ℝ} (hl : s.length (exactArith ℝ) = .ok l) (k : ℕ) :
    NCube.volumeHelper (exactArith ℝ) s k = .ok (l ^ k) := by
  induction k with
  | zero => simp [NCube.volumeHelper, exactArith]
  | succ k ih =>
    rw [NCube.volumeHelper, hl, Res.ok_bind, ih, Res.ok_bind]
    simp only [exactArith]; congr 1; ring

private theorem simplex_volumeHelper {s : ShapeArgs} {l : ℝ} (hl : s.length (exactArith ℝ) = .ok l) (k : ℕ) :
    NSimplex.volumeHelper (exactArith ℝ) s k = .ok (l ^ k / k.factorial) := by
  induction k with
  | zero => simp [NSimplex.volumeHelper, exactArith]
  | succ k ih =>
    have h0 : (((k + 1 : ℕ) : ℚ) : ℝ) ≠ 0 := by positivity
    rw [NSimplex.volumeHelper, hl, Res.ok_bind, ih]
    simp only [exactArith, if_neg h0, Res.ok_bind]
    have : (k.factorial : ℝ) ≠ 0 := by positivity
    have : (k : ℝ) + 1 ≠ 0 := by positivity
    rw [Nat.factorial_succ]
    push_cast
    congr 1; field_simp; ring

/-- **C21.** For every instantiation whose `MAX - MIN` fits in `int`, the coordinates, the length and the
volume of an NCube are those of the box `[minCoord,maxCoord]^N`, with `N` as reported by `numDims`. -/
theorem C21_ncube_volume (s : ShapeArgs) (hs : s.min < s.max ∧ s.divisor > 0) (hn : 1 ≤ s.n)
    (hd : s.max - s.min ≤ 2147483647) :
    ∃ (d : ℕ) (lo hi l v : ℝ), s.numDims = .ok (d : Int) ∧ (d : Int) = s.n ∧
      s.minCoord (exactArith ℝ) = .ok lo ∧ s.maxCoord (exactArith ℝ) = .ok hi ∧
      s.length (exactArith ℝ) = .ok l ∧ NCube.volume (exactArith ℝ) s = .ok v ∧
      lo = (s.min : ℝ) / s.divisor ∧ hi = (s.max : ℝ) / s.divisor ∧
      lo < hi ∧ l = hi - lo ∧ 0 < v ∧ volume (box d lo hi) = ENNReal.ofReal v := by
  have hs' : s.min < s.max ∧ s.divisor > 0 ∧ 0 ≤ s.n := ⟨hs.1, hs.2, by omega⟩
  have hl := length_ok hs' hd
  have hdiv : (0 : ℝ) < s.divisor := by exact_mod_cast hs.2
  have hlt : (s.min : ℝ) < s.max := by exact_mod_cast hs.1
  have hlt' : (s.min : ℝ) / s.divisor < (s.max : ℝ) / s.divisor := by gcongr
  have hpos : 0 < (((s.max : ℝ) - s.min) / s.divisor) := div_pos (by linarith) hdiv
  have hdim : s.numDims = .ok (s.n.toNat : Int) := by
    rw [ShapeArgs.numDims, instantiate_ok hs', Res.ok_bind, Int.toNat_of_nonneg hs'.2.2]
  refine ⟨_, _, _, _, (((s.max : ℝ) - s.min) / s.divisor) ^ s.n.toNat, hdim, Int.toNat_of_nonneg hs'.2.2,
    (coords_ok hs').1, (coords_ok hs').2, hl, ?_, rfl, rfl, hlt', sub_div _ _ _, by positivity, ?_⟩
  · rw [NCube.volume, instantiate_ok hs', Res.ok_bind, staticAssert_bind_true (by omega)]
    exact cube_volumeHelper hl _
  · rw [volume_box _ hlt'.le, sub_div]

/-- Non-vacuity of C21: the reference square `[-1,1]^2` has volume 4. -/
example : NCube.volume ratArith ⟨2, -2, 2, 2⟩ = .ok 4 := by decide +kernel

/-- **C22.** For every instantiation whose `MAX - MIN` fits in `int`, the volume of an NSimplex is the
Lebesgue measure of the corner simplex with the reported number of dimensions, corner and length. -/
theorem C22_nsimplex_volume (s : ShapeArgs) (hs : s.min < s.max ∧ s.divisor > 0) (hn : 1 ≤ s.n)
    (hd : s.max - s.min ≤ 2147483647) :
    ∃ (d : ℕ) (lo hi l v : ℝ), s.numDims = .ok (d : Int) ∧ (d : Int) = s.n ∧
      s.minCoord (exactArith ℝ) = .ok lo ∧ s.maxCoord (exactArith ℝ) = .ok hi ∧
      s.length (exactArith ℝ) = .ok l ∧ NSimplex.volume (exactArith ℝ) s = .ok v ∧
      l = hi - lo ∧ 0 < l ∧ 0 < v ∧ volume (cornerSimplex d lo l) = ENNReal.ofReal v := by
  have hs' : s.min < s.max ∧ s.divisor > 0 ∧ 0 ≤ s.n := ⟨hs.1, hs.2, by omega⟩
  have hl := length_ok hs' hd
  have hdiv : (0 : ℝ) < s.divisor := by exact_mod_cast hs.2
  have hlt : (s.min : ℝ) < s.max := by exact_mod_cast hs.1
  have hpos : 0 < (((s.max : ℝ) - s.min) / s.divisor) := div_pos (by linarith) hdiv
  have hdim : s.numDims = .ok (s.n.toNat : Int) := by
    rw [ShapeArgs.numDims, instantiate_ok hs', Res.ok_bind, Int.toNat_of_nonneg hs'.2.2]
  refine ⟨_, _, _, _, (((s.max : ℝ) - s.min) / s.divisor) ^ s.n.toNat / s.n.toNat.factorial, hdim,
    Int.toNat_of_nonneg hs'.2.2, (coords_ok hs').1, (coords_ok hs').2, hl, ?_, sub_div _ _ _, hpos, by positivity,
    volume_cornerSimplex _ hpos.le⟩
  rw [NSimplex.volume, instantiate_ok hs', Res.ok_bind, staticAssert_bind_true (by omega)]
  exact simplex_volumeHelper hl _

/-- Non-vacuity of C22: the reference tetrahedron has volume 1/6. -/
example : NSimplex.volume ratArith ⟨3, 0, 1, 1⟩ = .ok (1 / 6) := by decide +kernel

/-- **C21, C22, the precondition is needed.** If `MAX - MIN` does not fit in `int`, the length and both
volumes are undefined although the class is accepted. -/
theorem C21_length_overflow (s : ShapeArgs) (hs : s.min < s.max ∧ s.divisor > 0) (hn : 1 ≤ s.n)
    (hd : 2147483647 < s.max - s.min) {R : Type} (A : Arith R) :
    s.instantiate = .ok () ∧ s.length A = .ub ∧ NCube.volume A s = .ub ∧
      NSimplex.volume A s = .ub := by
  have hs' : s.min < s.max ∧ s.divisor > 0 ∧ 0 ≤ s.n := ⟨hs.1, hs.2, by omega⟩
  have hi := instantiate_ok hs'
  have hl : s.length A = .ub := by
    have hsub : isub s.max s.min = .ub := tnorm_ub fun h => absurd h.2 (not_le.2 hd)
    rw [ShapeArgs.length, hi, Res.ok_bind, hsub, Res.ub_bind]
  obtain ⟨k, hk⟩ : ∃ k, s.n.toNat = k + 1 := ⟨s.n.toNat - 1, by omega⟩
  refine ⟨hi, hl, ?_, ?_⟩
  · rw [NCube.volume, hi, Res.ok_bind, staticAssert_bind_true (by omega), hk, NCube.volumeHelper, hl,
      Res.ub_bind]
  · rw [NSimplex.volume, hi, Res.ok_bind, staticAssert_bind_true (by omega), hk,
      NSimplex.volumeHelper, hl, Res.ub_bind]

/-- Non-vacuity: such arguments exist within `int`. -/
example : ShapeArgs.length ratArith ⟨1, -2147483648, 2147483647, 1⟩ = .ub := by decide +kernel

end Verif.Props
