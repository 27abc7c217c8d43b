import Verif.Lemmas.KnownTables
import Verif.Lemmas.NearElement

/-! The shipped nodes in `float` and `double` are far enough apart. -/

namespace Verif.Lemmas

open Verif.Spec

/-- A coordinate of a shipped spacing. -/
def knownFamily (T : RealType) (fam : Family) (n : ℕ) : Int → Res ℚ := knownNumber (fam.spacingIn (evalIn T) n).coordCT

theorem knownFamily_sound {T : RealType} {fam : Family} {n : ℕ} {i : Int} {q : ℚ} (h : knownFamily T fam n i = .ok q) :
    (fam.spacingIn T.arith n).coordCT i = .ok (Flt.ofReal q) :=
  known_sound ((family_rel (evalIn_rel T) fam n).ct i) h

def families : List Family := [.equal, .gaussLegendre, .gaussLobatto]

/-- Numbers of points up to 9. -/
def familySizes : Family → List ℕ
  | .gaussLegendre => [2, 3, 4]
  | _ => [2, 3, 4, 5, 6, 7, 8, 9]

theorem mem_families (f : Family) : f ∈ families := by cases f <;> simp [families]

theorem mem_familySizes {fam : Family} {order : ℕ} (h1 : 1 ≤ order) (h8 : order ≤ 8) (hs : fam.Supports order) :
    order + 1 ∈ familySizes fam := by
  cases fam <;> have := hs.2 <;> simp only [familySizes, List.mem_cons, List.not_mem_nil, or_false] <;> omega

/-- The product of the caps of the factors of basis function `j`. -/
def nodeCap {n : ℕ} (c : Fin n → ℚ) (j : Fin n) : ℚ :=
  ((List.finRange n).map fun t => if j = t then 1 else 2 * max 1 (1 / |c j - c t|)).prod

theorem families_known : ∀ T ∈ types, ∀ fam ∈ families, ∀ n ∈ familySizes fam, AllOk n (knownFamily T fam n) := by
  decide +kernel

theorem families_unit : ∀ T ∈ types, ∀ fam ∈ families, ∀ n ∈ familySizes fam, ∀ i : Fin n,
    |val (knownFamily T fam n (i : ℕ))| ≤ 1 := by decide +kernel

theorem families_apart : ∀ T ∈ types, ∀ fam ∈ families, ∀ n ∈ familySizes fam, ∀ i j : Fin n, i < j →
    val (knownFamily T fam n (i : ℕ)) + 1 / 16 ≤ val (knownFamily T fam n (j : ℕ)) := by decide +kernel

theorem families_cap : ∀ T ∈ types, ∀ fam ∈ families, ∀ n ∈ familySizes fam, ∀ j : Fin n,
    nodeCap (fun i : Fin n => val (knownFamily T fam n (i : ℕ))) j ≤ 2 ^ 15 := by decide +kernel

/-- Bounds of the reciprocals of the differences. -/
noncomputable def recipBound {n : ℕ} (c : Fin n → ℝ) (j t : Fin n) : ℝ := max 1 (1 / |c j - c t|)

theorem nodeCap_cast {n : ℕ} (c : Fin n → ℚ) (j : Fin n) :
    ∏ t, capFactor 2 (recipBound fun i => (c i : ℝ)) j t = ((nodeCap c j : ℚ) : ℝ) := by
  unfold nodeCap
  rw [← List.ofFn_eq_map, List.prod_ofFn, Rat.cast_prod]
  refine Finset.prod_congr rfl fun t _ => ?_
  unfold capFactor recipBound
  split_ifs
  · simp
  · push_cast; rfl

theorem formats_exps (T : RealType) : T.format.minExp ≤ -126 ∧ 127 ≤ T.format.maxExp := by
  cases T <;> decide

/-- The nodes of order at most 8 in `float` and `double`. -/
theorem family_tame (T : RealType) (fam : Family) (order : ℕ) (h1 : 1 ≤ order) (h8 : order ≤ 8) (hs : fam.Supports order) :
    ∃ c : Fin (order + 1) → ℝ, (∀ i, |c i| ≤ 1) ∧ StrictMono c ∧
      TameNodes T.format (order + 1) (fam.spacingIn T.arith ((order + 1 : ℕ) : Int)) c (recipBound c) ∧
      ∀ j, ∏ t, capFactor 2 (recipBound c) j t ≤ 2 ^ 15 := by
  have hm := mem_familySizes h1 h8 hs
  have hk := families_known T (mem_types T) fam (mem_families fam) _ hm
  have hu := families_unit T (mem_types T) fam (mem_families fam) _ hm
  have ha := families_apart T (mem_types T) fam (mem_families fam) _ hm
  have hc := families_cap T (mem_types T) fam (mem_families fam) _ hm
  obtain ⟨q, hq⟩ : ∃ q : Fin (order + 1) → ℚ, q = fun i : Fin (order + 1) => val (knownFamily T fam (order + 1) (i : ℕ)) :=
    ⟨_, rfl⟩
  have hu' : ∀ i, |(q i : ℝ)| ≤ 1 := fun i => by
    have := Rat.cast_le (K := ℝ).2 (hu i)
    rw [hq]
    push_cast at this
    exact this
  have ha' : ∀ i j, i < j → (q i : ℝ) + 1 / 16 ≤ q j := fun i j hij => by
    have := Rat.cast_le (K := ℝ).2 (ha i j hij)
    rw [hq]
    push_cast at this
    exact this
  have hgap : ∀ j t, j ≠ t → 1 / 16 ≤ |(q j : ℝ) - q t| := by
    intro j t hjt
    rcases lt_or_gt_of_ne hjt with h | h
    · have := ha' _ _ h
      rw [abs_sub_comm, abs_of_nonneg] <;> linarith
    · have := ha' _ _ h
      rw [abs_of_nonneg] <;> linarith
  obtain ⟨hlo, hhi⟩ := formats_exps T
  refine ⟨fun i => q i, hu', fun i j hij => by have := ha' i j hij; show (q i : ℝ) < q j; linarith, ?_, fun j => ?_⟩
  · refine ⟨by omega, by omega, fun _ i => ?_, fun j t hjt => ⟨?_, ?_⟩, fun j t _ => le_max_right _ _, fun _ _ => le_max_left _ _⟩
    · rw [hq]; exact knownFamily_sound (hk i)
    · refine le_trans ?_ (hgap j t hjt)
      refine (zpow_le_zpow_right₀ (by norm_num : (1 : ℝ) ≤ 2) (show T.format.minExp ≤ -4 by omega)).trans ?_
      norm_num
    · have h2 : |(q j : ℝ) - q t| ≤ 2 := by
        have := abs_sub (q j : ℝ) (q t)
        linarith [hu' j, hu' t]
      refine h2.trans ?_
      refine le_trans ?_ (zpow_le_zpow_right₀ (by norm_num : (1 : ℝ) ≤ 2) (show 1 ≤ T.format.maxExp by omega))
      norm_num
  · rw [nodeCap_cast]
    have := Rat.cast_le (K := ℝ).2 (hc j)
    rw [hq]
    refine this.trans ?_
    norm_num

theorem pow_roundoff_le {u : ℝ} (hu : 0 ≤ u) (k : ℕ) (h : 2 * k * u ≤ 1) : (1 + u) ^ k ≤ 1 + 2 * k * u := by
  induction k with
  | zero => simp
  | succ k ih =>
    push_cast at h ⊢
    have hk : 0 ≤ (k : ℝ) * u := by positivity
    have := ih (by nlinarith)
    rw [pow_succ]
    nlinarith

theorem formats_tiny (T : RealType) : tiny T.format * 2 ^ 150 ≤ 1 := by
  have h : T.format.minExp - T.format.fracBits ≤ -149 := by cases T <;> decide
  have := zpow_le_zpow_right₀ (by norm_num : (1 : ℝ) ≤ 2) h
  unfold tiny
  have e : (2 : ℝ) ^ (-149 : ℤ) = 1 / 2 ^ 149 := by norm_num
  rw [e] at this
  have e2 : (1 : ℝ) / 2 ^ 149 / 2 * 2 ^ 150 = 1 := by norm_num
  nlinarith

theorem formats_unit (T : RealType) : unitRoundoff T.format * 2 ^ 24 ≤ 1 := by
  cases T <;> simp only [unitRoundoff, RealType.format, binary32, binary64] <;> norm_num

/-- Sizes that fit both formats. -/
theorem formats_room (T : RealType) {k m : ℕ} {C : ℝ} (hk : k ≤ 2 ^ 22) (hm : m ≤ 2 ^ 150) (hC : C ≤ 2 ^ 125) :
    Room T.format k m C := by
  obtain ⟨hlo, hhi⟩ := formats_exps T
  refine ⟨by omega, ?_, ?_, ?_⟩
  · have h1 := formats_unit T
    have h0 := roundoff_nonneg T.format
    have hk' : (k : ℝ) ≤ 2 ^ 22 := by exact_mod_cast hk
    have h2 : (k : ℝ) * unitRoundoff T.format ≤ 2 ^ 22 * unitRoundoff T.format := mul_le_mul_of_nonneg_right hk' h0
    have := pow_roundoff_le h0 k (by nlinarith)
    nlinarith
  · have hm' : (m : ℝ) ≤ 2 ^ 150 := by exact_mod_cast hm
    have := mul_le_mul_of_nonneg_right hm' (tiny_pos T.format).le
    linarith [formats_tiny T]
  · have : (2 : ℝ) ^ (127 : ℤ) ≤ 2 ^ T.format.maxExp := zpow_le_zpow_right₀ (by norm_num) hhi
    have e : (2 : ℝ) ^ (127 : ℤ) = 4 * 2 ^ 125 := by norm_num
    linarith

/-- A shipped basis of order at most 8 in `float` and `double`. -/
theorem family_realises (T : RealType) (fam : Family) (order : ℕ) (h8 : order ≤ 8)
    {S : Int → Spacing Flt} (hS : S = fam.spacingIn T.arith) {b : Basis Flt}
    (hb : lagrangeBasis (floatArith T.format) S order = .ok b) {c : Fin (order + 1) → ℝ} (hc1 : ∀ i, |c i| ≤ 1)
    (hc : TameNodes T.format (order + 1) (fam.spacingIn T.arith ((order + 1 : ℕ) : Int)) c (recipBound c))
    (hcap : ∀ j, ∏ t, capFactor 2 (recipBound c) j t ≤ 2 ^ 15) :
    NearRealises T.format b (order + 1) (fun j x => (Lagrange.basis Finset.univ c j).eval x)
      (fun j x => (Polynomial.derivative (Lagrange.basis Finset.univ c j)).eval x)
      (fun j x => ∑ a, |factorDeriv c j a| * ∏ t, if t = a then 1 else |factor c j x t|)
      (6 * order) (7 * order + 9) 91 (2 ^ 15) (2 ^ 19) := by
  subst hS
  rw [lagrangeBasis_ok _ _ (by omega)] at hb
  obtain rfl := Res.ok.inj hb
  have hX : ∀ x : ℝ, |x| ≤ 1 → ∀ t, |x - c t| ≤ 2 := fun x hx t => by
    have := abs_sub x (c t)
    linarith [hc1 t]
  have hn : ((order + 1 : ℕ) : ℝ) ≤ 9 := by exact_mod_cast (show order + 1 ≤ 9 by omega)
  have h0 : ∀ j, 0 ≤ ∏ t, capFactor 2 (recipBound c) j t := fun j =>
    (zero_le_one.trans (one_le_capFactor (by norm_num) hc.one j j)).trans
      (le_prod_caps (one_le_capFactor (by norm_num) hc.one j) j)
  have hg : ∀ j, ((order + 1 : ℕ) : ℝ) * ∏ t, capFactor 2 (recipBound c) j t ≤ 2 ^ 19 := fun j => by
    have := mul_le_mul hn (hcap j) (h0 j) (by norm_num)
    linarith
  refine ⟨rfl, fun j x hx => ?_, fun j x hx => ?_⟩
  · obtain ⟨y, hy, hn⟩ := value_near hc (by norm_num) (hX x hx) j
      (formats_room T (by omega) (by omega) ((hcap j).trans (by norm_num)))
    exact ⟨y, hy, hn.mono le_rfl (by omega) (hcap j)⟩
  · obtain ⟨y, hy, hn⟩ := gradient_near hc (by norm_num) (hX x hx) j
      (formats_room T (by omega) (by omega) ((hg j).trans (by norm_num)))
    exact ⟨y, hy, hn.mono le_rfl (by omega) (hg j)⟩

end Verif.Lemmas
