import Verif.Lemmas.MonotoneFloat
import Verif.Props.Finite

/-!
# Property C131: bounds of interpolated values in `float` and `double`

In exact arithmetic interpolation of order one stays within the nodal values (C78).  This file says how much of that is left with rounding.
-/

namespace Verif.Props

open Verif.Spec Verif.Lemmas

/-- Elements of order one with points at -1 and 1: what EqualSpacing and GaussLobattoSpacing give. -/
structure IsLinearIn (T : RealType) {d : ℕ} (e : Element Flt) (c : Fin d → Fin 2 → ℝ) : Prop where
  shipped : IsShippedIn T (fun _ : Fin d => 1) c e
  ends : ∀ k, c k 0 = -1 ∧ c k 1 = 1

/-- The claim of C131: at all points of the parent element interpolated values are within the bounds of the nodal values. -/
def WithinNodalValues : Prop :=
  ∀ (T : RealType) (d : ℕ) (c : Fin d → Fin 2 → ℝ) (e : Element Flt), IsLinearIn T e c →
    ∀ (var : List Int → Res Flt) (y : (Fin d → Fin 2) → ℝ), (∀ i, var (tup (n := fun _ : Fin d => 2) i) = .ok (Flt.ofReal (y i))) →
      (∀ i, Represents T.format (y i) ∧ |y i| ≤ 2 ^ 56) → ∀ lo hi : ℝ, (∀ i, lo ≤ y i ∧ y i ≤ hi) →
      ∀ x : Fin d → ℝ, (∀ k, |x k| ≤ 1 ∧ Represents T.format (x k)) →
      ∃ r z, ParentElement.value (floatArith T.format) e (List.ofFn fun k => Flt.ofReal (x k)) var = .ok r ∧ r.datum = .finite z ∧ lo ≤ z ∧ z ≤ hi

theorem linear_form (T : RealType) (fam : Family) {b : Basis Flt} (hb : T.arith.lagrangeBasis (fam.spacingIn T.arith) (1 : ℕ) = .ok b) :
    b = ⟨((1 + 1 : ℕ) : Int), LagrangeBasis.value (floatArith T.format) (fam.spacingIn T.arith ((1 + 1 : ℕ) : Int)) ((1 + 1 : ℕ) : Int),
        LagrangeBasis.gradient (floatArith T.format) (fam.spacingIn T.arith ((1 + 1 : ℕ) : Int)) ((1 + 1 : ℕ) : Int)⟩ := by
  rw [C88_basis, lagrangeBasis_ok _ _ (by omega)] at hb
  exact (Res.ok.inj hb).symm

theorem linear_parts {T : RealType} {d : ℕ} {e : Element Flt} {c : Fin d → Fin 2 → ℝ} (h : IsLinearIn T e c) :
    ∃ (S : Fin d → Spacing Flt) (b : Fin d → Basis Flt), e = Lemmas.elementOf b ∧ (∀ k, EndPoints (S k)) ∧
      (∀ k, (b k).numSupportPoints = (2 : ℕ)) ∧ ∀ k i x, (b k).value i x = LagrangeBasis.value (floatArith T.format) (S k) 2 i x := by
  obtain ⟨fam, b, hb, hk⟩ := h.shipped.bases
  refine ⟨fun k => (fam k).spacingIn T.arith ((1 + 1 : ℕ) : Int), b, ?_, fun k => ⟨?_, ?_⟩, fun k => ?_, fun k i x => ?_⟩
  · rcases e with ⟨s, bs⟩
    have hs : s = .ok (d : Int) := h.shipped.shape
    have hb : bs = List.ofFn b := hb
    rw [hs, hb]; rfl
  · have := (hk k).2.1 0
    rw [(h.ends k).1] at this
    exact this
  · have := (hk k).2.1 1
    rw [(h.ends k).2] at this
    exact this
  · rw [linear_form T (fam k) (hk k).2.2]
  · rw [linear_form T (fam k) (hk k).2.2]; rfl

section element
variable {T : RealType} {d : ℕ} {c : Fin d → Fin 2 → ℝ} {e : Element Flt}

/-- **C131, monotonicity.** Let all nodal values of one field be at most those of another.  Then at every point of the parent element the
interpolated value of the first is at most that of the second, unless one of them is infinite or not a number.  This holds in any dimension. -/
theorem C131_monotone_partial (h : IsLinearIn T e c) {u v : List Int → Res Flt} {y z : (Fin d → Fin 2) → ℝ}
    (hu : ∀ i, u (tup (n := fun _ : Fin d => 2) i) = .ok (Flt.ofReal (y i))) (hv : ∀ i, v (tup (n := fun _ : Fin d => 2) i) = .ok (Flt.ofReal (z i)))
    (hyz : ∀ i, y i ≤ z i) (x : Fin d → ℝ) (hx : ∀ k, |x k| ≤ 1) {r s : Flt}
    (hr : ParentElement.value (floatArith T.format) e (List.ofFn fun k => Flt.ofReal (x k)) u = .ok r)
    (hs : ParentElement.value (floatArith T.format) e (List.ofFn fun k => Flt.ofReal (x k)) v = .ok s) {p q : ℝ}
    (hp : r.datum = .finite p) (hq : s.datum = .finite q) : p ≤ q := by
  obtain ⟨S, b, rfl, hS, hc, hb⟩ := linear_parts h
  obtain ⟨p', q', hp', hq', hle⟩ := value_below (n := fun _ => 2) h.shipped.dims hc
    (linear_products h.shipped.dims (wide_format T) hS hb fun k w hw => by rw [← Datum.finite.inj hw]; exact hx k)
    hu hv (fun i => ⟨y i, z i, rfl, rfl, hyz i⟩) hr hs ⟨p, hp⟩ ⟨q, hq⟩
  rw [Datum.finite.inj (hp.symm.trans hp'), Datum.finite.inj (hq.symm.trans hq')]
  exact hle

/-- **C131, signs.** If no nodal value is negative, no interpolated value is negative; if none is positive, none is positive. -/
theorem C131_sign_partial (h : IsLinearIn T e c) {u : List Int → Res Flt} {y : (Fin d → Fin 2) → ℝ}
    (hu : ∀ i, u (tup (n := fun _ : Fin d => 2) i) = .ok (Flt.ofReal (y i))) (x : Fin d → ℝ) (hx : ∀ k, |x k| ≤ 1) {r : Flt}
    (hr : ParentElement.value (floatArith T.format) e (List.ofFn fun k => Flt.ofReal (x k)) u = .ok r) {p : ℝ} (hp : r.datum = .finite p) :
    ((∀ i, 0 ≤ y i) → 0 ≤ p) ∧ ((∀ i, y i ≤ 0) → p ≤ 0) := by
  obtain ⟨S, b, rfl, hS, hc, hb⟩ := linear_parts h
  have hN := linear_products h.shipped.dims (wide_format T) hS hb (X := fun k => Flt.ofReal (x k))
    fun k w hw => by rw [← Datum.finite.inj hw]; exact hx k
  exact ⟨fun hy => value_nonneg (n := fun _ => 2) h.shipped.dims hc hN hu (fun i w hw => by rw [← Datum.finite.inj hw]; exact hy i) hr p hp,
    fun hy => value_nonpos (n := fun _ => 2) h.shipped.dims hc hN hu (fun i w hw => by rw [← Datum.finite.inj hw]; exact hy i) hr p hp⟩

/-- A bound that is kept exactly on lines: zero, or a power of two with either sign. -/
def PlainBound (v : ℝ) : Prop := v = 0 ∨ ∃ (s : ℝ) (k : ℤ), (s = 1 ∨ s = -1) ∧ -100 ≤ k ∧ k ≤ 56 ∧ v = s * 2 ^ k

/-- **C131, lines.** In one dimension bounds that are zero or powers of two, such as 0 and 1 for fractions, are kept exactly: interpolated
values are finite and within these bounds if the nodal values are. -/
theorem C131_line_partial {c : Fin 1 → Fin 2 → ℝ} (h : IsLinearIn T e c) {u : List Int → Res Flt} {y : (Fin 1 → Fin 2) → ℝ}
    (hu : ∀ i, u (tup (n := fun _ : Fin 1 => 2) i) = .ok (Flt.ofReal (y i))) {lo hi : ℝ} (hlo : PlainBound lo) (hhi : PlainBound hi)
    (hy : ∀ i, lo ≤ y i ∧ y i ≤ hi) (x : ℝ) (hx : |x| ≤ 1) (hrep : Represents T.format x) :
    ∃ r z, ParentElement.value (floatArith T.format) e [Flt.ofReal x] u = .ok r ∧ r.datum = .finite z ∧ lo ≤ z ∧ z ≤ hi := by
  have bound : ∀ {v : ℝ}, PlainBound v → |v| ≤ 2 ^ 56 := by
    rintro v (rfl | ⟨s, k, hs, -, hk, rfl⟩)
    · norm_num
    · rw [abs_mul, show |s| = 1 by rcases hs with rfl | rfl <;> simp, one_mul, abs_of_pos (by positivity)]
      have := zpow_le_zpow_right₀ (a := (2 : ℝ)) (by norm_num) hk
      exact_mod_cast this
  have hX : (List.ofFn fun _ : Fin 1 => Flt.ofReal x) = [Flt.ofReal x] := rfl
  obtain ⟨r, hr, z, hz, -⟩ := C100_interpolation h.shipped (by norm_num) u y hu (Y := 2 ^ 56) (by norm_num) le_rfl (fun i => by
    have h1 := abs_le.1 (bound hlo)
    have h2 := abs_le.1 (bound hhi)
    rw [abs_le]; constructor <;> linarith [hy i]) (fun _ => x) fun _ => hx
  -- the constant fields
  have const : ∀ {v : ℝ}, PlainBound v → v ≠ 0 → ∃ s, ParentElement.value (floatArith T.format) e (List.ofFn fun _ : Fin 1 => Flt.ofReal x)
      (fun _ => .ok (Flt.ofReal v)) = .ok s ∧ s.datum = .finite v := by
    intro v hv hne
    obtain ⟨S, b, rfl, hS, hc, hb⟩ := linear_parts h
    obtain ⟨f₀, f₁, h0, h1, hsum⟩ := line_constant (wide_format T) (hS 0) hrep.1 hx (hv.resolve_left hne)
    rw [← hb] at h0 h1
    refine ⟨_, line_value (hc 0) h0 h1 rfl rfl, hsum _ ?_⟩
    show (Flt.round T.format false ((0 : ℚ) : ℝ)).datum = _
    rw [Rat.cast_zero, round_zero]
  refine ⟨r, z, hr, hz, ?_, ?_⟩
  · by_cases h0 : lo = 0
    · rw [h0]
      exact (C131_sign_partial h hu (fun _ => x) (fun _ => hx) hr hz).1 fun i => by rw [← h0]; exact (hy i).1
    · obtain ⟨s, hs, hd⟩ := const hlo h0
      exact C131_monotone_partial h (y := fun _ => lo) (fun _ => rfl) hu (fun i => (hy i).1) (fun _ => x) (fun _ => hx) hs hr hd hz
  · by_cases h0 : hi = 0
    · rw [h0]
      exact (C131_sign_partial h hu (fun _ => x) (fun _ => hx) hr hz).2 fun i => by rw [← h0]; exact (hy i).2
    · obtain ⟨s, hs, hd⟩ := const hhi h0
      exact C131_monotone_partial h (z := fun _ => hi) hu (fun _ => rfl) (fun i => (hy i).2) (fun _ => x) (fun _ => hx) hr hs hz hd

private theorem weights (hc : ∀ k, c k 0 = -1 ∧ c k 1 = 1) (x : Fin d → ℝ) (hx : ∀ k, |x k| ≤ 1) :
    (∀ i : Fin d → Fin 2, 0 ≤ ∏ k, ∏ t ∈ Finset.univ.erase (i k), (x k - c k t) / (c k (i k) - c k t)) ∧
    ∑ i : Fin d → Fin 2, ∏ k, ∏ t ∈ Finset.univ.erase (i k), (x k - c k t) / (c k (i k) - c k t) = 1 := by
  have h0 : ∀ k, ∏ t ∈ Finset.univ.erase (0 : Fin 2), (x k - c k t) / (c k 0 - c k t) = (1 - x k) / 2 := fun k => by
    rw [show Finset.univ.erase (0 : Fin 2) = {1} by decide, Finset.prod_singleton, (hc k).1, (hc k).2]
    ring
  have h1 : ∀ k, ∏ t ∈ Finset.univ.erase (1 : Fin 2), (x k - c k t) / (c k 1 - c k t) = (1 + x k) / 2 := fun k => by
    rw [show Finset.univ.erase (1 : Fin 2) = {0} by decide, Finset.prod_singleton, (hc k).1, (hc k).2]
    ring
  constructor
  · intro i
    refine Finset.prod_nonneg fun k _ => ?_
    have hk := abs_le.1 (hx k)
    rcases Fin.exists_fin_two.1 ⟨i k, rfl⟩ with e | e
    · rw [e, h0]; linarith
    · rw [e, h1]; linarith
  · have := Fintype.prod_sum fun (k : Fin d) (j : Fin 2) => ∏ t ∈ Finset.univ.erase j, (x k - c k t) / (c k j - c k t)
    rw [← this]
    refine Finset.prod_eq_one fun k _ => ?_
    rw [Fin.sum_univ_two, h0, h1]
    ring

/-- **C131, the excess.** In up to three dimensions interpolated values exceed the bounds of the nodal values by no more than the rounding error
of C100. -/
theorem C131_excess_partial (h : IsLinearIn T e c) (hd : d ≤ 3) {u : List Int → Res Flt} {y : (Fin d → Fin 2) → ℝ}
    (hu : ∀ i, u (tup (n := fun _ : Fin d => 2) i) = .ok (Flt.ofReal (y i))) {Y : ℝ} (hY1 : 1 ≤ Y) (hY2 : Y ≤ 2 ^ 56) (hY : ∀ i, |y i| ≤ Y)
    {lo hi : ℝ} (hy : ∀ i, lo ≤ y i ∧ y i ≤ hi) (x : Fin d → ℝ) (hx : ∀ k, |x k| ≤ 1) :
    ∃ r z, ParentElement.value (floatArith T.format) e (List.ofFn fun k => Flt.ofReal (x k)) u = .ok r ∧ r.datum = .finite z ∧
      lo - (errBound (unitRoundoff T.format) (9 * d + 2 ^ d) * Y + 2 ^ 66 * Y * smallestPositive T.format) ≤ z ∧
      z ≤ hi + (errBound (unitRoundoff T.format) (9 * d + 2 ^ d) * Y + 2 ^ 66 * Y * smallestPositive T.format) := by
  obtain ⟨r, hr, z, hz, herr⟩ := C100_interpolation h.shipped hd u y hu hY1 hY2 hY x hx
  obtain ⟨hpos, hsum⟩ := weights h.ends x hx
  obtain ⟨N, hN⟩ : ∃ N : (Fin d → Fin 2) → ℝ, N = fun i => ∏ k, ∏ t ∈ Finset.univ.erase (i k), (x k - c k t) / (c k (i k) - c k t) := ⟨_, rfl⟩
  have herr' : |z - ∑ i, N i * y i| ≤ errBound (unitRoundoff T.format) (interpolationRoundings fun _ : Fin d => 1) * ∑ i, |N i| * |y i|
      + 2 ^ 66 * Y * smallestPositive T.format := by rw [hN]; exact herr
  have hpos : ∀ i, 0 ≤ N i := by rw [hN]; exact hpos
  have hsum : ∑ i, N i = 1 := by rw [hN]; exact hsum
  have hround : interpolationRoundings (fun _ : Fin d => 1) = 9 * d + 2 ^ d := by
    unfold interpolationRoundings
    simp; ring
  have h1 : ∑ i, |N i| * |y i| ≤ Y := by
    calc ∑ i, |N i| * |y i| ≤ ∑ i, N i * Y := Finset.sum_le_sum fun i _ => by
          rw [abs_of_nonneg (hpos i)]; exact mul_le_mul_of_nonneg_left (hY i) (hpos i)
      _ = Y := by rw [← Finset.sum_mul, hsum, one_mul]
  have h2 : ∑ i, N i * y i ≤ hi := by
    calc ∑ i, N i * y i ≤ ∑ i, N i * hi := Finset.sum_le_sum fun i _ => mul_le_mul_of_nonneg_left (hy i).2 (hpos i)
      _ = hi := by rw [← Finset.sum_mul, hsum, one_mul]
  have h3 : lo ≤ ∑ i, N i * y i := by
    calc lo = ∑ i, N i * lo := by rw [← Finset.sum_mul, hsum, one_mul]
      _ ≤ _ := Finset.sum_le_sum fun i _ => mul_le_mul_of_nonneg_left (hy i).1 (hpos i)
  have hE : 0 ≤ errBound (unitRoundoff T.format) (9 * d + 2 ^ d) := by
    unfold errBound
    have : (1 : ℝ) ≤ (1 + unitRoundoff T.format) ^ (9 * d + 2 ^ d) := one_le_pow₀ (by
      have : (0 : ℝ) ≤ unitRoundoff T.format := by unfold unitRoundoff; positivity
      linarith)
    linarith
  have h4 := mul_le_mul_of_nonneg_left h1 hE
  rw [hround] at herr'
  obtain ⟨ha, hb⟩ := abs_le.1 herr'
  exact ⟨r, z, hr, hz, by linarith, by linarith⟩

end element

/-- An element with the same basis in all directions. -/
theorem same_linear (T : RealType) {fam : Family} (hfam : fam = .equal ∨ fam = .gaussLobatto) {d : ℕ} (hd : 0 < d) :
    ∃ (b : Basis Flt) (c : Fin d → Fin 2 → ℝ), T.arith.lagrangeBasis (fam.spacingIn T.arith) (1 : ℕ) = .ok b ∧
      IsLinearIn T ⟨.ok d, List.replicate d b⟩ c := by
  have hs : fam.Supports 1 := by cases fam <;> constructor <;> omega
  obtain ⟨c, -, -, hc⟩ := C100_points T fam 1 (by norm_num) (by norm_num) hs
  obtain ⟨b, hb, -⟩ := C100_basis T fam (order := 1) (by norm_num) (by norm_num) hs hc
  refine ⟨b, fun _ => c, hb, ⟨hd, rfl, fun _ => ⟨by norm_num, by norm_num⟩, fun _ => fam, fun _ => b, (List.ofFn_const ..).symm,
    fun _ => ⟨hs, hc, hb⟩⟩, fun _ => ?_⟩
  have e0 : ∀ T ∈ types, ∀ fam ∈ [Family.equal, .gaussLobatto], knownPoint T fam 1 0 = some (-1) ∧ knownPoint T fam 1 1 = some 1 := by decide +kernel
  obtain ⟨p0, p1⟩ := e0 T (mem_types T) fam (by rcases hfam with rfl | rfl <;> decide)
  constructor
  · have := Flt.mk.inj (Res.ok.inj ((hc 0).symm.trans (knownPoint_sound p0)))
    rw [Datum.finite.inj this.1]; norm_num
  · have := Flt.mk.inj (Res.ok.inj ((hc 1).symm.trans (knownPoint_sound p1)))
    rw [Datum.finite.inj this.1]; norm_num

/-- **C131 is violated**: in `float` and `double`, with EqualSpacing and with GaussLobattoSpacing, interpolating the constant 3 on a line
gives more than 3 at some point, and interpolating the constant 1 on a square or in a cube gives more than 1. -/
theorem C131_violated : ¬ WithinNodalValues ∧
    ∀ (T : RealType) (fam : Family), fam = .equal ∨ fam = .gaussLobatto → ∃ b : Basis Flt,
      T.arith.lagrangeBasis (fam.spacingIn T.arith) (1 : ℕ) = .ok b ∧
      ∀ (d : ℕ) (v : ℝ), (d, v) ∈ [(1, (3 : ℝ)), (2, 1), (3, 1)] → ∃ (x : Fin d → ℝ) (z : ℝ), (∀ k, |x k| ≤ 1 ∧ Represents T.format (x k)) ∧
        ParentElement.value (floatArith T.format) ⟨.ok d, List.replicate d b⟩ (List.ofFn fun k => Flt.ofReal (x k)) (fun _ => .ok (Flt.ofReal v))
          = .ok (Flt.ofReal z) ∧ v < z := by
  have all : ∀ (T : RealType) (fam : Family), fam = .equal ∨ fam = .gaussLobatto → ∀ b : Basis Flt,
      T.arith.lagrangeBasis (fam.spacingIn T.arith) (1 : ℕ) = .ok b →
      ∀ (d : ℕ) (l : List ℚ) (v : ℚ), constantExceeded T fam d l v = true → ∃ (x : Fin d → ℝ) (z : ℝ), (∀ k, |x k| ≤ 1 ∧ Represents T.format (x k)) ∧
        ParentElement.value (floatArith T.format) ⟨.ok d, List.replicate d b⟩ (List.ofFn fun k => Flt.ofReal (x k)) (fun _ => .ok (Flt.ofReal v))
          = .ok (Flt.ofReal z) ∧ v < z := by
    intro T fam hfam b hb d l v hw
    obtain ⟨q, hq, hk, -, -, rfl, hx⟩ := constantExceeded_spec hw
    refine ⟨fun k => (l[k] : ℚ), q, fun k => ⟨?_, (hx _ (List.getElem_mem k.2)).2⟩, ?_, by exact_mod_cast hq⟩
    · show |((l[k] : ℚ) : ℝ)| ≤ 1
      rw [← Rat.cast_abs]
      exact_mod_cast (hx _ (List.getElem_mem k.2)).1
    · have := knownInterpolation_sound hk (linear_form T fam hb)
      rw [← this]
      congr 1
      apply List.ext_getElem
      · simp
      · intro i h1 h2
        simp
  have each : ∀ (T : RealType) (fam : Family), fam = .equal ∨ fam = .gaussLobatto → ∀ b : Basis Flt,
      T.arith.lagrangeBasis (fam.spacingIn T.arith) (1 : ℕ) = .ok b →
      ∀ (d : ℕ) (v : ℝ), (d, v) ∈ [(1, (3 : ℝ)), (2, 1), (3, 1)] → ∃ (x : Fin d → ℝ) (z : ℝ), (∀ k, |x k| ≤ 1 ∧ Represents T.format (x k)) ∧
        ParentElement.value (floatArith T.format) ⟨.ok d, List.replicate d b⟩ (List.ofFn fun k => Flt.ofReal (x k)) (fun _ => .ok (Flt.ofReal v))
          = .ok (Flt.ofReal z) ∧ v < z := by
    intro T fam hfam b hb d v hdv
    have hm : fam ∈ [Family.equal, .gaussLobatto] := by rcases hfam with rfl | rfl <;> decide
    simp only [List.mem_cons, Prod.mk.injEq, List.not_mem_nil, or_false] at hdv
    rcases hdv with ⟨rfl, rfl⟩ | ⟨rfl, rfl⟩ | ⟨rfl, rfl⟩
    · have := all T fam hfam b hb 1 _ 3 (exceeded_line T (mem_types T) fam hm)
      push_cast at this
      exact this
    · have := all T fam hfam b hb 2 _ 1 (exceeded_square T (mem_types T) fam hm)
      push_cast at this
      exact this
    · have := all T fam hfam b hb 3 _ 1 (exceeded_cube T (mem_types T) fam hm)
      push_cast at this
      exact this
  refine ⟨fun hall => ?_, fun T fam hfam => ?_⟩
  · obtain ⟨b, c, hb, hlin⟩ := same_linear .double (fam := .equal) (.inl rfl) (d := 2) (by norm_num)
    obtain ⟨x, z, hx, hv, hz⟩ := each .double .equal (.inl rfl) b hb 2 1 (by simp)
    have r1 : Represents RealType.double.format 1 := by
      have := (wide_format .double).pow (k := 0) (by norm_num) (by norm_num); rwa [zpow_zero] at this
    obtain ⟨r, w, hr, hw, -, h1⟩ := hall .double 2 c _ hlin (fun _ => .ok (Flt.ofReal 1)) (fun _ => 1) (fun _ => rfl)
      (fun _ => ⟨r1, by norm_num⟩) 1 1 (fun _ => ⟨le_rfl, le_rfl⟩) x hx
    obtain rfl := Res.ok.inj (hr.symm.trans hv)
    have := Datum.finite.inj hw
    linarith
  · obtain ⟨b, -, hb, -⟩ := same_linear T hfam (d := 1) (by norm_num)
    exact ⟨b, hb, each T fam hfam b hb⟩

/-- Non-vacuity of C131: a line in `float` with the nodal values 1/3 (rounded) and 1 stays within 0 and 1; a cube in `double` whose nodal values
are the number of indices that are 1 stays nonnegative. -/
example : (∃ (b : Basis Flt) (c : Fin 1 → Fin 2 → ℝ) (r : Flt) (z : ℝ), floatMixed.lagrangeBasis floatMixed.equalSpacing (1 : ℕ) = .ok b ∧
      IsLinearIn .float ⟨.ok (1 : ℕ), List.replicate 1 b⟩ c ∧
      ParentElement.value (floatArith binary32) ⟨.ok (1 : ℕ), List.replicate 1 b⟩ [Flt.ofReal (3 / 4)]
        (fun l => .ok (Flt.ofReal (if l = [0] then binary32.nearest (1 / 3) else 1))) = .ok r ∧ r.datum = .finite z ∧ 0 ≤ z ∧ z ≤ 1) ∧
    ∃ (b : Basis Flt) (c : Fin 3 → Fin 2 → ℝ) (r : Flt) (z : ℝ), doubleMixed.lagrangeBasis doubleMixed.gaussLobattoSpacing (1 : ℕ) = .ok b ∧
      IsLinearIn .double ⟨.ok (3 : ℕ), List.replicate 3 b⟩ c ∧
      ParentElement.value (floatArith binary64) ⟨.ok (3 : ℕ), List.replicate 3 b⟩ (List.ofFn fun k : Fin 3 => Flt.ofReal (![1 / 2, -1 / 4, 3 / 4] k))
        (fun l => .ok (Flt.ofReal (l.sum : ℤ))) = .ok r ∧ r.datum = .finite z ∧ 0 ≤ z := by
  have hex : ∃ k : ℤ, (1 : ℝ) = 2 ^ k := ⟨0, by norm_num⟩
  constructor
  · obtain ⟨b, c, hb, h⟩ := same_linear .float (fam := .equal) (.inl rfl) (d := 1) (by norm_num)
    have r34 : Represents binary32 (3 / 4) := by
      have := round_represents binary32 (evalRound_sound binary32 (q := 3 / 4) (r := 3 / 4) (by decide +kernel))
      push_cast at this; exact this
    obtain ⟨r, z, hr, hz, h0, h1⟩ := C131_line_partial h
      (u := fun l => .ok (Flt.ofReal (if l = [0] then binary32.nearest (1 / 3) else 1)))
      (y := fun i => if tup (n := fun _ : Fin 1 => 2) i = [0] then binary32.nearest (1 / 3) else 1) (fun _ => rfl) (lo := 0) (hi := 1) (.inl rfl)
      (.inr ⟨1, 0, .inl rfl, by norm_num, by norm_num, by norm_num⟩) (fun i => by
        have r1 : binary32.nearest 1 = 1 := by
          have := ((wide_format .float).pow (k := 0) (by norm_num) (by norm_num)).1; rwa [zpow_zero] at this
        have a1 : 0 ≤ binary32.nearest (1 / 3) := nearest_nonneg _ (by norm_num)
        have a2 : binary32.nearest (1 / 3) ≤ 1 := by
          have := nearest_mono (F := binary32) (x := 1 / 3) (y := 1) (by norm_num)
          rwa [r1] at this
        split_ifs
        · exact ⟨a1, a2⟩
        · exact ⟨by norm_num, le_rfl⟩) (3 / 4) (by norm_num [abs_le]) r34
    exact ⟨b, c, r, z, hb, h, hr, hz, h0, h1⟩
  · obtain ⟨b, c, hb, h⟩ := same_linear .double (fam := .gaussLobatto) (.inr rfl) (d := 3) (by norm_num)
    have hsum : ∀ i : Fin 3 → Fin 2, 0 ≤ (tup (n := fun _ : Fin 3 => 2) i).sum ∧ (tup (n := fun _ : Fin 3 => 2) i).sum ≤ 3 := by decide
    have hx : ∀ k : Fin 3, |(![1 / 2, -1 / 4, 3 / 4] : Fin 3 → ℝ) k| ≤ 1 := fun k => by fin_cases k <;> norm_num [abs_le]
    obtain ⟨r, z, hr, hz, -, -⟩ := C131_excess_partial h (by norm_num) (u := fun l => .ok (Flt.ofReal (l.sum : ℤ)))
      (y := fun i => (((tup (n := fun _ : Fin 3 => 2) i).sum : ℤ) : ℝ)) (fun _ => rfl) (Y := 3) (by norm_num) (by norm_num) (fun i => by
        have h1 : (0 : ℝ) ≤ (((tup (n := fun _ : Fin 3 => 2) i).sum : ℤ) : ℝ) := by exact_mod_cast (hsum i).1
        rw [abs_of_nonneg h1]; exact_mod_cast (hsum i).2) (lo := 0) (hi := 3)
      (fun i => ⟨by exact_mod_cast (hsum i).1, by exact_mod_cast (hsum i).2⟩) ![1 / 2, -1 / 4, 3 / 4] hx
    exact ⟨b, c, r, z, hb, h, hr, hz, (C131_sign_partial h (u := fun l => .ok (Flt.ofReal (l.sum : ℤ)))
      (y := fun i => (((tup (n := fun _ : Fin 3 => 2) i).sum : ℤ) : ℝ)) (fun _ => rfl) _ hx hr hz).1 fun i => by exact_mod_cast (hsum i).1⟩

end Verif.Props
