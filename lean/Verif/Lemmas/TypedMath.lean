import Verif.Model.TypedMath
import Verif.Lemmas.IndexConversion
import Verif.Lemmas.Counting

/-! # Supporting lemmas: powers and factorials in any integer type -/

namespace Verif.Lemmas

open Verif.IndexConversion

theorem convert_fits (t : CType) (x : Int) : t.min ≤ t.convert x ∧ t.convert x ≤ t.max := by
  have hM : 0 < t.max - t.min + 1 := by cases t <;> decide
  have h0 := Int.emod_nonneg (x - t.min) hM.ne'
  have h1 := Int.emod_lt_of_pos (x - t.min) hM
  rw [CType.convert]; omega

theorem convert_dvd (t : CType) (x : Int) : (t.max - t.min + 1) ∣ x - t.convert x := by
  rw [CType.convert]
  have := Int.dvd_self_sub_emod (x := x - t.min) (m := t.max - t.min + 1)
  rwa [show x - ((x - t.min) % (t.max - t.min + 1) + t.min) = x - t.min - (x - t.min) % (t.max - t.min + 1) by ring]

theorem convert_congr {t : CType} {x y : Int} (h : (t.max - t.min + 1) ∣ x - y) : t.convert x = t.convert y := by
  rw [CType.convert, CType.convert]
  congr 1
  apply Int.emod_emod_of_dvd _ (dvd_refl _) |>.symm.trans _ |>.trans (Int.emod_emod_of_dvd _ (dvd_refl _))
  congr 1
  exact (Int.emod_eq_emod_iff_emod_sub_eq_zero.2 (by
    rw [show x - t.min - (y - t.min) = x - y by ring]; exact Int.emod_eq_zero_of_dvd h))

theorem convert_mul_left (t : CType) (a b : Int) : t.convert (t.convert a * b) = t.convert (a * b) := by
  apply convert_congr
  have := convert_dvd t a
  rw [show t.convert a * b - a * b = -((a - t.convert a) * b) by ring]
  exact (Dvd.dvd.mul_right this b).neg_right

theorem arith_fits {t : CType} {x : Int} (h : t.min ≤ x ∧ x ≤ t.max) : t.arith x = .ok x := by
  rw [CType.arith, if_pos h]

theorem arith_unsigned {t : CType} (h : t.signed = false) (x : Int) : t.arith x = .ok (t.convert x) := by
  rw [CType.arith]
  split
  · rename_i hx; rw [convert_id hx.1 hx.2]
  · simp [h]

theorem arith_eq_ok {t : CType} {x v : Int} (h : t.arith x = .ok v) : (t.max - t.min + 1) ∣ x - v := by
  rw [CType.arith] at h
  split at h
  · cases h; simp
  · split at h
    · cases h
    · cases h; exact convert_dvd t x

theorem arith_cases (t : CType) (x : Int) : (∃ v, t.arith x = .ok v) ∨ t.arith x = .ub := by
  rw [CType.arith]
  split
  · exact .inl ⟨_, rfl⟩
  · split
    · exact .inr rfl
    · exact .inl ⟨_, rfl⟩

/-- The modulus of a type divides that of its promotion. -/
theorem modulus_dvd (t : CType) : (t.max - t.min + 1) ∣ (t.withInt.max - t.withInt.min + 1) := by
  cases t <;> decide

theorem fits_promoted {t : CType} {x : Int} (h : t.min ≤ x ∧ x ≤ t.max) : t.withInt.min ≤ x ∧ x ≤ t.withInt.max := by
  have h1 : t.withInt.min ≤ t.min := by cases t <;> decide
  have h2 : t.max ≤ t.withInt.max := by cases t <;> decide
  omega

/-! ### pow -/

theorem mulAssign_eq_ok {t : CType} {r b v : Int} (h : TypedMath.mulAssign t r b = .ok v) : v = t.convert (r * b) := by
  obtain ⟨p, hp, hv⟩ := Res.bind_eq_ok.1 h
  cases hv
  apply convert_congr
  have := arith_eq_ok hp
  rw [show p - r * b = -(r * b - p) by ring]
  exact ((modulus_dvd t).trans this).neg_right

theorem mulAssign_cases (t : CType) (r b : Int) :
    TypedMath.mulAssign t r b = .ok (t.convert (r * b)) ∨ TypedMath.mulAssign t r b = .ub := by
  rcases arith_cases t.withInt (r * b) with ⟨v, hv⟩ | hv
  · left
    have : TypedMath.mulAssign t r b = .ok (t.convert v) := by
      rw [TypedMath.mulAssign, TypedMath.promotedMul, hv]; rfl
    rw [this, mulAssign_eq_ok this]
  · right; rw [TypedMath.mulAssign, TypedMath.promotedMul, hv]; rfl

theorem powLoop_cases (t : CType) (b : Int) (n k : ℕ) :
    MathUtilities.powLoop (TypedMath.mulAssign t) b n (t.convert (b ^ k)) = .ok (t.convert (b ^ (k + n))) ∨
    MathUtilities.powLoop (TypedMath.mulAssign t) b n (t.convert (b ^ k)) = .ub := by
  induction n generalizing k with
  | zero => left; rfl
  | succ n ih =>
    rw [MathUtilities.powLoop]
    rcases mulAssign_cases t (t.convert (b ^ k)) b with h | h
    · rw [h, Res.ok_bind, convert_mul_left, ← pow_succ]
      have := ih (k + 1)
      rwa [show k + 1 + n = k + (n + 1) by omega] at this
    · right; rw [h]; rfl

theorem one_fits {t : CType} : t.convert 1 = 1 := by cases t <;> decide

theorem pow_cases (t : CType) (b : Int) (n : ℕ) :
    TypedMath.pow t n b = .ok (t.convert (b ^ n)) ∨ TypedMath.pow t n b = .ub := by
  have := powLoop_cases t b n 0
  rw [pow_zero, one_fits, zero_add] at this
  exact this

/-- The smaller powers of a number fit if a larger one does. -/
theorem pow_fits {t : CType} (ht : t ≠ .bool) {b : Int} (hb : t.min ≤ b ∧ b ≤ t.max) {k n : ℕ} (hkn : k ≤ n)
    (h : t.min ≤ b ^ n ∧ b ^ n ≤ t.max) : t.min ≤ b ^ k ∧ b ^ k ≤ t.max := by
  rcases hkn.eq_or_lt with rfl | hlt
  · exact h
  have hmx : 1 ≤ t.max := by cases t <;> decide
  by_cases h2 : 2 ≤ |b|
  · have h3 : |b ^ n| = |b ^ k| * |b| ^ (n - k) := by rw [← abs_pow b, ← abs_mul, ← pow_add]; congr 2; omega
    have h4 : 2 ≤ |b| ^ (n - k) := by
      calc (2 : Int) ≤ |b| := h2
        _ = |b| ^ 1 := (pow_one _).symm
        _ ≤ |b| ^ (n - k) := pow_le_pow_right₀ (by omega) (by omega)
    have h5 : 2 * |b ^ k| ≤ |b ^ n| := by rw [h3]; nlinarith [abs_nonneg (b ^ k)]
    by_cases hs : t.min = 0
    · have h6 : 0 ≤ b := by omega
      have h7 : 0 ≤ b ^ k := pow_nonneg h6 k
      have h8 : 0 ≤ b ^ n := pow_nonneg h6 n
      rw [abs_of_nonneg h7, abs_of_nonneg h8] at h5
      omega
    · have hm : t.min = -t.max - 1 := by cases t <;> first | rfl | exact absurd rfl hs
      have h6 : |b ^ n| ≤ t.max + 1 := abs_le.2 ⟨by omega, by omega⟩
      have h7 := abs_le.1 (show |b ^ k| ≤ t.max by omega)
      omega
  · have h1 := abs_lt.1 (not_le.1 h2)
    have : b = 0 ∨ b = 1 ∨ b = -1 := by omega
    have hm : t.min ≤ 0 := by cases t <;> decide
    rcases this with rfl | rfl | rfl
    · rcases Nat.eq_zero_or_pos k with rfl | hk
      · simp; omega
      · rw [zero_pow hk.ne']; omega
    · rw [one_pow]; omega
    · rcases neg_one_pow_eq_or Int k with e | e <;> rw [e] <;> omega

theorem powLoop_fits {t : CType} (ht : t ≠ .bool) {b : Int} (hb : t.min ≤ b ∧ b ≤ t.max) (n k : ℕ)
    (h : t.min ≤ b ^ (k + n) ∧ b ^ (k + n) ≤ t.max) :
    MathUtilities.powLoop (TypedMath.mulAssign t) b n (b ^ k) = .ok (b ^ (k + n)) := by
  induction n generalizing k with
  | zero => rfl
  | succ n ih =>
    have h1 := pow_fits ht hb (show k + 1 ≤ k + (n + 1) by omega) h
    rw [MathUtilities.powLoop, TypedMath.mulAssign, TypedMath.promotedMul, ← pow_succ, arith_fits (fits_promoted h1),
      Res.ok_bind, convert_id h1.1 h1.2, Res.ok_bind, ih (k + 1) (by rwa [show k + 1 + n = k + (n + 1) by omega])]
    congr 2; omega

theorem pow_exact {t : CType} (ht : t ≠ .bool) {b : Int} (hb : t.min ≤ b ∧ b ≤ t.max) (n : ℕ)
    (h : t.min ≤ b ^ n ∧ b ^ n ≤ t.max) : TypedMath.pow t n b = .ok (b ^ n) := by
  have := powLoop_fits ht hb n 0 (by rwa [zero_add])
  rw [pow_zero, zero_add] at this
  exact this

/-- In the types whose products of two numbers never leave the promoted type, `pow` always has a value. -/
theorem mulAssign_total {t : CType} (ht : t ∈ [CType.i8, .u8, .i16, .u32, .u64]) {r b : Int} (hr : t.min ≤ r ∧ r ≤ t.max)
    (hb : t.min ≤ b ∧ b ≤ t.max) : TypedMath.mulAssign t r b = .ok (t.convert (r * b)) := by
  refine (mulAssign_cases t r b).resolve_right fun h => ?_
  have key : ∃ v, t.withInt.arith (r * b) = .ok v := by
    have hsmall : ∀ m : Int, (-m - 1 ≤ r ∧ r ≤ m) → (-m - 1 ≤ b ∧ b ≤ m) → m ≤ 40000 →
        -2147483648 ≤ r * b ∧ r * b ≤ 2147483647 := by
      intro m h1 h2 hm
      have h3 : |r| ≤ 40001 := abs_le.2 ⟨by omega, by omega⟩
      have h4 : |b| ≤ 40001 := abs_le.2 ⟨by omega, by omega⟩
      have h5 : |r * b| ≤ 40001 * 40001 := by rw [abs_mul]; exact mul_le_mul h3 h4 (abs_nonneg _) (by norm_num)
      have := abs_le.1 h5
      omega
    simp only [List.mem_cons, List.not_mem_nil, or_false] at ht
    rcases ht with rfl | rfl | rfl | rfl | rfl
    · exact ⟨_, arith_fits (t := .i32) (hsmall 127 hr hb (by norm_num))⟩
    · have hr' : (0 : Int) ≤ r ∧ r ≤ 255 := hr
      have hb' : (0 : Int) ≤ b ∧ b ≤ 255 := hb
      exact ⟨_, arith_fits (t := .i32) (hsmall 255 (by omega) (by omega) (by norm_num))⟩
    · exact ⟨_, arith_fits (t := .i32) (hsmall 32767 hr hb (by norm_num))⟩
    · exact ⟨_, arith_unsigned rfl _⟩
    · exact ⟨_, arith_unsigned rfl _⟩
  obtain ⟨v, hv⟩ := key
  rw [TypedMath.mulAssign, TypedMath.promotedMul, hv] at h
  cases h

theorem powLoop_total {t : CType} (ht : t ∈ [CType.i8, .u8, .i16, .u32, .u64]) {b : Int} (hb : t.min ≤ b ∧ b ≤ t.max)
    (n k : ℕ) : MathUtilities.powLoop (TypedMath.mulAssign t) b n (t.convert (b ^ k)) = .ok (t.convert (b ^ (k + n))) := by
  induction n generalizing k with
  | zero => rfl
  | succ n ih =>
    rw [MathUtilities.powLoop, mulAssign_total ht (convert_fits t _) hb, Res.ok_bind, convert_mul_left, ← pow_succ, ih (k + 1)]
    congr 3; omega

theorem pow_total {t : CType} (ht : t ∈ [CType.i8, .u8, .i16, .u32, .u64]) {b : Int} (hb : t.min ≤ b ∧ b ≤ t.max)
    (n : ℕ) : TypedMath.pow t n b = .ok (t.convert (b ^ n)) := by
  have := powLoop_total ht hb n 0
  rw [pow_zero, one_fits, zero_add] at this
  exact this

/-- For the signed types that are not promoted, `pow` is that of `Model/MathUtilities.lean`. -/
theorem powLoop_signed {t : CType} {T : IntType} (ht : t = .i32 ∧ T = int32 ∨ t = .i64 ∧ T = int64) (b : Int) (n : ℕ)
    (r : Int) : MathUtilities.powLoop (TypedMath.mulAssign t) b n r = MathUtilities.powLoop T.mul b n r := by
  induction n generalizing r with
  | zero => rfl
  | succ n ih =>
    have : TypedMath.mulAssign t r b = T.mul r b := by
      rcases ht with ⟨rfl, rfl⟩ | ⟨rfl, rfl⟩
      · show ((if (-2147483648 : Int) ≤ r * b ∧ r * b ≤ 2147483647 then Res.ok (r * b) else Res.ub) >>= fun p =>
          Res.ok (CType.i32.convert p)) = if (-2147483648 : Int) ≤ r * b ∧ r * b ≤ 2147483647 then Res.ok (r * b) else Res.ub
        split
        · rename_i h; rw [Res.ok_bind, convert_id (t := .i32) h.1 h.2]
        · rfl
      · show ((if (-9223372036854775808 : Int) ≤ r * b ∧ r * b ≤ 9223372036854775807 then Res.ok (r * b) else Res.ub) >>=
          fun p => Res.ok (CType.i64.convert p))
          = if (-9223372036854775808 : Int) ≤ r * b ∧ r * b ≤ 9223372036854775807 then Res.ok (r * b) else Res.ub
        split
        · rename_i h; rw [Res.ok_bind, convert_id (t := .i64) h.1 h.2]
        · rfl
    rw [MathUtilities.powLoop, MathUtilities.powLoop, this]
    congr 1; funext x; exact ih x

/-! ### factorial -/

theorem typedFold_ok {t : CType} (m k : ℕ) (hm : ((k + m).factorial : Int) ≤ t.withInt.max) :
    TypedMath.factorialFold t ((List.range' k m).map Int.ofNat) (k.factorial : Int) = .ok ((k + m).factorial : Int) := by
  have hmin := (withInt_bounds t).1
  induction m generalizing k with
  | zero => simp [TypedMath.factorialFold]
  | succ m ih =>
    have h1 : ((k + 1).factorial : Int) ≤ t.withInt.max := le_trans (by exact_mod_cast Nat.factorial_le (by omega)) hm
    have h2 : ((k + 1 : ℕ) : Int) ≤ t.withInt.max := le_trans (by exact_mod_cast Nat.self_le_factorial _) h1
    have h3 : (0 : Int) ≤ ((k + 1).factorial : Int) := by positivity
    have h4 : (k.factorial : Int) * ((k : Int) + 1) = ((k + 1).factorial : Int) := by
      rw [Nat.factorial_succ]; push_cast; ring
    simp only [List.range'_succ, List.map_cons, TypedMath.factorialFold, Int.ofNat_eq_natCast]
    rw [arith_fits ⟨by omega, by push_cast at h2; omega⟩, Res.ok_bind, h4, arith_fits ⟨by omega, h1⟩, Res.ok_bind]
    have := ih (k + 1) (by rw [show k + 1 + m = k + (m + 1) by omega]; exact hm)
    rw [this]; congr 3; omega

theorem typedFold_fail {t : CType} (ht : t.withInt.signed = true) (m k : ℕ) (hk : (k.factorial : Int) ≤ t.withInt.max)
    (hm : ¬ ((k + m).factorial : Int) ≤ t.withInt.max) :
    TypedMath.factorialFold t ((List.range' k m).map Int.ofNat) (k.factorial : Int) = .ub := by
  have hmin := (withInt_bounds t).1
  have hub : ∀ x : Int, ¬ (t.withInt.min ≤ x ∧ x ≤ t.withInt.max) → t.withInt.arith x = .ub := by
    intro x hx; rw [CType.arith, if_neg hx, if_pos ht]
  induction m generalizing k with
  | zero => exact absurd hk hm
  | succ m ih =>
    have h4 : (k.factorial : Int) * ((k : Int) + 1) = ((k + 1).factorial : Int) := by
      rw [Nat.factorial_succ]; push_cast; ring
    simp only [List.range'_succ, List.map_cons, TypedMath.factorialFold, Int.ofNat_eq_natCast]
    by_cases ha : t.withInt.min ≤ (k : Int) + 1 ∧ (k : Int) + 1 ≤ t.withInt.max
    · rw [arith_fits ha, Res.ok_bind, h4]
      by_cases hb : t.withInt.min ≤ ((k + 1).factorial : Int) ∧ ((k + 1).factorial : Int) ≤ t.withInt.max
      · rw [arith_fits hb, Res.ok_bind]
        exact ih (k + 1) hb.2 (by rw [show k + 1 + m = k + (m + 1) by omega]; exact hm)
      · rw [hub _ hb, Res.ub_bind]
    · rw [hub _ ha, Res.ub_bind]

theorem typedFold_wrap {t : CType} (ht : t.withInt.signed = false) (m k : ℕ) :
    TypedMath.factorialFold t ((List.range' k m).map Int.ofNat) (t.withInt.convert (k.factorial : Int))
      = .ok (t.withInt.convert ((k + m).factorial : Int)) := by
  induction m generalizing k with
  | zero => simp [TypedMath.factorialFold]
  | succ m ih =>
    have h4 : t.withInt.convert (t.withInt.convert (k.factorial : Int) * t.withInt.convert ((k : Int) + 1))
        = t.withInt.convert ((k + 1).factorial : Int) := by
      rw [convert_mul_left, mul_comm, convert_mul_left, mul_comm, Nat.factorial_succ]; push_cast; congr 1; ring
    simp only [List.range'_succ, List.map_cons, TypedMath.factorialFold, Int.ofNat_eq_natCast]
    rw [arith_unsigned ht, Res.ok_bind, arith_unsigned ht, Res.ok_bind, h4, ih (k + 1),
      show k + 1 + m = k + (m + 1) by omega]

theorem typedFactorial_nat {t : CType} {n : ℕ} (hn : (n : Int) ≤ t.max) :
    TypedMath.factorial t n = if t.withInt.signed = false ∨ (n.factorial : Int) ≤ t.withInt.max
      then .ok (t.convert (n.factorial : Int)) else .illFormed := by
  have hr : List.range n = List.range' 0 n := List.range_eq_range'
  have hmin : t.min ≤ 0 := by cases t <;> decide
  have hb := withInt_bounds t
  rw [TypedMath.factorial, staticAssert_bind_true ⟨by omega, hn⟩]
  simp only [Sequence.makeIntegerSequence, Int.natCast_nonneg, if_true, Res.ok_bind, Int.toNat_natCast, hr]
  by_cases h : (n.factorial : Int) ≤ t.withInt.max
  · rw [if_pos (.inr h)]
    have := typedFold_ok (t := t) n 0 (by simpa using h)
    simp only [Nat.factorial_zero, Nat.cast_one, zero_add] at this
    rw [this]; rfl
  · by_cases hs : t.withInt.signed = false
    · rw [if_pos (.inl hs)]
      have := typedFold_wrap hs n 0
      simp only [Nat.factorial_zero, Nat.cast_one, zero_add, one_fits] at this
      rw [this]
      simp only [Res.constexpr_ok, Res.ok_bind]
      congr 1
      apply convert_congr
      have := convert_dvd t.withInt (n.factorial : Int)
      rw [show t.withInt.convert (n.factorial : Int) - n.factorial = -(n.factorial - t.withInt.convert (n.factorial : Int)) by
        ring]
      exact ((modulus_dvd t).trans this).neg_right
    · rw [if_neg (by tauto)]
      have := typedFold_fail (t := t) (by simpa using hs) n 0 (by simp; omega) (by simpa using h)
      simp only [Nat.factorial_zero, Nat.cast_one] at this
      rw [this]; rfl

theorem typedFactorial_bad {t : CType} {n : Int} (h : ¬ (0 ≤ n ∧ n ≤ t.max)) : TypedMath.factorial t n = .illFormed := by
  rw [TypedMath.factorial]
  by_cases h1 : t.min ≤ n ∧ n ≤ t.max
  · rw [staticAssert_bind_true h1, Sequence.makeIntegerSequence, if_neg (by omega)]; rfl
  · rw [staticAssert_bind_false h1]

theorem typedFactorial_exact {t : CType} {n : ℕ} (h : (n.factorial : Int) ≤ t.max) :
    TypedMath.factorial t n = .ok (n.factorial : Int) := by
  have hn : (n : Int) ≤ t.max := le_trans (by exact_mod_cast Nat.self_le_factorial _) h
  have h2 : t.max ≤ t.withInt.max := by cases t <;> decide
  have hmin : t.min ≤ 0 := by cases t <;> decide
  rw [typedFactorial_nat hn, if_pos (.inr (by omega)), convert_id (by omega) h]

theorem typedBinomial_exact {t : CType} {n k : ℕ} (hkn : k ≤ n) (h : (n.factorial : Int) ≤ t.max) :
    TypedMath.binomialCoefficient t n k = .ok (n.choose k : Int) := by
  have hk : (k.factorial : Int) ≤ t.max := le_trans (by exact_mod_cast Nat.factorial_le hkn) h
  have hnk : ((n - k).factorial : Int) ≤ t.max := le_trans (by exact_mod_cast Nat.factorial_le (by omega)) h
  have hn : ((n : ℕ) : Int) ≤ t.max := le_trans (by exact_mod_cast Nat.self_le_factorial _) h
  have e1 : (n : Int) - (k : Int) = ((n - k : ℕ) : Int) := by omega
  have hd : (k.factorial : Int) * ((n - k).factorial : Int) ≤ (n.factorial : Int) := by
    have : k.factorial * (n - k).factorial ∣ n.factorial := Nat.factorial_mul_factorial_dvd_factorial hkn
    exact_mod_cast Nat.le_of_dvd (Nat.factorial_pos _) this
  have hpos : (0 : Int) < (k.factorial : Int) * ((n - k).factorial : Int) := by positivity
  have h2 : t.max ≤ t.withInt.max := by cases t <;> decide
  have hmin : t.min ≤ 0 := by cases t <;> decide
  have hmin' := (withInt_bounds t).1
  rw [TypedMath.binomialCoefficient, staticAssert_bind_true (by omega), staticAssert_bind_true (by omega),
    staticAssert_bind_true (by omega), typedFactorial_exact h, Res.ok_bind, typedFactorial_exact hk, Res.ok_bind, e1,
    typedFactorial_exact hnk, Res.ok_bind, TypedMath.promotedMul, arith_fits ⟨by omega, by omega⟩, Res.constexpr_ok, Res.ok_bind,
    if_neg hpos.ne']
  have hq : Int.tdiv (n.factorial : Int) ((k.factorial : Int) * ((n - k).factorial : Int)) = (n.choose k : Int) := by
    rw [Int.tdiv_eq_ediv_of_nonneg (by positivity), Nat.choose_eq_factorial_div_factorial hkn]
    push_cast; rfl
  have hc : (n.choose k : Int) ≤ (n.factorial : Int) := by
    rw [← hq, Int.tdiv_eq_ediv_of_nonneg (by positivity)]
    exact Int.ediv_le_self _ (by positivity)
  rw [hq, arith_fits ⟨by omega, by omega⟩, Res.constexpr_ok, Res.ok_bind, convert_id (by omega) (by omega)]

theorem typedBinomial_bad {t : CType} {n k : Int} (h : ¬ (0 ≤ k ∧ k ≤ n ∧ n ≤ t.max)) :
    TypedMath.binomialCoefficient t n k = .illFormed := by
  rw [TypedMath.binomialCoefficient]
  by_cases h1 : (t.min ≤ n ∧ n ≤ t.max) ∧ (t.min ≤ k ∧ k ≤ t.max)
  · rw [staticAssert_bind_true h1]
    by_cases h2 : 0 ≤ k
    · rw [staticAssert_bind_true h2, staticAssert_bind_false (by omega)]
    · rw [staticAssert_bind_false h2]
  · rw [staticAssert_bind_false h1]

end Verif.Lemmas
