import Verif.Lemmas.TypedMath

/-! # Property C98: powers, factorials and binomial coefficients in any integer type -/

namespace Verif.Props

open Verif.Lemmas Verif.IndexConversion

/-- **C98 is false.** `factorial` and `binomialCoefficient` compile and return wrong numbers in types narrower than `int`
and in unsigned types, even when the type can hold the right one: `factorial< signed char, 6 >` is -48,
`binomialCoefficient< signed char, 6, 3 >` is -1 instead of 20, and `binomialCoefficient< unsigned, 13, 6 >` is 532
instead of 1716.  `pow` wraps around, except that `pow< unsigned short, 2 >( 65535 )` is undefined, because `unsigned short` is
promoted to `int`. -/
theorem C98_violated :
    TypedMath.factorial .i8 6 = .ok (-48) ∧ TypedMath.factorial .u32 13 = .ok 1932053504 ∧
    ((6 : ℕ).choose 3 = 20 ∧ TypedMath.binomialCoefficient .i8 6 3 = .ok (-1)) ∧
    ((13 : ℕ).choose 6 = 1716 ∧ TypedMath.binomialCoefficient .u32 13 6 = .ok 532) ∧
    TypedMath.pow .u8 2 16 = .ok 0 ∧ TypedMath.pow .u16 2 65535 = .ub := by decide +kernel

/-- **C98, the part that holds.** In every integer type other than `bool`, `pow` is right if the type can hold the power,
`factorial` if it can hold `N!`, and `binomialCoefficient` if it can hold `N!`.  Missing: the other binomial coefficients
that the type can hold, and rejection of results that it cannot hold; for both see `C98_violated`. -/
theorem C98_exact_partial (t : CType) (ht : t ≠ .bool) :
    (∀ (b : Int) (e : ℕ), (t.min ≤ b ∧ b ≤ t.max) → (t.min ≤ b ^ e ∧ b ^ e ≤ t.max) → TypedMath.pow t e b = .ok (b ^ e)) ∧
    (∀ n : ℕ, (n.factorial : Int) ≤ t.max → TypedMath.factorial t n = .ok (n.factorial : Int)) ∧
    ∀ n k : ℕ, k ≤ n → (n.factorial : Int) ≤ t.max → TypedMath.binomialCoefficient t n k = .ok (n.choose k : Int) :=
  ⟨fun _ e hb h => pow_exact ht hb e h, fun _ h => typedFactorial_exact h, fun _ _ hk h => typedBinomial_exact hk h⟩

/-- **C98, what `pow` returns.** A value that `pow` returns is a number of the type and congruent to the power modulo two to
the number of bits.  The other outcome is undefined behaviour.  It does not occur in 8-bit types, `short`,
`unsigned int` and `unsigned long`; in `int` and `long` it occurs exactly if the type cannot hold the power. -/
theorem C98_pow (t : CType) (e : ℕ) (b : Int) (hb : t.min ≤ b ∧ b ≤ t.max) :
    ((∃ v, TypedMath.pow t e b = .ok v ∧ (t.min ≤ v ∧ v ≤ t.max) ∧ (t.max - t.min + 1) ∣ b ^ e - v) ∨
      TypedMath.pow t e b = .ub) ∧
    (t ∈ [CType.i8, .u8, .i16, .u32, .u64] → TypedMath.pow t e b ≠ .ub) ∧
    (t ∈ [CType.i32, .i64] → (TypedMath.pow t e b = .ub ↔ ¬ (t.min ≤ b ^ e ∧ b ^ e ≤ t.max))) := by
  refine ⟨?_, fun ht h => ?_, fun ht => ?_⟩
  · rcases pow_cases t b e with h | h
    · exact .inl ⟨_, h, convert_fits t _, convert_dvd t _⟩
    · exact .inr h
  · rw [pow_total ht hb] at h; cases h
  · have key : ∀ T : IntType, (t = .i32 ∧ T = int32 ∨ t = .i64 ∧ T = int64) → TwosComplement T →
        T.min = t.min → T.max = t.max → (TypedMath.pow t e b = .ub ↔ ¬ (t.min ≤ b ^ e ∧ b ^ e ≤ t.max)) := by
      intro T hT hc h1 h2
      have : TypedMath.pow t e b = T.norm (b ^ e) := by
        rw [← powInt_eq hc]; exact powLoop_signed hT b _ 1
      rw [this, ← h1, ← h2]
      by_cases h : T.InRange (b ^ e)
      · rw [tnorm_ok h]; exact ⟨fun h' => (by cases h'), fun h' => absurd h h'⟩
      · rw [tnorm_ub h]; exact ⟨fun _ => h, fun _ => rfl⟩
    simp only [List.mem_cons, List.not_mem_nil, or_false] at ht
    rcases ht with rfl | rfl
    · exact key int32 (.inl ⟨rfl, rfl⟩) tc_int32 rfl rfl
    · exact key int64 (.inr ⟨rfl, rfl⟩) ⟨by decide, by decide⟩ rfl rfl

/-- **C98, what `factorial` returns.** With a negative `N`, or one that is not a number of the type, `factorial< T, N >` does
not compile.  Otherwise `factorial< T, N >::value` is a number of the type and congruent to `N!`; it compiles for `N` up to 12 in `int`
and the narrower types, up to 20 in `long`, and for every `N` in `unsigned int` and `unsigned long`. -/
theorem C98_factorial (t : CType) (n : Int) :
    (¬ (0 ≤ n ∧ n ≤ t.max) → TypedMath.factorial t n = .illFormed) ∧
    (0 ≤ n ∧ n ≤ t.max →
      (∀ v, TypedMath.factorial t n = .ok v →
        (t.min ≤ v ∧ v ≤ t.max) ∧ (t.max - t.min + 1) ∣ (n.toNat.factorial : Int) - v) ∧
      ((∃ v, TypedMath.factorial t n = .ok v) ↔
        t ∈ [CType.u32, .u64] ∨ n ≤ (if t = .i64 then 20 else 12)) ∧
      ((¬ ∃ v, TypedMath.factorial t n = .ok v) → TypedMath.factorial t n = .illFormed)) := by
  refine ⟨typedFactorial_bad, fun hn => ?_⟩
  obtain ⟨n, rfl⟩ := Int.eq_ofNat_of_zero_le hn.1
  have key := typedFactorial_nat hn.2
  have hle : ∀ m M : ℕ, m.factorial ≤ M → M < (m + 1).factorial → (n.factorial ≤ M ↔ n ≤ m) := by
    intro m M h1 h2
    refine ⟨fun h => ?_, fun h => (Nat.factorial_le h).trans h1⟩
    by_contra hc
    have := Nat.factorial_le (show m + 1 ≤ n by omega)
    omega
  have hcond : (t.withInt.signed = false ∨ (n.factorial : Int) ≤ t.withInt.max) ↔
      t ∈ [CType.u32, .u64] ∨ ((n : ℕ) : Int) ≤ (if t = .i64 then 20 else 12) := by
    have h32 := hle 12 2147483647 (by decide) (by decide)
    have h64 := hle 20 9223372036854775807 (by decide) (by decide)
    have h32' : (n.factorial : Int) ≤ 2147483647 ↔ (n : Int) ≤ 12 := by
      rw [show (2147483647 : Int) = ((2147483647 : ℕ) : Int) by rfl, show (12 : Int) = ((12 : ℕ) : Int) by rfl]
      rw [Int.ofNat_le, Int.ofNat_le]; exact h32
    have h64' : (n.factorial : Int) ≤ 9223372036854775807 ↔ (n : Int) ≤ 20 := by
      rw [show (9223372036854775807 : Int) = ((9223372036854775807 : ℕ) : Int) by rfl, show (20 : Int) = ((20 : ℕ) : Int) by rfl]
      rw [Int.ofNat_le, Int.ofNat_le]; exact h64
    cases t <;> simp [CType.withInt, CType.signed, CType.max, h32', h64']
  rw [Int.toNat_natCast, key]
  split
  · rename_i h
    refine ⟨fun v hv => ?_, ⟨fun _ => hcond.1 h, fun _ => ⟨_, rfl⟩⟩, fun hne => absurd ⟨_, rfl⟩ hne⟩
    cases hv
    exact ⟨convert_fits t _, convert_dvd t _⟩
  · rename_i h
    exact ⟨fun v hv => (by cases hv), ⟨fun ⟨v, hv⟩ => (by cases hv), fun hc => absurd (hcond.2 hc) h⟩, fun _ => rfl⟩

/-- **C98, what `binomialCoefficient` rejects.** It does not compile unless `0 ≤ K ≤ N` and the type can hold `N`, nor, in
`int` and `long`, unless the type can hold `N!`. -/
theorem C98_binomial_rejects (t : CType) (n k : Int) :
    (¬ (0 ≤ k ∧ k ≤ n ∧ n ≤ t.max) → TypedMath.binomialCoefficient t n k = .illFormed) ∧
    (t ∈ [CType.i32, .i64] → t.max < (n.toNat.factorial : Int) → TypedMath.binomialCoefficient t n k = .illFormed) := by
  refine ⟨typedBinomial_bad, fun ht h => ?_⟩
  by_cases hk : 0 ≤ k ∧ k ≤ n ∧ n ≤ t.max
  · obtain ⟨n, rfl⟩ := Int.eq_ofNat_of_zero_le (hk.1.trans hk.2.1)
    have hmin : t.min ≤ 0 := by cases t <;> decide
    have hw : t.withInt = t ∧ t.signed = true := by
      simp only [List.mem_cons, List.not_mem_nil, or_false] at ht
      rcases ht with rfl | rfl <;> exact ⟨rfl, rfl⟩
    rw [TypedMath.binomialCoefficient, staticAssert_bind_true (by omega), staticAssert_bind_true hk.1,
      staticAssert_bind_true hk.2.1, typedFactorial_nat hk.2.2, if_neg (by rw [hw.1, hw.2]; simpa using h)]
    rfl
  · exact typedBinomial_bad hk

/-- Non-vacuity of C98: values at the edges of the types. -/
example : TypedMath.pow .i8 7 (-2) = .ok (-128) ∧ TypedMath.pow .u16 15 2 = .ok 32768 ∧
    TypedMath.factorial .u8 5 = .ok 120 ∧ TypedMath.factorial .u64 20 = .ok 2432902008176640000 ∧
    TypedMath.binomialCoefficient .i16 7 3 = .ok 35 ∧ TypedMath.factorial .i16 13 = .illFormed ∧
    TypedMath.binomialCoefficient .u8 10 5 = .ok 0 := by decide +kernel

end Verif.Props
