import Verif.Model.NCube
import Verif.Lemmas.CArray
import Verif.Spec.Faces
import Mathlib.Data.Nat.Choose.Basic
import Mathlib.Data.Nat.Factorial.Basic
import Mathlib.Algebra.Order.Ring.Abs
import Mathlib.Tactic.Ring
import Mathlib.Tactic.Linarith

namespace Verif.Lemmas

open MathUtilities

/-- A two's complement type. -/
def TwosComplement (t : IntType) : Prop := t.min = -t.max - 1 ∧ 1 ≤ t.max

theorem tc_int32 : TwosComplement int32 := by constructor <;> decide

theorem tnorm_ok {t : IntType} {x : Int} (h : t.InRange x) : t.norm x = .ok x := by
  simp [IntType.norm, h]

theorem tnorm_ub {t : IntType} {x : Int} (h : ¬ t.InRange x) : t.norm x = .ub := by
  simp [IntType.norm, h]

theorem norm_eq_ok {t : IntType} {x v : Int} : t.norm x = .ok v ↔ v = x ∧ t.InRange x := by
  unfold IntType.norm
  split
  · rename_i h; simp [h, eq_comm]
  · rename_i h; simp [h]

theorem constexpr_eq_ok {α : Type} {x : Res α} {v : α} : x.constexpr = .ok v ↔ x = .ok v := by
  cases x <;> simp

theorem constexpr_dich {α : Type} (x : Res α) : (∃ v, x = .ok v ∧ x.constexpr = .ok v) ∨
    x.constexpr = .illFormed := by cases x <;> simp

/-! ### pow -/

theorem powLoop_int {t : IntType} (ht : TwosComplement t) (b : Int) (n k : ℕ)
    (hk : t.InRange (b ^ k)) : powLoop t.mul b n (b ^ k) = t.norm (b ^ (k + n)) := by
  induction n generalizing k with
  | zero => simp [powLoop, tnorm_ok hk]
  | succ n ih =>
    rw [powLoop, IntType.mul, ← pow_succ]
    by_cases h : t.InRange (b ^ (k + 1))
    · rw [tnorm_ok h, Res.ok_bind, ih (k + 1) h]; congr 2; omega
    · rw [tnorm_ub h, Res.ub_bind, tnorm_ub]
      intro hc
      apply h
      have hb : 2 ≤ |b| := by
        by_contra hb
        have : b = 0 ∨ b = 1 ∨ b = -1 := by
          have h1 := abs_lt.1 (not_le.1 hb); omega
        obtain ⟨t1, t2⟩ := ht
        rcases this with rfl | rfl | rfl
        · apply h; simp only [zero_pow (Nat.succ_ne_zero k)]; exact ⟨by omega, by omega⟩
        · apply h; simp only [one_pow]; exact ⟨by omega, by omega⟩
        · apply h
          rcases neg_one_pow_eq_or Int (k + 1) with e | e <;> rw [e] <;>
            exact ⟨by omega, by omega⟩
      rcases Nat.eq_zero_or_pos n with rfl | hn
      · exact hc
      · have h1 : |b ^ (k + (n + 1))| = |b ^ (k + 1)| * |b| ^ n := by
          rw [show k + (n + 1) = k + 1 + n by omega, pow_add, abs_mul, abs_pow b n]
        have h2 : 2 ≤ |b| ^ n := by
          calc (2 : Int) ≤ |b| := hb
            _ = |b| ^ 1 := (pow_one _).symm
            _ ≤ |b| ^ n := pow_le_pow_right₀ (by omega) hn
        have h3 : 2 * |b ^ (k + 1)| ≤ |b ^ (k + (n + 1))| := by
          rw [h1]; nlinarith [abs_nonneg (b ^ (k + 1))]
        obtain ⟨t1, t2⟩ := ht
        have h4 : |b ^ (k + (n + 1))| ≤ t.max + 1 := abs_le.2 ⟨by have := hc.1; omega, by have := hc.2; omega⟩
        have h5 := abs_le.1 (show |b ^ (k + 1)| ≤ t.max by omega)
        exact ⟨by omega, by omega⟩

theorem powInt_eq {t : IntType} (ht : TwosComplement t) (b : Int) (n : ℕ) :
    powInt t n b = t.norm (b ^ n) := by
  have h := powLoop_int ht b n 0 (by simp only [pow_zero]; obtain ⟨a, b⟩ := ht; exact ⟨by omega, by omega⟩)
  simpa [powInt, MathUtilities.pow] using h

/-! ### factorial -/

theorem factorialFold_ok {t : IntType} (ht : TwosComplement t) (m k : ℕ)
    (hm : ((k + m).factorial : Int) ≤ t.max) :
    factorialFold t ((List.range' k m).map Int.ofNat) (k.factorial : Int)
      = .ok ((k + m).factorial : Int) := by
  obtain ⟨t1, t2⟩ := ht
  induction m generalizing k with
  | zero => simp [factorialFold]
  | succ m ih =>
    have h1 : ((k + 1).factorial : Int) ≤ t.max := by
      refine le_trans ?_ hm
      exact_mod_cast Nat.factorial_le (by omega)
    have h2 : ((k + 1 : ℕ) : Int) ≤ t.max := le_trans (by exact_mod_cast Nat.self_le_factorial _) h1
    have h3 : (0 : Int) ≤ ((k + 1).factorial : Int) := by positivity
    have h4 : (k.factorial : Int) * ((k : Int) + 1) = ((k + 1).factorial : Int) := by
      rw [Nat.factorial_succ]; push_cast; ring
    simp only [List.range'_succ, List.map_cons, factorialFold, IntType.add, IntType.mul,
      Int.ofNat_eq_natCast]
    rw [tnorm_ok ⟨by omega, by push_cast at h2; omega⟩, Res.ok_bind, h4,
      tnorm_ok ⟨by omega, by omega⟩, Res.ok_bind]
    have := ih (k + 1) (by rw [show k + 1 + m = k + (m + 1) by omega]; exact hm)
    rw [this]; congr 3; omega

theorem factorialFold_fail {t : IntType} (m k : ℕ) (hk : (k.factorial : Int) ≤ t.max)
    (hm : ¬ ((k + m).factorial : Int) ≤ t.max) :
    factorialFold t ((List.range' k m).map Int.ofNat) (k.factorial : Int) = .ub := by
  induction m generalizing k with
  | zero => exact absurd hk hm
  | succ m ih =>
    have h4 : (k.factorial : Int) * ((k : Int) + 1) = ((k + 1).factorial : Int) := by
      rw [Nat.factorial_succ]; push_cast; ring
    simp only [List.range'_succ, List.map_cons, factorialFold, IntType.add, IntType.mul,
      Int.ofNat_eq_natCast]
    by_cases ha : t.InRange ((k : Int) + 1)
    · rw [tnorm_ok ha, Res.ok_bind, h4]
      by_cases hb : t.InRange ((k + 1).factorial : Int)
      · rw [tnorm_ok hb, Res.ok_bind]
        exact ih (k + 1) hb.2 (by rw [show k + 1 + m = k + (m + 1) by omega]; exact hm)
      · rw [tnorm_ub hb, Res.ub_bind]
    · rw [tnorm_ub ha, Res.ub_bind]

theorem factorial_nat {t : IntType} (ht : TwosComplement t) (n : ℕ) :
    factorial t n = if (n.factorial : Int) ≤ t.max then .ok (n.factorial : Int) else .illFormed := by
  have hr : List.range n = List.range' 0 n := List.range_eq_range'
  have h0 : ((Nat.factorial 0 : ℕ) : Int) ≤ t.max := by simpa using ht.2
  simp only [factorial, Sequence.makeIntegerSequence, Int.natCast_nonneg, if_true, Res.ok_bind,
    Int.toNat_natCast, hr]
  split
  · rename_i h
    have := factorialFold_ok ht n 0 (by simpa using h)
    simp only [Nat.factorial_zero, Nat.cast_one, zero_add] at this
    rw [this]; rfl
  · rename_i h
    have := factorialFold_fail n 0 h0 (by simpa using h)
    simp only [Nat.factorial_zero, Nat.cast_one] at this
    rw [this]; rfl

theorem factorial_neg {t : IntType} {n : Int} (h : n < 0) : factorial t n = .illFormed := by
  simp [factorial, Sequence.makeIntegerSequence, not_le.2 h]

/-! ### binomial coefficient -/

theorem staticAssert_bind_true {α : Type} {p : Prop} [Decidable p] (h : p) (x : Unit → Res α) :
    (Res.staticAssert p >>= x) = x () := by rw [staticAssert_true h]; rfl

theorem staticAssert_bind_false {α : Type} {p : Prop} [Decidable p] (h : ¬ p) (x : Unit → Res α) :
    (Res.staticAssert p >>= x) = .illFormed := by rw [staticAssert_false h]; rfl

theorem binomial_nat {t : IntType} (ht : TwosComplement t) (n k : ℕ) (hkn : k ≤ n) :
    binomialCoefficient t n k
      = if (n.factorial : Int) ≤ t.max then .ok (n.choose k : Int) else .illFormed := by
  unfold binomialCoefficient
  rw [staticAssert_bind_true (by omega), staticAssert_bind_true (by omega), factorial_nat ht]
  split
  · rename_i h
    have hk : (k.factorial : Int) ≤ t.max := le_trans (by exact_mod_cast Nat.factorial_le hkn) h
    have hnk : ((n - k).factorial : Int) ≤ t.max :=
      le_trans (by exact_mod_cast Nat.factorial_le (by omega)) h
    have hn : ((n : ℕ) : Int) ≤ t.max := le_trans (by exact_mod_cast Nat.self_le_factorial _) h
    have e1 : (n : Int) - (k : Int) = ((n - k : ℕ) : Int) := by omega
    have hd : (k.factorial : Int) * ((n - k).factorial : Int) ≤ (n.factorial : Int) := by
      have : k.factorial * (n - k).factorial ∣ n.factorial := Nat.factorial_mul_factorial_dvd_factorial hkn
      exact_mod_cast Nat.le_of_dvd (Nat.factorial_pos _) this
    have hpos : (0 : Int) < (k.factorial : Int) * ((n - k).factorial : Int) := by positivity
    obtain ⟨t1, t2⟩ := id ht
    rw [Res.ok_bind, factorial_nat ht, if_pos hk, Res.ok_bind, IntType.sub, e1,
      tnorm_ok ⟨by omega, by omega⟩, Res.constexpr_ok, Res.ok_bind, factorial_nat ht, if_pos hnk,
      Res.ok_bind, IntType.mul, tnorm_ok ⟨by omega, by omega⟩, Res.constexpr_ok, Res.ok_bind,
      IntType.div, if_neg hpos.ne']
    have hq : Int.tdiv (n.factorial : Int) ((k.factorial : Int) * ((n - k).factorial : Int))
        = (n.choose k : Int) := by
      rw [Int.tdiv_eq_ediv_of_nonneg (by positivity), Nat.choose_eq_factorial_div_factorial hkn]
      push_cast; rfl
    have hc : (n.choose k : Int) ≤ (n.factorial : Int) := by
      rw [← hq, Int.tdiv_eq_ediv_of_nonneg (by positivity)]
      exact Int.ediv_le_self _ (by positivity)
    rw [hq, tnorm_ok ⟨by omega, by omega⟩]; rfl
  · rfl

theorem binomial_bad {t : IntType} {n k : Int} (h : ¬ (0 ≤ k ∧ k ≤ n)) :
    binomialCoefficient t n k = .illFormed := by
  unfold binomialCoefficient
  by_cases h1 : 0 ≤ k
  · rw [staticAssert_bind_true h1, staticAssert_bind_false (fun h2 => h ⟨h1, h2⟩)]
  · rw [staticAssert_bind_false h1]

/-! ### counts -/

theorem instantiate_ok {s : ShapeArgs} (h : s.min < s.max ∧ s.divisor > 0 ∧ 0 ≤ s.n) :
    s.instantiate = .ok () := by
  unfold ShapeArgs.instantiate
  rw [staticAssert_bind_true h.1, staticAssert_bind_true h.2.1, staticAssert_true h.2.2]

theorem instantiate_bad {s : ShapeArgs} (h : ¬ (s.min < s.max ∧ s.divisor > 0 ∧ 0 ≤ s.n)) :
    s.instantiate = .illFormed := by
  unfold ShapeArgs.instantiate
  by_cases h1 : s.min < s.max
  · rw [staticAssert_bind_true h1]
    by_cases h2 : s.divisor > 0
    · rw [staticAssert_bind_true h2, staticAssert_false (fun h3 => h ⟨h1, h2, h3⟩)]
    · rw [staticAssert_bind_false h2]
  · rw [staticAssert_bind_false h1]

theorem instantiate_dich (s : ShapeArgs) :
    (s.instantiate = .ok () ∧ s.min < s.max ∧ s.divisor > 0 ∧ 0 ≤ s.n) ∨
      s.instantiate = .illFormed := by
  by_cases h : s.min < s.max ∧ s.divisor > 0 ∧ 0 ≤ s.n
  · exact .inl ⟨instantiate_ok h, h⟩
  · exact .inr (instantiate_bad h)

theorem le_twelve_of_factorial_le {n : ℕ} (h : (n.factorial : Int) ≤ 2147483647) :
    n ≤ 12 := by
  by_contra hc
  have : (13 : ℕ).factorial ≤ n.factorial := Nat.factorial_le (by omega)
  have h2 : (13 : ℕ).factorial = 6227020800 := by decide
  omega

theorem numMCubes_nat {s : ShapeArgs} (hs : s.instantiate = .ok ()) (n m : ℕ) (hn : s.n = n)
    (hmn : m ≤ n) :
    NCube.numMCubes s m
      = if (n.factorial : Int) ≤ 2147483647 then
          if (2 : Int) ^ (n - m) * (n.factorial : Int) ≤ 2147483647
          then .ok ((2 : Int) ^ (n - m) * (n.choose m : Int)) else .ub
        else .illFormed := by
  unfold NCube.numMCubes
  rw [hs, Res.ok_bind, staticAssert_bind_true (by omega), hn]
  by_cases h : (n.factorial : Int) ≤ 2147483647
  · rw [if_pos h]
    have h12 := le_twelve_of_factorial_le h
    have hk : (m.factorial : Int) ≤ 2147483647 := le_trans (by exact_mod_cast Nat.factorial_le hmn) h
    have hnk : ((n - m).factorial : Int) ≤ 2147483647 :=
      le_trans (by exact_mod_cast Nat.factorial_le (by omega)) h
    have e1 : (n : Int) - (m : Int) = ((n - m : ℕ) : Int) := by omega
    have hd : (m.factorial : Int) * ((n - m).factorial : Int) ≤ (n.factorial : Int) := by
      have : m.factorial * (n - m).factorial ∣ n.factorial := Nat.factorial_mul_factorial_dvd_factorial hmn
      exact_mod_cast Nat.le_of_dvd (Nat.factorial_pos _) this
    have hpos : (0 : Int) < (m.factorial : Int) * ((n - m).factorial : Int) := by positivity
    have hp : (2 : Int) ^ (n - m) ≤ 4096 := by
      calc (2 : Int) ^ (n - m) ≤ 2 ^ 12 := pow_le_pow_right₀ (by norm_num) (by omega)
        _ = 4096 := by norm_num
    have hp0 : (0 : Int) < (2 : Int) ^ (n - m) := by positivity
    have hsub : isub (n : Int) (m : Int) = .ok ((n - m : ℕ) : Int) := by
      rw [isub, IntType.sub, e1, tnorm_ok ⟨by show (-2147483648 : Int) ≤ _; omega, by show _ ≤ (2147483647 : Int); omega⟩]
    rw [hsub, Res.constexpr_ok, Res.ok_bind, factorial_nat tc_int32, if_pos (by exact h), Res.ok_bind,
      factorial_nat tc_int32, if_pos (by exact hk), Res.ok_bind, factorial_nat tc_int32,
      if_pos (by exact hnk), Res.ok_bind, powInt_eq tc_int32,
      tnorm_ok ⟨by show (-2147483648 : Int) ≤ _; omega, by show _ ≤ (2147483647 : Int); omega⟩,
      Res.ok_bind]
    have hmul : imul ((2 : Int) ^ (n - m)) (n.factorial : Int)
        = int32.norm ((2 : Int) ^ (n - m) * (n.factorial : Int)) := rfl
    have hprod0 : (0 : Int) < (2 : Int) ^ (n - m) * (n.factorial : Int) := by positivity
    by_cases hq : (2 : Int) ^ (n - m) * (n.factorial : Int) ≤ 2147483647
    · rw [if_pos hq, hmul, tnorm_ok ⟨by show (-2147483648 : Int) ≤ _; omega, hq⟩, Res.ok_bind,
        imul, IntType.mul,
        tnorm_ok ⟨by show (-2147483648 : Int) ≤ _; omega, by show _ ≤ (2147483647 : Int); omega⟩,
        Res.ok_bind, idiv, IntType.div, if_neg hpos.ne']
      have hval : Int.tdiv ((2 : Int) ^ (n - m) * (n.factorial : Int))
          ((m.factorial : Int) * ((n - m).factorial : Int)) = (2 : Int) ^ (n - m) * (n.choose m : Int) := by
        rw [Int.tdiv_eq_ediv_of_nonneg hprod0.le]
        apply Int.ediv_eq_of_eq_mul_left hpos.ne'
        have : (n.choose m : Int) * (m.factorial : Int) * ((n - m).factorial : Int)
            = (n.factorial : Int) := by exact_mod_cast Nat.choose_mul_factorial_mul_factorial hmn
        rw [← this]; ring
      have hle : (2 : Int) ^ (n - m) * (n.choose m : Int) ≤ (2 : Int) ^ (n - m) * (n.factorial : Int) := by
        rw [← hval, Int.tdiv_eq_ediv_of_nonneg hprod0.le]
        exact Int.ediv_le_self _ hprod0.le
      have h0 : (0 : Int) ≤ (2 : Int) ^ (n - m) * (n.choose m : Int) := by positivity
      rw [hval, tnorm_ok ⟨by show (-2147483648 : Int) ≤ _; omega, by show _ ≤ (2147483647 : Int); omega⟩]
    · rw [if_neg hq, hmul, tnorm_ub (fun hc => hq hc.2), Res.ub_bind]
  · rw [if_neg h]
    rcases constexpr_dich (isub (n : Int) (m : Int)) with ⟨v, -, e⟩ | e
    · rw [e, Res.ok_bind, factorial_nat tc_int32, if_neg (by exact h), Res.illFormed_bind]
    · rw [e, Res.illFormed_bind]

theorem numMCubes_bad {s : ShapeArgs} {m : Int} (h : ¬ (0 ≤ m ∧ m ≤ s.n)) :
    NCube.numMCubes s m = .illFormed := by
  unfold NCube.numMCubes
  rcases instantiate_dich s with ⟨e, -, -, hn⟩ | e
  · rw [e, Res.ok_bind]
    by_cases h1 : m ≤ s.n
    · have h2 : m < 0 := by omega
      rw [staticAssert_bind_true h1]
      rcases constexpr_dich (isub s.n m) with ⟨v, -, e⟩ | e
      · rw [e, Res.ok_bind]
        rcases constexpr_dich (MathUtilities.factorial int32 s.n) with ⟨w, e', -⟩ | e'
        · rw [e', Res.ok_bind, factorial_neg h2, Res.illFormed_bind]
        · have : MathUtilities.factorial int32 s.n = .illFormed := by
            obtain ⟨k, hk⟩ := Int.eq_ofNat_of_zero_le hn
            rw [hk, factorial_nat tc_int32] at e' ⊢
            split
            · rename_i h3; rw [if_pos h3] at e'; cases e'
            · rfl
          rw [this, Res.illFormed_bind]
      · rw [e, Res.illFormed_bind]
    · rw [staticAssert_bind_false h1]
  · rw [e, Res.illFormed_bind]

theorem numMSimplexes_nat {s : ShapeArgs} (hs : s.instantiate = .ok ()) (n : ℕ) (m1 : ℕ)
    (hn : s.n = n) (hmn : m1 ≤ n + 1) :
    NSimplex.numMSimplexes s ((m1 : Int) - 1)
      = if ((n + 1).factorial : Int) ≤ 2147483647 then .ok ((n + 1).choose m1 : Int)
        else .illFormed := by
  unfold NSimplex.numMSimplexes
  rw [hs, Res.ok_bind, staticAssert_bind_true (by omega), hn]
  by_cases h : ((n + 1).factorial : Int) ≤ 2147483647
  · have h12 := le_twelve_of_factorial_le h
    have e1 : iadd (n : Int) 1 = .ok ((n + 1 : ℕ) : Int) := by
      rw [iadd, IntType.add, tnorm_ok ⟨by show (-2147483648 : Int) ≤ _; omega, by show _ ≤ (2147483647 : Int); omega⟩]
      simp
    have e2 : iadd ((m1 : Int) - 1) 1 = .ok (m1 : Int) := by
      rw [iadd, IntType.add, tnorm_ok ⟨by show (-2147483648 : Int) ≤ _; omega, by show _ ≤ (2147483647 : Int); omega⟩]
      simp
    rw [e1, Res.constexpr_ok, Res.ok_bind, e2, Res.constexpr_ok, Res.ok_bind,
      binomial_nat tc_int32 _ _ hmn]
    rfl
  · rw [if_neg h]
    rcases constexpr_dich (iadd (n : Int) 1) with ⟨v, hv, e⟩ | e
    · rw [e, Res.ok_bind]
      have hv' := (norm_eq_ok.1 hv).1
      have : v = ((n + 1 : ℕ) : Int) := by push_cast; exact hv'
      subst this
      rcases constexpr_dich (iadd ((m1 : Int) - 1) 1) with ⟨w, hw, e⟩ | e
      · rw [e, Res.ok_bind]
        have hw' := (norm_eq_ok.1 hw).1
        have : w = (m1 : Int) := by omega
        subst this
        rw [binomial_nat tc_int32 _ _ hmn, if_neg (by exact h)]
      · rw [e, Res.illFormed_bind]
    · rw [e, Res.illFormed_bind]

theorem numMSimplexes_bad {s : ShapeArgs} {m : Int} (h : ¬ (-1 ≤ m ∧ m ≤ s.n)) :
    NSimplex.numMSimplexes s m = .illFormed := by
  unfold NSimplex.numMSimplexes
  rcases instantiate_dich s with ⟨e, -, -, hn⟩ | e
  · rw [e, Res.ok_bind]
    by_cases h1 : m ≤ s.n
    · rw [staticAssert_bind_true h1]
      rcases constexpr_dich (iadd s.n 1) with ⟨v, hv, e⟩ | e
      · rw [e, Res.ok_bind]
        rcases constexpr_dich (iadd m 1) with ⟨w, hw, e⟩ | e
        · rw [e, Res.ok_bind]
          have hw' := (norm_eq_ok.1 hw).1
          exact binomial_bad (by omega)
        · rw [e, Res.illFormed_bind]
      · rw [e, Res.illFormed_bind]
    · rw [staticAssert_bind_false h1]
  · rw [e, Res.illFormed_bind]

/-! ### cardinalities -/

theorem card_fibre (n : ℕ) (S : Finset (Fin n)) :
    (Finset.univ.filter fun f : Fin n → Option Bool =>
      (Finset.univ.filter fun i => f i = none) = S).card = 2 ^ (n - S.card) := by
  have h : (Finset.univ.filter fun f : Fin n → Option Bool =>
      (Finset.univ.filter fun i => f i = none) = S)
      = Fintype.piFinset fun i => if i ∈ S then {none} else {some true, some false} := by
    ext f
    simp only [Finset.mem_filter, Finset.mem_univ, true_and, Fintype.mem_piFinset, Finset.ext_iff]
    constructor
    · intro hf i
      have := hf i
      split
      · rename_i hi; simpa using this.2 hi
      · rename_i hi
        have h1 : f i ≠ none := fun h => hi (this.1 h)
        rcases hfi : f i with _ | b
        · exact absurd hfi h1
        · cases b <;> simp
    · intro hf i
      have := hf i
      split at this
      · rename_i hi; simp at this; simp [this, hi]
      · rename_i hi
        simp only [hi, iff_false]
        intro h0; rw [h0] at this; simp at this
  rw [h, Fintype.card_piFinset]
  have : ∀ i, (if i ∈ S then ({none} : Finset (Option Bool)) else {some true, some false}).card
      = if i ∈ S then 1 else 2 := by
    intro i; split <;> rfl
  simp only [this]
  rw [Finset.prod_ite, Finset.prod_const_one, one_mul, Finset.prod_const]
  congr 1
  rw [show (Finset.univ.filter fun i => i ∉ S) = Sᶜ by ext; simp, Finset.card_compl, Fintype.card_fin]

theorem card_cubeFaces (n m : ℕ) :
    (Spec.cubeFaces n m).card = n.choose m * 2 ^ (n - m) := by
  have hmaps : ∀ f ∈ Spec.cubeFaces n m, (Finset.univ.filter fun i => f i = none)
      ∈ Finset.powersetCard m (Finset.univ : Finset (Fin n)) := by
    intro f hf
    simp only [Spec.cubeFaces, Finset.mem_filter] at hf
    simp [Finset.mem_powersetCard, hf.2]
  rw [Finset.card_eq_sum_card_fiberwise hmaps]
  have : ∀ S ∈ Finset.powersetCard m (Finset.univ : Finset (Fin n)),
      ((Spec.cubeFaces n m).filter fun f => (Finset.univ.filter fun i => f i = none) = S).card
        = 2 ^ (n - m) := by
    intro S hS
    have hc := (Finset.mem_powersetCard.1 hS).2
    rw [← hc, ← card_fibre n S]
    congr 1
    ext f
    simp only [Spec.cubeFaces, Finset.mem_filter, Finset.mem_univ, true_and]
    exact ⟨fun h => h.2, fun h => ⟨by rw [h], h⟩⟩
  rw [Finset.sum_congr rfl this, Finset.sum_const, Finset.card_powersetCard, Finset.card_univ,
    Fintype.card_fin, smul_eq_mul]

theorem card_simplexFaces (n m : ℕ) : (Spec.simplexFaces n m).card = (n + 1).choose (m + 1) := by
  have : Spec.simplexFaces n m = Finset.powersetCard (m + 1) Finset.univ := by
    ext s; simp [Spec.simplexFaces, Finset.mem_powersetCard]
  rw [this, Finset.card_powersetCard, Finset.card_univ, Fintype.card_fin]

end Verif.Lemmas
