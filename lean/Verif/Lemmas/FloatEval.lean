import Verif.Lemmas.FloatTables

/-!
Evaluating code on numbers of a binary format: a computable rounding of rationals that agrees with
`FloatFormat.nearest`.
-/

namespace Verif.Lemmas

open Verif.Spec

/-- `2^e`, computable. -/
def pow2 (e : ℤ) : ℚ := if 0 ≤ e then ((2 ^ e.toNat : ℕ) : ℚ) else 1 / ((2 ^ (-e).toNat : ℕ) : ℚ)

theorem pow2_eq (e : ℤ) : ((pow2 e : ℚ) : ℝ) = 2 ^ e := by
  unfold pow2
  split_ifs with h
  · obtain ⟨n, rfl⟩ := Int.eq_ofNat_of_zero_le h
    simp
  · obtain ⟨n, hn⟩ := Int.eq_ofNat_of_zero_le (show 0 ≤ -e by omega)
    obtain rfl : e = -n := by omega
    simp

/-- A guess for the exponent of `q`, which is checked afterwards. -/
def guessExp (q : ℚ) : ℤ :=
  let e : ℤ := (q.num.natAbs.log2 : ℤ) - q.den.log2
  if pow2 e ≤ |q| then e else e - 1

/-- Rounding to an integer, ties to even. -/
def roundEvenRat (q : ℚ) : ℤ :=
  if q - ⌊q⌋ < 1 / 2 then ⌊q⌋
  else if 1 / 2 < q - ⌊q⌋ then ⌊q⌋ + 1
  else if ⌊q⌋ % 2 = 0 then ⌊q⌋ else ⌊q⌋ + 1

theorem roundEvenRat_eq (q : ℚ) : roundEven (q : ℝ) = roundEvenRat q := by
  unfold roundEven roundEvenRat Int.fract
  rw [Rat.floor_cast]
  have e1 : ((q : ℝ) - (⌊q⌋ : ℤ) < 1 / 2) ↔ (q - ⌊q⌋ < 1 / 2) := by
    rw [← Rat.cast_lt (K := ℝ)]; push_cast; rfl
  have e2 : ((1 : ℝ) / 2 < q - (⌊q⌋ : ℤ)) ↔ (1 / 2 < q - ⌊q⌋) := by
    rw [← Rat.cast_lt (K := ℝ)]; push_cast; rfl
  simp only [e1, e2, Int.even_iff]

variable (F : FloatFormat)

/-- The nearest number of the format, if no exception occurs. -/
def evalRound (q : ℚ) : Option ℚ :=
  if q = 0 then some 0
  else
    let e := guessExp q
    let u := max e F.minExp - F.fracBits
    let r := roundEvenRat (q / pow2 u) * pow2 u
    if pow2 e ≤ |q| ∧ |q| < pow2 (e + 1) ∧ |r| < pow2 (F.maxExp + 1) ∧ (pow2 F.minExp ≤ |q| ∨ r = q) then some r
    else none

theorem evalRound_sound {q r : ℚ} (h : evalRound F q = some r) :
    Flt.round F false (q : ℝ) = Flt.ofReal r := by
  unfold evalRound at h
  by_cases h0 : q = 0
  · rw [if_pos h0] at h
    subst h0
    obtain rfl := Option.some.inj h
    have ho : ¬ F.Overflows 0 := by
      unfold FloatFormat.Overflows; rw [nearest_zero, abs_zero, not_le]; positivity
    simp [Flt.round, ho, nearest_zero, FloatFormat.Underflows, Flt.ofReal]
  · rw [if_neg h0] at h
    simp only [Option.ite_none_right_eq_some] at h
    obtain ⟨⟨h1, h2, h3, h4⟩, h⟩ := h
    have hr := Option.some.inj h
    obtain ⟨e, he⟩ : ∃ e, e = guessExp q := ⟨_, rfl⟩
    rw [← he] at h1 h2 h3 h4 hr
    have habs : |(q : ℝ)| = ((|q| : ℚ) : ℝ) := by push_cast; rfl
    have h1' : (2 : ℝ) ^ e ≤ |(q : ℝ)| := by rw [habs, ← pow2_eq]; exact_mod_cast h1
    have h2' : |(q : ℝ)| < 2 ^ (e + 1) := by rw [habs, ← pow2_eq]; exact_mod_cast h2
    have hpos : 0 < |(q : ℝ)| := lt_of_lt_of_le (by positivity) h1'
    have hlog : Int.log 2 |(q : ℝ)| = e := by
      apply le_antisymm
      · have := (Int.lt_zpow_iff_log_lt (b := 2) (by norm_num) hpos).1 (by push_cast; exact h2')
        omega
      · exact (Int.zpow_le_iff_le_log (b := 2) (by norm_num) hpos).1 (by push_cast; exact h1')
    have hn : F.nearest (q : ℝ) = r := by
      unfold FloatFormat.nearest FloatFormat.unitExp
      rw [hlog, ← hr, ← pow2_eq, ← Rat.cast_div, roundEvenRat_eq]
      push_cast
      rfl
    have ho : ¬ F.Overflows (q : ℝ) := by
      unfold FloatFormat.Overflows
      rw [hn, not_le, ← pow2_eq, ← hr]
      exact_mod_cast h3
    have hu : ¬ F.Underflows (q : ℝ) := by
      rintro ⟨hu1, hu2⟩
      rcases h4 with h4 | h4
      · rw [habs, ← pow2_eq] at hu1
        exact absurd (by exact_mod_cast hu1) (not_lt.2 h4)
      · exact hu2 (by rw [hn, ← hr, h4])
    simp [Flt.round, ho, hu, hn, Flt.ofReal]

/-- Arithmetic on known numbers of the format. -/
def evalArith : Arith (Option ℚ) where
  lit q := evalRound F q
  add a b := do evalRound F ((← a) + (← b))
  sub a b := do evalRound F ((← a) - (← b))
  mul a b := do evalRound F ((← a) * (← b))
  neg a := do some (-(← a))
  div a b := match a, b with
    | some x, some y => if y = 0 then .nonfinite else .ok (evalRound F (x / y))
    | _, _ => .nonfinite

/-- `f` is the known number. -/
def Knows (s : Option ℚ) (f : Flt) : Prop := ∀ q, s = some q → f = Flt.ofReal q

theorem eval_rel : ArithRel False (evalArith F) (floatArith F) Knows where
  lit q r h := evalRound_sound F h
  add {a b a' b'} ha hb r h := by
    obtain ⟨x, rfl, h⟩ := Option.bind_eq_some_iff.1 h
    obtain ⟨y, rfl, h⟩ := Option.bind_eq_some_iff.1 h
    rw [ha _ rfl, hb _ rfl]
    have := evalRound_sound F h
    push_cast at this
    exact this
  sub {a b a' b'} ha hb r h := by
    obtain ⟨x, rfl, h⟩ := Option.bind_eq_some_iff.1 h
    obtain ⟨y, rfl, h⟩ := Option.bind_eq_some_iff.1 h
    rw [ha _ rfl, hb _ rfl]
    have := evalRound_sound F h
    push_cast at this
    rw [sub_eq_add_neg] at this
    exact this
  mul {a b a' b'} ha hb r h := by
    obtain ⟨x, rfl, h⟩ := Option.bind_eq_some_iff.1 h
    obtain ⟨y, rfl, h⟩ := Option.bind_eq_some_iff.1 h
    rw [ha _ rfl, hb _ rfl]
    have := evalRound_sound F h
    push_cast at this
    exact this
  neg {a b} ha r h := by
    obtain ⟨x, rfl, h⟩ := Option.bind_eq_some_iff.1 h
    obtain rfl := Option.some.inj h
    rw [ha _ rfl]
    simp [floatArith, Flt.neg, Flt.ofReal]
  div {a b a' b'} ha hb := by
    intro z hz
    rcases a with _ | x <;> rcases a' with _ | y <;> simp only [evalArith] at hz
    · simp at hz
    · simp at hz
    · simp at hz
    · split_ifs at hz with h0
      obtain rfl := Res.ok.inj hz
      rw [ha _ rfl, hb _ rfl]
      refine .inl ⟨Flt.round F false ((x : ℝ) / y), ?_, fun r hr => ?_⟩
      · have : (y : ℝ) ≠ 0 := by exact_mod_cast h0
        simp [floatArith, Flt.div, Flt.ofReal, this]
      · have := evalRound_sound F hr
        push_cast at this
        exact this

/-- A value found by evaluation is the value of the code. -/
theorem eval_known {x : Res (Option ℚ)} {y : Res Flt} (h : ResRel False Knows x y) {q : ℚ} (hx : x = .ok (some q)) :
    y = .ok (Flt.ofReal q) := by
  rcases h _ hx with ⟨b, hb, hk⟩ | ⟨hf, -⟩
  · rw [hb, hk q rfl]
  · exact hf.elim

end Verif.Lemmas
