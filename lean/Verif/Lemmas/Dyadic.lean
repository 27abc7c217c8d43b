import Verif.Lemmas.FloatIEEE
import Verif.Lemmas.ConstantFloat

/-!
Computations without roundings.  What is known of a number is either the number itself, or a grid it lies on and a bound of its magnitude.  If the result of
every operation fits in the format, the code gives the exact result.  Grids may have a unit `2^s` with a power of it: the coordinates of the vertices have
the power 1, determinants in three dimensions the power 3.
-/

namespace Verif.Lemmas

open Verif.Spec

/-- What is known of a number: its value, or that it is `k 2^-e` in the power `w` of the unit, with `|k| ≤ m`. -/
inductive Tag where
  | known (q : ℚ)
  | grid (w e m : ℕ)

/-- A multiple of a power of the unit `2^s`. -/
def UnitGrid (s : ℤ) (w e m : ℕ) (x : ℝ) : Prop := ∃ k : ℤ, x = k * 2 ^ (s * w - e) ∧ |k| ≤ m

namespace Tag

/-- What is known is true, if the unit is `2^s`. -/
def Holds (s : ℤ) : Tag → ℝ → Prop
  | .known q, x => x = q
  | .grid w e m, x => UnitGrid s w e m x

/-- The grid and the bound. -/
def spread : Tag → Option (ℕ × ℕ × ℕ)
  | .known q => if q.den = 2 ^ q.den.log2 then some (0, q.den.log2, q.num.natAbs) else none
  | .grid w e m => some (w, e, m)

/-- All such numbers are in the format, if the exponent of the unit is at most `S`. -/
def fits (F : FloatFormat) (S : ℕ) (t : Tag) : Bool :=
  match t.spread with
  | some (w, e, m) => decide ((e : ℤ) + S * w ≤ F.fracBits - F.minExp ∧ (S : ℤ) * w + F.fracBits - e ≤ F.maxExp ∧ m < 2 ^ (F.fracBits + 1))
  | none => false

/-- Known to be zero. -/
def zero : Tag → Bool
  | .known q => decide (q = 0)
  | .grid .. => false

/-- The sum of numbers on grids. -/
def spreadSum (a b : Tag) : Option Tag :=
  if a.zero = true then some b
  else if b.zero = true then some a
  else do
    let (w, e, m) ← a.spread
    let (w', e', m') ← b.spread
    if w = w' then some (.grid w (max e e') (m * 2 ^ (max e e' - e) + m' * 2 ^ (max e e' - e'))) else none

/-- The sum. -/
def sum : Tag → Tag → Option Tag
  | .known p, .known q => some (.known (p + q))
  | .known p, .grid w e m => spreadSum (.known p) (.grid w e m)
  | .grid w e m, t => spreadSum (.grid w e m) t

/-- The product of numbers on grids. -/
def spreadProd (a b : Tag) : Option Tag :=
  if a.zero = true ∨ b.zero = true then some (.known 0)
  else do
    let (w, e, m) ← a.spread
    let (w', e', m') ← b.spread
    some (.grid (w + w') (e + e') (m * m'))

/-- The product. -/
def prod : Tag → Tag → Option Tag
  | .known p, .known q => some (.known (p * q))
  | .known p, .grid w e m => spreadProd (.known p) (.grid w e m)
  | .grid w e m, t => spreadProd (.grid w e m) t

/-- The negative. -/
def minus : Tag → Tag
  | .known q => .known (-q)
  | .grid w e m => .grid w e m

variable {s : ℤ}

theorem Holds.spread {t : Tag} {x : ℝ} (h : t.Holds s x) {w e m : ℕ} (hs : t.spread = some (w, e, m)) : UnitGrid s w e m x := by
  cases t with
  | known q =>
    simp only [Tag.spread] at hs
    split_ifs at hs with hq
    cases hs
    subst h
    refine ⟨q.num, ?_, by rw [Int.abs_eq_natAbs]⟩
    conv_lhs => rw [Rat.cast_def]
    rw [hq]
    simp [div_eq_mul_inv]
  | grid w e m => cases hs; exact h

private theorem refine_grid {x : ℝ} {w e e' m : ℕ} (he : e ≤ e') (h : UnitGrid s w e m x) : UnitGrid s w e' (m * 2 ^ (e' - e)) x := by
  obtain ⟨k, rfl, hk⟩ := h
  obtain ⟨n, rfl⟩ := Nat.exists_eq_add_of_le he
  rw [Nat.add_sub_cancel_left]
  refine ⟨k * 2 ^ n, ?_, ?_⟩
  · push_cast
    rw [mul_assoc, ← zpow_natCast, ← zpow_add₀ (by norm_num : (2 : ℝ) ≠ 0)]
    congr 2
    ring
  · rw [abs_mul, abs_of_pos (by positivity : (0 : ℤ) < 2 ^ n)]
    push_cast
    exact mul_le_mul_of_nonneg_right hk (by positivity)

theorem Holds.zero {t : Tag} {x : ℝ} (h : t.Holds s x) (hz : t.zero = true) : x = 0 := by
  cases t with
  | known q =>
    have : q = 0 := of_decide_eq_true hz
    subst this
    exact h.trans (by simp)
  | grid w e m => cases hz

theorem Holds.sum {a b u : Tag} {x y : ℝ} (hx : a.Holds s x) (hy : b.Holds s y) (h : a.sum b = some u) : u.Holds s (x + y) := by
  have key : spreadSum a b = some u → u.Holds s (x + y) := by
    intro h
    unfold spreadSum at h
    split_ifs at h with h1 h2
    · cases h
      rw [hx.zero h1, zero_add]; exact hy
    · cases h
      rw [hy.zero h2, add_zero]; exact hx
    · obtain ⟨⟨w, e, m⟩, h1, h⟩ := Option.bind_eq_some_iff.1 h
      obtain ⟨⟨w', e', m'⟩, h2, h⟩ := Option.bind_eq_some_iff.1 h
      dsimp only at h
      split_ifs at h with hw
      subst hw
      cases h
      obtain ⟨k, hk, k1⟩ := refine_grid (le_max_left e e') (hx.spread h1)
      obtain ⟨l, hl, l1⟩ := refine_grid (le_max_right e e') (hy.spread h2)
      refine ⟨k + l, by rw [hk, hl]; push_cast; ring, ?_⟩
      push_cast at k1 l1 ⊢
      exact (abs_add_le k l).trans (add_le_add k1 l1)
  cases a with
  | known p =>
    cases b with
    | known q =>
      cases h
      show x + y = ((p + q : ℚ) : ℝ)
      rw [show x = p from hx, show y = q from hy]; push_cast; rfl
    | grid w e m => exact key h
  | grid w e m => cases b <;> exact key h

theorem Holds.prod {a b u : Tag} {x y : ℝ} (hx : a.Holds s x) (hy : b.Holds s y) (h : a.prod b = some u) : u.Holds s (x * y) := by
  have key : spreadProd a b = some u → u.Holds s (x * y) := by
    intro h
    unfold spreadProd at h
    split_ifs at h with hz
    · cases h
      have : x = 0 ∨ y = 0 := hz.imp hx.zero hy.zero
      show x * y = ((0 : ℚ) : ℝ)
      rcases this with h | h <;> simp [h]
    · obtain ⟨⟨w, e, m⟩, h1, h⟩ := Option.bind_eq_some_iff.1 h
      obtain ⟨⟨w', e', m'⟩, h2, h⟩ := Option.bind_eq_some_iff.1 h
      cases h
      obtain ⟨k, a1, a2⟩ := hx.spread h1
      obtain ⟨l, b1, b2⟩ := hy.spread h2
      refine ⟨k * l, ?_, ?_⟩
      · rw [a1, b1]
        have : s * ((w + w' : ℕ) : ℤ) - ((e + e' : ℕ) : ℤ) = (s * w - e) + (s * w' - e') := by push_cast; ring
        rw [this, zpow_add₀ (by norm_num : (2 : ℝ) ≠ 0)]
        push_cast
        ring
      · rw [abs_mul]
        push_cast
        exact mul_le_mul a2 b2 (abs_nonneg _) ((abs_nonneg _).trans a2)
  cases a with
  | known p =>
    cases b with
    | known q =>
      cases h
      show x * y = ((p * q : ℚ) : ℝ)
      rw [show x = p from hx, show y = q from hy]; push_cast; rfl
    | grid w e m => exact key h
  | grid w e m => cases b <;> exact key h

theorem Holds.minus {t : Tag} {x : ℝ} (h : t.Holds s x) : t.minus.Holds s (-x) := by
  cases t with
  | known q =>
    show -x = ((-q : ℚ) : ℝ)
    rw [show x = q from h]; push_cast; rfl
  | grid w e m =>
    obtain ⟨k, hk, hm⟩ := h
    exact ⟨-k, by rw [hk]; push_cast; ring, by rw [abs_neg]; exact hm⟩

theorem Holds.represents {F : FloatFormat} {S : ℕ} (hS : |s| ≤ S) {t : Tag} {x : ℝ} (h : t.Holds s x) (hf : t.fits F S = true) : Represents F x := by
  unfold Tag.fits at hf
  split at hf
  · next w e m hs =>
    obtain ⟨h1, h2, h3⟩ := of_decide_eq_true hf
    obtain ⟨k, hk, hm⟩ := h.spread hs
    obtain ⟨s1, s2⟩ := abs_le.1 hS
    have w0 : (0 : ℤ) ≤ w := Int.natCast_nonneg w
    have e1 : s * w ≤ S * w := mul_le_mul_of_nonneg_right s2 w0
    have e2 : -(S * w : ℤ) ≤ s * w := by rw [← neg_mul]; exact mul_le_mul_of_nonneg_right s1 w0
    have h4 : (m : ℤ) < 2 ^ (F.fracBits + 1) := by exact_mod_cast h3
    exact represents_iff_isNumber.2 ⟨k, s * w - e, hk, lt_of_le_of_lt hm h4, by omega, by omega⟩
  · cases hf

theorem Holds.fits {F : FloatFormat} {S : ℕ} (hS : |s| ≤ S) {t : Tag} {x : ℝ} (h : t.Holds s x) (hf : t.fits F S = true) :
    Flt.round F false x = Flt.ofReal x := round_held (h.represents hS hf) false

end Tag

variable (F : FloatFormat) (S : ℕ)

/-- Keep what fits. -/
def keep (t : Option Tag) : Option Tag := t.bind fun u => if u.fits F S = true then some u else none

/-- Arithmetic on what is known. -/
def tagArith : Arith (Option Tag) where
  lit q := keep F S (some (.known q))
  add a b := do keep F S ((← a).sum (← b))
  sub a b := do keep F S ((← a).sum (← b).minus)
  mul a b := do keep F S ((← a).prod (← b))
  neg a := a.map Tag.minus
  div a b := match a, b with
    | some (.known x), some (.known y) => if y = 0 then .nonfinite else .ok (keep F S (some (.known (x / y))))
    | _, _ => .nonfinite

/-- Two arithmetics side by side. -/
def bothArith {R S : Type} (A : Arith R) (B : Arith S) : Arith (R × S) where
  lit q := (A.lit q, B.lit q)
  add a b := (A.add a.1 b.1, B.add a.2 b.2)
  sub a b := (A.sub a.1 b.1, B.sub a.2 b.2)
  mul a b := (A.mul a.1 b.1, B.mul a.2 b.2)
  neg a := (A.neg a.1, B.neg a.2)
  div a b := A.div a.1 b.1 >>= fun x => B.div a.2 b.2 >>= fun y => .ok (x, y)

theorem pair_fst {R S : Type} (A : Arith R) (B : Arith S) : ArithRel False (bothArith A B) A fun a x => x = a.1 where
  lit _ := rfl
  add h h' := by rw [h, h']; rfl
  sub h h' := by rw [h, h']; rfl
  mul h h' := by rw [h, h']; rfl
  neg h := by rw [h]; rfl
  div {a b a' b'} h h' := by
    subst h h'
    intro c hc
    obtain ⟨x, h1, hc⟩ := Res.bind_eq_ok.1 hc
    obtain ⟨y, h2, hc⟩ := Res.bind_eq_ok.1 hc
    cases hc
    exact .inl ⟨x, h1, rfl⟩

theorem pair_snd {R S : Type} (A : Arith R) (B : Arith S) : ArithRel False (bothArith A B) B fun a x => x = a.2 where
  lit _ := rfl
  add h h' := by rw [h, h']; rfl
  sub h h' := by rw [h, h']; rfl
  mul h h' := by rw [h, h']; rfl
  neg h := by rw [h]; rfl
  div {a b a' b'} h h' := by
    subst h h'
    intro c hc
    obtain ⟨x, h1, hc⟩ := Res.bind_eq_ok.1 hc
    obtain ⟨y, h2, hc⟩ := Res.bind_eq_ok.1 hc
    cases hc
    exact .inl ⟨y, h2, rfl⟩

/-- The computed number is the exact one, and what is known is true of it. -/
def Exact (s : ℤ) (t : Option Tag) (a : Flt × ℝ) : Prop := ∀ u, t = some u → a.1 = Flt.ofReal a.2 ∧ u.Holds s a.2

private theorem keep_some {F : FloatFormat} {S : ℕ} {t : Option Tag} {u : Tag} (h : keep F S t = some u) : t = some u ∧ u.fits F S = true := by
  obtain ⟨v, hv, h⟩ := Option.bind_eq_some_iff.1 h
  split_ifs at h with hf
  cases h
  exact ⟨hv, hf⟩

theorem tag_rel {s : ℤ} (hs : |s| ≤ S) : ArithRel False (tagArith F S) (bothArith (floatArith F) (exactArith ℝ)) (Exact s) where
  lit q u h := by
    obtain ⟨h1, h2⟩ := keep_some (F := F) (S := S) (t := some (.known q)) h
    cases h1
    have : (Tag.known q).Holds s (q : ℝ) := rfl
    exact ⟨this.fits hs h2, this⟩
  add {a b a' b'} ha hb u h := by
    obtain ⟨a, rfl, h⟩ := Option.bind_eq_some_iff.1 h
    obtain ⟨a', rfl, h⟩ := Option.bind_eq_some_iff.1 h
    obtain ⟨h1, h2⟩ := keep_some h
    obtain ⟨e1, x1⟩ := ha _ rfl
    obtain ⟨e2, x2⟩ := hb _ rfl
    have := x1.sum x2 h1
    refine ⟨?_, this⟩
    show Flt.add F b.1 b'.1 = _
    rw [e1, e2]
    exact this.fits hs h2
  sub {a b a' b'} ha hb u h := by
    obtain ⟨a, rfl, h⟩ := Option.bind_eq_some_iff.1 h
    obtain ⟨a', rfl, h⟩ := Option.bind_eq_some_iff.1 h
    obtain ⟨h1, h2⟩ := keep_some h
    obtain ⟨e1, x1⟩ := ha _ rfl
    obtain ⟨e2, x2⟩ := hb _ rfl
    have := x1.sum x2.minus h1
    have e : b.2 + -b'.2 = b.2 - b'.2 := (sub_eq_add_neg _ _).symm
    have this' : u.Holds s (b.2 - b'.2) := e ▸ this
    refine ⟨?_, this'⟩
    show Flt.add F b.1 (Flt.neg b'.1) = Flt.ofReal (b.2 - b'.2)
    rw [e1, e2, ← e]
    exact this.fits hs h2
  mul {a b a' b'} ha hb u h := by
    obtain ⟨a, rfl, h⟩ := Option.bind_eq_some_iff.1 h
    obtain ⟨a', rfl, h⟩ := Option.bind_eq_some_iff.1 h
    obtain ⟨h1, h2⟩ := keep_some h
    obtain ⟨e1, x1⟩ := ha _ rfl
    obtain ⟨e2, x2⟩ := hb _ rfl
    have := x1.prod x2 h1
    refine ⟨?_, this⟩
    show Flt.mul F b.1 b'.1 = _
    rw [e1, e2]
    exact this.fits hs h2
  neg {a b} ha u h := by
    obtain ⟨a, rfl, rfl⟩ := Option.map_eq_some_iff.1 h
    obtain ⟨e1, x1⟩ := ha _ rfl
    refine ⟨?_, x1.minus⟩
    show Flt.neg b.1 = _
    rw [e1]; rfl
  div {a b a' b'} ha hb := by
    intro z hz
    rcases a with _ | x | _ <;> rcases a' with _ | y | _ <;> simp only [tagArith] at hz <;> try cases hz
    split_ifs at hz with h0
    obtain rfl := Res.ok.inj hz
    obtain ⟨e1, x1⟩ := ha _ rfl
    obtain ⟨e2, x2⟩ := hb _ rfl
    have hy : b'.2 ≠ 0 := by rw [show b'.2 = y from x2]; exact_mod_cast h0
    refine .inl ⟨(Flt.round F false (b.2 / b'.2), b.2 / b'.2), ?_, fun u hu => ?_⟩
    · have h1 : (floatArith F).div b.1 b'.1 = .ok (Flt.round F false (b.2 / b'.2)) := by
        rw [e1, e2]
        simp [floatArith, Flt.div, Flt.ofReal, hy]
      have h2 : (exactArith ℝ).div b.2 b'.2 = .ok (b.2 / b'.2) := by simp [exactArith, hy]
      show ((floatArith F).div b.1 b'.1 >>= fun x => (exactArith ℝ).div b.2 b'.2 >>= fun y => .ok (x, y)) = _
      rw [h1, h2]; rfl
    · obtain ⟨h1, h2⟩ := keep_some hu
      cases h1
      have : (Tag.known (x / y)).Holds s (b.2 / b'.2) := by
        show b.2 / b'.2 = ((x / y : ℚ) : ℝ)
        rw [show b.2 = x from x1, show b'.2 = y from x2]; push_cast; rfl
      exact ⟨this.fits hs h2, this⟩

end Verif.Lemmas
