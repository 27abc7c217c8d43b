import Verif.Lemmas.Rounding
import Verif.Lemmas.Quadrature

/-! Error bounds for literal tables, by evaluating them in an arithmetic that counts roundings. -/

namespace Verif.Lemmas

open Verif.Spec

/-- An exact value, a bound for the magnitude of the quantities added to obtain it, and a number of
roundings. -/
structure Tracked where
  value : ℚ
  size : ℚ
  count : ℕ
  deriving DecidableEq

/-- Arithmetic that counts roundings.  Division is not tracked. -/
def trackArith : Arith Tracked where
  lit q := ⟨q, |q|, 1⟩
  add a b := ⟨a.value + b.value, a.size + b.size, max a.count b.count + 1⟩
  sub a b := ⟨a.value - b.value, a.size + b.size, max a.count b.count + 1⟩
  mul a b := ⟨a.value * b.value, a.size * b.size, a.count + b.count + 1⟩
  neg a := ⟨-a.value, a.size, a.count⟩
  div _ _ := .nonfinite

variable {fl : ℝ → ℝ} {u : ℝ}

/-- The computed number `r` is as `t` says. -/
def Tracks (u : ℝ) (t : Tracked) (r : ℝ) : Prop := Within u t.count t.size t.value r

theorem Within.neg {k : ℕ} {B x y : ℝ} (h : Within u k B x y) : Within u k B (-x) (-y) := by
  refine ⟨by rw [abs_neg]; exact h.1, ?_⟩
  rw [show -y - -x = -(y - x) by ring, abs_neg]; exact h.2

/-- Tracked numbers together with a computed number. -/
abbrev Pair (u : ℝ) := { p : Tracked × ℝ // Tracks u p.1 p.2 }

/-- `roundedArith` without division. -/
noncomputable def noDiv (fl : ℝ → ℝ) : Arith ℝ := { roundedArith fl with div := fun _ _ => .nonfinite }

/-- Both arithmetics at once. -/
noncomputable def pairArith (hr : Rounds fl u) : Arith (Pair u) where
  lit q := ⟨(trackArith.lit q, fl q), by
    have := (approx_fl hr (q : ℝ)).within
    simpa [Tracks, trackArith] using this⟩
  add a b := ⟨(trackArith.add a.1.1 b.1.1, fl (a.1.2 + b.1.2)), by
    have ha := Within.mono hr.nonneg a.2 (le_max_left _ b.1.1.count)
    have hb := Within.mono hr.nonneg b.2 (le_max_right a.1.1.count _)
    have := (ha.add hb).round hr
    simpa [Tracks, trackArith] using this⟩
  sub a b := ⟨(trackArith.sub a.1.1 b.1.1, fl (a.1.2 - b.1.2)), by
    have ha := Within.mono hr.nonneg a.2 (le_max_left _ b.1.1.count)
    have hb := Within.mono hr.nonneg b.2 (le_max_right a.1.1.count _)
    have := (ha.add hb.neg).round hr
    simpa [Tracks, trackArith, sub_eq_add_neg] using this⟩
  mul a b := ⟨(trackArith.mul a.1.1 b.1.1, fl (a.1.2 * b.1.2)), by
    have := (Within.mul hr.nonneg a.2 b.2).round hr
    simpa [Tracks, trackArith] using this⟩
  neg a := ⟨(trackArith.neg a.1.1, -a.1.2), by
    have := Within.neg a.2
    simpa [Tracks, trackArith] using this⟩
  div _ _ := .nonfinite

theorem pair_track (hr : Rounds fl u) : ArithHom (pairArith hr) trackArith fun p => p.1.1 where
  lit _ := rfl
  add _ _ := rfl
  sub _ _ := rfl
  mul _ _ := rfl
  neg _ := rfl
  div _ _ := rfl

theorem pair_rounded (hr : Rounds fl u) : ArithHom (pairArith hr) (noDiv fl) fun p => p.1.2 where
  lit _ := rfl
  add _ _ := rfl
  sub _ _ := rfl
  mul _ _ := rfl
  neg _ := rfl
  div _ _ := rfl

theorem track_rat : ArithHom trackArith { ratArith with div := fun _ _ => .nonfinite } Tracked.value where
  lit _ := rfl
  add _ _ := rfl
  sub _ _ := rfl
  mul _ _ := rfl
  neg _ := rfl
  div _ _ := rfl

/-- If evaluation by `F` commutes with maps of arithmetics, the tracked result describes the computed
one. -/
theorem tracked {x : Res (Pair u)} {y : Res Tracked} {z : Res ℝ} (hy : y = (fun p => p.1.1) <$> x)
    (hz : z = (fun p => p.1.2) <$> x) {t : Tracked} (h : y = .ok t) : ∃ r, z = .ok r ∧ Tracks u t r := by
  subst hy; subst hz
  cases x with
  | ok p =>
    have : p.1.1 = t := Res.ok.inj h
    exact ⟨p.1.2, rfl, this ▸ p.2⟩
  | _ => exact absurd h (by intro h; cases h)

theorem Tracks.bound (hu : 0 ≤ u) {t : Tracked} {r : ℝ} (h : Tracks u t r) {B : ℚ} {k : ℕ} (hB : t.size ≤ B)
    (hk : t.count ≤ k) : |r - t.value| ≤ errBound u k * B := by
  refine (Within.mono hu h hk).2.trans ?_
  have hc : ((t.size : ℚ) : ℝ) ≤ B := Rat.cast_le.2 hB
  exact mul_le_mul_of_nonneg_left hc (errBound_nonneg hu k)

/-- The tracked result, if there is one. -/
def tval (r : Res Tracked) : Tracked := match r with
  | .ok x => x
  | _ => ⟨0, 0, 0⟩

/-- All results exist, with magnitude at most `B` and at most `k` roundings. -/
def AllTracked (N : ℕ) (B : ℚ) (k : ℕ) (f : Int → Res Tracked) : Prop :=
  ∀ i : Fin N, f (i : ℕ) = .ok (tval (f (i : ℕ))) ∧ (tval (f (i : ℕ))).size ≤ B ∧
    (tval (f (i : ℕ))).count ≤ k

instance (N : ℕ) (B : ℚ) (k : ℕ) (f : Int → Res Tracked) : Decidable (AllTracked N B k f) :=
  inferInstanceAs (Decidable (∀ _ : Fin N, _ ∧ _ ∧ _))

/-- A table evaluated with rounding is near the exact table. -/
theorem table_error (hr : Rounds fl u) {N : ℕ} {B : ℚ} {k : ℕ} {f : {R : Type} → Arith R → Int → Res R}
    (hom : ∀ {R S : Type} {A : Arith R} {A' : Arith S} {g : R → S}, ArithHom A A' g →
      ∀ i, f A' i = g <$> f A i)
    (hd : f (noDiv fl) = f (roundedArith fl))
    (hd' : f { ratArith with div := fun _ _ => Res.nonfinite } = f ratArith)
    (h : AllTracked N B k (f trackArith)) :
    ∃ c C : Fin N → ℝ, (∀ i : Fin N, C i = ((val (f ratArith (i : ℕ)) : ℚ) : ℝ)) ∧
      (∀ i : Fin N, f (exactArith ℝ) (i : ℕ) = .ok (C i)) ∧
      (∀ i : Fin N, f (roundedArith fl) (i : ℕ) = .ok (c i)) ∧
      ∀ i, |c i - C i| ≤ errBound u k * B := by
  have hv : ∀ i : Fin N, f ratArith (i : ℕ) = .ok (tval (f trackArith (i : ℕ))).value := fun i => by
    rw [← hd', hom track_rat, (h i).1]; rfl
  choose r hr1 hr2 using fun i : Fin N =>
    tracked (hom (pair_track hr) (i : ℕ)) (hom (pair_rounded hr) (i : ℕ)) (h i).1
  refine ⟨r, fun i => ((val (f ratArith (i : ℕ)) : ℚ) : ℝ), fun i => rfl, fun i => ?_, fun i => ?_, fun i => ?_⟩
  · simp only [hom ratCast_hom, hv]; rfl
  · rw [← hd]; exact hr1 i
  · have := (hr2 i).bound hr.nonneg (h i).2.1 (h i).2.2
    simp only [hv]; exact this

end Verif.Lemmas
