import Verif.Props.FloatTables
import Verif.Props.MixedTables

/-!
# Property C88: Lagrange bases in `float` and `double`

The bases contain `double` literals, so that in the `float` instantiation some operations are done in `double`.
They do not change any result, so that C81 describes the `float` instantiation too.
-/

namespace Verif.Props

open Verif.Spec Verif.Lemmas

/-- **C88, `double` literals.** For `float` and for `double`, whatever the points, a Lagrange basis evaluates to
what it would if every operation were done in `REAL_TYPE`, exceptions included: dividing in `double` and then
rounding to `float` gives the `float` nearest to the quotient. -/
theorem C88_basis (T : RealType) (S : Int → Spacing Flt) (order : Int) :
    T.arith.lagrangeBasis S order = lagrangeBasis (floatArith T.format) S order := by
  cases T with
  | float => exact floatMixed_basis S order
  | double =>
    show doubleMixed.lagrangeBasis S order = _
    rw [doubleMixed_eq]
    exact same_basis _ S order

/-- **C88, `double`.** In the `double` instantiation all operations are in `double`. -/
theorem C88_double (n : Int) : doubleMixed.equalSpacing n = equalSpacing (floatArith binary64) n ∧
    doubleMixed.quadratureGaussLegendre n = quadratureGaussLegendre (floatArith binary64) n ∧
    doubleMixed.quadratureGaussLobatto n = quadratureGaussLobatto (floatArith binary64) n := by
  rw [doubleMixed_eq]
  exact ⟨same_equal _ n, same_legendre _ n, same_lobatto _ n⟩

private theorem order_lt {T : RealType} {order : ℕ} (hu : 1000 * order * unitRoundoff T.format ≤ 1)
    (hT : T = .float) : order ≤ 16777215 := by
  subst hT
  have e : unitRoundoff RealType.float.format = 1 / 16777216 := by
    norm_num [unitRoundoff, RealType.format, binary32]
  rw [e] at hu
  have : (order : ℝ) ≤ 16777215 := by linarith
  exact_mod_cast this

/-- **C88, points.** In the `float` and `double` instantiations the points of every shipped spacing are numbers
of the format computed without exceptions, strictly increase, and are within 7 roundings (of magnitude 3) of
the exact ones, for orders up to `1 / (1000 u)`. -/
theorem C88_points (T : RealType) (fam : Family) (order : ℕ) (h1 : 1 ≤ order) (hs : fam.Supports order)
    (hu : 1000 * order * unitRoundoff T.format ≤ 1) :
    ∃ c C : Fin (order + 1) → ℝ,
      (∀ i : Fin (order + 1), (fam.spacing (exactArith ℝ) ((order + 1 : ℕ) : Int)).coordCT (i : ℕ) = .ok (C i)) ∧
      (∀ i : Fin (order + 1),
        (fam.spacingIn T.arith ((order + 1 : ℕ) : Int)).coordCT (i : ℕ) = .ok (Flt.ofReal (c i))) ∧
      (∀ i, Represents T.format (c i)) ∧ (∀ i, |c i - C i| ≤ errBound (unitRoundoff T.format) 7 * 3) ∧ StrictMono c := by
  have gauss : ∀ r : Rule, r.family.Supports order → ∃ c C : Fin (order + 1) → ℝ,
      (∀ i : Fin (order + 1), (r.family.spacing (exactArith ℝ) ((order + 1 : ℕ) : Int)).coordCT (i : ℕ) = .ok (C i)) ∧
      (∀ i : Fin (order + 1),
        (r.family.spacingIn T.arith ((order + 1 : ℕ) : Int)).coordCT (i : ℕ) = .ok (Flt.ofReal (c i))) ∧
      (∀ i, Represents T.format (c i)) ∧ (∀ i, |c i - C i| ≤ errBound (unitRoundoff T.format) 7 * 3) ∧ StrictMono c := by
    intro r hs
    have hp : r.Points (order + 1) := by
      cases r <;> have := hs.2 <;> exact ⟨by omega, by omega⟩
    have hm := mem_tableSizes hp
    have ht := tables_known T (mem_types T) r (mem_rules r) _ hm
    have hrep := tables_represented T (mem_types T) r (mem_rules r) _ hm
    have hsrc := tables_source T (mem_types T) r (mem_rules r) _ hm
    refine ⟨_, fun i => ((val (sourceCoord r (order + 1) (i : ℕ)) : ℚ) : ℝ), fun i => ?_, fun i => knownCT_sound (ht.1 i),
      fun i => round_represents _ (evalRound_sound _ (hrep i).1), fun i => ?_,
      fun i j hij => Rat.cast_lt.2 (tables_increase T (mem_types T) r (mem_rules r) _ hm i j hij)⟩
    · have hok := source_known r (mem_rules r) _ hm i
      cases r with
      | gaussLegendre =>
        show GaussLegendre.coordCT (exactArith ℝ) ((order + 1 : ℕ) : Int) (i : ℕ) = _
        rw [legendre_coordCT_hom ratCast_hom,
          show GaussLegendre.coordCT ratArith ((order + 1 : ℕ) : Int) (i : ℕ) = _ from hok]
        rfl
      | gaussLobatto =>
        show GaussLobatto.coordCT (exactArith ℝ) ((order + 1 : ℕ) : Int) (i : ℕ) = _
        rw [lobatto_coordCT_hom ratCast_hom,
          show GaussLobatto.coordCT ratArith ((order + 1 : ℕ) : Int) (i : ℕ) = _ from hok]
        rfl
    · have h : |((val (knownCT T r (order + 1) (i : ℕ)) : ℚ) : ℝ) - ((val (sourceCoord r (order + 1) (i : ℕ)) : ℚ) : ℝ)|
          ≤ (1 / 2) ^ (T.format.fracBits + 2) := by
        have : ((|val (knownCT T r (order + 1) (i : ℕ)) - val (sourceCoord r (order + 1) (i : ℕ))| : ℚ) : ℝ)
          ≤ (((1 / 2) ^ (T.format.fracBits + 2) : ℚ) : ℝ) := Rat.cast_le.2 (hsrc i)
        push_cast at this
        exact this
      have hu0 : (0 : ℝ) < unitRoundoff T.format := by unfold unitRoundoff; positivity
      have h2 : ((1 : ℝ) / 2) ^ (T.format.fracBits + 2) ≤ unitRoundoff T.format := by
        have e : ((1 : ℝ) / 2) ^ (T.format.fracBits + 2) = unitRoundoff T.format / 2 := by
          unfold unitRoundoff; rw [one_div, pow_succ (2 : ℝ)⁻¹ (T.format.fracBits + 1)]; ring
        linarith
      have h3 : errBound (unitRoundoff T.format) 1 ≤ errBound (unitRoundoff T.format) 7 := errBound_mono hu0.le (by norm_num)
      rw [errBound_one] at h3
      linarith
  cases fam with
  | equal =>
    obtain ⟨c, C, hC, hc, hrep, hb, hm⟩ := C82_coordinates (format_mem T) .equal order h1 hs hu
    refine ⟨c, C, hC, fun i => ?_, hrep, hb, hm⟩
    rw [← hc i]
    have hi := i.isLt
    cases T with
    | float =>
      have := order_lt hu rfl
      exact float_equal_pure (by omega) (by omega) (by omega) (by omega)
    | double => exact congrArg (fun S : Spacing Flt => S.coordCT (i : ℕ)) (C88_double _).1
  | gaussLegendre => exact gauss .gaussLegendre hs
  | gaussLobatto => exact gauss .gaussLobatto hs

/-- **C88, elements.** Every element made of shipped bases meets the hypothesis of C81 in the `float` and
`double` instantiations. -/
theorem C88_element (T : RealType) {d : ℕ} (hd : 0 < d) (order : Fin d → ℕ) (fam : Fin d → Family)
    (h1 : ∀ k, 1 ≤ order k) (hs : ∀ k, (fam k).Supports (order k))
    (hu : ∀ k, 1000 * order k * unitRoundoff T.format ≤ 1) (b : Fin d → Basis Flt)
    (hb : ∀ k, T.arith.lagrangeBasis ((fam k).spacingIn T.arith) (order k) = .ok (b k)) :
    ∃ c : (k : Fin d) → Fin (order k + 1) → ℝ, (∀ k, StrictMono (c k)) ∧
      IsLagrangeFloat T.format order c ⟨.ok d, List.ofFn b⟩ := by
  choose c C hC hc hr hbd hm using fun k => C88_points T (fam k) (order k) (h1 k) (hs k) (hu k)
  refine ⟨c, hm, hd, rfl, fun k => (hm k).injective, hr, b, rfl,
    fun k => ⟨?_, (fam k).spacingIn T.arith, fun _ => hc k, by rw [← C88_basis]; exact hb k⟩⟩
  have h := hs k
  revert h
  cases fam k <;> intro h <;> have := h.2 <;> omega

/-- Non-vacuity of C88: a quadratic basis on equally spaced points in `float` exists. -/
example : ∃ b, floatMixed.lagrangeBasis floatMixed.equalSpacing 2 = .ok b :=
  ⟨_, (C88_basis .float _ 2).trans (lagrangeBasis_ok (floatArith binary32) _ (order := 2) (by norm_num))⟩

/-- C88 is not a matter of course: for `1 + 2^-24 + 2^-60` rounding to `double` and then to `float` gives 1, but the
nearest `float` is `1 + 2^-23`. -/
example : Flt.convert binary32 (Flt.round binary64 false ((1 + 1 / 2 ^ 24 + 1 / 2 ^ 60 : ℚ) : ℝ)) = Flt.ofReal (1 : ℚ) ∧
    Flt.round binary32 false ((1 + 1 / 2 ^ 24 + 1 / 2 ^ 60 : ℚ) : ℝ) = Flt.ofReal (1 + 1 / 2 ^ 23 : ℚ) := by
  refine ⟨?_, evalRound_sound binary32 (by decide +kernel)⟩
  rw [evalRound_sound binary64 (q := 1 + 1 / 2 ^ 24 + 1 / 2 ^ 60) (r := 1 + 1 / 2 ^ 24) (by decide +kernel)]
  exact evalRound_sound binary32 (by decide +kernel)

end Verif.Props
