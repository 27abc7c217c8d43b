import Verif.Model.Mixed
import Verif.Lemmas.FloatEval

/-! Code that mixes `REAL_TYPE` with `double`, in two arithmetics. -/

namespace Verif.Lemmas

open Verif.Spec

variable {R W S V : Type} {p : Prop}

/-- Two mixed arithmetics with relations preserved by all operations and conversions. -/
structure MixedRel (p : Prop) (M : Mixed R W) (N : Mixed S V) (ρ : R → S → Prop) (τ : W → V → Prop) : Prop where
  real : ArithRel p M.real N.real ρ
  wide : ArithRel p M.wide N.wide τ
  widen : ∀ {a b}, ρ a b → τ (M.widen a) (N.widen b)
  narrow : ∀ {a b}, τ a b → ρ (M.narrow a) (N.narrow b)
  max : ρ M.max N.max

section rel
variable {M : Mixed R W} {N : Mixed S V} {ρ : R → S → Prop} {τ : W → V → Prop} (h : MixedRel p M N ρ τ)
include h

theorem MixedRel.lit (q : ℚ) : ρ (M.lit q) (N.lit q) := h.narrow (h.wide.lit q)
theorem MixedRel.negLit (q : ℚ) : ρ (M.negLit q) (N.negLit q) := h.narrow (h.wide.neg (h.wide.lit q))

/-- Related tables, entry by entry. -/
macro "mixed_table" h:ident : tactic => `(tactic|
  repeat' first
    | exact List.Forall₂.nil
    | apply List.Forall₂.cons
    | exact MixedRel.max $h
    | exact MixedRel.lit $h _
    | exact MixedRel.negLit $h _
    | exact OpsRel.lit (MixedRel.real $h).toOpsRel _
    | exact OpsRel.lit (MixedRel.wide $h).toOpsRel _
    | apply MixedRel.narrow $h
    | apply MixedRel.widen $h
    | apply OpsRel.neg (MixedRel.wide $h).toOpsRel
    | apply OpsRel.mul (MixedRel.wide $h).toOpsRel
    | apply OpsRel.add (MixedRel.wide $h).toOpsRel
    | apply OpsRel.sub (MixedRel.wide $h).toOpsRel
    | apply OpsRel.neg (MixedRel.real $h).toOpsRel
    | apply OpsRel.mul (MixedRel.real $h).toOpsRel
    | apply OpsRel.add (MixedRel.real $h).toOpsRel
    | apply OpsRel.sub (MixedRel.real $h).toOpsRel)

theorem mixed_interval_rel (n : Int) :
    ResRel p ρ (Mixed.EqualSpacing.interval M n) (Mixed.EqualSpacing.interval N n) :=
  .bindEq fun _ => (h.wide.div (h.wide.lit _) (h.wide.lit _)).bind fun _ _ hab => .ok (h.narrow hab)

theorem mixed_equal_rel (n : Int) : SpacingRel p ρ (M.equalSpacing n) (N.equalSpacing n) where
  num := rfl
  rt _ := (mixed_interval_rel h n).bind fun _ _ hab => .ok (h.real.add (h.real.lit _) (h.real.mul (h.real.lit _) hab))
  ct _ := (mixed_interval_rel h n).bind fun _ _ hab =>
    .ok (h.narrow (h.wide.add (h.wide.neg (h.wide.lit _)) (h.widen (h.real.mul (h.real.lit _) hab))))

theorem mixed_legendre_rel (n : Int) : SpacingRel p ρ (M.gaussLegendreSpacing n) (N.gaussLegendreSpacing n) where
  num := rfl
  rt i := by
    show ResRel p ρ (Mixed.GaussLegendre.coordRT M n i) (Mixed.GaussLegendre.coordRT N n i)
    unfold Mixed.GaussLegendre.coordRT Mixed.GaussLegendre.invSqrt3 Mixed.GaussLegendre.sqrt3div5
      Mixed.GaussLegendre.c40 Mixed.GaussLegendre.c41
    refine .ite (.bindEq fun k => .ok ?_) (.ite (.ok ?_) (.ite (.bindEq fun k => ?_) (.ok ?_)))
    · mixed_table h
    · mixed_table h
    · refine (tableAt_rel (ρ := ρ) ?_ _).bind fun a b hab => .ok (h.real.mul hab (h.real.lit _))
      mixed_table h
    · mixed_table h
  ct i := by
    show ResRel p ρ (Mixed.GaussLegendre.coordCT M n i) (Mixed.GaussLegendre.coordCT N n i)
    unfold Mixed.GaussLegendre.coordCT Mixed.GaussLegendre.invSqrt3 Mixed.GaussLegendre.sqrt3div5
      Mixed.GaussLegendre.c40 Mixed.GaussLegendre.c41
    refine .ite (.ok ?_) (.ite (.ok ?_) (.ite (.ok (tableCT_rel ?_ ?_ _)) (.ok ?_)))
    all_goals mixed_table h

theorem mixed_lobatto_rel (n : Int) : SpacingRel p ρ (M.gaussLobattoSpacing n) (N.gaussLobattoSpacing n) where
  num := rfl
  rt i := by
    show ResRel p ρ (Mixed.GaussLobatto.coordRT M n i) (Mixed.GaussLobatto.coordRT N n i)
    unfold Mixed.GaussLobatto.coordRT Mixed.GaussLobatto.invSqrt5 Mixed.GaussLobatto.sqrt3div7
    refine .ite (.ok ?_) (.ite (.ok ?_) (.ite (.bindEq fun k => .ok ?_) (.ite (tableAt_rel ?_ _) (.ok ?_))))
    all_goals mixed_table h
  ct i := by
    show ResRel p ρ (Mixed.GaussLobatto.coordCT M n i) (Mixed.GaussLobatto.coordCT N n i)
    unfold Mixed.GaussLobatto.coordCT Mixed.GaussLobatto.invSqrt5 Mixed.GaussLobatto.sqrt3div7
    refine .ite (.ok ?_) (.ite (.ok ?_) (.ite (.ok (tableCT_rel ?_ ?_ _)) (.ite (.ok (tableCT_rel ?_ ?_ _))
      (.ite (.ok (tableCT_rel ?_ ?_ _)) (.ite (.ok (tableCT_rel ?_ ?_ _)) (.ite (.ok (tableCT_rel ?_ ?_ _))
      (.ite (.ok (tableCT_rel ?_ ?_ _)) (.ok ?_))))))))
    all_goals mixed_table h

theorem mixed_legendreWeight_rel (n i : Int) :
    ResRel p ρ (Mixed.QuadratureGaussLegendre.weightRT M n i) (Mixed.QuadratureGaussLegendre.weightRT N n i) ∧
    ResRel p ρ (Mixed.QuadratureGaussLegendre.weightCT M n i) (Mixed.QuadratureGaussLegendre.weightCT N n i) := by
  constructor
  · unfold Mixed.QuadratureGaussLegendre.weightRT
    refine .bindEq fun _ => .ite (.ok ?_) (.ite (.ok ?_) (.ite (.bindEq fun k => .ok ?_) (.ok ?_)))
    all_goals mixed_table h
  · unfold Mixed.QuadratureGaussLegendre.weightCT
    refine .bindEq fun _ => .ite (.ok ?_) (.ite (.ok (tableCT_rel ?_ ?_ _)) (.ite (.ok (tableCT_rel ?_ ?_ _)) (.ok ?_)))
    all_goals mixed_table h

theorem mixed_lobattoWeight_rel (n i : Int) :
    ResRel p ρ (Mixed.QuadratureGaussLobatto.weightRT M n i) (Mixed.QuadratureGaussLobatto.weightRT N n i) ∧
    ResRel p ρ (Mixed.QuadratureGaussLobatto.weightCT M n i) (Mixed.QuadratureGaussLobatto.weightCT N n i) := by
  constructor
  · unfold Mixed.QuadratureGaussLobatto.weightRT
    refine .bindEq fun _ => .ite (.ok ?_) (.ite (.ok ?_) (.ite (.bindEq fun k => .ok ?_)
      (.ite (.bindEq fun k => .ok ?_) (.ok ?_))))
    all_goals mixed_table h
  · unfold Mixed.QuadratureGaussLobatto.weightCT
    refine .bindEq fun _ => .ite (.ok ?_) (.ite (.ok ?_) (.ite (.ok (tableCT_rel ?_ ?_ _)) (.ite (.ok (tableCT_rel ?_ ?_ _))
      (.ite (.ok (tableCT_rel ?_ ?_ _)) (.ite (.ok (tableCT_rel ?_ ?_ _)) (.ite (.ok (tableCT_rel ?_ ?_ _))
      (.ite (.ok (tableCT_rel ?_ ?_ _)) (.ok ?_))))))))
    all_goals mixed_table h

end rel

/-! ### one type -/

/-- Every operation in the same type. -/
def sameMixed (A : Arith R) : Mixed R R := ⟨A, A, id, id, A.lit realMax⟩

theorem same_equal (A : Arith R) (n : Int) : (sameMixed A).equalSpacing n = equalSpacing A n := by
  unfold Mixed.equalSpacing equalSpacing
  congr 1
  · funext i
    unfold Mixed.EqualSpacing.coordRT EqualSpacing.coordRT Mixed.EqualSpacing.interval EqualSpacing.interval
    cases isub n 1 <;> simp [sameMixed]
  · funext i
    unfold Mixed.EqualSpacing.coordCT EqualSpacing.coordCT Mixed.EqualSpacing.interval EqualSpacing.interval
    cases isub n 1 <;> simp [sameMixed]

theorem same_legendre (A : Arith R) (n : Int) : (sameMixed A).quadratureGaussLegendre n = quadratureGaussLegendre A n := rfl

theorem same_lobatto (A : Arith R) (n : Int) : (sameMixed A).quadratureGaussLobatto n = quadratureGaussLobatto A n := rfl

theorem bind_ok_right {α : Type} (x : Res α) : (x >>= fun a => Res.ok a) = x := by cases x <;> rfl

theorem same_basis (A : Arith R) (S : Int → Spacing R) (order : Int) :
    (sameMixed A).lagrangeBasis S order = lagrangeBasis A S order := by
  have e1 : ∀ S : Spacing R, Mixed.LagrangeBasis.gradientOfValueTerm (sameMixed A) S = LagrangeBasis.gradientOfValueTerm A S := by
    intro S; funext bf term
    unfold Mixed.LagrangeBasis.gradientOfValueTerm LagrangeBasis.gradientOfValueTerm
    simp [sameMixed, Mixed.lit, bind_ok_right]
  unfold Mixed.lagrangeBasis lagrangeBasis
  congr 1
  funext n
  congr 2
  funext bf x
  unfold Mixed.LagrangeBasis.gradient LagrangeBasis.gradient Mixed.LagrangeBasis.gradientTerm LagrangeBasis.gradientTerm
  rw [e1]
  rfl

/-! ### known numbers -/

/-- `float` and `double` on known numbers. -/
def evalFloat : Mixed (Option ℚ) (Option ℚ) where
  real := evalArith binary32
  wide := evalArith binary64
  widen := id
  narrow a := do evalRound binary32 (← a)
  max := none

theorem evalFloat_rel : MixedRel False evalFloat floatMixed Knows Knows where
  real := eval_rel binary32
  wide := eval_rel binary64
  widen h := h
  narrow {a b} ha r h := by
    obtain ⟨x, rfl, h⟩ := Option.bind_eq_some_iff.1 h
    rw [ha _ rfl]
    exact evalRound_sound binary32 h
  max := by rintro q ⟨⟩

/-- `double` on known numbers. -/
def evalDouble : Mixed (Option ℚ) (Option ℚ) where
  real := evalArith binary64
  wide := evalArith binary64
  widen := id
  narrow := id
  max := none

theorem evalDouble_rel : MixedRel False evalDouble doubleMixed Knows Knows where
  real := eval_rel binary64
  wide := eval_rel binary64
  widen h := h
  narrow h := h
  max := by rintro q ⟨⟩

end Verif.Lemmas
