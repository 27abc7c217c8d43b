import Verif.Lemmas.MixedFloat
import Verif.Lemmas.Quadrature

/-! The tables of points and weights in `float` and `double`, number by number. -/

namespace Verif.Lemmas

open Verif.Spec

/-- Known numbers, in the arithmetic of a `REAL_TYPE`. -/
def evalIn : RealType → Mixed (Option ℚ) (Option ℚ)
  | .float => evalFloat
  | .double => evalDouble

theorem evalIn_rel : (T : RealType) → MixedRel False (evalIn T) T.arith Knows Knows
  | .float => evalFloat_rel
  | .double => evalDouble_rel

/-- The results that are known. -/
def knownNumber (f : Int → Res (Option ℚ)) (i : Int) : Res ℚ :=
  match f i with
  | .ok (some q) => .ok q
  | _ => .nonfinite

theorem known_sound {f : Int → Res (Option ℚ)} {g : Int → Res Flt} {i : Int} (h : ResRel False Knows (f i) (g i)) {q : ℚ}
    (hk : knownNumber f i = .ok q) : g i = .ok (Flt.ofReal q) := by
  unfold knownNumber at hk
  split at hk
  · next e => exact eval_known h (by rw [e, Res.ok.inj hk])
  · cases hk

theorem family_rel {R W S V : Type} {p : Prop} {M : Mixed R W} {N : Mixed S V} {ρ : R → S → Prop} {τ : W → V → Prop}
    (h : MixedRel p M N ρ τ) : (fam : Family) → (n : Int) → SpacingRel p ρ (fam.spacingIn M n) (fam.spacingIn N n)
  | .equal, n => mixed_equal_rel h n
  | .gaussLegendre, n => mixed_legendre_rel h n
  | .gaussLobatto, n => mixed_lobatto_rel h n

/-- The spacing of a quadrature rule. -/
def _root_.Verif.Spec.Rule.family : Rule → Family
  | .gaussLegendre => .gaussLegendre
  | .gaussLobatto => .gaussLobatto

theorem rule_coord {R W : Type} (M : Mixed R W) (rule : Rule) (n : Int) :
    (rule.quadratureIn M n).coordRT = (rule.family.spacingIn M n).coordRT ∧
    (rule.quadratureIn M n).coordCT = (rule.family.spacingIn M n).coordCT := by
  cases rule <;> exact ⟨rfl, rfl⟩

theorem rule_weight_rel {R W S V : Type} {p : Prop} {M : Mixed R W} {N : Mixed S V} {ρ : R → S → Prop} {τ : W → V → Prop}
    (h : MixedRel p M N ρ τ) (rule : Rule) (n i : Int) :
    ResRel p ρ ((rule.quadratureIn M n).weightRT i) ((rule.quadratureIn N n).weightRT i) ∧
    ResRel p ρ ((rule.quadratureIn M n).weightCT i) ((rule.quadratureIn N n).weightCT i) := by
  cases rule
  · exact mixed_legendreWeight_rel h n i
  · exact mixed_lobattoWeight_rel h n i

/-- Number of points of the tables. -/
def tableSizes : Rule → List ℕ
  | .gaussLegendre => [2, 3, 4]
  | .gaussLobatto => [2, 3, 4, 5, 6, 7, 8, 9]

/-- Number of points of the run-time tables. -/
def runtimeSizes : Rule → List ℕ
  | .gaussLegendre => [2, 3, 4]
  | .gaussLobatto => [2, 3, 4, 5]

def types : List RealType := [.float, .double]
def rules : List Rule := [.gaussLegendre, .gaussLobatto]

theorem mem_types (T : RealType) : T ∈ types := by cases T <;> decide
theorem mem_rules (r : Rule) : r ∈ rules := by cases r <;> decide

theorem mem_tableSizes {r : Rule} {n : ℕ} (h : r.Points n) : n ∈ tableSizes r := by
  cases r <;> obtain ⟨h1, h2⟩ := h <;> simp only [tableSizes, List.mem_cons, List.not_mem_nil, or_false] <;> omega

theorem mem_runtimeSizes {r : Rule} {n : ℕ} (h : r.RuntimePoints n) : n ∈ runtimeSizes r := by
  cases r <;> obtain ⟨h1, h2⟩ := h <;> simp only [runtimeSizes, List.mem_cons, List.not_mem_nil, or_false] <;> omega

def knownCT (T : RealType) (r : Rule) (n : ℕ) : Int → Res ℚ := knownNumber (r.family.spacingIn (evalIn T) n).coordCT
def knownRT (T : RealType) (r : Rule) (n : ℕ) : Int → Res ℚ := knownNumber (r.family.spacingIn (evalIn T) n).coordRT
def knownWeightCT (T : RealType) (r : Rule) (n : ℕ) : Int → Res ℚ := knownNumber (r.quadratureIn (evalIn T) n).weightCT
def knownWeightRT (T : RealType) (r : Rule) (n : ℕ) : Int → Res ℚ := knownNumber (r.quadratureIn (evalIn T) n).weightRT

theorem knownCT_sound {T : RealType} {r : Rule} {n : ℕ} {i : Int} {q : ℚ} (h : knownCT T r n i = .ok q) :
    (r.family.spacingIn T.arith n).coordCT i = .ok (Flt.ofReal q) :=
  known_sound ((family_rel (evalIn_rel T) r.family n).ct i) h

theorem knownRT_sound {T : RealType} {r : Rule} {n : ℕ} {i : Int} {q : ℚ} (h : knownRT T r n i = .ok q) :
    (r.family.spacingIn T.arith n).coordRT i = .ok (Flt.ofReal q) :=
  known_sound ((family_rel (evalIn_rel T) r.family n).rt i) h

theorem knownWeightCT_sound {T : RealType} {r : Rule} {n : ℕ} {i : Int} {q : ℚ} (h : knownWeightCT T r n i = .ok q) :
    (r.quadratureIn T.arith n).weightCT i = .ok (Flt.ofReal q) :=
  known_sound (rule_weight_rel (evalIn_rel T) r n i).2 h

theorem knownWeightRT_sound {T : RealType} {r : Rule} {n : ℕ} {i : Int} {q : ℚ} (h : knownWeightRT T r n i = .ok q) :
    (r.quadratureIn T.arith n).weightRT i = .ok (Flt.ofReal q) :=
  known_sound (rule_weight_rel (evalIn_rel T) r n i).1 h

/-! ### facts about the tables, by evaluation -/

theorem tables_known : ∀ T ∈ types, ∀ r ∈ rules, ∀ n ∈ tableSizes r,
    AllOk n (knownCT T r n) ∧ AllOk n (knownWeightCT T r n) := by decide +kernel

theorem runtime_known : ∀ T ∈ types, ∀ r ∈ rules, ∀ n ∈ runtimeSizes r,
    AllOk n (knownRT T r n) ∧ AllOk n (knownWeightRT T r n) := by decide +kernel

theorem tables_agree : ∀ T ∈ types, ∀ r ∈ rules, ∀ n ∈ runtimeSizes r, ¬ (T = .double ∧ r = .gaussLobatto ∧ n = 4) →
    ∀ i : Fin n, knownRT T r n (i : ℕ) = knownCT T r n (i : ℕ) ∧
      knownWeightRT T r n (i : ℕ) = knownWeightCT T r n (i : ℕ) := by decide +kernel

theorem tables_close : ∀ T ∈ types, ∀ r ∈ rules, ∀ n ∈ runtimeSizes r, ∀ i : Fin n,
    |val (knownRT T r n (i : ℕ)) - val (knownCT T r n (i : ℕ))| ≤ 1 / 2 ^ 53 ∧
    |val (knownWeightRT T r n (i : ℕ)) - val (knownWeightCT T r n (i : ℕ))| ≤ 1 / 2 ^ 53 := by decide +kernel

theorem tables_differ : knownRT .double .gaussLobatto 4 1 ≠ knownCT .double .gaussLobatto 4 1 ∧
    knownWeightRT .double .gaussLobatto 4 1 ≠ knownWeightCT .double .gaussLobatto 4 1 := by decide +kernel

/-- The coordinates written in the source. -/
def sourceCoord : Rule → ℕ → Int → Res ℚ
  | .gaussLegendre, n => GaussLegendre.coordCT ratArith n
  | .gaussLobatto, n => GaussLobatto.coordCT ratArith n

theorem source_known : ∀ r ∈ rules, ∀ n ∈ tableSizes r, AllOk n (sourceCoord r n) := by decide +kernel

theorem tables_represented : ∀ T ∈ types, ∀ r ∈ rules, ∀ n ∈ tableSizes r, ∀ i : Fin n,
    evalRound T.format (val (knownCT T r n (i : ℕ))) = some (val (knownCT T r n (i : ℕ))) ∧
    evalRound T.format (val (knownWeightCT T r n (i : ℕ))) = some (val (knownWeightCT T r n (i : ℕ))) := by
  decide +kernel

theorem tables_increase : ∀ T ∈ types, ∀ r ∈ rules, ∀ n ∈ tableSizes r, ∀ i j : Fin n, i < j →
    val (knownCT T r n (i : ℕ)) < val (knownCT T r n (j : ℕ)) := by decide +kernel

theorem tables_positive : ∀ T ∈ types, ∀ r ∈ rules, ∀ n ∈ tableSizes r, ∀ i : Fin n,
    0 < val (knownWeightCT T r n (i : ℕ)) := by decide +kernel

theorem tables_source : ∀ T ∈ types, ∀ r ∈ rules, ∀ n ∈ tableSizes r, ∀ i : Fin n,
    |val (knownCT T r n (i : ℕ)) - val (sourceCoord r n (i : ℕ))| ≤ (1 / 2) ^ (T.format.fracBits + 2) := by decide +kernel

theorem tables_mirror : ∀ T ∈ types, ∀ r ∈ rules, ∀ n ∈ tableSizes r, ∀ i : Fin n,
    val (knownCT T r n (i.rev : ℕ)) = -val (knownCT T r n (i : ℕ)) ∧
    (¬ (T = .double ∧ r = .gaussLobatto ∧ n = 8) →
      val (knownWeightCT T r n (i.rev : ℕ)) = val (knownWeightCT T r n (i : ℕ))) := by decide +kernel

theorem tables_ends : ∀ T ∈ types, ∀ n ∈ tableSizes .gaussLobatto,
    knownCT T .gaussLobatto n 0 = .ok (-1) ∧ knownCT T .gaussLobatto n ((n : Int) - 1) = .ok 1 := by decide +kernel

theorem weights_not_mirrored :
    knownWeightCT .double .gaussLobatto 8 1 ≠ knownWeightCT .double .gaussLobatto 8 6 := by decide +kernel

theorem tables_moments : ∀ T ∈ types, ∀ r ∈ rules, ∀ n ∈ tableSizes r,
    MomentsOk n (r.degree n + 1) (knownCT T r n) (knownWeightCT T r n)
      ((1 / 2) ^ T.format.fracBits + if n ≤ 5 then 0 else 2 / 10 ^ 14) := by decide +kernel

theorem runtime_moments : ∀ T ∈ types, ∀ r ∈ rules, ∀ n ∈ runtimeSizes r,
    MomentsOk n (r.degree n + 1) (knownRT T r n) (knownWeightRT T r n) ((1 / 2) ^ T.format.fracBits) := by decide +kernel

theorem runtime_represented : ∀ T ∈ types, ∀ r ∈ rules, ∀ n ∈ runtimeSizes r, ∀ i : Fin n,
    evalRound T.format (val (knownRT T r n (i : ℕ))) = some (val (knownRT T r n (i : ℕ))) ∧
    evalRound T.format (val (knownWeightRT T r n (i : ℕ))) = some (val (knownWeightRT T r n (i : ℕ))) ∧
    0 < val (knownWeightRT T r n (i : ℕ)) := by
  decide +kernel

/-- A coordinate of equal spacing. -/
def knownEqual (T : RealType) (n : ℕ) : Int → Res ℚ := knownNumber (Family.equal.spacingIn (evalIn T) n).coordCT

theorem knownEqual_sound {T : RealType} {n : ℕ} {i : Int} {q : ℚ} (h : knownEqual T n i = .ok q) :
    (Family.equal.spacingIn T.arith n).coordCT i = .ok (Flt.ofReal q) :=
  known_sound ((family_rel (evalIn_rel T) .equal n).ct i) h

/-- The largest number of points for which the last point is 1 for this and all smaller numbers. -/
def exactEnd : RealType → ℕ
  | .float => 41
  | .double => 49

theorem equal_end : ∀ T ∈ types, ∀ n < exactEnd T + 1, 2 ≤ n → knownEqual T n ((n : Int) - 1) = .ok 1 := by decide +kernel

theorem equal_not_end : ∀ T ∈ types, AllOk (exactEnd T + 1) (knownEqual T (exactEnd T + 1)) ∧
    knownEqual T (exactEnd T + 1) (exactEnd T : ℕ) ≠ .ok 1 := by decide +kernel

theorem equal_not_mirrored : ∀ T ∈ types, AllOk 4 (knownEqual T 4) ∧
    val (knownEqual T 4 2) ≠ -val (knownEqual T 4 1) := by decide +kernel

end Verif.Lemmas
