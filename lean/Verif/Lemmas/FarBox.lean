import Verif.Lemmas.ConstantFloat

/-! # Small boxes far from the origin -/

namespace Verif.Lemmas

open Verif.Spec

/-- The corner of the box. -/
def farCorner : RealType → Fin 3 → ℚ
  | .float => ![15850355 / 8, 14446639 / 8, 8993244 / 8]
  | .double => ![7092821778649573 / 2 ^ 32, 7851156286162632 / 2 ^ 32, 7937617208541124 / 2 ^ 32]

/-- The edge of the box: twice the distance of neighbouring numbers. -/
def farEdge : RealType → ℚ
  | .float => 1 / 4
  | .double => 1 / 2 ^ 31

/-- The point of the parent cell. -/
def farPoint : RealType → Fin 3 → ℚ
  | .float => ![1 / 4, 1 / 8, -11 / 16]
  | .double => ![13 / 16, 3 / 4, 9 / 16]

/-- The vertices. -/
def farVertex (T : RealType) (idx : Fin 3 → Fin 2) (i : Fin 3) : ℚ := farCorner T i + if idx i = 0 then 0 else farEdge T

/-- The data of the cell. -/
def farData (T : RealType) : List ℚ :=
  (List.ofFn fun a : Fin 2 => (List.ofFn fun b : Fin 2 => (List.ofFn fun c : Fin 2 => List.ofFn fun i : Fin 3 => farVertex T ![a, b, c] i).flatten).flatten).flatten

/-- The cell, evaluated. -/
def farCell (T : RealType) : LinearTransform (Option ℚ) :=
  ⟨⟨.ok (3 : ℕ), List.ofFn fun _ : Fin 3 => knownBasis T .gaussLobatto 1⟩, (farData T).map some⟩

/-- Its determinant is known to be negative. -/
def farNegative (T : RealType) (cfg : Config) : Bool :=
  match LinearTransform.inverseJacobianValue cfg (evalArith T.format) (farCell T) (List.ofFn fun k => some (farPoint T k)) with
  | .ok (some q, _) => decide (q < 0)
  | _ => false

theorem far_negative_float : ∀ a b c : Bool, farNegative .float ⟨a, b, c⟩ = true := by decide +kernel

theorem far_negative_double : ∀ a b c : Bool, farNegative .double ⟨a, b, c⟩ = true := by decide +kernel

private theorem some_rel : ∀ l : List ℚ, List.Forall₂ Knows (l.map some) (l.map fun q : ℚ => Flt.ofReal q)
  | [] => .nil
  | q :: l => .cons (knows_some q) (some_rel l)

/-- In memory, the vertices are where they belong. -/
theorem far_points (T : RealType) : HoldsPoints (n := fun _ : Fin 3 => 2) ((farData T).map fun q : ℚ => Flt.ofReal q) fun idx i => Flt.ofReal (farVertex T idx i) := by
  intro cfg idx i
  have h : ∀ (a b c : Bool) (idx : Fin 3 → Fin 2) (i : Fin 3), CArray.read ⟨a, b, c⟩ ((farData T).map some)
      (CArray.whole ((List.ofFn fun _ : Fin 3 => ((2 : ℕ) : Int)) ++ [((3 : ℕ) : Int)])) (tup idx ++ [((i : ℕ) : Int)]) = .ok (some (farVertex T idx i)) := by
    cases T <;> decide +kernel
  exact eval_known (read_rel cfg (some_rel (farData T)) _ _) (h cfg.boundsCheck cfg.constEval cfg.device idx i)

/-- The vertices and the point are numbers of the type. -/
theorem far_represented (T : RealType) : (∀ idx i, Represents T.format (farVertex T idx i : ℝ)) ∧
    ∀ k, Represents T.format (farPoint T k : ℝ) ∧ |((farPoint T k : ℚ) : ℝ)| ≤ 1 := by
  have h : (∀ idx i, evalRound T.format (farVertex T idx i) = some (farVertex T idx i)) ∧
      ∀ k, evalRound T.format (farPoint T k) = some (farPoint T k) ∧ |farPoint T k| ≤ 1 := by
    cases T <;> decide +kernel
  refine ⟨fun idx i => round_represents _ (evalRound_sound _ (h.1 idx i)), fun k => ⟨round_represents _ (evalRound_sound _ (h.2 k).1), ?_⟩⟩
  rw [← Rat.cast_abs]
  exact_mod_cast (h.2 k).2

/-- The code gives a negative determinant. -/
theorem far_negative (T : RealType) {b : Basis Flt} (hb : b = ⟨((1 + 1 : ℕ) : Int),
      LagrangeBasis.value (floatArith T.format) (Family.gaussLobatto.spacingIn T.arith ((1 + 1 : ℕ) : Int)) ((1 + 1 : ℕ) : Int),
      LagrangeBasis.gradient (floatArith T.format) (Family.gaussLobatto.spacingIn T.arith ((1 + 1 : ℕ) : Int)) ((1 + 1 : ℕ) : Int)⟩) (cfg : Config) :
    ∃ (x : ℝ) (after : Res (List Flt)), x < 0 ∧ LinearTransform.inverseJacobianValue cfg (floatArith T.format)
      ⟨⟨.ok (3 : ℕ), List.ofFn fun _ : Fin 3 => b⟩, (farData T).map fun q : ℚ => Flt.ofReal q⟩ (List.ofFn fun k => Flt.ofReal (farPoint T k))
        = .ok (Flt.ofReal x, after) := by
  have hn : farNegative T cfg = true := by
    cases T
    · exact far_negative_float cfg.boundsCheck cfg.constEval cfg.device
    · exact far_negative_double cfg.boundsCheck cfg.constEval cfg.device
  have hrel : TransformRel False Knows (farCell T) ⟨⟨.ok (3 : ℕ), List.ofFn fun _ : Fin 3 => b⟩, (farData T).map fun q : ℚ => Flt.ofReal q⟩ := by
    refine ⟨⟨rfl, ?_⟩, some_rel _⟩
    subst hb
    have := knownBasis_rel T .gaussLobatto 1
    exact .cons this (.cons this (.cons this .nil))
  have hx : List.Forall₂ Knows (List.ofFn fun k => some (farPoint T k)) (List.ofFn fun k => Flt.ofReal (farPoint T k)) :=
    .cons (knows_some _) (.cons (knows_some _) (.cons (knows_some _) .nil))
  have h := inverseJacobianValue_rel hrel hx (eval_rel T.format) cfg
  unfold farNegative at hn
  split at hn
  · next q after e =>
    rcases h _ e with ⟨⟨det, after'⟩, h1, h2, -⟩ | ⟨hf, -⟩
    · refine ⟨q, after', by exact_mod_cast of_decide_eq_true hn, ?_⟩
      rw [h1, show det = Flt.ofReal q from h2 q rfl]
    · exact hf.elim
  · cases hn

end Verif.Lemmas
