import Verif.Lemmas.ConstantFloat
import Verif.Lemmas.Inverse

/-! # A plate without thickness, and matrices with equal columns -/

namespace Verif.Lemmas

open Verif.Spec Verif.MathUtilities

/-- The height at which the plate lies: the largest number of as many digits as the type has. -/
def plateHeight : RealType → ℚ
  | .float => 2 ^ 24 - 1
  | .double => 2 ^ 53 - 1

/-- The vertices: a square, twice. -/
def plateVertex (T : RealType) (idx : Fin 3 → Fin 2) (i : Fin 3) : ℚ :=
  ![if idx 1 = 0 then -1 else 1, if idx 2 = 0 then -1 else 1, plateHeight T] i

/-- The data of the cell. -/
def plateData (T : RealType) : List ℚ :=
  (List.ofFn fun a : Fin 2 => (List.ofFn fun b : Fin 2 => (List.ofFn fun c : Fin 2 => List.ofFn fun i : Fin 3 => plateVertex T ![a, b, c] i).flatten).flatten).flatten

/-- The cell, evaluated. -/
def plateCell (T : RealType) : LinearTransform (Option ℚ) :=
  ⟨⟨.ok (3 : ℕ), List.ofFn fun _ : Fin 3 => knownBasis T .gaussLobatto 1⟩, (plateData T).map some⟩

/-- Its determinant is known not to be zero. -/
def plateThick (T : RealType) (cfg : Config) : Bool :=
  match LinearTransform.inverseJacobianValue cfg (evalArith T.format) (plateCell T) (List.ofFn fun _ : Fin 3 => some (0 : ℚ)) with
  | .ok (some q, _) => decide (q ≠ 0)
  | _ => false

theorem plate_thick_float : ∀ a b c : Bool, plateThick .float ⟨a, b, c⟩ = true := by decide +kernel

theorem plate_thick_double : ∀ a b c : Bool, plateThick .double ⟨a, b, c⟩ = true := by decide +kernel

private theorem some_rel : ∀ l : List ℚ, List.Forall₂ Knows (l.map some) (l.map fun q : ℚ => Flt.ofReal q)
  | [] => .nil
  | q :: l => .cons (knows_some q) (some_rel l)

/-- In memory, the vertices are where they belong. -/
theorem plate_points (T : RealType) : HoldsPoints (n := fun _ : Fin 3 => 2) ((plateData T).map fun q : ℚ => Flt.ofReal q) fun idx i => Flt.ofReal (plateVertex T idx i) := by
  intro cfg idx i
  have h : ∀ (a b c : Bool) (idx : Fin 3 → Fin 2) (i : Fin 3), CArray.read ⟨a, b, c⟩ ((plateData T).map some)
      (CArray.whole ((List.ofFn fun _ : Fin 3 => ((2 : ℕ) : Int)) ++ [((3 : ℕ) : Int)])) (tup idx ++ [((i : ℕ) : Int)]) = .ok (some (plateVertex T idx i)) := by
    cases T <;> decide +kernel
  exact eval_known (read_rel cfg (some_rel (plateData T)) _ _) (h cfg.boundsCheck cfg.constEval cfg.device idx i)

/-- The vertices are numbers of the type. -/
theorem plate_represented (T : RealType) : ∀ idx i, Represents T.format (plateVertex T idx i : ℝ) := by
  have h : ∀ idx i, evalRound T.format (plateVertex T idx i) = some (plateVertex T idx i) := by
    cases T <;> decide +kernel
  exact fun idx i => round_represents _ (evalRound_sound _ (h idx i))

/-- The code gives a determinant that is not zero. -/
theorem plate_thick (T : RealType) {b : Basis Flt} (hb : b = ⟨((1 + 1 : ℕ) : Int),
      LagrangeBasis.value (floatArith T.format) (Family.gaussLobatto.spacingIn T.arith ((1 + 1 : ℕ) : Int)) ((1 + 1 : ℕ) : Int),
      LagrangeBasis.gradient (floatArith T.format) (Family.gaussLobatto.spacingIn T.arith ((1 + 1 : ℕ) : Int)) ((1 + 1 : ℕ) : Int)⟩) (cfg : Config) :
    ∃ (x : ℝ) (after : Res (List Flt)), x ≠ 0 ∧ LinearTransform.inverseJacobianValue cfg (floatArith T.format)
      ⟨⟨.ok (3 : ℕ), List.ofFn fun _ : Fin 3 => b⟩, (plateData T).map fun q : ℚ => Flt.ofReal q⟩ (List.ofFn fun _ : Fin 3 => Flt.ofReal ((0 : ℚ) : ℝ))
        = .ok (Flt.ofReal x, after) := by
  have hn : plateThick T cfg = true := by
    cases T
    · exact plate_thick_float cfg.boundsCheck cfg.constEval cfg.device
    · exact plate_thick_double cfg.boundsCheck cfg.constEval cfg.device
  have hrel : TransformRel False Knows (plateCell T) ⟨⟨.ok (3 : ℕ), List.ofFn fun _ : Fin 3 => b⟩, (plateData T).map fun q : ℚ => Flt.ofReal q⟩ := by
    refine ⟨⟨rfl, ?_⟩, some_rel _⟩
    subst hb
    have := knownBasis_rel T .gaussLobatto 1
    exact .cons this (.cons this (.cons this .nil))
  have hx : List.Forall₂ Knows (List.ofFn fun _ : Fin 3 => some (0 : ℚ)) (List.ofFn fun _ : Fin 3 => Flt.ofReal ((0 : ℚ) : ℝ)) :=
    .cons (knows_some _) (.cons (knows_some _) (.cons (knows_some _) .nil))
  have h := inverseJacobianValue_rel hrel hx (eval_rel T.format) cfg
  unfold plateThick at hn
  split at hn
  · next q after e =>
    rcases h _ e with ⟨⟨det, after'⟩, h1, h2, -⟩ | ⟨hf, -⟩
    · refine ⟨q, after', by exact_mod_cast of_decide_eq_true hn, ?_⟩
      rw [h1, show det = Flt.ofReal q from h2 q rfl]
    · exact hf.elim
  · cases hn

/-- Two columns of a matrix. -/
def twoColumns : RealType → Fin 3 → Fin 2 → ℚ
  | .float => ![![461, 484], ![389, 215], ![97, 500]]
  | .double => ![![918317, 1039794], ![488814, 724987], ![484163, 458818]]

/-- The matrix with the first column repeated. -/
def repeated (T : RealType) (k : Fin 3) : Matrix (Fin 3) (Fin 3) ℚ :=
  fun i j => if j = 0 ∨ j = k then twoColumns T i 0 else twoColumns T i 1

/-- Its determinant is known not to be zero. -/
def repeatedThick (T : RealType) (k : Fin 3) : Bool :=
  match inverseNative (evalArith T.format) (matMem ((repeated T k).map some)) with
  | .ok (some q, _) => decide (q ≠ 0)
  | _ => false

theorem repeated_thick (T : RealType) : ∀ k : Fin 3, k ≠ 0 → repeatedThick T k = true := by
  cases T <;> decide +kernel

theorem repeated_represented (T : RealType) : ∀ k i j, Represents T.format (repeated T k i j : ℝ) := by
  have h : ∀ (k i j : Fin 3), evalRound T.format (repeated T k i j) = some (repeated T k i j) := by
    cases T <;> decide +kernel
  exact fun k i j => round_represents _ (evalRound_sound _ (h k i j))

theorem repeated_det (T : RealType) {k : Fin 3} (hk : k ≠ 0) : ∃ (x : ℝ) (after : Res (List Flt)), x ≠ 0 ∧
    inverseNative (floatArith T.format) (matMem ((repeated T k).map fun q : ℚ => Flt.ofReal q)) = .ok (Flt.ofReal x, after) := by
  have hn := repeated_thick T k hk
  have hl : List.Forall₂ Knows (matMem ((repeated T k).map some)) (matMem ((repeated T k).map fun q : ℚ => Flt.ofReal q)) := by
    have := some_rel (matMem (repeated T k))
    rw [matMem_three] at this
    exact this
  have hr := inverse_native_rel (eval_rel T.format) hl
  unfold repeatedThick at hn
  split at hn
  · next q after e =>
    rcases hr _ e with ⟨⟨det, after'⟩, h1, h2, -⟩ | ⟨hf, -⟩
    · exact ⟨q, after', by exact_mod_cast of_decide_eq_true hn, by rw [h1, show det = Flt.ofReal q from h2 q rfl]⟩
    · exact hf.elim
  · cases hn

end Verif.Lemmas
