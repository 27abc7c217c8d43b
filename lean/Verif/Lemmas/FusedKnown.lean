import Verif.Lemmas.Contraction

/-! # Fused operations on known numbers -/

namespace Verif.Lemmas

open Verif.Spec

/-- A number whose square is rounded. -/
def fusedEntry : RealType → ℚ
  | .float => 1 + 1 / 2 ^ 12
  | .double => 1 + 1 / 2 ^ 27

/-- A matrix with two equal rows. -/
def fusedMatrix (T : RealType) : Matrix (Fin 3) (Fin 3) ℚ := !![1, fusedEntry T, fusedEntry T; 1, fusedEntry T, fusedEntry T; 1, 0, 0]

/-- With fused operations it has a determinant other than zero and finite entries in its inverse. -/
def fusedInverse (T : RealType) : Bool :=
  match MathUtilities.inverseNative (fusedArith T.format true) (matMem ((fusedMatrix T).map fun q => some (q, none))) with
  | .ok (some (q, _), .ok l) => decide (q ≠ 0) && l.all Option.isSome
  | _ => false

theorem fused_inverse (T : RealType) : fusedInverse T = true := by
  cases T <;> decide +kernel

theorem fusedMatrix_represented (T : RealType) (i j : Fin 3) : Represents T.format (fusedMatrix T i j : ℝ) := by
  have h : ∀ i j, evalRound T.format (fusedMatrix T i j) = some (fusedMatrix T i j) := by cases T <;> decide +kernel
  exact round_represents _ (evalRound_sound _ (h i j))

theorem fused_determinant (T : RealType) : ∃ (det : Term) (l : List Term) (v : ℝ),
    MathUtilities.inverseNative termArith (matMem ((fusedMatrix T).map fun q : ℚ => Term.num q)) = .ok (det, .ok l) ∧ v ≠ 0 ∧
      Contracted T.format.nearest det v ∧ ∀ t ∈ l, ∃ w, Contracted T.format.nearest t w := by
  have hm : List.Forall₂ (CanBe T.format) (matMem ((fusedMatrix T).map fun q => some (q, none))) (matMem ((fusedMatrix T).map fun q : ℚ => Term.num q)) := by
    rw [matMem, matMem]
    have : ∀ {n : ℕ} (f : Fin n → ℚ), List.Forall₂ (CanBe T.format) (List.ofFn fun i => some (f i, none)) (List.ofFn fun i => Term.num (f i)) := by
      intro n
      induction n with
      | zero => intro f; simp
      | succ n ih => intro f; rw [List.ofFn_succ, List.ofFn_succ]; exact .cons (canBe_num _) (ih _)
    exact this fun k => fusedMatrix T k.divNat k.modNat
  have h := inverse_native_rel (fused_rel true) hm
  have hn := fused_inverse T
  unfold fusedInverse at hn
  split at hn
  · next q p l e =>
    rw [Bool.and_eq_true] at hn
    rcases h _ e with ⟨⟨det, after⟩, h1, h2, h3⟩ | ⟨hf, -⟩
    · rcases h3 _ rfl with ⟨l', h4, h5⟩ | ⟨hf, -⟩
      · obtain rfl : after = .ok l' := h4
        refine ⟨det, l', q, h1, by exact_mod_cast of_decide_eq_true hn.1, (h2 q p rfl).1, fun t ht => ?_⟩
        have hall := List.all_eq_true.1 hn.2
        clear h1 h2 h3 e hn
        induction h5 with
        | nil => cases ht
        | @cons a b l l' hab h ih =>
          rcases List.mem_cons.1 ht with rfl | ht
          · obtain ⟨⟨w, p⟩, rfl⟩ := Option.isSome_iff_exists.1 (hall _ (List.mem_cons_self ..))
            exact ⟨w, (hab w p rfl).1⟩
          · exact ih ht fun x hx => hall x (List.mem_cons_of_mem _ hx)
      · exact hf.elim
    · exact hf.elim
  · cases hn

/-! ### the gradient of a constant -/

/-- The nodes -1 and 1. -/
def fusedSpacing : Spacing (Option (ℚ × Option ℚ)) where
  numPoints := 2
  coordRT i := if i = 0 then .ok (some (-1, none)) else if i = 1 then .ok (some (1, none)) else .ub
  coordCT i := if i = 0 then .ok (some (-1, none)) else if i = 1 then .ok (some (1, none)) else .ub

/-- The basis of order one on these nodes. -/
def fusedBasis (F : FloatFormat) (fuse : Bool) : Basis (Option (ℚ × Option ℚ)) :=
  ⟨2, LagrangeBasis.value (fusedArith F fuse) fusedSpacing 2, LagrangeBasis.gradient (fusedArith F fuse) fusedSpacing 2⟩

/-- The nodal value. -/
def fusedConstant : RealType → ℚ
  | .float => 1 + 1 / 2 ^ 23
  | .double => 1 + 1 / 2 ^ 52

/-- The derivative of the constant in the last direction at the point with all coordinates 1/2. -/
def fusedDerivative (T : RealType) (fuse : Bool) : Option ℚ :=
  match ParentElement.gradient (fusedArith T.format fuse) ⟨.ok (3 : ℕ), List.ofFn fun _ : Fin 3 => fusedBasis T.format fuse⟩
      (List.ofFn fun _ : Fin 3 => some (1 / 2, none)) (fun _ => .ok (some (fusedConstant T, none))) with
  | .ok [_, _, some (q, _)] => some q
  | _ => none

theorem fused_derivative (T : RealType) : fusedDerivative T false = some 0 ∧ ∃ q ≠ 0, fusedDerivative T true = some q := by
  cases T
  · exact ⟨by decide +kernel, 1 / 2 ^ 28, by decide +kernel, by decide +kernel⟩
  · exact ⟨by decide +kernel, 1 / 2 ^ 57, by decide +kernel, by decide +kernel⟩

theorem fusedConstant_represented (T : RealType) : Represents T.format (fusedConstant T : ℝ) ∧ Represents T.format (((1 / 2 : ℚ)) : ℝ) := by
  have h : evalRound T.format (fusedConstant T) = some (fusedConstant T) ∧ evalRound T.format (1 / 2) = some (1 / 2) := by cases T <;> decide +kernel
  exact ⟨round_represents _ (evalRound_sound _ h.1), round_represents _ (evalRound_sound _ h.2)⟩

theorem fusedBasis_rel (F : FloatFormat) (fuse : Bool) {S : Spacing ℝ} (h0 : S.coordCT 0 = .ok (-1)) (h1 : S.coordCT 1 = .ok 1) (hn : S.numPoints = 2)
    (h0' : S.coordRT 0 = .ok (-1)) (h1' : S.coordRT 1 = .ok 1) :
    BasisRel False (CanBe F) (fusedBasis F fuse) ⟨2, LagrangeBasis.value termArith (held S) 2, LagrangeBasis.gradient termArith (held S) 2⟩ := by
  have one : CanBe F (some (1, none)) (.num 1) := by simpa using canBe_num (F := F) 1
  have neg : CanBe F (some (-1, none)) (.num (-1)) := by simpa using canBe_num (F := F) (-1)
  have hs : SpacingRel False (CanBe F) fusedSpacing (held S) := by
    refine ⟨hn.symm, fun i a ha => ?_, fun i a ha => ?_⟩
    · simp only [fusedSpacing] at ha
      split_ifs at ha with h h'
      · cases ha; subst h; exact .inl ⟨_, by show Term.num <$> _ = _; rw [h0']; rfl, neg⟩
      · cases ha; subst h'; exact .inl ⟨_, by show Term.num <$> _ = _; rw [h1']; rfl, one⟩
    · simp only [fusedSpacing] at ha
      split_ifs at ha with h h'
      · cases ha; subst h; exact .inl ⟨_, by show Term.num <$> _ = _; rw [h0]; rfl, neg⟩
      · cases ha; subst h'; exact .inl ⟨_, by show Term.num <$> _ = _; rw [h1]; rfl, one⟩
  have h := fused_rel (F := F) fuse
  have hd : NodeDivRel False (fusedArith F fuse) termArith (CanBe F) fusedSpacing (held S) :=
    fun _ _ _ _ _ h1 h2 => h.div (h.lit 1) (h.sub h1 h2)
  exact ⟨rfl, fun i _ _ hx => basisValue_rel h.toOpsRel hs hd 2 i hx, fun i _ _ hx => basisGradient_rel h.toOpsRel hs hd 2 i hx⟩

theorem fused_gradient (T : RealType) {b : Basis Term} (hb : ∀ fuse, BasisRel False (CanBe T.format) (fusedBasis T.format fuse) b) (g : Fin 3 → Term)
    (hg : ParentElement.gradient termArith ⟨.ok (3 : ℕ), List.ofFn fun _ : Fin 3 => b⟩ (List.ofFn fun _ : Fin 3 => .num ((1 / 2 : ℚ) : ℝ))
      (fun _ => .ok (.num (fusedConstant T))) = .ok (List.ofFn g)) :
    Contracted T.format.nearest (g 2) 0 ∧ ∃ v ≠ 0, Contracted T.format.nearest (g 2) v := by
  have key : ∀ fuse q, fusedDerivative T fuse = some q → Contracted T.format.nearest (g 2) q := by
    intro fuse q hq
    have h := parentGradient_rel (fused_rel (F := T.format) fuse).toOpsRel
      (e := ⟨.ok (3 : ℕ), List.ofFn fun _ : Fin 3 => fusedBasis T.format fuse⟩) (e' := ⟨.ok (3 : ℕ), List.ofFn fun _ : Fin 3 => b⟩)
      ⟨rfl, .cons (hb fuse) (.cons (hb fuse) (.cons (hb fuse) .nil))⟩
      (x := List.ofFn fun _ : Fin 3 => some (1 / 2, none)) (y := List.ofFn fun _ : Fin 3 => .num ((1 / 2 : ℚ) : ℝ))
      (.cons (canBe_num _) (.cons (canBe_num _) (.cons (canBe_num _) .nil)))
      (var := fun _ => .ok (some (fusedConstant T, none))) (var' := fun _ => .ok (.num (fusedConstant T))) (fun _ => .ok (canBe_num _))
    unfold fusedDerivative at hq
    split at hq
    · next a b q' p e =>
      obtain rfl := Option.some.inj hq
      rcases h _ e with ⟨l, h1, h2⟩ | ⟨hf, -⟩
      · rw [hg] at h1
        obtain rfl := Res.ok.inj h1
        rw [show List.ofFn g = [g 0, g 1, g 2] from rfl] at h2
        cases h2 with
        | cons _ h2 => cases h2 with
          | cons _ h2 => cases h2 with
            | cons h2 _ => exact (h2 _ _ rfl).1
      · exact hf.elim
    · cases hq
  obtain ⟨h1, q, hq, h2⟩ := fused_derivative T
  refine ⟨by simpa using key false 0 h1, q, by exact_mod_cast hq, key true q h2⟩

end Verif.Lemmas
