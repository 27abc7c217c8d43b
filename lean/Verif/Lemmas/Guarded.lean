import Verif.Spec.Guarded
import Verif.Model.Copies
import Verif.Model.IndexConversion
import Verif.Model.LinearTransform
import Verif.Model.Scaling
import Verif.Model.Mixed

/-!
# A run with bounds checks compared with a run without
-/

namespace Verif.Lemmas

open Verif.Spec

variable {cfg cfg' : Config} {α β : Type}

theorem guarded_refl (r : Res α) : SameOrStopped cfg r r := .inl rfl

private theorem stopped_bind {x : Res α} (h : Stopped cfg x) (f : α → Res β) : Stopped cfg (x >>= f) := by
  obtain ⟨a, b, rfl⟩ := h
  refine ⟨a, b, ?_⟩
  split_ifs <;> rfl

theorem guarded_bind_into {Q : Res β → Res β → Prop} (hr : ∀ r, Q r r) (hs : ∀ r r', Stopped cfg r → Q r r') {x y : Res α} (h : SameOrStopped cfg x y) {f g : α → Res β}
    (hf : ∀ a, Q (f a) (g a)) : Q (x >>= f) (y >>= g) := by
  rcases h with rfl | h
  · cases x with
    | ok a => exact hf a
    | illFormed => exact hr _
    | ub => exact hr _
    | abort => exact hr _
    | nonfinite => exact hr _
  · exact hs _ _ (stopped_bind h f)

theorem guarded_bind {x y : Res α} (h : SameOrStopped cfg x y) {f g : α → Res β} (hf : ∀ a, SameOrStopped cfg (f a) (g a)) : SameOrStopped cfg (x >>= f) (y >>= g) :=
  guarded_bind_into guarded_refl (fun _ _ h => .inr h) h hf

theorem guarded_same {x : Res α} {f g : α → Res β} (hf : ∀ a, SameOrStopped cfg (f a) (g a)) : SameOrStopped cfg (x >>= f) (x >>= g) := guarded_bind (guarded_refl x) hf

theorem guarded_inside {x y : Res α} (h : SameOrStopped cfg x y) {γ : Type} {f g : α → Res (β × Res γ)} (hf : ∀ a, SameOrStoppedInside cfg (f a) (g a)) :
    SameOrStoppedInside cfg (x >>= f) (y >>= g) :=
  guarded_bind_into (fun r => .inl (guarded_refl r)) (fun _ _ h => .inl (.inr h)) h hf

private theorem assertMsg_guarded (hb : cfg.boundsCheck = true) (p : Bool) : SameOrStopped cfg (shivaAssertMsg cfg p boundsFmt 2) (.ok ()) := by
  unfold shivaAssertMsg
  split_ifs with h1 h2
  · exact .inl rfl
  · exact .inl rfl
  · refine .inr ⟨hb, by simpa using h2, ?_⟩
    unfold shivaAssertionFailed
    by_cases hd : cfg.device = true
    · rw [if_pos hd, if_pos hd, show formatOutcome boundsFmt 0 = .ub by decide]; rfl
    · rw [if_neg hd, if_neg hd, show formatOutcome boundsFmt 2 = .ok () by decide]; rfl

/-! ### accesses -/

section access
variable (h' : cfg'.boundsCheck = false)
include h'

theorem boundsAssert_guarded (i d : Int) : SameOrStopped cfg (boundsAssert cfg i d) (boundsAssert cfg' i d) := by
  unfold boundsAssert
  rw [h', if_neg (show ¬ false = true by decide)]
  by_cases hb : cfg.boundsCheck = true
  · rw [if_pos hb]
    exact assertMsg_guarded hb _
  · rw [if_neg hb]
    exact .inl rfl

theorem boundsAssertTyped_guarded (i : IndexConversion.Index) (d : Int) :
    SameOrStopped cfg (IndexConversion.boundsAssertTyped cfg i d) (IndexConversion.boundsAssertTyped cfg' i d) := by
  unfold IndexConversion.boundsAssertTyped
  dsimp only
  rw [h', if_neg (show ¬ false = true by decide)]
  by_cases hb : cfg.boundsCheck = true
  · rw [if_pos hb]
    exact assertMsg_guarded hb _
  · rw [if_neg hb]
    exact .inl rfl

theorem level_guarded : ∀ dims idx : List Int, SameOrStopped cfg (CArrayHelper.levelRT cfg dims idx) (CArrayHelper.levelRT cfg' dims idx)
  | [], _ => .inl (by unfold CArrayHelper.levelRT; rfl)
  | _ :: _, [] => .inl (by unfold CArrayHelper.levelRT; rfl)
  | [d], i :: is => by
    unfold CArrayHelper.levelRT
    exact guarded_bind (boundsAssert_guarded h' _ _) fun _ => guarded_refl _
  | d :: e :: es, i :: is => by
    unfold CArrayHelper.levelRT
    exact guarded_bind (boundsAssert_guarded h' _ _) fun _ => guarded_same fun _ => guarded_same fun _ =>
      guarded_bind (level_guarded (e :: es) is) fun _ => guarded_refl _

theorem levelTyped_guarded : ∀ (dims : List Int) (idx : List IndexConversion.Index),
    SameOrStopped cfg (IndexConversion.levelTyped cfg dims idx) (IndexConversion.levelTyped cfg' dims idx)
  | [], _ => .inl (by unfold IndexConversion.levelTyped; rfl)
  | _ :: _, [] => .inl (by unfold IndexConversion.levelTyped; rfl)
  | [d], i :: is => by
    unfold IndexConversion.levelTyped
    exact guarded_bind (boundsAssertTyped_guarded h' _ _) fun _ => guarded_refl _
  | d :: e :: es, i :: is => by
    unfold IndexConversion.levelTyped
    exact guarded_bind (boundsAssertTyped_guarded h' _ _) fun _ => guarded_same fun _ => guarded_same fun _ =>
      guarded_bind (levelTyped_guarded (e :: es) is) fun _ => guarded_refl _

theorem paren_guarded (len : Nat) (v : View) (idx : List Int) : SameOrStopped cfg (CArray.parenRT cfg len v idx) (CArray.parenRT cfg' len v idx) :=
  guarded_same fun _ => guarded_bind (level_guarded h' _ _) fun _ => guarded_refl _

theorem parenTyped_guarded (len : Nat) (v : View) (idx : List IndexConversion.Index) :
    SameOrStopped cfg (IndexConversion.parenTyped cfg len v idx) (IndexConversion.parenTyped cfg' len v idx) :=
  guarded_same fun _ => guarded_bind (levelTyped_guarded h' _ _) fun _ => guarded_refl _

theorem bracket_guarded (len : Nat) : ∀ (v : View) (i : Int), SameOrStopped cfg (CArray.bracket cfg len v i) (CArray.bracket cfg' len v i)
  | ⟨[], _⟩, _ => .inl rfl
  | ⟨[_], _⟩, _ => guarded_bind (boundsAssert_guarded h' _ _) fun _ => guarded_bind (paren_guarded h' _ _ _) fun _ => guarded_refl _
  | ⟨_ :: _ :: _, _⟩, _ => guarded_bind (boundsAssert_guarded h' _ _) fun _ => guarded_refl _

theorem chain_guarded (len : Nat) : ∀ (idx : List Int) (r : Ref), SameOrStopped cfg (CArray.bracketChain cfg len r idx) (CArray.bracketChain cfg' len r idx)
  | [], r => .inl (by cases r <;> rfl)
  | _ :: _, .elem _ => .inl rfl
  | _ :: is, .sub _ => guarded_bind (bracket_guarded h' _ _ _) fun r => chain_guarded len is r

theorem bracketTyped_guarded (len : Nat) (r : Ref) (idx : List IndexConversion.Index) :
    SameOrStopped cfg (IndexConversion.bracketTyped cfg len r idx) (IndexConversion.bracketTyped cfg' len r idx) := chain_guarded h' _ _ _

variable {R : Type}

theorem read_guarded (mem : List R) (v : View) (idx : List Int) : SameOrStopped cfg (CArray.read cfg mem v idx) (CArray.read cfg' mem v idx) :=
  guarded_bind (paren_guarded h' _ _ _) fun _ => guarded_refl _

theorem write_guarded (mem : List R) (v : View) (idx : List Int) (x : R) : SameOrStopped cfg (CArray.write cfg mem v idx x) (CArray.write cfg' mem v idx x) :=
  guarded_bind (paren_guarded h' _ _ _) fun _ => guarded_refl _

theorem readBracket_guarded (mem : List R) (v : View) (idx : List Int) : SameOrStopped cfg (CArray.readBracket cfg mem v idx) (CArray.readBracket cfg' mem v idx) :=
  guarded_bind (chain_guarded h' _ _ _) fun _ => guarded_refl _

theorem writeBracket_guarded (mem : List R) (v : View) (idx : List Int) (x : R) :
    SameOrStopped cfg (CArray.writeBracket cfg mem v idx x) (CArray.writeBracket cfg' mem v idx x) :=
  guarded_bind (chain_guarded h' _ _ _) fun _ => guarded_refl _

theorem assign_guarded (v : View) (mem : List R) (w : Spec.Assign R) : SameOrStopped cfg (CArray.assign cfg v mem w) (CArray.assign cfg' v mem w) := by
  unfold CArray.assign
  split
  · exact write_guarded h' _ _ _ _
  · exact writeBracket_guarded h' _ _ _ _

/-! ### programs -/

theorem step_guarded (zero : R) (vars : List (Copies.Var R)) : ∀ s : Spec.Stmt R, SameOrStopped cfg (Copies.step cfg zero vars s) (Copies.step cfg' zero vars s)
  | .declare _ _ => guarded_refl _
  | .copy _ => guarded_refl _
  | .slice _ _ => guarded_same fun _ => guarded_bind (chain_guarded h' _ _ _) fun _ => guarded_refl _
  | .view _ => guarded_refl _
  | .assign _ _ => guarded_refl _
  | .write _ _ => guarded_same fun _ => guarded_bind (assign_guarded h' _ _ _) fun _ => guarded_refl _

theorem program_guarded (zero : R) : ∀ (ss : List (Spec.Stmt R)) (vars : List (Copies.Var R)), SameOrStopped cfg (Copies.run cfg zero vars ss) (Copies.run cfg' zero vars ss)
  | [], _ => guarded_refl _
  | s :: ss, vars => guarded_bind (step_guarded h' zero vars s) fun vars' => program_guarded zero ss vars'

theorem readVar_guarded (vars : List (Copies.Var R)) (i : Nat) (style : Spec.Style) (idx : List Int) :
    SameOrStopped cfg (Copies.readVar cfg vars i style idx) (Copies.readVar cfg' vars i style idx) := by
  refine guarded_same fun a => ?_
  cases style
  · exact read_guarded h' _ _ _
  · exact readBracket_guarded h' _ _ _

end access

/-! ### loops -/

section loops
variable {σ : Type}

theorem commaFold_guarded {f g : Int → σ → Res σ} (h : ∀ i s, SameOrStopped cfg (f i s) (g i s)) :
    ∀ (is : List Int) (s : σ), SameOrStopped cfg (Sequence.commaFold f is s) (Sequence.commaFold g is s)
  | [], _ => guarded_refl _
  | i :: is, s => guarded_bind (h i s) fun s' => commaFold_guarded h is s'

theorem nested_guarded {f g : List Int → σ → Res σ} (h : ∀ i s, SameOrStopped cfg (f i s) (g i s)) :
    ∀ (es indices : List Int) (s : σ), SameOrStopped cfg (Sequence.staticForNested f es indices s) (Sequence.staticForNested g es indices s)
  | [], _, _ => .inl (by unfold Sequence.staticForNested; rfl)
  | [e], indices, s => by
    unfold Sequence.staticForNested
    exact guarded_same fun is => commaFold_guarded (fun i s => h _ s) is s
  | e :: e' :: es, indices, s => by
    unfold Sequence.staticForNested
    exact guarded_same fun is => commaFold_guarded (fun i s => nested_guarded h (e' :: es) _ s) is s

theorem forLoop_guarded (dim : Nat) (range : Int) {f g : List Int × σ → Res (List Int × σ)} (h : ∀ s, SameOrStopped cfg (f s) (g s)) :
    ∀ (fuel : Nat) (st : List Int × σ), SameOrStopped cfg (IndexTypes.forLoop dim range f fuel st) (IndexTypes.forLoop dim range g fuel st)
  | 0, _ => .inl (by unfold IndexTypes.forLoop; rfl)
  | fuel + 1, st => by
    unfold IndexTypes.forLoop
    split_ifs
    · exact guarded_bind (h st) fun st' => guarded_same fun a => forLoop_guarded dim range h fuel _
    · exact guarded_refl _

theorem forRangeHelper_guarded (ranges start : List Int) {f g : List Int → σ → Res σ} (h : ∀ i s, SameOrStopped cfg (f i s) (g i s)) :
    ∀ (rem dim : Nat) (st : List Int × σ), SameOrStopped cfg (IndexTypes.forRangeHelper ranges start f rem dim st) (IndexTypes.forRangeHelper ranges start g rem dim st)
  | 0, dim, st => by
    unfold IndexTypes.forRangeHelper
    exact forLoop_guarded _ _ (fun st => guarded_bind (h _ _) fun _ => guarded_refl _) _ _
  | rem + 1, dim, st => by
    unfold IndexTypes.forRangeHelper
    exact forLoop_guarded _ _ (fun st => forRangeHelper_guarded ranges start h rem (dim + 1) st) _ _

theorem forRange_guarded (ranges : List Int) {f g : List Int → σ → Res σ} (h : ∀ i s, SameOrStopped cfg (f i s) (g i s)) (index : List Int) (s : σ) :
    SameOrStopped cfg (IndexTypes.forRange ranges f index s) (IndexTypes.forRange ranges g index s) := by
  unfold IndexTypes.forRange
  split_ifs
  · exact guarded_refl _
  · exact forRangeHelper_guarded _ _ h _ _ _

end loops

/-! ### matrices and transforms -/

section cells
variable {R : Type} (h' : cfg'.boundsCheck = false) (A : Arith R)

private theorem scale_guarded {S : Type} {M N : MathUtilities.MatrixOps S R} (hg : ∀ s i j, SameOrStopped cfg (M.get s i j) (N.get s i j))
    (hs : ∀ s i j x, SameOrStopped cfg (M.set s i j x) (N.set s i j x)) (s : S) (i j : Int) (x : R) : SameOrStopped cfg (M.scale A s i j x) (N.scale A s i j x) :=
  guarded_bind (hg _ _ _) fun _ => hs _ _ _ _

private theorem finish_guarded {S : Type} {M N : MathUtilities.MatrixOps S R} (hg : ∀ s i j, SameOrStopped cfg (M.get s i j) (N.get s i j))
    (hs : ∀ s i j x, SameOrStopped cfg (M.set s i j x) (N.set s i j x)) (m : S) (v s00 s01 s02 s10 s11 s12 s20 s21 s22 : R) :
    SameOrStopped cfg (MathUtilities.inverseFinish A M m v s00 s01 s02 s10 s11 s12 s20 s21 s22) (MathUtilities.inverseFinish A N m v s00 s01 s02 s10 s11 s12 s20 s21 s22) :=
  guarded_bind (scale_guarded A hg hs _ _ _ _) fun _ => guarded_bind (scale_guarded A hg hs _ _ _ _) fun _ => guarded_bind (scale_guarded A hg hs _ _ _ _) fun _ =>
    guarded_bind (hs _ _ _ _) fun _ => guarded_bind (hs _ _ _ _) fun _ => guarded_bind (hs _ _ _ _) fun _ => guarded_bind (hs _ _ _ _) fun _ => guarded_bind (hs _ _ _ _) fun _ => hs _ _ _ _

theorem inverse_ops_guarded {S : Type} {M N : MathUtilities.MatrixOps S R} (hg : ∀ s i j, SameOrStopped cfg (M.get s i j) (N.get s i j))
    (hs : ∀ s i j x, SameOrStopped cfg (M.set s i j x) (N.set s i j x)) (m : S) : SameOrStoppedInside cfg (MathUtilities.inverse A M m) (MathUtilities.inverse A N m) := by
  unfold MathUtilities.inverse
  refine guarded_inside (hg _ _ _) fun s00 => guarded_inside (hg _ _ _) fun s01 => guarded_inside (hg _ _ _) fun s02 => guarded_inside (hg _ _ _) fun s10 =>
    guarded_inside (hg _ _ _) fun s11 => guarded_inside (hg _ _ _) fun s12 => guarded_inside (hg _ _ _) fun s20 => guarded_inside (hg _ _ _) fun s21 =>
    guarded_inside (hg _ _ _) fun s22 => guarded_inside (hs _ _ _ _) fun m => guarded_inside (hs _ _ _ _) fun m => guarded_inside (hs _ _ _ _) fun m =>
    guarded_inside (hg _ _ _) fun m00 => guarded_inside (hg _ _ _) fun m01 => guarded_inside (hg _ _ _) fun m02 => .inr ⟨_, _, _, rfl, rfl, ?_⟩
  exact guarded_same fun v => finish_guarded A hg hs _ _ _ _ _ _ _ _ _ _ _

include h'

theorem inverse_guarded (v : View) (m : List R) :
    SameOrStoppedInside cfg (MathUtilities.inverse A (MathUtilities.carray cfg v) m) (MathUtilities.inverse A (MathUtilities.carray cfg' v) m) :=
  inverse_ops_guarded A (fun _ _ _ => read_guarded h' _ _ _) (fun _ _ _ _ => write_guarded h' _ _ _ _) m

theorem setData_guarded (t : LinearTransform R) (coords : Int → Int → Res R) :
    SameOrStopped cfg (LinearTransform.setData cfg t coords) (LinearTransform.setData cfg' t coords) := by
  refine guarded_same fun _ => guarded_same fun _ => guarded_bind (forRange_guarded _ (fun i s => ?_) _ _) fun _ => guarded_refl _
  refine guarded_same fun a => guarded_same fun b => guarded_same fun c => commaFold_guarded (fun i s => ?_) _ _
  exact guarded_same fun _ => guarded_same fun _ => guarded_same fun _ => guarded_same fun _ => guarded_same fun _ => write_guarded h' _ _ _ _

theorem accumulate_guarded (t : LinearTransform R) (grad : List R) (sp : List Int) (i j : Int) (J : List R) :
    SameOrStopped cfg (LinearTransform.accumulate cfg A t grad sp i j J) (LinearTransform.accumulate cfg' A t grad sp i j J) :=
  guarded_bind (read_guarded h' _ _ _) fun _ => guarded_same fun _ => guarded_bind (read_guarded h' _ _ _) fun _ => write_guarded h' _ _ _ _

theorem jacobian_guarded (t : LinearTransform R) (coord J : List R) :
    SameOrStopped cfg (LinearTransform.jacobian cfg A t coord J) (LinearTransform.jacobian cfg' A t coord J) := by
  refine guarded_same fun _ => nested_guarded (fun sp J => guarded_same fun grad => nested_guarded (fun ij J => ?_) _ _ _) _ _ _
  exact guarded_same fun i => guarded_same fun j => accumulate_guarded h' A _ _ _ _ _ _

theorem jacobianQuadrature_guarded (t : LinearTransform R) (Q : Spacing R) (qa : List Int) (J : List R) :
    SameOrStopped cfg (LinearTransform.jacobianQuadrature cfg A t Q qa J) (LinearTransform.jacobianQuadrature cfg' A t Q qa J) := by
  refine guarded_same fun coord => guarded_same fun _ => nested_guarded (fun sp J => guarded_same fun grad => nested_guarded (fun ij J => ?_) _ _ _) _ _ _
  exact guarded_same fun i => guarded_same fun j => accumulate_guarded h' A _ _ _ _ _ _

theorem inverseJacobian_guarded (t : LinearTransform R) (coord invJ : List R) :
    SameOrStoppedInside cfg (LinearTransform.inverseJacobian cfg A t coord invJ) (LinearTransform.inverseJacobian cfg' A t coord invJ) :=
  guarded_inside (jacobian_guarded h' A t coord invJ) fun _ => inverse_guarded h' A _ _

end cells

end Verif.Lemmas
