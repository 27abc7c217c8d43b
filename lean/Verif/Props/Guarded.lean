import Verif.Lemmas.Guarded
import Verif.Props.VertexJacobian

/-!
# Property C158: bounds checks change nothing unless they stop the program

`cfg` is any build and context, `cfg'` any without bounds checks.  Nothing is assumed about the arrays, their dimensions and contents, the indices, the transforms or the arithmetic: the
indices may be out of range and the numbers may be infinities or NaN.
-/

namespace Verif.Props

open Verif.Spec Verif.Lemmas

variable {cfg cfg' : Config} {R : Type}

/-- **C158, elements.** The element that `a(i, j, ..)` or a chain `a[i][j]..` denotes, with indices of any integer types, is the same with and without bounds checks unless a check stops
the program; and so is what is read there, and the memory after a write. -/
theorem C158_elements (h' : cfg'.boundsCheck = false) (v : View) (mem : List R) (idx : List Int) (idxT : List IndexConversion.Index) (x : R) :
    SameOrStopped cfg (IndexConversion.parenTyped cfg mem.length v idxT) (IndexConversion.parenTyped cfg' mem.length v idxT) ∧
    SameOrStopped cfg (IndexConversion.bracketTyped cfg mem.length (.sub v) idxT) (IndexConversion.bracketTyped cfg' mem.length (.sub v) idxT) ∧
    SameOrStopped cfg (CArray.read cfg mem v idx) (CArray.read cfg' mem v idx) ∧ SameOrStopped cfg (CArray.readBracket cfg mem v idx) (CArray.readBracket cfg' mem v idx) ∧
    SameOrStopped cfg (CArray.write cfg mem v idx x) (CArray.write cfg' mem v idx x) ∧
    SameOrStopped cfg (CArray.writeBracket cfg mem v idx x) (CArray.writeBracket cfg' mem v idx x) :=
  ⟨parenTyped_guarded h' _ _ _, bracketTyped_guarded h' _ _ _, read_guarded h' _ _ _, readBracket_guarded h' _ _ _, write_guarded h' _ _ _ _, writeBracket_guarded h' _ _ _ _⟩

/-- **C158, programs.** A program that declares, copies, slices, views, assigns and writes arrays, of any length, leaves all arrays and views with the same contents with and without bounds
checks, unless a check stops it; and so does what is read afterwards. -/
theorem C158_program (h' : cfg'.boundsCheck = false) (zero : R) (vars : List (Copies.Var R)) (program : List (Spec.Stmt R)) (i : Nat) (style : Spec.Style) (idx : List Int) :
    SameOrStopped cfg (Copies.run cfg zero vars program) (Copies.run cfg' zero vars program) ∧
    SameOrStopped cfg (do Copies.readVar cfg (← Copies.run cfg zero vars program) i style idx) (do Copies.readVar cfg' (← Copies.run cfg' zero vars program) i style idx) :=
  ⟨program_guarded h' zero _ _, guarded_bind (program_guarded h' zero _ _) fun _ => readVar_guarded h' _ _ _ _⟩

/-- **C158, transforms.** For any data, arithmetic and previous contents of the output arguments: what `setData` stores, `jacobian` (both overloads) and the functions that return a
Jacobian compute, and what `inverse` and `inverseJacobian` leave as determinant and matrix, is the same with and without bounds checks unless a check stops the program. -/
theorem C158_transform (h' : cfg'.boundsCheck = false) (A : Arith R) (t : LinearTransform R) (coords : Int → Int → Res R) (ξ J : List R) (Q : Spacing R) (qa : List Int) (v : View) :
    SameOrStopped cfg (LinearTransform.setData cfg t coords) (LinearTransform.setData cfg' t coords) ∧
    SameOrStopped cfg (LinearTransform.jacobian cfg A t ξ J) (LinearTransform.jacobian cfg' A t ξ J) ∧
    SameOrStopped cfg (LinearTransform.jacobianQuadrature cfg A t Q qa J) (LinearTransform.jacobianQuadrature cfg' A t Q qa J) ∧
    SameOrStopped cfg (LinearTransform.jacobianValue cfg A t ξ) (LinearTransform.jacobianValue cfg' A t ξ) ∧
    SameOrStoppedInside cfg (MathUtilities.inverse A (MathUtilities.carray cfg v) J) (MathUtilities.inverse A (MathUtilities.carray cfg' v) J) ∧
    SameOrStoppedInside cfg (LinearTransform.inverseJacobian cfg A t ξ J) (LinearTransform.inverseJacobian cfg' A t ξ J) ∧
    SameOrStoppedInside cfg (LinearTransform.inverseJacobianValue cfg A t ξ) (LinearTransform.inverseJacobianValue cfg' A t ξ) :=
  ⟨setData_guarded h' t coords, jacobian_guarded h' A t ξ J, jacobianQuadrature_guarded h' A t Q qa J, guarded_same fun _ => guarded_same fun _ => jacobian_guarded h' A t ξ _,
    inverse_guarded h' A v J, inverseJacobian_guarded h' A t ξ J,
    guarded_inside (guarded_refl _) fun _ => guarded_inside (guarded_refl _) fun _ => inverseJacobian_guarded h' A t ξ _⟩

/-- **C158, scalings.** The same for `Scaling` and `UniformScaling`, with constants of another type than the lengths (`Mixed`). -/
theorem C158_scaling {W : Type} (h' : cfg'.boundsCheck = false) (M : Mixed R W) (s : Scaling R) (s' : UniformScaling R) (J : List R) :
    SameOrStopped cfg (Mixed.Scaling.jacobian cfg M s J) (Mixed.Scaling.jacobian cfg' M s J) ∧
    SameOrStoppedInside cfg (Mixed.Scaling.inverseJacobian cfg M s J) (Mixed.Scaling.inverseJacobian cfg' M s J) ∧
    SameOrStopped cfg (Mixed.UniformScaling.jacobian cfg M s' J) (Mixed.UniformScaling.jacobian cfg' M s' J) ∧
    (Mixed.UniformScaling.inverseJacobian cfg M s' J).1 = (Mixed.UniformScaling.inverseJacobian cfg' M s' J).1 ∧
    SameOrStopped cfg (Mixed.UniformScaling.inverseJacobian cfg M s' J).2 (Mixed.UniformScaling.inverseJacobian cfg' M s' J).2 := by
  refine ⟨guarded_same fun _ => guarded_bind (write_guarded h' _ _ _ _) fun _ => guarded_same fun _ => guarded_bind (write_guarded h' _ _ _ _) fun _ => guarded_same fun _ =>
    write_guarded h' _ _ _ _, ?_, write_guarded h' _ _ _ _, rfl, guarded_same fun _ => write_guarded h' _ _ _ _⟩
  refine guarded_inside (guarded_refl _) fun h0 => guarded_inside (guarded_refl _) fun h1 => guarded_inside (guarded_refl _) fun h2 => .inr ⟨_, _, _, rfl, rfl, ?_⟩
  exact guarded_same fun _ => guarded_bind (write_guarded h' _ _ _ _) fun _ => guarded_same fun _ => guarded_bind (write_guarded h' _ _ _ _) fun _ => guarded_same fun _ =>
    write_guarded h' _ _ _ _

/-- What `SameOrStopped` means on the host: a run with checks that is not aborted has the outcome of the run without. -/
theorem C158_host {α : Type} {r r' : Res α} (hd : cfg.device = false) (h : SameOrStopped cfg r r') (hr : r ≠ .abort) : r = r' := by
  rcases h with h | ⟨-, -, h⟩
  · exact h
  · rw [hd] at h
    exact absurd h hr

/-- When the compiler evaluates the code, checks make no difference at all. -/
theorem C158_constant {α : Type} {r r' : Res α} (hc : cfg.constEval = true) (h : SameOrStopped cfg r r') : r = r' := by
  rcases h with h | ⟨-, h, -⟩
  · exact h
  · rw [hc] at h
    exact absurd h (by decide)

section cells
variable {T : RealType} {d : ℕ} {order : Fin d → ℕ} {c : (k : Fin d) → Fin (order k + 1) → ℝ} {t : LinearTransform Flt} {X : ((k : Fin d) → Fin (order k + 1)) → Fin d → Flt}

/-- **C158, cells in `float` and `double`.** For cells with shipped elements no check stops the program: the Jacobian, and in three dimensions the determinant and what is left as
inverse, are the same in all builds and contexts, whatever the coordinates are. -/
theorem C158_cells (h : IsShippedIn T order c t.shape) (hd : d ≤ 3) (hX : HoldsPoints t.data X) (cfg cfg' : Config) (ξ : Fin d → Flt) (extra : List Flt) (he : d + extra.length = 3) :
    LinearTransform.jacobianValue cfg (floatArith T.format) t (List.ofFn ξ ++ extra) = LinearTransform.jacobianValue cfg' (floatArith T.format) t (List.ofFn ξ ++ extra) ∧
    (∃ J, LinearTransform.jacobianValue cfg (floatArith T.format) t (List.ofFn ξ ++ extra) = .ok J) ∧
    (d = 3 → LinearTransform.inverseJacobianValue cfg (floatArith T.format) t (List.ofFn ξ ++ extra)
        = LinearTransform.inverseJacobianValue cfg' (floatArith T.format) t (List.ofFn ξ ++ extra) ∧
      ∃ det after, LinearTransform.inverseJacobianValue cfg (floatArith T.format) t (List.ofFn ξ ++ extra) = .ok (det, after)) := by
  have hs : d * d ≤ 2147483647 := (Nat.mul_le_mul hd hd).trans (by norm_num)
  have hn := (C145_sums h hd hX cfg ξ extra he).1
  obtain ⟨mem, J, h1, h2, h3⟩ := C145_rows h hd hX cfg ξ extra he
  obtain ⟨mem', J', h4, h5, h6⟩ := C145_rows h hd hX cfg' ξ extra he
  have hJ : J = J' := by
    ext1 i k
    obtain ⟨u, hu⟩ := exists_variable fun a => X a i
    exact congrFun (List.ofFn_injective (Res.ok.inj ((h3 i u hu).symm.trans (h6 i u hu)))) k
  subst hJ
  obtain rfl := (holds_iff h.dims hs).1 h2
  obtain rfl := (holds_iff h.dims hs).1 h5
  refine ⟨h1.trans h4.symm, ⟨_, h1⟩, fun h3d => ?_⟩
  subst h3d
  have final : ∀ cfg : Config, LinearTransform.jacobianValue cfg (floatArith T.format) t (List.ofFn ξ ++ extra) = .ok (matMem J) →
      LinearTransform.inverseJacobianValue cfg (floatArith T.format) t (List.ofFn ξ ++ extra) = MathUtilities.inverseNative (floatArith T.format) (matMem J) := by
    intro cfg h1
    have hl : (List.ofFn ξ ++ extra).length = 3 := by simpa using he
    rw [LinearTransform.jacobianValue, staticAssert_bind_true hl] at h1
    rw [LinearTransform.inverseJacobianValue, staticAssert_bind_true hl]
    obtain ⟨J0, g1, g2⟩ := Res.bind_eq_ok.1 h1
    rw [g1, Res.ok_bind, LinearTransform.inverseJacobian, g2, Res.ok_bind, LinearTransform.jacobianView, hn, inverse_form (F := T.format) J]
    exact inverse_carray_of_native cfg (inverse_form (F := T.format) J)
  rw [final cfg h1, final cfg' h4]
  exact ⟨rfl, _, _, inverse_form (F := T.format) J⟩

end cells

/-! ### both outcomes occur -/

/-- In an array of 2 by 3 elements, `a(0, 4)` is stopped by a check, and without checks it is the element `a(1, 1)`; `a(0, 2)` is the same element in both. -/
example : CArray.read checkedHost [1, 2, 3, 4, 5, 6] (CArray.whole [2, 3]) [0, 4] = .abort ∧ CArray.read uncheckedHost [1, 2, 3, 4, 5, 6] (CArray.whole [2, 3]) [0, 4] = .ok 5 ∧
    CArray.read checkedHost [1, 2, 3, 4, 5, 6] (CArray.whole [2, 3]) [0, 2] = .ok 3 ∧ CArray.read uncheckedHost [1, 2, 3, 4, 5, 6] (CArray.whole [2, 3]) [0, 2] = .ok 3 := by
  decide

/-- A program that is not stopped: an array, a view of its second row, and a write through the view. -/
example : Copies.run checkedHost 0 [] [.declare [2, 3] [1, 2, 3, 4, 5, 6], .slice 0 [1], .write 1 ⟨.paren, [2], 7⟩]
      = .ok [.array [2, 3] [1, 2, 3, 4, 5, 7], .view 0 ⟨[3], 3⟩] ∧
    Copies.run uncheckedHost 0 [] [.declare [2, 3] [1, 2, 3, 4, 5, 6], .slice 0 [1], .write 1 ⟨.paren, [2], 7⟩]
      = .ok [.array [2, 3] [1, 2, 3, 4, 5, 7], .view 0 ⟨[3], 3⟩] := ⟨rfl, rfl⟩

/-- Non-vacuity of `C158_cells`: the cell `distant`. -/
example (T : RealType) (cfg cfg' : Config) (ξ : Fin 3 → Flt) : ∃ t : LinearTransform Flt, HoldsPoints t.data (fun (a : Fin 3 → Fin 2) i => Flt.ofReal (distant a i)) ∧
    LinearTransform.inverseJacobianValue cfg (floatArith T.format) t (List.ofFn ξ ++ []) = LinearTransform.inverseJacobianValue cfg' (floatArith T.format) t (List.ofFn ξ ++ []) := by
  obtain ⟨t, h1, -, h2⟩ := float_cell T distant
  exact ⟨t, h2, ((C158_cells h1 le_rfl h2 cfg cfg' ξ [] rfl).2.2 rfl).1⟩

end Verif.Props
