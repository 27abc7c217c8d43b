import Verif.Lemmas.FaceFloat
import Verif.Props.NodalFloat
import Verif.Props.FaceElement
import Verif.Props.SharedFace

/-!
# C154 in `float` and `double`: on a face, an element gives the results of the element of the face, to the last bit
-/

namespace Verif.Props

open Verif.Spec Verif.Lemmas

private theorem finite_result {f : Flt} {x ε : ℝ} (h : FiniteWithin f x ε) : FiniteFlt f := by
  obtain ⟨y, hy, -⟩ := h
  exact ⟨y, hy⟩

private theorem shipped_form (T : RealType) (fam : Family) {order : ℕ} (h8 : order ≤ 8) {b : Basis Flt}
    (hb : T.arith.lagrangeBasis (fam.spacingIn T.arith) order = .ok b) : b =
      ⟨((order + 1 : ℕ) : Int), LagrangeBasis.value (floatArith T.format) (fam.spacingIn T.arith ((order + 1 : ℕ) : Int)) ((order + 1 : ℕ) : Int),
        LagrangeBasis.gradient (floatArith T.format) (fam.spacingIn T.arith ((order + 1 : ℕ) : Int)) ((order + 1 : ℕ) : Int)⟩ := by
  rw [C88_basis, lagrangeBasis_ok _ _ (by omega)] at hb
  exact (Res.ok.inj hb).symm

/-- **C154, float and double.** In two or three dimensions, at a point of the parent element on a layer of nodes of a direction whose basis functions are 1 at their own points
(`ExactAtPoints`: equally spaced points of all orders, Gauss-Legendre points up to order 3, Gauss-Lobatto points of orders 1 to 3 and, depending on the type, 4 or 5): the computed
value is that of the element of the layer, and the computed derivatives along the layer are those of the element of the layer, to the last bit. -/
theorem C154_float {T : RealType} {d : ℕ} (hd : d + 2 ≤ 3) {order : Fin (d + 2) → ℕ} (ho : ∀ j, 1 ≤ order j ∧ order j ≤ 8) {fam : Fin (d + 2) → Family}
    (hf : ∀ j, (fam j).Supports (order j)) {b : Fin (d + 2) → Basis Flt} (hb : ∀ j, T.arith.lagrangeBasis ((fam j).spacingIn T.arith) (order j) = .ok (b j))
    (k : Fin (d + 2)) (hk : ExactAtPoints T (fam k) (order k)) (a : Fin (order k + 1)) {u u' : List Int → Res Flt}
    {y : ((j : Fin (d + 2)) → Fin (order j + 1)) → ℝ} (hu : ∀ idx, u (tup idx) = .ok (Flt.ofReal (y idx)))
    (hu' : ∀ idx : (j : Fin (d + 1)) → Fin (order (k.succAbove j) + 1), u' (tup idx) = .ok (Flt.ofReal (y (k.insertNth a idx))))
    (x : Fin (d + 2) → ℝ) (hx : ∀ j, |x j| ≤ 1) (hxk : ((fam k).spacingIn T.arith ((order k + 1 : ℕ) : Int)).coordCT (a : ℕ) = .ok (Flt.ofReal (x k))) :
    (∃ r r', ParentElement.value (floatArith T.format) ⟨.ok ((d + 2 : ℕ) : Int), List.ofFn b⟩ (List.ofFn fun j => Flt.ofReal (x j)) u = .ok r ∧
      ParentElement.value (floatArith T.format) ⟨.ok ((d + 1 : ℕ) : Int), List.ofFn fun j => b (k.succAbove j)⟩ (List.ofFn fun j => Flt.ofReal (x (k.succAbove j))) u'
        = .ok r' ∧ r.datum = r'.datum) ∧
    ∃ (g : Fin (d + 2) → Flt) (g' : Fin (d + 1) → Flt),
      ParentElement.gradient (floatArith T.format) ⟨.ok ((d + 2 : ℕ) : Int), List.ofFn b⟩ (List.ofFn fun j => Flt.ofReal (x j)) u = .ok (List.ofFn g) ∧
      ParentElement.gradient (floatArith T.format) ⟨.ok ((d + 1 : ℕ) : Int), List.ofFn fun j => b (k.succAbove j)⟩
        (List.ofFn fun j => Flt.ofReal (x (k.succAbove j))) u' = .ok (List.ofFn g') ∧ ∀ j, (g (k.succAbove j)).datum = (g' j).datum := by
  choose c hc1 hc2 hc using fun j => C100_points T (fam j) (order j) (ho j).1 (ho j).2 (hf j)
  have hs : IsShippedIn T order c (Lemmas.elementOf b) := ⟨by omega, rfl, ho, fam, b, rfl, fun j => ⟨hf j, hc j, hb j⟩⟩
  have hs' : IsShippedIn T (fun j => order (k.succAbove j)) (fun j => c (k.succAbove j)) (Lemmas.elementOf fun j => b (k.succAbove j)) :=
    ⟨by omega, rfl, fun j => ho _, fun j => fam (k.succAbove j), fun j => b (k.succAbove j), rfl, fun j => ⟨hf _, hc _, hb _⟩⟩
  have form := fun j => shipped_form T (fam j) (ho j).2 (hb j)
  have hcount : ∀ j, (b j).numSupportPoints = ((order j + 1 : ℕ) : Int) := fun j => by rw [form j]
  have zero : OnLayer (b k) a (Flt.ofReal (x k)) := fun i hi f hf' _ => by
    obtain ⟨f', h1, h0⟩ := C128_zero T (fam k) (ho k).1 (ho k).2 (hf k) (hb k) hi hxk
    rw [← Res.ok.inj (h1.symm.trans hf')]
    exact h0
  have one : ∀ f, (b k).value (a : ℕ) (Flt.ofReal (x k)) = .ok f → f.datum = .finite 1 := fun f hf' => by
    obtain ⟨-, f', h1, h0⟩ := C128_one hk (hb k) hxk
    rw [← Res.ok.inj (h1.symm.trans hf')]
    exact h0
  have held : ∀ j (i : Fin (order j + 1)) f, (b j).value (i : ℕ) (Flt.ofReal (x j)) = .ok f → Held T.format f := fun j i f h => by
    rw [form j] at h
    exact lagrange_value_held (by have := (ho j).1; omega) h
  have held' : ∀ j (i : Fin (order j + 1)) f, (b j).gradient (i : ℕ) (Flt.ofReal (x j)) = .ok f → Held T.format f := fun j i f h => by
    rw [form j] at h
    exact lagrange_gradient_held (by have := (ho j).1; omega) h
  have bv := fun (idx : (j : Fin (d + 2)) → Fin (order j + 1)) =>
    basisValue_eq (floatArith T.format) (elementOf_instantiate b) (idx := tup idx) (by simp [tup_length, Lemmas.elementOf]) (List.ofFn fun j => Flt.ofReal (x j))
  have bv' := fun (idx : (j : Fin (d + 1)) → Fin (order (k.succAbove j) + 1)) =>
    basisValue_eq (floatArith T.format) (elementOf_instantiate fun j => b (k.succAbove j)) (idx := tup idx) (by simp [tup_length, Lemmas.elementOf])
      (List.ofFn fun j => Flt.ofReal (x (k.succAbove j)))
  constructor
  · refine face_value (n := fun j => order j + 1) hcount zero one held (fun idx => ?_) (fun idx => ?_) hu hu'
    · obtain ⟨f, h1, -, h2⟩ := C100_shape hs (by omega) idx _ hx
      exact ⟨f, (bv idx).1.symm.trans h1, finite_result h2⟩
    · obtain ⟨f, h1, -, h2⟩ := C100_shape hs' (by omega) idx _ fun j => hx _
      exact ⟨f, (bv' idx).1.symm.trans h1⟩
  · refine face_gradient (n := fun j => order j + 1) hcount zero one held held' (fun idx => ?_) (fun idx => ?_) hu hu'
    · obtain ⟨g, h1, -, h2⟩ := C100_shape_gradient hs (by omega) idx _ hx
      exact ⟨g, (bv idx).2.2.1.symm.trans h1, fun j => finite_result (h2 j)⟩
    · obtain ⟨g, h1, -, h2⟩ := C100_shape_gradient hs' (by omega) idx _ fun j => hx _
      exact ⟨g, (bv' idx).2.2.1.symm.trans h1⟩

/-- Non-vacuity of `C154_float`: a cell of orders 2, 1 and 3 with three families of points, on the face where the first coordinate is 1. -/
example (T : RealType) : ∃ (b : Fin 3 → Basis Flt) (r r' : Flt),
    ParentElement.value (floatArith T.format) ⟨.ok (3 : ℕ), List.ofFn b⟩ (List.ofFn fun j => Flt.ofReal ((![1, 1 / 3, -1 / 2] : Fin 3 → ℝ) j))
      (fun l => .ok (Flt.ofReal ((l.sum : ℤ) : ℝ))) = .ok r ∧
    ParentElement.value (floatArith T.format) ⟨.ok (2 : ℕ), List.ofFn fun j => b ((0 : Fin 3).succAbove j)⟩
      (List.ofFn fun j => Flt.ofReal ((![1, 1 / 3, -1 / 2] : Fin 3 → ℝ) ((0 : Fin 3).succAbove j))) (fun l => .ok (Flt.ofReal ((2 + l.sum : ℤ) : ℝ))) = .ok r' ∧
    r.datum = r'.datum := by
  have hb : ∀ j : Fin 3, ∃ b : Basis Flt, T.arith.lagrangeBasis (((![.equal, .gaussLobatto, .gaussLegendre] : Fin 3 → Family) j).spacingIn T.arith)
      ((![2, 1, 3] : Fin 3 → ℕ) j) = .ok b := fun j => by
    rw [C88_basis]
    exact ⟨_, lagrangeBasis_ok _ _ (by revert j; decide)⟩
  choose b hb using hb
  obtain ⟨⟨r, r', h1, h2, h3⟩, -⟩ := C154_float (T := T) (d := 1) (by norm_num) (order := ![2, 1, 3]) (by decide) (fam := ![.equal, .gaussLobatto, .gaussLegendre])
    (fun j => by
      rcases (show ∀ j : Fin 3, j = 0 ∨ j = 1 ∨ j = 2 by decide) j with rfl | rfl | rfl
      · exact ⟨by decide, by decide⟩
      · exact ⟨by decide, by decide⟩
      · exact ⟨by decide, by decide⟩) hb 0 (by cases T <;> exact ⟨by decide, by decide⟩) (2 : Fin 3)
    (u := fun l => .ok (Flt.ofReal ((l.sum : ℤ) : ℝ))) (u' := fun l => .ok (Flt.ofReal ((2 + l.sum : ℤ) : ℝ))) (fun idx => rfl)
    (fun idx => rfl)
    ![1, 1 / 3, -1 / 2] (fun j => by
      rcases (show ∀ j : Fin 3, j = 0 ∨ j = 1 ∨ j = 2 by decide) j with rfl | rfl | rfl
      · norm_num
      · norm_num [abs_le]
      · show |(-1 / 2 : ℝ)| ≤ 1
        norm_num [abs_le])
    (C147_end_points T .equal (by decide) (m := 2) (by norm_num) (by norm_num)).2
  exact ⟨b, r, r', h1, h2, h3⟩

end Verif.Props
