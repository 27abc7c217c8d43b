import Verif.Props.Element
import Verif.Spec.Symmetry
import Mathlib.Analysis.Convex.Hull

/-! # Properties C76–C78: symmetry, continuity across faces, bounds -/

namespace Verif.Props

open Verif.Spec Verif.Lemmas

variable {d : ℕ} {order : Fin d → ℕ} {c : (k : Fin d) → Fin (order k + 1) → ℝ} {e : Element ℝ}

/-- A basis function of another layer vanishes on a layer of nodes. -/
theorem layer_zero {k : Fin d} {a : Fin (order k + 1)} {x : Fin d → ℝ}
    (hx : x k = c k a) {idx : (k : Fin d) → Fin (order k + 1)} (hi : idx k ≠ a) :
    (Lagrange.basis Finset.univ (c k) (idx k)).eval (x k) = 0 := by
  rw [hx]
  exact Lagrange.eval_basis_of_ne hi (Finset.mem_univ _)

/-- **C76, one cell.** On a layer of nodes `x_k = c_k(a)` (a face of the cell if the first or last node in
direction `k` is at its end), the interpolation of a variable depends only on the values of the variable at
the nodes of the layer.  So do the components of its gradient in the directions of the layer. -/
theorem C76_trace (h : IsLagrange order c e) (k : Fin d) (a : Fin (order k + 1)) (u v : List Int → Res ℝ)
    (y z : ((k : Fin d) → Fin (order k + 1)) → ℝ) (hu : ∀ idx, u (tup idx) = .ok (y idx))
    (hv : ∀ idx, v (tup idx) = .ok (z idx)) (heq : ∀ idx, idx k = a → y idx = z idx)
    (x : Fin d → ℝ) (hx : x k = c k a) :
    ∃ (r : ℝ) (g g' : Fin d → ℝ),
      ParentElement.value (exactArith ℝ) e (List.ofFn x) u = .ok r ∧
      ParentElement.value (exactArith ℝ) e (List.ofFn x) v = .ok r ∧
      ParentElement.gradient (exactArith ℝ) e (List.ofFn x) u = .ok (List.ofFn g) ∧
      ParentElement.gradient (exactArith ℝ) e (List.ofFn x) v = .ok (List.ofFn g') ∧
      ∀ j, j ≠ k → g j = g' j := by
  obtain ⟨b, rfl, hr, -⟩ := isLagrange_realises h
  refine ⟨_, _, _, parent_value h.dims hr x u y hu, ?_, parent_gradient h.dims hr x u y hu,
    parent_gradient h.dims hr x v z hv, fun j hj => ?_⟩
  · rw [parent_value h.dims hr x v z hv]
    congr 1
    refine Finset.sum_congr rfl fun idx _ => ?_
    by_cases hi : idx k = a
    · rw [heq idx hi]
    · rw [Finset.prod_eq_zero (Finset.mem_univ k) (layer_zero hx hi), zero_mul, zero_mul]
  · refine Finset.sum_congr rfl fun idx _ => ?_
    by_cases hi : idx k = a
    · rw [heq idx hi]
    · rw [Finset.prod_eq_zero (Finset.mem_univ k), zero_mul, zero_mul]
      rw [if_neg hj]
      exact layer_zero hx hi

/-- **C76, two neighbours in line.** If two cells of the same class share a layer of nodes, layer `a` of one
in direction `k` being layer `a'` of the other, and their variables agree there, then their interpolations
agree at every point of the layer. -/
theorem C76_neighbours (h : IsLagrange order c e) (k : Fin d) (a a' : Fin (order k + 1))
    (u v : List Int → Res ℝ) (y z : ((k : Fin d) → Fin (order k + 1)) → ℝ)
    (hu : ∀ idx, u (tup idx) = .ok (y idx)) (hv : ∀ idx, v (tup idx) = .ok (z idx))
    (heq : ∀ idx, y (Function.update idx k a) = z (Function.update idx k a')) (x : Fin d → ℝ) :
    ∃ r, ParentElement.value (exactArith ℝ) e (List.ofFn (Function.update x k (c k a))) u = .ok r ∧
      ParentElement.value (exactArith ℝ) e (List.ofFn (Function.update x k (c k a'))) v = .ok r := by
  classical
  obtain ⟨b, rfl, hr, hinj⟩ := isLagrange_realises h
  refine ⟨_, parent_value h.dims hr _ u y hu, ?_⟩
  rw [parent_value h.dims hr _ v z hv]
  congr 1
  have key : ∀ (a : Fin (order k + 1)) (y : ((k : Fin d) → Fin (order k + 1)) → ℝ),
      ∑ idx, (∏ j, (Lagrange.basis Finset.univ (c j) (idx j)).eval (Function.update x k (c k a) j)) * y idx
        = ∑ idx : (k : Fin d) → Fin (order k + 1), (if idx k = 0 then ∏ j ∈ Finset.univ.erase k,
            (Lagrange.basis Finset.univ (c j) (idx j)).eval (x j) else 0) * y (Function.update idx k a) := by
    intro a y
    have e1 : ∀ idx : (k : Fin d) → Fin (order k + 1),
        (∏ j, (Lagrange.basis Finset.univ (c j) (idx j)).eval (Function.update x k (c k a) j)) * y idx
          = (if idx k = a then ∏ j ∈ Finset.univ.erase k,
              (Lagrange.basis Finset.univ (c j) (idx j)).eval (x j) else 0) * y (Function.update idx k a) := by
      intro idx
      rw [← Finset.mul_prod_erase _ _ (Finset.mem_univ k), Function.update_self]
      by_cases hi : idx k = a
      · have e2 : Function.update idx k a = idx := by rw [← hi, Function.update_eq_self]
        rw [hi, Lagrange.eval_basis_self (hinj k).injOn (Finset.mem_univ _), one_mul, if_pos rfl, e2]
        congr 1
        refine Finset.prod_congr rfl fun j hj => ?_
        rw [Function.update_of_ne (Finset.ne_of_mem_erase hj)]
      · rw [Lagrange.eval_basis_of_ne hi (Finset.mem_univ _), if_neg hi, zero_mul, zero_mul, zero_mul]
    simp only [e1]
    let σ : ((k : Fin d) → Fin (order k + 1)) ≃ ((k : Fin d) → Fin (order k + 1)) :=
      Equiv.piCongrRight fun j => if hj : j = k then hj ▸ Equiv.swap 0 a else Equiv.refl _
    have hσk : ∀ idx, σ idx k = Equiv.swap 0 a (idx k) := fun idx => by simp [σ]
    have hσ : ∀ idx j, j ≠ k → σ idx j = idx j := fun idx j hj => by simp [σ, hj]
    rw [← Equiv.sum_comp σ]
    refine Finset.sum_congr rfl fun idx _ => ?_
    have e3 : (σ idx k = a) ↔ idx k = 0 := by
      rw [hσk]; constructor
      · intro hh
        have := congrArg (Equiv.swap 0 a) hh
        rwa [Equiv.swap_apply_self, Equiv.swap_apply_right] at this
      · intro hh; rw [hh, Equiv.swap_apply_left]
    have e4 : Function.update (σ idx) k a = Function.update idx k a := by
      funext j
      by_cases hj : j = k
      · subst hj; simp
      · rw [Function.update_of_ne hj, Function.update_of_ne hj, hσ idx j hj]
    rw [e4]
    congr 1
    simp only [e3]
    split
    · refine Finset.prod_congr rfl fun j hj => ?_
      rw [hσ idx j (Finset.ne_of_mem_erase hj)]
    · rfl
  rw [key, key]
  exact Finset.sum_congr rfl fun idx _ => by rw [heq]

/-- **C76, faces.** The first and last nodes of the equally spaced and Gauss-Lobatto families are the ends
-1 and 1, so for these families the faces of the parent cube are layers of nodes. -/
theorem C76_end_nodes (fam : Family) (m : ℕ) (hm : 1 ≤ m) (hf : fam ≠ .gaussLegendre) (hs : fam.Supports m)
    (c : Fin (m + 1) → ℝ) (hc : Nodes (fam.spacing (exactArith ℝ) ((m + 1 : ℕ) : Int)) (m + 1) c) :
    c 0 = -1 ∧ c (Fin.last m) = 1 := by
  have h0 := hc.coord (by omega) 0
  have h1 := hc.coord (by omega) (Fin.last m)
  cases fam with
  | gaussLegendre => exact absurd rfl hf
  | equal =>
    obtain ⟨-, c', -, -, hct, -, e0, e1, -⟩ := C23_equalSpacing ((m + 1 : ℕ) : Int) (by omega)
      (by have := hs.2; omega)
    have a0 := hct 0
    have a1 := hct (((m + 1 : ℕ) : Int) - 1)
    rw [e0] at a0
    rw [e1] at a1
    rw [show ((m + 1 : ℕ) : Int) - 1 = ((Fin.last m : ℕ) : Int) by simp] at a1
    exact ⟨Res.ok.inj (h0.symm.trans a0), Res.ok.inj (h1.symm.trans a1)⟩
  | gaussLobatto =>
    obtain ⟨c', hc', -, -, -, e0, e1⟩ := C24_gaussLobatto_coordinates (m + 1) (by omega) (by have := hs.2; omega)
    have a0 := hc' ⟨0, by omega⟩
    have a1 := hc' ⟨m + 1 - 1, by omega⟩
    rw [e0] at a0
    rw [e1] at a1
    exact ⟨Res.ok.inj (h0.symm.trans a0), Res.ok.inj (h1.symm.trans a1)⟩

/-- **C76, Gauss-Legendre.** For Gauss-Legendre nodes the statement is false: the values on a face depend on
all nodes.  Already for the two-node basis in one dimension, at the face `x = 1`, variables that agree at the
last node are interpolated to different values. -/
theorem C76_gaussLegendre_not_conforming :
    (do
      let b ← lagrangeBasis ratArith (gaussLegendreSpacing ratArith) 1
      ParentElement.value ratArith ⟨ShapeArgs.numDims ⟨1, -1, 1, 1⟩, [b]⟩ [1]
        (fun idx => .ok (if idx = [1] then 1 else 1))) = .ok 1 ∧
    (do
      let b ← lagrangeBasis ratArith (gaussLegendreSpacing ratArith) 1
      ParentElement.value ratArith ⟨ShapeArgs.numDims ⟨1, -1, 1, 1⟩, [b]⟩ [1]
        (fun idx => .ok (if idx = [1] then 1 else 0))) ≠ .ok 1 := by
  decide +kernel

/-! ### symmetry -/

section isotropic
variable {m : ℕ} {v : Fin (m + 1) → ℝ}

theorem basis_mirror (hs : ∀ i, v i.rev = -v i) (j : Fin (m + 1)) (x : ℝ) :
    (Lagrange.basis Finset.univ v j.rev).eval (-x) = (Lagrange.basis Finset.univ v j).eval x := by
  rw [← prod_factor_eq, ← prod_factor_eq, ← Equiv.prod_comp Fin.revPerm]
  refine Finset.prod_congr rfl fun t _ => ?_
  simp only [factor, Fin.revPerm_apply, Fin.rev_inj]
  split
  · rfl
  · rw [hs, hs, show -v j - -v t = -(v j - v t) by ring, one_div_neg_eq_neg_one_div]; ring

theorem basis_deriv_mirror (hs : ∀ i, v i.rev = -v i) (j : Fin (m + 1)) (x : ℝ) :
    (Polynomial.derivative (Lagrange.basis Finset.univ v j.rev)).eval (-x)
      = -(Polynomial.derivative (Lagrange.basis Finset.univ v j)).eval x := by
  have h1 := (Lagrange.basis Finset.univ v j).hasDerivAt x
  have h2 := ((Lagrange.basis Finset.univ v j.rev).hasDerivAt (-x)).comp x (hasDerivAt_neg x)
  have e : (fun t => (Lagrange.basis Finset.univ v j.rev).eval t) ∘ (fun t : ℝ => -t)
      = fun t => (Lagrange.basis Finset.univ v j).eval t := funext fun t => basis_mirror hs j t
  have h3 := h1.unique (e ▸ h2)
  linarith

/-- The index map of a symmetry is one-to-one and onto. -/
theorem node_bijective (s : CubeSymmetry d) {n : ℕ} :
    Function.Bijective (s.node : (Fin d → Fin n) → Fin d → Fin n) := by
  rw [Finite.injective_iff_bijective.symm]
  intro i j hij
  funext k
  have := congrFun hij (s.axis.symm k)
  simp only [CubeSymmetry.node, Equiv.apply_symm_apply] at this
  split at this
  · exact Fin.rev_inj.1 this
  · exact this

/-- **C77.** Take an element with the same mirror-symmetric nodes in every direction (as the shipped families
are, by C24) and a symmetry of the parent cube: a permutation of the axes followed by mirroring some of them.
Renumbering the nodes by the symmetry changes the interpolation by the symmetry: the interpolation of
`y ∘ s` at `x` is that of `y` at `s x`, and the gradients are the same up to the permutation and the signs. -/
theorem C77_symmetry (h : IsLagrange (fun _ : Fin d => m) (fun _ => v) e) (hs : ∀ i, v i.rev = -v i)
    (s : CubeSymmetry d) (u w : List Int → Res ℝ) (y : (Fin d → Fin (m + 1)) → ℝ)
    (hu : ∀ idx, u (tup idx) = .ok (y idx)) (hw : ∀ idx, w (tup idx) = .ok (y (s.node idx)))
    (x : Fin d → ℝ) :
    ∃ (r : ℝ) (g g' : Fin d → ℝ),
      ParentElement.value (exactArith ℝ) e (List.ofFn (s.point x)) u = .ok r ∧
      ParentElement.value (exactArith ℝ) e (List.ofFn x) w = .ok r ∧
      ParentElement.gradient (exactArith ℝ) e (List.ofFn (s.point x)) u = .ok (List.ofFn g) ∧
      ParentElement.gradient (exactArith ℝ) e (List.ofFn x) w = .ok (List.ofFn g') ∧
      ∀ k, g' (s.axis k) = if s.flip k then -g k else g k := by
  obtain ⟨b, rfl, hr, -⟩ := isLagrange_realises h
  have e1 : ∀ (idx : Fin d → Fin (m + 1)) (k : Fin d),
      (Lagrange.basis Finset.univ v (s.node idx k)).eval (s.point x k)
        = (Lagrange.basis Finset.univ v (idx (s.axis k))).eval (x (s.axis k)) := by
    intro idx k
    simp only [CubeSymmetry.node, CubeSymmetry.point]
    split
    · exact basis_mirror hs _ _
    · rfl
  have e2 : ∀ (idx : Fin d → Fin (m + 1)) (k : Fin d),
      (Polynomial.derivative (Lagrange.basis Finset.univ v (s.node idx k))).eval (s.point x k)
        = (if s.flip k then -1 else 1)
          * (Polynomial.derivative (Lagrange.basis Finset.univ v (idx (s.axis k)))).eval (x (s.axis k)) := by
    intro idx k
    simp only [CubeSymmetry.node, CubeSymmetry.point]
    split
    · rw [basis_deriv_mirror hs]; ring
    · ring
  refine ⟨_, _, _, parent_value h.dims hr _ u y hu, ?_, parent_gradient h.dims hr _ u y hu,
    parent_gradient h.dims hr x w _ hw, fun k => ?_⟩
  · rw [parent_value h.dims hr x w _ hw]
    congr 1
    refine Eq.trans ?_ (Function.Bijective.sum_comp (node_bijective s) fun idx =>
      (∏ k, (Lagrange.basis Finset.univ v (idx k)).eval (s.point x k)) * y idx)
    refine Finset.sum_congr rfl fun idx _ => ?_
    congr 1
    rw [Finset.prod_congr rfl fun k _ => e1 idx k,
      Equiv.prod_comp s.axis (fun k => (Lagrange.basis Finset.univ v (idx k)).eval (x k))]
  · have e3 : ∀ idx : Fin d → Fin (m + 1),
        (∏ j, if k = j then (Polynomial.derivative (Lagrange.basis Finset.univ v (s.node idx j))).eval (s.point x j)
            else (Lagrange.basis Finset.univ v (s.node idx j)).eval (s.point x j))
          = (if s.flip k then -1 else 1) * ∏ j, if s.axis k = j
            then (Polynomial.derivative (Lagrange.basis Finset.univ v (idx j))).eval (x j)
            else (Lagrange.basis Finset.univ v (idx j)).eval (x j) := by
      intro idx
      rw [← Equiv.prod_comp s.axis (fun j => if s.axis k = j
            then (Polynomial.derivative (Lagrange.basis Finset.univ v (idx j))).eval (x j)
            else (Lagrange.basis Finset.univ v (idx j)).eval (x j)),
        ← Finset.mul_prod_erase _ _ (Finset.mem_univ k), ← Finset.mul_prod_erase _ (fun i => _) (Finset.mem_univ k)]
      rw [if_pos rfl, if_pos rfl, e2, mul_assoc]
      congr 2
      refine Finset.prod_congr rfl fun j hj => ?_
      have hj := (Finset.ne_of_mem_erase hj).symm
      rw [if_neg hj, if_neg (fun h => hj (s.axis.injective h)), e1]
    rw [← Function.Bijective.sum_comp (node_bijective s) (fun idx => (∏ j, if k = j
      then (Polynomial.derivative (Lagrange.basis Finset.univ v (idx j))).eval (s.point x j)
      else (Lagrange.basis Finset.univ v (idx j)).eval (s.point x j)) * y idx)]
    simp only [e3]
    split
    · rw [← Finset.sum_neg_distrib]
      exact Finset.sum_congr rfl fun idx _ => by ring
    · exact Finset.sum_congr rfl fun idx _ => by ring

/-- **C76, neighbours in any orientation.** Two cells of the same class share a layer of nodes (a face), seen
by the second through any symmetry `s` of the cube.  If their variables agree at the shared nodes, their
interpolations agree at every shared point. -/
theorem C76_any_orientation (h : IsLagrange (fun _ : Fin d => m) (fun _ => v) e) (hs : ∀ i, v i.rev = -v i)
    (s : CubeSymmetry d) (k : Fin d) (a : Fin (m + 1)) (u w : List Int → Res ℝ)
    (y z : (Fin d → Fin (m + 1)) → ℝ) (hu : ∀ idx, u (tup idx) = .ok (y idx))
    (hw : ∀ idx, w (tup idx) = .ok (z idx)) (heq : ∀ idx, idx k = a → y idx = z (s.node idx))
    (x : Fin d → ℝ) (hx : x k = v a) :
    ∃ r, ParentElement.value (exactArith ℝ) e (List.ofFn x) u = .ok r ∧
      ParentElement.value (exactArith ℝ) e (List.ofFn (s.point x)) w = .ok r := by
  obtain ⟨w', hw'⟩ : ∃ w' : List Int → Res ℝ, ∀ idx : Fin d → Fin (m + 1), w' (tup idx) = .ok (z (s.node idx)) := by
    refine ⟨fun l => .ok (z (s.node (Function.invFun (tup (n := fun _ : Fin d => m + 1)) l))), fun idx => ?_⟩
    simp only [Function.leftInverse_invFun (tup_injective (n := fun _ : Fin d => m + 1)) idx]
  obtain ⟨r, -, -, h1, h2, -⟩ := C77_symmetry h hs s w w' z hw hw' x
  obtain ⟨r', -, -, h3, h4, -⟩ := C76_trace h k a u w' y _ hu hw' heq x hx
  obtain rfl : r = r' := Res.ok.inj (h2.symm.trans h4)
  exact ⟨r, h3, h1⟩

end isotropic

/-! ### bounds -/

theorem basis_two {v : Fin 2 → ℝ} (h0 : v 0 = -1) (h1 : v 1 = 1) (j : Fin 2) {x : ℝ} (hx : -1 ≤ x ∧ x ≤ 1) :
    0 ≤ (Lagrange.basis Finset.univ v j).eval x := by
  rw [← prod_factor_eq, Fin.prod_univ_two]
  fin_cases j
  · simp [factor, h0, h1]; nlinarith [hx.1, hx.2]
  · simp [factor, h0, h1]; nlinarith [hx.1, hx.2]

/-- **C78.** For elements of order one with nodes at -1 and 1, at every point of the parent cube: the values
of the basis functions are not negative and sum to one, an interpolated variable lies between its smallest
and largest nodal values, and the image of the point lies in the convex hull of the vertices. -/
theorem C78_bounds {c : (k : Fin d) → Fin 2 → ℝ} (h : IsLagrange (fun _ : Fin d => 1) c e)
    (hc : ∀ k, c k 0 = -1 ∧ c k 1 = 1) (x : Fin d → ℝ) (hx : ∀ k, -1 ≤ x k ∧ x k ≤ 1) :
    ∃ N : (Fin d → Fin 2) → ℝ,
      (∀ idx, InterpolatedShape.value (exactArith ℝ) e (tup idx) (List.ofFn x) = .ok (N idx)) ∧
      (∀ idx, 0 ≤ N idx) ∧ ∑ idx, N idx = 1 ∧
      (∀ (var : List Int → Res ℝ) (y : (Fin d → Fin 2) → ℝ) (lo hi : ℝ), (∀ idx, var (tup idx) = .ok (y idx)) →
        (∀ idx, lo ≤ y idx ∧ y idx ≤ hi) →
        ∃ r, ParentElement.value (exactArith ℝ) e (List.ofFn x) var = .ok r ∧ lo ≤ r ∧ r ≤ hi) ∧
      ∀ X : (Fin d → Fin 2) → Fin d → ℝ,
        (fun i => ∑ idx, N idx * X idx i) ∈ convexHull ℝ (Set.range X) := by
  obtain ⟨N, -, hN, -, hsum, -⟩ := C38_partition_of_unity h x
  obtain ⟨b, rfl, hr, hinj⟩ := isLagrange_realises h
  have hb := fun idx : Fin d → Fin 2 => basisValue_eq (exactArith ℝ)
    (elementOf_instantiate b) (idx := tup idx) (by simp [tup_length, elementOf]) (List.ofFn x)
  have hprod : ∀ idx, N idx = ∏ k, (Lagrange.basis Finset.univ (c k) (idx k)).eval (x k) := fun idx =>
    Res.ok.inj ((hN idx).symm.trans ((hb idx).1.trans (product_value h.dims hr idx x)))
  have hpos : ∀ idx, 0 ≤ N idx := fun idx => by
    rw [hprod]
    exact Finset.prod_nonneg fun k _ => basis_two (hc k).1 (hc k).2 _ (hx k)
  refine ⟨N, fun idx => (hb idx).2.1.trans ((hb idx).1.symm.trans (hN idx)), hpos, hsum,
    fun var y lo hi hvar hy => ⟨∑ idx, N idx * y idx, ?_, ?_, ?_⟩, fun X => ?_⟩
  · rw [parent_value h.dims hr x var y hvar]
    congr 1
    exact Finset.sum_congr rfl fun idx _ => by rw [hprod]
  · calc lo = ∑ idx, N idx * lo := by rw [← Finset.sum_mul, hsum, one_mul]
      _ ≤ _ := Finset.sum_le_sum fun idx _ => mul_le_mul_of_nonneg_left (hy idx).1 (hpos idx)
  · calc _ ≤ ∑ idx, N idx * hi := Finset.sum_le_sum fun idx _ => mul_le_mul_of_nonneg_left (hy idx).2 (hpos idx)
      _ = hi := by rw [← Finset.sum_mul, hsum, one_mul]
  · have e : (fun i => ∑ idx, N idx * X idx i) = ∑ idx, N idx • X idx := by
      funext i; simp [Finset.sum_apply]
    rw [e]
    exact (convex_convexHull ℝ _).sum_mem (fun idx _ => hpos idx) hsum
      (fun idx _ => subset_convexHull ℝ _ ⟨idx, rfl⟩)

/-- The bound of C78 is special to order one: a quadratic interpolation of the values 0, 1, 1 reaches 9/8. -/
theorem C78_order_two_overshoots :
    (do
      let b ← lagrangeBasis ratArith (equalSpacing ratArith) 2
      ParentElement.value ratArith ⟨ShapeArgs.numDims ⟨1, -1, 1, 1⟩, [b]⟩ [1 / 2]
        (fun idx => .ok (if idx = [0] then 0 else 1))) = .ok (9 / 8) := by
  decide +kernel

/-! ### the hypotheses can be met -/

/-- Non-vacuity of C76–C78: cubic Gauss-Lobatto and linear elements in three dimensions, and a symmetry that
is not the identity. -/
example : ∃ (v : Fin 4 → ℝ) (e : Element ℝ) (w : Fin 2 → ℝ) (f : Element ℝ) (s : CubeSymmetry 3),
    IsLagrange (fun _ : Fin 3 => 3) (fun _ => v) e ∧ (∀ i, v i.rev = -v i) ∧ v 0 = -1 ∧ v (Fin.last 3) = 1 ∧
    IsLagrange (fun _ : Fin 3 => 1) (fun _ => w) f ∧ w 0 = -1 ∧ w 1 = 1 ∧
    s.point ![1, 0, 1 / 2] = ![-0, 1, 1 / 2] ∧ s.node (n := 4) ![3, 1, 2] = ![2, 3, 2] := by
  obtain ⟨v, hv, -, hs⟩ := C36_supported_nodes .gaussLobatto 3 ⟨by norm_num, by norm_num⟩
  obtain ⟨w, hw, -, -⟩ := C36_supported_nodes .equal 1 ⟨by norm_num, by norm_num⟩
  have hve := C76_end_nodes .gaussLobatto 3 (by norm_num) (by decide) ⟨by norm_num, by norm_num⟩ v hv
  have hwe := C76_end_nodes .equal 1 (by norm_num) (by decide) ⟨by norm_num, by norm_num⟩ w hw
  obtain ⟨b, hb, -⟩ := (C36_compiles_iff_supported .gaussLobatto 3 ⟨by norm_num, by norm_num⟩).1
    ⟨by norm_num, by norm_num⟩
  obtain ⟨b', hb', -⟩ := (C36_compiles_iff_supported .equal 1 ⟨by norm_num, by norm_num⟩).1
    ⟨by norm_num, by norm_num⟩
  refine ⟨v, ⟨.ok 3, List.ofFn fun _ : Fin 3 => b⟩, w, ⟨.ok 3, List.ofFn fun _ : Fin 3 => b'⟩,
    ⟨Equiv.swap 0 1, ![true, false, false]⟩, ⟨by norm_num, rfl, _, rfl, fun _ => ⟨by norm_num, _, hv, hb⟩⟩, hs,
    hve.1, hve.2, ⟨by norm_num, rfl, _, rfl, fun _ => ⟨by norm_num, _, hw, hb'⟩⟩, hwe.1, hwe.2, ?_, by decide⟩
  funext k
  fin_cases k <;> simp [CubeSymmetry.point, Equiv.swap_apply_def]

end Verif.Props
