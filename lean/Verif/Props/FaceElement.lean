import Verif.Props.Element
import Verif.Props.Rounding
import Verif.Lemmas.FloatElement

/-!
# C154: on a face, an element interpolates like the element of the face

The element of the face has one dimension less: the bases of the directions along the face, and the nodal values of the face.  Faces are layers of nodes `x_k = c_k(a)`; with
equally spaced and Gauss-Lobatto points the sides of the cube are such layers (C76).  Applied again, the theorems give edges.
-/

namespace Verif.Props

open Verif.Spec Verif.Lemmas

variable {d : ℕ} {order : Fin (d + 1) → ℕ} {c : (k : Fin (d + 1)) → Fin (order k + 1) → ℝ} {e e' : Element ℝ}

private theorem basis_at_node {n : ℕ} {v : Fin n → ℝ} (hv : Function.Injective v) (i a : Fin n) :
    (Lagrange.basis Finset.univ v i).eval (v a) = if i = a then 1 else 0 := by
  split
  · rename_i h
    rw [h, Lagrange.eval_basis_self hv.injOn (Finset.mem_univ _)]
  · rename_i h
    exact Lagrange.eval_basis_of_ne h (Finset.mem_univ _)

/-- A sum over all multi-indices in which only a layer counts. -/
private theorem sum_layer (k : Fin (d + 1)) (a : Fin (order k + 1)) (F : ((j : Fin (d + 1)) → Fin (order j + 1)) → ℝ) (hF : ∀ idx, idx k ≠ a → F idx = 0) :
    ∑ idx, F idx = ∑ idx : (j : Fin d) → Fin (order (k.succAbove j) + 1), F (k.insertNth a idx) := by
  rw [← (Fin.insertNthEquiv (fun j => Fin (order j + 1)) k).sum_comp F, Fintype.sum_prod_type]
  rw [Finset.sum_eq_single a]
  · rfl
  · intro b _ hb
    exact Finset.sum_eq_zero fun idx _ => hF _ (by simpa [Fin.insertNthEquiv] using hb)
  · intro h; exact absurd (Finset.mem_univ a) h

/-- **C154, fields.** At a point of a layer of nodes, the interpolated value is that of the element of the layer, and so are the components of the gradient along the layer. -/
theorem C154_face (k : Fin (d + 1)) (a : Fin (order k + 1)) (h : IsLagrange order c e)
    (h' : IsLagrange (fun j => order (k.succAbove j)) (fun j => c (k.succAbove j)) e')
    (u u' : List Int → Res ℝ) (y : ((j : Fin (d + 1)) → Fin (order j + 1)) → ℝ) (hu : ∀ idx, u (tup idx) = .ok (y idx))
    (hu' : ∀ idx : (j : Fin d) → Fin (order (k.succAbove j) + 1), u' (tup idx) = .ok (y (k.insertNth a idx))) (x : Fin (d + 1) → ℝ) (hx : x k = c k a) :
    (∃ v, ParentElement.value (exactArith ℝ) e (List.ofFn x) u = .ok v ∧
      ParentElement.value (exactArith ℝ) e' (List.ofFn fun j => x (k.succAbove j)) u' = .ok v) ∧
    ∃ g : Fin (d + 1) → ℝ, ParentElement.gradient (exactArith ℝ) e (List.ofFn x) u = .ok (List.ofFn g) ∧
      ParentElement.gradient (exactArith ℝ) e' (List.ofFn fun j => x (k.succAbove j)) u' = .ok (List.ofFn fun j => g (k.succAbove j)) := by
  obtain ⟨b, rfl, hr, hinj⟩ := isLagrange_realises h
  obtain ⟨b', rfl, hr', -⟩ := isLagrange_realises h'
  refine ⟨⟨_, parent_value h.dims hr x u y hu, ?_⟩, _, parent_gradient h.dims hr x u y hu, ?_⟩
  · rw [parent_value h'.dims hr' _ u' _ hu']
    congr 1
    rw [sum_layer k a]
    · refine Finset.sum_congr rfl fun idx _ => ?_
      rw [Fin.prod_univ_succAbove _ k, Fin.insertNth_apply_same, hx, basis_at_node (hinj k), if_pos rfl, one_mul]
      simp only [Fin.insertNth_apply_succAbove]
    · intro idx hi
      rw [Fin.prod_univ_succAbove _ k, hx, basis_at_node (hinj k), if_neg hi, zero_mul, zero_mul]
  · rw [parent_gradient h'.dims hr' _ u' _ hu']
    congr 2
    funext j
    rw [sum_layer k a]
    · refine Finset.sum_congr rfl fun idx _ => ?_
      rw [Fin.prod_univ_succAbove _ k, if_neg (Fin.succAbove_ne k j), Fin.insertNth_apply_same, hx, basis_at_node (hinj k), if_pos rfl, one_mul]
      simp only [Fin.insertNth_apply_succAbove, Fin.succAbove_right_inj]
    · intro idx hi
      rw [Fin.prod_univ_succAbove _ k, if_neg (Fin.succAbove_ne k j), hx, basis_at_node (hinj k), if_neg hi, zero_mul, zero_mul]

/-- **C154, rounded.** In arithmetic with unit roundoff `u` the two computed values differ by no more than their rounding errors, which depend on the nodal values of the layer
only. -/
theorem C154_rounded {fl : ℝ → ℝ} {u : ℝ} (hr : Rounds fl u) (k : Fin (d + 1)) (a : Fin (order k + 1)) (h : IsLagrangeIn (roundedArith fl) order c e)
    (h' : IsLagrangeIn (roundedArith fl) (fun j => order (k.succAbove j)) (fun j => c (k.succAbove j)) e')
    (w w' : List Int → Res ℝ) (y : ((j : Fin (d + 1)) → Fin (order j + 1)) → ℝ) (hw : ∀ idx, w (tup idx) = .ok (y idx))
    (hw' : ∀ idx : (j : Fin d) → Fin (order (k.succAbove j) + 1), w' (tup idx) = .ok (y (k.insertNth a idx))) (x : Fin (d + 1) → ℝ) (hx : x k = c k a) :
    ∃ r r', ParentElement.value (roundedArith fl) e (List.ofFn x) w = .ok r ∧
      ParentElement.value (roundedArith fl) e' (List.ofFn fun j => x (k.succAbove j)) w' = .ok r' ∧
      let N := fun idx : (j : Fin d) → Fin (order (k.succAbove j) + 1) =>
        ∏ j, ∏ t ∈ Finset.univ.erase (idx j), (x (k.succAbove j) - c (k.succAbove j) t) / (c (k.succAbove j) (idx j) - c (k.succAbove j) t)
      |r - r'| ≤ (errBound u (interpolationRoundings order) + errBound u (interpolationRoundings fun j => order (k.succAbove j))) *
        ∑ idx, |N idx| * |y (k.insertNth a idx)| := by
  have hinj : Function.Injective (c k) := by
    obtain ⟨b, -, hk⟩ := h.bases
    exact (hk k).2.choose_spec.1.distinct
  obtain ⟨r, h1, h2⟩ := C61_interpolation_error hr h w y hw x
  obtain ⟨r', h3, h4⟩ := C61_interpolation_error hr h' w' _ hw' fun j => x (k.succAbove j)
  refine ⟨r, r', h1, h3, ?_⟩
  dsimp only at h2 h4 ⊢
  have own : ∀ i, ∏ t ∈ Finset.univ.erase i, (x k - c k t) / (c k i - c k t) = if i = a then 1 else 0 := fun i => by
    rw [← lagrange_quotients, hx, basis_at_node hinj]
  rw [sum_layer k a, sum_layer k a] at h2
  · simp only [Fin.prod_univ_succAbove _ k, Fin.insertNth_apply_same, Fin.insertNth_apply_succAbove, own, if_true, one_mul] at h2
    rw [abs_sub_comm] at h4
    refine (abs_sub_le _ _ _).trans ((add_le_add h2 h4).trans_eq ?_)
    ring
  · intro idx hi
    rw [Fin.prod_univ_succAbove _ k, own, if_neg hi, zero_mul, abs_zero, zero_mul]
  · intro idx hi
    rw [Fin.prod_univ_succAbove _ k, own, if_neg hi, zero_mul, zero_mul]

private theorem basis_cast {n m : ℕ} (h : n = m) {v : Fin m → ℝ} {w : Fin n → ℝ} (hw : ∀ i, w i = v (Fin.cast h i)) (i : Fin n) :
    Lagrange.basis Finset.univ w i = Lagrange.basis Finset.univ v (Fin.cast h i) := by
  subst h
  obtain rfl : w = v := funext hw
  rfl

/-- **C154, neighbours.** Two cells share a layer of nodes.  They may differ in the order and the points across the layer, and the layer may be in different directions of the
two.  If they have the same points along the layer and the same nodal values on it, their interpolations agree at every point of the layer, and so do the components of the
gradients along it. -/
theorem C154_neighbours {order₂ : Fin (d + 1) → ℕ} {c₂ : (k : Fin (d + 1)) → Fin (order₂ k + 1) → ℝ} {e₂ : Element ℝ} (k k₂ : Fin (d + 1))
    (a : Fin (order k + 1)) (a₂ : Fin (order₂ k₂ + 1)) (h : IsLagrange order c e) (h₂ : IsLagrange order₂ c₂ e₂)
    (ho : ∀ j, order₂ (k₂.succAbove j) + 1 = order (k.succAbove j) + 1)
    (hc : ∀ j i, c₂ (k₂.succAbove j) i = c (k.succAbove j) (Fin.cast (ho j) i))
    (u u₂ : List Int → Res ℝ) (y : ((j : Fin (d + 1)) → Fin (order j + 1)) → ℝ) (y₂ : ((j : Fin (d + 1)) → Fin (order₂ j + 1)) → ℝ)
    (hu : ∀ idx, u (tup idx) = .ok (y idx)) (hu₂ : ∀ idx, u₂ (tup idx) = .ok (y₂ idx))
    (hy : ∀ idx, y₂ (k₂.insertNth a₂ idx) = y (k.insertNth a fun j => Fin.cast (ho j) (idx j)))
    (x x₂ : Fin (d + 1) → ℝ) (hx : x k = c k a) (hx₂ : x₂ k₂ = c₂ k₂ a₂) (hxx : ∀ j, x₂ (k₂.succAbove j) = x (k.succAbove j)) :
    (∃ v, ParentElement.value (exactArith ℝ) e (List.ofFn x) u = .ok v ∧ ParentElement.value (exactArith ℝ) e₂ (List.ofFn x₂) u₂ = .ok v) ∧
    ∃ g g₂ : Fin (d + 1) → ℝ, ParentElement.gradient (exactArith ℝ) e (List.ofFn x) u = .ok (List.ofFn g) ∧
      ParentElement.gradient (exactArith ℝ) e₂ (List.ofFn x₂) u₂ = .ok (List.ofFn g₂) ∧ ∀ j, g₂ (k₂.succAbove j) = g (k.succAbove j) := by
  obtain ⟨b, rfl, hr, hinj⟩ := isLagrange_realises h
  obtain ⟨b₂, rfl, hr₂, hinj₂⟩ := isLagrange_realises h₂
  let E : ((j : Fin d) → Fin (order₂ (k₂.succAbove j) + 1)) ≃ ((j : Fin d) → Fin (order (k.succAbove j) + 1)) := Equiv.piCongrRight fun j => finCongr (ho j)
  have hE : ∀ idx j, E idx j = Fin.cast (ho j) (idx j) := fun _ _ => rfl
  refine ⟨⟨_, parent_value h.dims hr x u y hu, ?_⟩, _, _, parent_gradient h.dims hr x u y hu, parent_gradient h₂.dims hr₂ x₂ u₂ y₂ hu₂, fun j => ?_⟩
  · rw [parent_value h₂.dims hr₂ x₂ u₂ y₂ hu₂]
    congr 1
    rw [sum_layer k a, sum_layer k₂ a₂, ← E.sum_comp]
    · refine Finset.sum_congr rfl fun idx _ => ?_
      rw [Fin.prod_univ_succAbove _ k₂, Fin.prod_univ_succAbove _ k, Fin.insertNth_apply_same, Fin.insertNth_apply_same, hx, hx₂, basis_at_node (hinj k),
        basis_at_node (hinj₂ k₂), if_pos rfl, if_pos rfl, hy]
      simp only [Fin.insertNth_apply_succAbove, hxx, hE, basis_cast (ho _) (hc _)]
      rfl
    · intro idx hi
      rw [Fin.prod_univ_succAbove _ k₂, hx₂, basis_at_node (hinj₂ k₂), if_neg hi, zero_mul, zero_mul]
    · intro idx hi
      rw [Fin.prod_univ_succAbove _ k, hx, basis_at_node (hinj k), if_neg hi, zero_mul, zero_mul]
  · rw [sum_layer k a, sum_layer k₂ a₂, ← E.sum_comp]
    · refine Finset.sum_congr rfl fun idx _ => ?_
      rw [Fin.prod_univ_succAbove _ k₂, Fin.prod_univ_succAbove _ k, if_neg (Fin.succAbove_ne k j), if_neg (Fin.succAbove_ne k₂ j), Fin.insertNth_apply_same,
        Fin.insertNth_apply_same, hx, hx₂, basis_at_node (hinj k), basis_at_node (hinj₂ k₂), if_pos rfl, if_pos rfl, hy]
      simp only [Fin.insertNth_apply_succAbove, Fin.succAbove_right_inj, hxx, hE, basis_cast (ho _) (hc _)]
      rfl
    · intro idx hi
      rw [Fin.prod_univ_succAbove _ k₂, if_neg (Fin.succAbove_ne k₂ j), hx₂, basis_at_node (hinj₂ k₂), if_neg hi, zero_mul, zero_mul]
    · intro idx hi
      rw [Fin.prod_univ_succAbove _ k, if_neg (Fin.succAbove_ne k j), hx, basis_at_node (hinj k), if_neg hi, zero_mul, zero_mul]

/-! ### the hypotheses can be met -/

/-- Non-vacuity of `C154_face` and `C154_rounded`: any nodal values of an element of three dimensions, and their restriction to a layer. -/
example {order : Fin 3 → ℕ} (k : Fin 3) (a : Fin (order k + 1)) (y : ((j : Fin 3) → Fin (order j + 1)) → ℝ) :
    ∃ u u' : List Int → Res ℝ, (∀ idx, u (tup idx) = .ok (y idx)) ∧
      ∀ idx : (j : Fin 2) → Fin (order (k.succAbove j) + 1), u' (tup idx) = .ok (y (k.insertNth a idx)) := by
  classical
  have h : ∀ {d : ℕ} {n : Fin d → ℕ} (y : ((k : Fin d) → Fin (n k)) → ℝ), ∃ var : List Int → Res ℝ, ∀ idx, var (tup idx) = .ok (y idx) := by
    intro d n y
    refine ⟨fun l => if h : ∃ idx, tup idx = l then .ok (y h.choose) else .ub, fun idx => ?_⟩
    have h : ∃ j, tup j = tup idx := ⟨idx, rfl⟩
    dsimp only
    rw [dif_pos h, tup_injective h.choose_spec]
  obtain ⟨u, hu⟩ := h y
  obtain ⟨u', hu'⟩ := h fun idx : (j : Fin 2) → Fin (order (k.succAbove j) + 1) => y (k.insertNth a idx)
  exact ⟨u, u', hu, hu'⟩

/-- Non-vacuity of `C154_neighbours`: an element of orders 2, 1 and 3 and one of orders 1, 3 and 4 can share a face, the first in its first direction and the second in its
last. -/
example : ∃ (c : (k : Fin 3) → Fin ((![2, 1, 3] : Fin 3 → ℕ) k + 1) → ℝ) (c₂ : (k : Fin 3) → Fin ((![1, 3, 4] : Fin 3 → ℕ) k + 1) → ℝ) (e e₂ : Element ℝ)
    (ho : ∀ j, (![1, 3, 4] : Fin 3 → ℕ) ((2 : Fin 3).succAbove j) + 1 = (![2, 1, 3] : Fin 3 → ℕ) ((0 : Fin 3).succAbove j) + 1),
    IsLagrange ![2, 1, 3] c e ∧ IsLagrange ![1, 3, 4] c₂ e₂ ∧ ∀ j i, c₂ ((2 : Fin 3).succAbove j) i = c ((0 : Fin 3).succAbove j) (Fin.cast (ho j) i) := by
  choose f hf using fun n : {n : ℕ // Family.equal.Supports n} => C36_supported_nodes .equal n.1 n.2
  have hs : ∀ k : Fin 3, Family.equal.Supports ((![2, 1, 3] : Fin 3 → ℕ) k) := by
    intro k; constructor <;> revert k <;> decide
  have hs₂ : ∀ k : Fin 3, Family.equal.Supports ((![1, 3, 4] : Fin 3 → ℕ) k) := by
    intro k; constructor <;> revert k <;> decide
  have key : ∀ (o : Fin 3 → ℕ) (ho : ∀ k, Family.equal.Supports (o k)), ∃ e : Element ℝ, IsLagrange o (fun k => f ⟨o k, ho k⟩) e := by
    intro o ho
    have hb : ∀ k, ∃ b, lagrangeBasis (exactArith ℝ) (Family.equal.spacing (exactArith ℝ)) (o k) = .ok b := fun k =>
      ⟨_, lagrangeBasis_ok _ _ (by have := (ho k).2; omega)⟩
    choose b hb using hb
    exact ⟨⟨.ok 3, List.ofFn b⟩, by omega, rfl, b, rfl, fun k => ⟨by have := (ho k).2; omega, _, (hf ⟨o k, ho k⟩).1, hb k⟩⟩
  have same : ∀ (n m : ℕ) (h : n + 1 = m + 1) (hn : Family.equal.Supports n) (hm : Family.equal.Supports m) (i : Fin (n + 1)), f ⟨n, hn⟩ i = f ⟨m, hm⟩ (Fin.cast h i) := by
    intro n m h hn hm i
    obtain rfl : n = m := by omega
    rfl
  obtain ⟨e, he⟩ := key _ hs
  obtain ⟨e₂, he₂⟩ := key _ hs₂
  exact ⟨_, _, e, e₂, by decide, he, he₂, fun j i => same _ _ _ _ _ i⟩

end Verif.Props
