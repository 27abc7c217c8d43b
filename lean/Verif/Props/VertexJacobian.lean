import Verif.Props.EdgeFloat
import Verif.Props.PointChecks
import Verif.Props.FiniteInverse
import Verif.Spec.HalfEdges

/-!
# Property C156: at a vertex, the determinant is the triple product of the half edges, with an error relative to the edges

For hexahedra of order one with nodes at -1 and 1.
-/

namespace Verif.Props

open Verif.Spec Verif.Lemmas

variable {c : (k : Fin 3) → Fin 2 → ℝ}

/-! ### exact arithmetic -/

private theorem slope_at_vertex {d : ℕ} (X : (Fin d → Fin 2) → Fin d → ℝ) (v : Fin d → Fin 2) :
    (Matrix.of fun i j => cellSlope (fun idx => X idx i) (vertexPoint v) j) = halfEdges X v := by
  have hm : ∀ (Y : (Fin d → Fin 2) → ℝ) (w : Fin d → Fin 2), multi Y (vertexPoint w) = Y w := by
    intro Y w
    unfold multi
    rw [Finset.sum_eq_single w]
    · rw [Finset.prod_eq_one, one_mul]
      intro k _
      unfold vertexPoint hat
      rcases (show ∀ a : Fin 2, a = 0 ∨ a = 1 by decide) (w k) with e | e <;> rw [e] <;> norm_num
    · intro i _ hi
      obtain ⟨k, hk⟩ := Function.ne_iff.1 hi
      rw [Finset.prod_eq_zero (Finset.mem_univ k), zero_mul]
      unfold vertexPoint hat
      revert hk
      rcases (show ∀ a : Fin 2, a = 0 ∨ a = 1 by decide) (w k) with e | e <;>
        rcases (show ∀ a : Fin 2, a = 0 ∨ a = 1 by decide) (i k) with e' | e' <;> rw [e, e'] <;> norm_num
    · intro h; exact absurd (Finset.mem_univ _) h
  have hu : ∀ (k : Fin d) (a : Fin 2), Function.update (vertexPoint v) k (if a = 0 then -1 else 1) = vertexPoint (Function.update v k a) := by
    intro k a
    funext j
    by_cases e : j = k
    · subst e; simp [vertexPoint]
    · simp [vertexPoint, Function.update_of_ne e]
  ext i k
  have h1 := hu k 1
  have h0 := hu k 0
  rw [if_neg (by decide)] at h1
  rw [if_pos rfl] at h0
  rw [Matrix.of_apply, cellSlope, h1, h0, hm, hm, halfEdges]

/-- **C156, exact arithmetic.** At a vertex of a hexahedron, `inverseJacobian` returns the determinant of the half edges. -/
theorem C156_exact {t : LinearTransform ℝ} (h : IsLagrange (fun _ : Fin 3 => 1) c t.shape) (hc : ∀ k, c k 0 = -1 ∧ c k 1 = 1) {X : (Fin 3 → Fin 2) → Fin 3 → ℝ}
    (hX : HoldsPoints t.data X) (cfg : Config) (v : Fin 3 → Fin 2) :
    ∃ after, LinearTransform.inverseJacobianValue cfg (exactArith ℝ) t (List.ofFn (vertexPoint v)) = .ok ((halfEdges X v).det, after) := by
  obtain ⟨after, h1⟩ := hexahedron_determinant hc h hX cfg (vertexPoint v)
  rw [slope_at_vertex] at h1
  exact ⟨after, h1⟩

/-- **C156, invalid cells.** If the determinant is negative at a vertex, it is negative at points in the interior of the cell that are as close to the vertex as one
likes.  So a check at the vertices rejects no hexahedron whose determinant is positive (or zero) in its interior. -/
theorem C156_necessary {t : LinearTransform ℝ} (h : IsLagrange (fun _ : Fin 3 => 1) c t.shape) (hc : ∀ k, c k 0 = -1 ∧ c k 1 = 1) {X : (Fin 3 → Fin 2) → Fin 3 → ℝ}
    (hX : HoldsPoints t.data X) (cfg : Config) (v : Fin 3 → Fin 2) (hv : (halfEdges X v).det < 0) {r : ℝ} (hr : 0 < r) :
    ∃ (ξ : Fin 3 → ℝ) (detJ : ℝ) (after : Res (List ℝ)), (∀ k, |ξ k| < 1 ∧ |ξ k - vertexPoint v k| < r) ∧
      LinearTransform.inverseJacobianValue cfg (exactArith ℝ) t (List.ofFn ξ) = .ok (detJ, after) ∧ detJ < 0 := by
  have hcont : Continuous fun ξ : Fin 3 → ℝ => (Matrix.of fun i j => cellSlope (fun idx => X idx i) ξ j).det := by
    refine Continuous.matrix_det (continuous_matrix fun i j => ?_)
    simp only [Matrix.of_apply]
    unfold cellSlope multi
    refine Continuous.div_const (Continuous.sub ?_ ?_) _ <;>
    · refine continuous_finsetSum _ fun idx _ => (continuous_finsetProd _ fun k _ => ?_).mul continuous_const
      unfold hat
      split_ifs <;> fun_prop
  have hline : Continuous fun s : ℝ => (fun k => (1 - s) * vertexPoint v k : Fin 3 → ℝ) := by fun_prop
  have h0 : (fun k => (1 - (0 : ℝ)) * vertexPoint v k) = vertexPoint v := by funext k; ring
  have ev : ∀ᶠ s in nhds (0 : ℝ), (Matrix.of fun i j => cellSlope (fun idx => X idx i) (fun k => (1 - s) * vertexPoint v k) j).det < 0 := by
    refine (hcont.comp hline).continuousAt.eventually_lt continuousAt_const ?_
    show (Matrix.of fun i j => cellSlope (fun idx => X idx i) (fun k => (1 - (0 : ℝ)) * vertexPoint v k) j).det < 0
    rwa [h0, slope_at_vertex]
  obtain ⟨ε, hε, hball⟩ := Metric.eventually_nhds_iff.1 ev
  obtain ⟨s, hs⟩ : ∃ s, s = min (ε / 2) (min (r / 2) (1 / 2)) := ⟨_, rfl⟩
  have hs0 : 0 < s := by rw [hs]; exact lt_min (by linarith) (lt_min (by linarith) (by norm_num))
  have hs1 : s ≤ ε / 2 := by rw [hs]; exact min_le_left _ _
  have hs2 : s ≤ r / 2 := by rw [hs]; exact (min_le_right _ _).trans (min_le_left _ _)
  have hs3 : s ≤ 1 / 2 := by rw [hs]; exact (min_le_right _ _).trans (min_le_right _ _)
  obtain ⟨after, h1⟩ := hexahedron_determinant hc h hX cfg fun k => (1 - s) * vertexPoint v k
  refine ⟨_, _, after, fun k => ?_, h1, hball (by rw [Real.dist_eq, sub_zero, abs_of_pos hs0]; linarith)⟩
  have hvk : |vertexPoint v k| = 1 := by unfold vertexPoint; split_ifs <;> norm_num
  constructor
  · rw [abs_mul, hvk, mul_one, abs_of_pos (by linarith)]; linarith
  · rw [show (1 - s) * vertexPoint v k - vertexPoint v k = -(s * vertexPoint v k) by ring, abs_neg, abs_mul, hvk, mul_one, abs_of_pos hs0]; linarith

/-! ### `float` and `double` -/

private theorem near_nearest {F : FloatFormat} {x C : ℝ} {f : Flt} (h : f.datum = .finite (F.nearest x)) (hx : |x| ≤ C) (hC : 1 ≤ C) : Near F 1 1 |x| C x f := by
  refine ⟨le_rfl, hx, hC, _, h, (nearest_err F x).trans ?_⟩
  have ht := tiny_pos F
  have hu := roundoff_nonneg F
  rw [show (2 : ℝ) ^ (F.minExp - F.fracBits) / 2 = tiny F from rfl, pow_one, Nat.cast_one, one_mul]
  nlinarith [mul_le_mul_of_nonneg_left hC ht.le, mul_nonneg hu (mul_nonneg ht.le (zero_le_one.trans hC))]

/-- **C156, float and double.** Let the coordinates of the vertices be numbers of the type (and their halves, too), however large.  Let `M` be the half edges at a vertex, with
entries of magnitude at most `C`.  There `inverseJacobian` returns a finite number within `E` of the determinant of `M`, where `E` is eight roundings' worth of the sum of the
magnitudes of the terms of the determinant of `M`, plus `60 C³` times the smallest positive number.  It has the right sign if the determinant is larger than `E`.  If the
determinant is at least `2 E` and `2 / Q`, the computed inverse is finite and close to the inverse of `M`.  Neither bound depends on the distance of the cell from the origin. -/
theorem C156_float {T : RealType} {t : LinearTransform Flt} {X : (Fin 3 → Fin 2) → Fin 3 → ℝ} (h : IsLinearIn T t.shape c)
    (hX : HoldsPoints t.data (fun (a : Fin 3 → Fin 2) i => Flt.ofReal (X a i))) (hr : ∀ a i, Represents T.format (X a i) ∧ Represents T.format (X a i / 2))
    (cfg : Config) (v : Fin 3 → Fin 2) {C Q : ℝ} (hC1 : 1 ≤ C) (hC : C ^ 3 ≤ 2 ^ 120) (hM : ∀ i j, |halfEdges X v i j| ≤ C) (hQ1 : 1 ≤ Q) (hQ : C ^ 2 * Q ≤ 2 ^ 120) :
    ∃ (det : Flt) (after : Res (List Flt)),
      LinearTransform.inverseJacobianValue cfg (floatArith T.format) t (List.ofFn fun k => Flt.ofReal (vertexPoint v k)) = .ok (det, after) ∧
      let M := halfEdges X v
      let ε := errBound (unitRoundoff T.format) 8
      let E := ε * detMagnitude M + 60 * C ^ 3 * smallestPositive T.format
      FiniteWithin det M.det E ∧
      (E < |M.det| → ∀ δ, det.datum = .finite δ → (0 < δ ↔ 0 < M.det) ∧ (δ < 0 ↔ M.det < 0)) ∧
      (M.det ≠ 0 → E ≤ |M.det| / 2 → 2 / |M.det| ≤ Q →
        ∃ (m : List Flt) (P : Matrix (Fin 3) (Fin 3) Flt), after = .ok m ∧ HoldsMatrix m P ∧
          ∀ i j, FiniteWithin (P i j) (M⁻¹ i j)
            (2 * (ε + E / |M.det|) * (adjMagnitude M i j / |M.det|) + 24 * C ^ 2 * Q * smallestPositive T.format)) := by
  have hv1 : ∀ k, |vertexPoint v k| ≤ 1 := fun k => by unfold vertexPoint; split_ifs <;> norm_num
  obtain ⟨hn, -⟩ := C145_sums h.shipped le_rfl hX cfg (fun k => Flt.ofReal (vertexPoint v k)) [] rfl
  obtain ⟨mem, J, h1, h2, h3⟩ := C155_jacobian h le_rfl hX hr cfg hv1 [] rfl
  obtain rfl := (holds_iff (by norm_num) (by norm_num)).1 h2
  rw [List.append_nil] at h1
  have hJ : ∀ i k, (J i k).datum = .finite (T.format.nearest (halfEdges X v i k)) := fun i k => h3 k v (fun j _ => rfl) i
  have hC3 : 0 ≤ C ^ 3 := by positivity
  have hCQ : 0 ≤ C ^ 2 * Q := by positivity
  have hf : T.format.minExp ≤ 0 ∧ 0 ≤ T.format.maxExp := by cases T <;> exact ⟨by decide, by decide⟩
  have key := inverse_of_approximations (F := T.format) (k := 1) (m := 1) (C := C) (Q := Q) (B := fun i j => |halfEdges X v i j|) (M := halfEdges X v) (N := J) hf.1 hf.2
    (fun i j => near_nearest (hJ i j) (hM i j) hC1) hQ1
    (formats_room T (by norm_num) (by norm_num) (by norm_num at hC ⊢; linarith))
    (formats_room T (by norm_num) (by norm_num) (by norm_num at hQ ⊢; linarith))
    (a := 60 * C ^ 3) (a' := 24 * C ^ 2 * Q) (by norm_num; linarith) (by norm_num; linarith)
  simp only [detMagnitude_abs, adjMagnitude_abs] at key
  obtain ⟨det, after, k1, k2, k3, k4⟩ := key
  refine ⟨det, after, ?_, k2, k3, fun a1 a2 a3 => ?_⟩
  · rw [LinearTransform.jacobianValue, staticAssert_bind_true (by simp)] at h1
    rw [LinearTransform.inverseJacobianValue, staticAssert_bind_true (by simp)]
    obtain ⟨J0, g1, g2⟩ := Res.bind_eq_ok.1 h1
    rw [g1, Res.ok_bind, LinearTransform.inverseJacobian, g2, Res.ok_bind, LinearTransform.jacobianView, hn]
    exact inverse_carray_of_native cfg k1
  · obtain ⟨P, p1, p2⟩ := k4 a1 a2 a3
    exact ⟨matMem P, P, p1, (holds_iff (by norm_num) (by norm_num)).2 rfl, p2⟩

/-! ### the hypotheses can be met -/

/-- A cube of length 1 at distance `2^20` from the origin, one of whose upper vertices is raised by 1. -/
def distant (a : Fin 3 → Fin 2) : Fin 3 → ℝ :=
  ![if a 0 = 0 then 2 ^ 20 else 2 ^ 20 + 1, if a 1 = 0 then 2 ^ 20 else 2 ^ 20 + 1,
    if a 2 = 0 then 2 ^ 20 else if a 0 = 0 then 2 ^ 20 + 1 else if a 1 = 0 then 2 ^ 20 + 1 else 2 ^ 20 + 2]

theorem distant_numbers (T : RealType) : ∀ q : ℝ, q = 2 ^ 20 ∨ q = 2 ^ 20 + 1 ∨ q = 2 ^ 20 + 2 → Represents T.format q ∧ Represents T.format (q / 2) := by
  have key : ∀ q : ℚ, evalRound T.format q = some q → Represents T.format (q : ℝ) := fun q h => represents_rat h
  have k : ∀ n : ℚ, n ∈ [(2 ^ 20 : ℚ), 2 ^ 20 + 1, 2 ^ 20 + 2] → evalRound T.format n = some n ∧ evalRound T.format (n / 2) = some (n / 2) := by
    cases T <;> decide +kernel
  rintro q (rfl | rfl | rfl)
  · have h := k (2 ^ 20) (by simp)
    have a := key _ h.1
    have b := key _ h.2
    push_cast at a b
    exact ⟨a, b⟩
  · have h := k (2 ^ 20 + 1) (by simp)
    have a := key _ h.1
    have b := key _ h.2
    push_cast at a b
    exact ⟨a, b⟩
  · have h := k (2 ^ 20 + 2) (by simp)
    have a := key _ h.1
    have b := key _ h.2
    push_cast at a b
    exact ⟨a, b⟩

theorem distant_cases (a : Fin 3 → Fin 2) (i : Fin 3) : distant a i = 2 ^ 20 ∨ distant a i = 2 ^ 20 + 1 ∨ distant a i = 2 ^ 20 + 2 := by
  rcases (show ∀ i : Fin 3, i = 0 ∨ i = 1 ∨ i = 2 by decide) i with rfl | rfl | rfl
  · rw [show distant a 0 = if a 0 = 0 then 2 ^ 20 else 2 ^ 20 + 1 from rfl]
    split_ifs <;> simp
  · rw [show distant a 1 = if a 1 = 0 then 2 ^ 20 else 2 ^ 20 + 1 from rfl]
    split_ifs <;> simp
  · rw [show distant a 2 = if a 2 = 0 then 2 ^ 20 else if a 0 = 0 then 2 ^ 20 + 1 else if a 1 = 0 then 2 ^ 20 + 1 else 2 ^ 20 + 2 from rfl]
    split_ifs <;> simp

theorem distant_edges : halfEdges distant (fun _ => 1) = !![1 / 2, 0, 0; 0, 1 / 2, 0; 1 / 2, 1 / 2, 1] := by
  ext i k
  fin_cases i <;> fin_cases k <;> simp [halfEdges, distant, Function.update] <;> norm_num

theorem distant_inverse (T : RealType) (cfg : Config) {t : LinearTransform Flt} (h1 : IsShippedIn T (fun _ : Fin 3 => 1) (fun _ => ![-1, 1]) t.shape)
    (h2 : HoldsPoints t.data (fun (a : Fin 3 → Fin 2) i => Flt.ofReal (distant a i))) : ∃ (det : Flt) (m : List Flt) (P : Matrix (Fin 3) (Fin 3) Flt),
    LinearTransform.inverseJacobianValue cfg (floatArith T.format) t (List.ofFn fun k => Flt.ofReal (vertexPoint (fun _ : Fin 3 => 1) k)) = .ok (det, .ok m) ∧
    FiniteWithin det (1 / 4) (5 * unitRoundoff T.format) ∧ HoldsMatrix m P := by
  obtain ⟨det, after, h3, h4, -, h5⟩ := C156_float (C := 1) (Q := 8) ⟨h1, fun _ => ⟨rfl, rfl⟩⟩ h2
    (fun a i => distant_numbers T _ (distant_cases a i)) cfg (fun _ => 1) le_rfl (by norm_num)
    (fun i j => by
      rw [distant_edges]
      fin_cases i <;> fin_cases j <;> simp <;> norm_num) (by norm_num) (by norm_num)
  have hdet : (halfEdges distant (fun _ => 1)).det = 1 / 4 := by
    rw [distant_edges, Matrix.det_fin_three]; simp; norm_num
  have hmag : detMagnitude (halfEdges distant (fun _ => 1)) = 1 / 4 := by
    rw [distant_edges, detMagnitude_three]; simp; norm_num
  have hE : errBound (unitRoundoff T.format) 8 * (1 / 4) + 60 * 1 ^ 3 * smallestPositive T.format ≤ 5 * unitRoundoff T.format := by
    have a1 := formats_tiny T
    have a2 : 1 / 2 ^ 53 ≤ unitRoundoff T.format := by
      cases T <;> norm_num [unitRoundoff, RealType.format, binary32, binary64]
    have a3 := pow_roundoff_le (roundoff_nonneg T.format) 8 (by have := formats_unit T; norm_num at this ⊢; linarith)
    rw [errBound, ← tiny_smallest]
    norm_num at a1 a2 a3 ⊢
    linarith
  have hu : unitRoundoff T.format * 2 ^ 24 ≤ 1 := formats_unit T
  rw [hdet, hmag] at h4 h5
  obtain ⟨m, P, rfl, h6, -⟩ := h5 (by norm_num) (hE.trans (by norm_num at hu ⊢; linarith)) (by norm_num)
  obtain ⟨y, y1, y2⟩ := h4
  exact ⟨det, m, P, h3, ⟨y, y1, y2.trans hE⟩, h6⟩

/-- Non-vacuity of `C156_float`: at the raised vertex of `distant` the determinant is 1/4, and all conditions are met with `C = 1` and `Q = 8`. -/
example (T : RealType) (cfg : Config) : ∃ (t : LinearTransform Flt) (det : Flt) (m : List Flt) (P : Matrix (Fin 3) (Fin 3) Flt),
    HoldsPoints t.data (fun (a : Fin 3 → Fin 2) i => Flt.ofReal (distant a i)) ∧
    LinearTransform.inverseJacobianValue cfg (floatArith T.format) t (List.ofFn fun k => Flt.ofReal (vertexPoint (fun _ : Fin 3 => 1) k)) = .ok (det, .ok m) ∧
    FiniteWithin det (1 / 4) (5 * unitRoundoff T.format) ∧ HoldsMatrix m P := by
  obtain ⟨t, h1, -, h2⟩ := float_cell T distant
  obtain ⟨det, m, P, h⟩ := distant_inverse T cfg h1 h2
  exact ⟨t, det, m, P, h2, h⟩

/-- A cube of length 1, one of whose upper vertices was pushed through the bottom. -/
private def pushed (a : Fin 3 → Fin 2) : Fin 3 → ℝ :=
  ![if a 0 = 0 then 0 else 1, if a 1 = 0 then 0 else 1, if a 2 = 0 then 0 else if a 0 = 0 then 1 else if a 1 = 0 then 1 else -1]

private theorem pushed_edges : (halfEdges pushed (fun _ => 1)).det = -1 / 8 := by
  have e : halfEdges pushed (fun _ => 1) = !![1 / 2, 0, 0; 0, 1 / 2, 0; -1, -1, -1 / 2] := by
    ext i k
    fin_cases i <;> fin_cases k <;> simp [halfEdges, pushed, Function.update] <;> norm_num
  rw [e, Matrix.det_fin_three]; simp; norm_num

/-- Non-vacuity of `C156_exact` and `C156_necessary`: at the vertex of `pushed` that was moved, the determinant is -1/8. -/
example (cfg : Config) : ∃ t : LinearTransform ℝ, HoldsPoints t.data pushed ∧
    (∃ after, LinearTransform.inverseJacobianValue cfg (exactArith ℝ) t (List.ofFn (vertexPoint fun _ : Fin 3 => 1)) = .ok (-1 / 8, after)) ∧
    ∃ (ξ : Fin 3 → ℝ) (detJ : ℝ) (after : Res (List ℝ)), (∀ k, |ξ k| < 1 ∧ |ξ k - 1| < 1 / 100) ∧
      LinearTransform.inverseJacobianValue cfg (exactArith ℝ) t (List.ofFn ξ) = .ok (detJ, after) ∧ detJ < 0 := by
  obtain ⟨e, he, hX⟩ := trilinear_cell
  obtain ⟨t, rfl, ht⟩ := hX pushed
  obtain ⟨after, h1⟩ := C156_exact he (fun _ => ⟨rfl, rfl⟩) ht cfg fun _ => 1
  rw [pushed_edges] at h1
  obtain ⟨ξ, detJ, after', h2, h3, h4⟩ := C156_necessary he (fun _ => ⟨rfl, rfl⟩) ht cfg (fun _ => 1) (by rw [pushed_edges]; norm_num) (r := 1 / 100) (by norm_num)
  exact ⟨t, ht, ⟨after, h1⟩, ξ, detJ, after', h2, h3, h4⟩

end Verif.Props
