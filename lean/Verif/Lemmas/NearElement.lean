import Verif.Lemmas.NearLagrange
import Verif.Lemmas.Evaluation

/-! Tensor-product elements and Jacobians in a binary format, with underflow. -/

namespace Verif.Lemmas

open Verif.Spec

variable {F : FloatFormat}

/-- On the parent interval the basis object approximates `f` up to `kv` roundings, and `g` up to `kg` roundings of
quantities of magnitude `G`. -/
structure NearRealises (F : FloatFormat) (b : Basis Flt) (n : ℕ) (f g G : Fin n → ℝ → ℝ) (kv kg μ : ℕ) (Kv Kg : ℝ) : Prop where
  count : b.numSupportPoints = n
  value : ∀ (j : Fin n) (x : ℝ), |x| ≤ 1 → ∃ y, b.value (j : ℕ) (Flt.ofReal x) = .ok y ∧ Near F kv μ |f j x| Kv (f j x) y
  gradient : ∀ (j : Fin n) (x : ℝ), |x| ≤ 1 → ∃ y, b.gradient (j : ℕ) (Flt.ofReal x) = .ok y ∧
    Near F kg μ (G j x) Kg (g j x) y

/-- An accumulation loop over several components. -/
theorem near_runCallsVec {ι κ σ : Type} {L : List ι} {M x : ι → κ → ℝ} {C : ι → ℝ} {g : ι → κ → Flt} {k m : ℕ}
    {body : ι → σ → Res σ} {mk : (κ → Flt) → σ}
    (hb : ∀ i r, body i (mk r) = .ok (mk fun a => Flt.add F (r a) (g i a)))
    (h : ∀ i a, Near F k m (M i a) (C i) (x i a) (g i a)) (hC : ∀ i, 1 ≤ C i) (j : ℕ)
    (A z : κ → ℝ) (D : ℝ) (r : κ → Flt) (hz : ∀ a, Near F (k + j) (m + j) (A a) D (z a) (r a))
    (hr : Room F (k + j + L.length) (m + j + L.length) (D + (L.map C).sum)) :
    ∃ y : κ → Flt, runCalls L body (mk r) = .ok (mk y) ∧
      ∀ a, Near F (k + j + L.length) (m + j + L.length) (A a + (L.map fun i => M i a).sum) (D + (L.map C).sum)
        (z a + (L.map fun i => x i a).sum) (y a) := by
  induction L generalizing j A D z r with
  | nil => exact ⟨r, by simp, fun a => by simpa using hz a⟩
  | cons i L ih =>
    simp only [List.map_cons, List.sum_cons, List.length_cons, ← add_assoc] at hr ⊢
    have h0 : 0 ≤ (L.map C).sum := sum_list_nonneg hC
    have h1 := fun a => (hz a).add ((h i a).mono (Nat.le_add_right k j) (Nat.le_add_right m j) le_rfl)
      (hr.mono (by omega) (by omega) (by linarith))
    obtain ⟨y, hy, hay⟩ := ih (j + 1) _ _ _ _ h1 (hr.mono (by omega) (by omega) le_rfl)
    exact ⟨y, by rw [runCalls_cons, hb, Res.ok_bind, hy], fun a => (hay a).mono (by omega) (by omega) le_rfl⟩

theorem lit_zero_near : Near F 0 0 0 1 0 ((floatArith F).lit 0) := by
  rw [lit_zero_exact]
  exact near_ofReal (by simp) (by norm_num) le_rfl

section product
variable {d : ℕ} {n : Fin d → ℕ} {b : Fin d → Basis Flt} {f g G : (k : Fin d) → Fin (n k) → ℝ → ℝ} {kv kg : Fin d → ℕ}
  {μ : ℕ} {Kv Kg : ℝ} {x : Fin d → ℝ}

theorem product_value_near (hd : 0 < d) (h : ∀ k, NearRealises F (b k) (n k) (f k) (g k) (G k) (kv k) (kg k) μ Kv Kg)
    (idx : (k : Fin d) → Fin (n k)) (hx : ∀ k, |x k| ≤ 1)
    (hr : Room F ((∑ k, kv k) + (d - 1)) (2 * (d * μ) + (d - 1)) (Kv ^ d)) :
    ∃ y, BasisProduct.value (floatArith F) (List.ofFn b) (tup idx) (List.ofFn fun k => Flt.ofReal (x k)) = .ok y ∧
      Near F ((∑ k, kv k) + (d - 1)) (2 * (d * μ) + (d - 1)) |∏ k, f k (idx k) (x k)| (Kv ^ d) (∏ k, f k (idx k) (x k)) y := by
  unfold BasisProduct.value
  rw [staticAssert_bind_true (by simp [tup_length]), tup, expand_ofFn]
  choose v hv hav using fun k => (h k).value (idx k) (x k) (hx k)
  rw [Finset.abs_prod]
  have key := near_foldRight_mul_ofFn (F := F) hd (fun k => (do
    let c ← tableAt (List.ofFn fun k => Flt.ofReal (x k)) ((k : ℕ) : Int)
    (b k).value ((idx k : ℕ) : Int) c)) _ _ _ v kv (fun _ => μ) (fun k => by rw [tableAt_ofFn, Res.ok_bind, hv]) hav
  simp only [Finset.sum_const, Finset.prod_const, Finset.card_univ, Fintype.card_fin, smul_eq_mul] at key
  exact key hr

theorem product_gradient_near (hd : 0 < d) (h : ∀ k, NearRealises F (b k) (n k) (f k) (g k) (G k) (kv k) (kg k) μ Kv Kg)
    (hK : Kv ≤ Kg) (idx : (k : Fin d) → Fin (n k)) (hx : ∀ k, |x k| ≤ 1)
    (hr : Room F ((∑ k, max (kv k) (kg k)) + (d - 1)) (2 * (d * μ) + (d - 1)) (Kg ^ d)) :
    ∃ y : Fin d → Flt,
      BasisProduct.gradient (floatArith F) (List.ofFn b) (tup idx) (List.ofFn fun k => Flt.ofReal (x k)) = .ok (List.ofFn y) ∧
      ∀ a, Near F ((∑ k, max (kv k) (kg k)) + (d - 1)) (2 * (d * μ) + (d - 1))
        (∏ k, if a = k then G k (idx k) (x k) else |f k (idx k) (x k)|) (Kg ^ d)
        (∏ k, if a = k then g k (idx k) (x k) else f k (idx k) (x k)) (y a) := by
  unfold BasisProduct.gradient
  rw [staticAssert_bind_true (by simp [tup_length]), staticAssert_bind_true (by simpa using hd),
    List.length_ofFn, makeIntegerSequence_ok (by omega), Res.ok_bind]
  choose v hv hav using fun k => (h k).value (idx k) (x k) (hx k)
  choose q hq haq using fun k => (h k).gradient (idx k) (x k) (hx k)
  have hp : ∀ a : Fin d, ∃ y, foldRight (floatArith F).mul (BasisProduct.expand (List.ofFn b) (tup idx)
      fun b i k => BasisProduct.gradientComponentHelper b ((a : ℕ) : Int) i k (List.ofFn fun k => Flt.ofReal (x k))) = .ok y ∧
      Near F ((∑ k, max (kv k) (kg k)) + (d - 1)) (2 * (d * μ) + (d - 1))
        (∏ k, if a = k then G k (idx k) (x k) else |f k (idx k) (x k)|) (Kg ^ d)
        (∏ k, if a = k then g k (idx k) (x k) else f k (idx k) (x k)) y := by
    intro a
    rw [tup, expand_ofFn]
    have key := near_foldRight_mul_ofFn (F := F) hd (fun k => BasisProduct.gradientComponentHelper (b k) ((a : ℕ) : Int)
        ((idx k : ℕ) : Int) ((k : ℕ) : Int) (List.ofFn fun k => Flt.ofReal (x k)))
      (fun k => if a = k then G k (idx k) (x k) else |f k (idx k) (x k)|) (fun _ => Kg)
      (fun k => if a = k then g k (idx k) (x k) else f k (idx k) (x k)) (fun k => if a = k then q k else v k)
      (fun k => max (kv k) (kg k)) (fun _ => μ)
      (fun k => by
        rw [BasisProduct.gradientComponentHelper, tableAt_ofFn, Res.ok_bind]
        by_cases e : a = k
        · subst e; rw [if_pos rfl, if_pos rfl, hq]
        · have e' : ((a : ℕ) : Int) ≠ (k : ℕ) := by
            intro h; exact e (Fin.ext (by exact_mod_cast h))
          rw [if_neg e', if_neg e, hv])
      (fun k => by
        by_cases e : a = k
        · simp only [if_pos e]; exact (haq k).mono (le_max_right _ _) le_rfl le_rfl
        · simp only [if_neg e]; exact (hav k).mono (le_max_left _ _) le_rfl hK)
    simp only [Finset.sum_const, Finset.prod_const, Finset.card_univ, Fintype.card_fin, smul_eq_mul] at key
    exact key hr
  choose y hy hay using hp
  exact ⟨y, sequenceRes_fin _ _ hy, hay⟩

/-- The cap of a sum over the support points. -/
theorem sum_cap {ι : Type} (L : List ι) (C : ℝ) : (L.map fun _ => C).sum = L.length * C := by
  rw [List.map_const', List.sum_replicate, nsmul_eq_mul]

theorem parent_value_near (hd : 0 < d) (h : ∀ k, NearRealises F (b k) (n k) (f k) (g k) (G k) (kv k) (kg k) μ Kv Kg)
    (hKv : 1 ≤ Kv) (hn : ∀ k, 0 < n k) (hx : ∀ k, |x k| ≤ 1) (var : List Int → Res Flt) (y : ((k : Fin d) → Fin (n k)) → ℝ)
    (hv : ∀ idx, var (tup idx) = .ok (Flt.ofReal (y idx))) {Y : ℝ} (hY : 1 ≤ Y) (hy : ∀ idx, |y idx| ≤ Y)
    (hr : Room F ((∑ k, kv k) + d + ∏ k, n k) (4 * (d * μ) + 2 * d + ∏ k, n k) (1 + (∏ k, n k : ℕ) * (Kv ^ d * Y))) :
    ∃ r, ParentElement.value (floatArith F) (elementOf b) (List.ofFn fun k => Flt.ofReal (x k)) var = .ok r ∧
      Near F ((∑ k, kv k) + d + ∏ k, n k) (4 * (d * μ) + 2 * d + ∏ k, n k)
        (∑ idx, |∏ k, f k (idx k) (x k)| * |y idx|) (1 + (∏ k, n k : ℕ) * (Kv ^ d * Y))
        (∑ idx, (∏ k, f k (idx k) (x k)) * y idx) r := by
  obtain ⟨L, hL, hnd, hall⟩ := box_list n
  have hKd : 1 ≤ Kv ^ d := one_le_pow₀ hKv
  have hKY : 1 ≤ Kv ^ d * Y := by nlinarith
  have hP : (1 : ℝ) ≤ (∏ k, n k : ℕ) := by exact_mod_cast Finset.prod_pos fun k _ => hn k
  have hcap : Kv ^ d * Y ≤ 1 + (∏ k, n k : ℕ) * (Kv ^ d * Y) := by nlinarith
  choose v hvv hav using fun idx => product_value_near hd h idx hx
    (hr.mono (by omega) (by omega) (by nlinarith))
  rw [ParentElement.value, elementOf_instantiate, Res.ok_bind]
  rw [show (elementOf b).bases = List.ofFn b from rfl, forNested_box hd (fun k => (h k).count) hL]
  have hterm : ∀ idx, Near F ((∑ k, kv k) + d) (4 * (d * μ) + 2 * d) (|∏ k, f k (idx k) (x k)| * |y idx|) (Kv ^ d * Y)
      ((∏ k, f k (idx k) (x k)) * y idx) (Flt.mul F (v idx) (Flt.ofReal (y idx))) := by
    intro idx
    exact ((hav idx).mul (near_ofReal (F := F) le_rfl (hy idx) hY) (hr.mono (by omega) (by omega) hcap)).mono
      (by omega) (by omega) le_rfl
  obtain ⟨r, hrr, hw⟩ := near_runCalls (F := F) (L := L) (body := fun idx =>
      ParentElement.valueBody (floatArith F) (elementOf b) (List.ofFn fun k => Flt.ofReal (x k)) var (tup idx))
    (g := fun idx => Flt.mul F (v idx) (Flt.ofReal (y idx))) (fun idx r => by
      rw [ParentElement.valueBody, (basisValue_eq _ (elementOf_instantiate b)
        (by simp [tup_length, elementOf]) _).1, show (elementOf b).bases = List.ofFn b from rfl,
        hvv, Res.ok_bind, hv, Res.ok_bind]
      rfl) hterm 0 0 1 0 ((floatArith F).lit 0) (lit_zero_near.mono (Nat.zero_le _) (Nat.zero_le _) le_rfl) (by
      rw [sum_cap, box_length hnd hall]
      exact hr.mono (by omega) (by omega) le_rfl)
  refine ⟨r, hrr, ?_⟩
  rwa [sum_cap, sum_box hnd hall, sum_box hnd hall, zero_add, zero_add, box_length hnd hall, add_zero, add_zero] at hw

theorem parent_gradient_near (hd : 0 < d) (h : ∀ k, NearRealises F (b k) (n k) (f k) (g k) (G k) (kv k) (kg k) μ Kv Kg)
    (hKg : 1 ≤ Kg) (hK : Kv ≤ Kg) (hn : ∀ k, 0 < n k) (hx : ∀ k, |x k| ≤ 1) (var : List Int → Res Flt)
    (y : ((k : Fin d) → Fin (n k)) → ℝ) (hv : ∀ idx, var (tup idx) = .ok (Flt.ofReal (y idx))) {Y : ℝ} (hY : 1 ≤ Y)
    (hy : ∀ idx, |y idx| ≤ Y)
    (hr : Room F ((∑ k, max (kv k) (kg k)) + d + ∏ k, n k) (4 * (d * μ) + 2 * d + ∏ k, n k)
      (1 + (∏ k, n k : ℕ) * (Kg ^ d * Y))) :
    ∃ r : Fin d → Flt,
      ParentElement.gradient (floatArith F) (elementOf b) (List.ofFn fun k => Flt.ofReal (x k)) var = .ok (List.ofFn r) ∧
      ∀ a, Near F ((∑ k, max (kv k) (kg k)) + d + ∏ k, n k) (4 * (d * μ) + 2 * d + ∏ k, n k)
        (∑ idx, (∏ k, if a = k then G k (idx k) (x k) else |f k (idx k) (x k)|) * |y idx|)
        (1 + (∏ k, n k : ℕ) * (Kg ^ d * Y))
        (∑ idx, (∏ k, if a = k then g k (idx k) (x k) else f k (idx k) (x k)) * y idx) (r a) := by
  obtain ⟨L, hL, hnd, hall⟩ := box_list n
  have hKd : 1 ≤ Kg ^ d := one_le_pow₀ hKg
  have hKY : 1 ≤ Kg ^ d * Y := by nlinarith
  have hP : (1 : ℝ) ≤ (∏ k, n k : ℕ) := by exact_mod_cast Finset.prod_pos fun k _ => hn k
  have hcap : Kg ^ d * Y ≤ 1 + (∏ k, n k : ℕ) * (Kg ^ d * Y) := by nlinarith
  choose v hvv hav using fun idx => product_gradient_near hd h hK idx hx
    (hr.mono (by omega) (by omega) (by nlinarith))
  have hz : List.replicate d ((floatArith F).lit 0) = List.ofFn (fun _ : Fin d => (floatArith F).lit 0) := by
    rw [List.ofFn_const]
  rw [ParentElement.gradient, elementOf_instantiate, Res.ok_bind]
  rw [show (elementOf b).bases = List.ofFn b from rfl, forNested_box hd (fun k => (h k).count) hL,
    List.length_ofFn, hz]
  have hterm : ∀ idx a, Near F ((∑ k, max (kv k) (kg k)) + d) (4 * (d * μ) + 2 * d)
      ((∏ k, if a = k then G k (idx k) (x k) else |f k (idx k) (x k)|) * |y idx|) (Kg ^ d * Y)
      ((∏ k, if a = k then g k (idx k) (x k) else f k (idx k) (x k)) * y idx) (Flt.mul F (v idx a) (Flt.ofReal (y idx))) := by
    intro idx a
    exact ((hav idx a).mul (near_ofReal (F := F) le_rfl (hy idx) hY) (hr.mono (by omega) (by omega) hcap)).mono
      (by omega) (by omega) le_rfl
  obtain ⟨r, hrr, hw⟩ := near_runCallsVec (F := F) (L := L) (mk := fun r : Fin d → Flt => List.ofFn r) (body := fun idx =>
      ParentElement.gradientBody (floatArith F) (elementOf b) (List.ofFn fun k => Flt.ofReal (x k)) var (tup idx))
    (g := fun idx a => Flt.mul F (v idx a) (Flt.ofReal (y idx))) (fun idx r => by
      rw [ParentElement.gradientBody, (basisValue_eq _ (elementOf_instantiate b)
        (by simp [tup_length, elementOf]) _).2.2.1, show (elementOf b).bases = List.ofFn b from rfl,
        hvv, Res.ok_bind, List.length_ofFn, forSequence_eq (by omega),
        upTo_ofFn, List.ofFn_eq_map, runCalls_map,
        Valued.gradientInner_loop _ _ _ _ (hv idx) (List.nodup_finRange d)]
      congr 2
      funext k
      simp only [List.mem_finRange, if_true]
      rfl) hterm (fun _ => hKY) 0 (fun _ => 0) (fun _ => 0) 1 (fun _ => (floatArith F).lit 0)
      (fun a => lit_zero_near.mono (Nat.zero_le _) (Nat.zero_le _) le_rfl) (by
      rw [sum_cap, box_length hnd hall]
      exact hr.mono (by omega) (by omega) le_rfl)
  refine ⟨r, hrr, fun a => ?_⟩
  have hw := hw a
  rwa [sum_cap, sum_box hnd hall, sum_box hnd hall, zero_add, zero_add, box_length hnd hall, add_zero, add_zero] at hw

/-- The Jacobian loop, started from a matrix of zeros. -/
theorem jacobian_near {t : LinearTransform Flt} {p : ((k : Fin d) → Fin (n k)) → Fin d → ℝ}
    (hcell : Cell t b n fun idx i => Flt.ofReal (p idx i))
    (h : ∀ k, NearRealises F (b k) (n k) (f k) (g k) (G k) (kv k) (kg k) μ Kv Kg)
    (hKg : 1 ≤ Kg) (hK : Kv ≤ Kg) (hn : ∀ k, 0 < n k) (cfg : Config) (hx : ∀ k, |x k| ≤ 1) (extra : List Flt)
    {Y : ℝ} (hY : 1 ≤ Y) (hp : ∀ idx i, |p idx i| ≤ Y)
    (hr : Room F ((∑ k, max (kv k) (kg k)) + d + ∏ k, n k) (4 * (d * μ) + 2 * d + ∏ k, n k)
      (1 + (∏ k, n k : ℕ) * (Kg ^ d * Y))) :
    ∃ J : Matrix (Fin d) (Fin d) Flt,
      LinearTransform.jacobian cfg (floatArith F) t ((List.ofFn fun k => Flt.ofReal (x k)) ++ extra)
        (matMem fun _ _ : Fin d => (floatArith F).lit 0) = .ok (matMem J) ∧
      ∀ i j, Near F ((∑ k, max (kv k) (kg k)) + d + ∏ k, n k) (4 * (d * μ) + 2 * d + ∏ k, n k)
        (∑ idx, (∏ k, if j = k then G k (idx k) (x k) else |f k (idx k) (x k)|) * |p idx i|)
        (1 + (∏ k, n k : ℕ) * (Kg ^ d * Y))
        (∑ idx, (∏ k, if j = k then g k (idx k) (x k) else f k (idx k) (x k)) * p idx i) (J i j) := by
  obtain ⟨L, hL, hnd, hall⟩ := box_list n
  have hd := hcell.dims
  have hKd : 1 ≤ Kg ^ d := one_le_pow₀ hKg
  have hKY : 1 ≤ Kg ^ d * Y := by nlinarith
  have hP : (1 : ℝ) ≤ (∏ k, n k : ℕ) := by exact_mod_cast Finset.prod_pos fun k _ => hn k
  have hcap : Kg ^ d * Y ≤ 1 + (∏ k, n k : ℕ) * (Kg ^ d * Y) := by nlinarith
  choose v hvv hav using fun idx => product_gradient_near hd h hK idx hx
    (hr.mono (by omega) (by omega) (by nlinarith))
  have hbl : t.shape.bases.length = d := by simp [hcell.bases]
  have hterm : ∀ (idx : (k : Fin d) → Fin (n k)) (ij : Fin d × Fin d), Near F ((∑ k, max (kv k) (kg k)) + d) (4 * (d * μ) + 2 * d)
      ((∏ k, if ij.2 = k then G k (idx k) (x k) else |f k (idx k) (x k)|) * |p idx ij.1|) (Kg ^ d * Y)
      ((∏ k, if ij.2 = k then g k (idx k) (x k) else f k (idx k) (x k)) * p idx ij.1)
      (Flt.mul F (v idx ij.2) (Flt.ofReal (p idx ij.1))) := by
    intro idx ij
    exact ((hav idx ij.2).mul (near_ofReal (F := F) le_rfl (hp idx ij.1) hY) (hr.mono (by omega) (by omega) hcap)).mono
      (by omega) (by omega) le_rfl
  obtain ⟨J, hJ, hw⟩ := near_runCallsVec (F := F) (L := L)
    (mk := fun r : Fin d × Fin d → Flt => matMem (fun i j => r (i, j))) (body := fun idx =>
      LinearTransform.jacobianBody cfg (floatArith F) t ((List.ofFn fun k => Flt.ofReal (x k)) ++ extra) (tup idx))
    (g := fun idx ij => Flt.mul F (v idx ij.2) (Flt.ofReal (p idx ij.1))) (fun idx M => by
      rw [jacobianBody_ok hcell cfg (floatArith F) _ idx (g := v idx) ?_ fun i j => M (i, j)]
      · rfl
      · rw [gradient_append _ _ _ _ (by rw [hbl, List.length_ofFn]),
          (basisValue_eq _ hcell.inst (by rw [tup_length, hbl]) _).2.2.2, hcell.bases, hvv]) hterm (fun _ => hKY) 0
    (fun _ => 0) (fun _ => 0) 1 (fun _ => (floatArith F).lit 0)
    (fun a => lit_zero_near.mono (Nat.zero_le _) (Nat.zero_le _) le_rfl) (by
      rw [sum_cap, box_length hnd hall]
      exact hr.mono (by omega) (by omega) le_rfl)
  refine ⟨fun i j => J (i, j), by rw [LinearTransform.jacobian, supportLoop_eq hcell hL]; exact hJ, fun i j => ?_⟩
  have hw := hw (i, j)
  rwa [sum_cap, sum_box hnd hall, sum_box hnd hall, zero_add, zero_add, box_length hnd hall, add_zero, add_zero] at hw

end product

end Verif.Lemmas
