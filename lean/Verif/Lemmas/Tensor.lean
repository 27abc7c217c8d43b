import Verif.Spec.Element
import Verif.Lemmas.Lagrange
import Verif.Lemmas.Counting
import Mathlib.Analysis.Calculus.FDeriv.Mul
import Mathlib.Analysis.Calculus.FDeriv.Pi
import Mathlib.Analysis.Calculus.Deriv.Comp

/-! # Tensor products of one-dimensional bases, in exact arithmetic -/

namespace Verif.Lemmas

open Verif.Spec

/-- The basis object computes the functions `f` and `g`. -/
structure Realises (b : Basis ℝ) (n : ℕ) (f g : Fin n → ℝ → ℝ) : Prop where
  count : b.numSupportPoints = n
  value : ∀ (j : Fin n) (x : ℝ), b.value (j : ℕ) x = .ok (f j x)
  gradient : ∀ (j : Fin n) (x : ℝ), b.gradient (j : ℕ) x = .ok (g j x)

variable {d : ℕ} {n : Fin d → ℕ} {b : Fin d → Basis ℝ} {f g : (k : Fin d) → Fin (n k) → ℝ → ℝ}

theorem tup_injective : Function.Injective (tup (n := n)) := by
  intro i j h
  funext k
  have := congrFun (List.ofFn_injective h) k
  exact Fin.ext (by exact_mod_cast this)

theorem tup_length (idx : (k : Fin d) → Fin (n k)) : (tup idx).length = d := by simp [tup]

theorem foldRight_mul_ofFn {K : Type} [Field K] {d : ℕ} (hd : 0 < d) (F : Fin d → Res K) (f : Fin d → K)
    (h : ∀ k, F k = .ok (f k)) : foldRight (exactArith K).mul (List.ofFn F) = .ok (∏ k, f k) := by
  have hne : List.finRange d ≠ [] := by
    intro h0; have := congrArg List.length h0; simp at this; omega
  have e : List.ofFn F = (List.finRange d).map fun i => .ok (f i) := by
    rw [List.ofFn_eq_map]; exact List.map_congr_left fun i _ => h i
  rw [e, foldRight_mul hne, ← List.ofFn_eq_map, List.prod_ofFn]

theorem expand_ofFn {R : Type} (b : Fin d → Basis R) (i : Fin d → Int) (F : Basis R → Int → Int → Res R) :
    BasisProduct.expand (List.ofFn b) (List.ofFn i) F
      = List.ofFn fun k : Fin d => F (b k) (i k) ((k : ℕ) : Int) := by
  apply List.ext_getElem
  · simp [BasisProduct.expand]
  · intro m h1 h2
    simp [BasisProduct.expand]

theorem product_value (hd : 0 < d) (h : ∀ k, Realises (b k) (n k) (f k) (g k))
    (idx : (k : Fin d) → Fin (n k)) (x : Fin d → ℝ) :
    BasisProduct.value (exactArith ℝ) (List.ofFn b) (tup idx) (List.ofFn x)
      = .ok (∏ k, f k (idx k) (x k)) := by
  unfold BasisProduct.value
  rw [staticAssert_bind_true (by simp [tup_length]), tup, expand_ofFn]
  refine foldRight_mul_ofFn hd _ _ fun k => ?_
  rw [tableAt_ofFn, Res.ok_bind, (h k).value]

theorem product_gradient (hd : 0 < d) (h : ∀ k, Realises (b k) (n k) (f k) (g k))
    (idx : (k : Fin d) → Fin (n k)) (x : Fin d → ℝ) :
    BasisProduct.gradient (exactArith ℝ) (List.ofFn b) (tup idx) (List.ofFn x)
      = .ok (List.ofFn fun a => ∏ k, if a = k then g k (idx k) (x k) else f k (idx k) (x k)) := by
  unfold BasisProduct.gradient
  rw [staticAssert_bind_true (by simp [tup_length]), staticAssert_bind_true (by simpa using hd),
    List.length_ofFn, makeIntegerSequence_ok (by omega), Res.ok_bind]
  refine sequenceRes_fin _ _ fun a => ?_
  rw [tup, expand_ofFn]
  refine foldRight_mul_ofFn hd _ _ fun k => ?_
  rw [BasisProduct.gradientComponentHelper, tableAt_ofFn, Res.ok_bind]
  by_cases e : a = k
  · subst e; rw [if_pos rfl, if_pos rfl, (h a).gradient]
  · have e' : ((a : ℕ) : Int) ≠ (k : ℕ) := by
      intro h; exact e (Fin.ext (by exact_mod_cast h))
    rw [if_neg e', if_neg e, (h k).value]

/-- The derivative of a product of functions of one coordinate each. -/
theorem hasFDerivAt_product {F F' : Fin d → ℝ → ℝ} (h : ∀ k x, HasDerivAt (F k) (F' k x) x)
    (x : Fin d → ℝ) :
    HasFDerivAt (fun x : Fin d → ℝ => ∏ k, F k (x k))
      (∑ a, (∏ k, if a = k then F' k (x k) else F k (x k)) •
        (ContinuousLinearMap.proj a : (Fin d → ℝ) →L[ℝ] ℝ)) x := by
  have h1 : ∀ k ∈ Finset.univ, HasFDerivAt (fun x : Fin d → ℝ => F k (x k))
      (F' k (x k) • (ContinuousLinearMap.proj k : (Fin d → ℝ) →L[ℝ] ℝ)) x := by
    intro k _
    exact (h k (x k)).comp_hasFDerivAt x (hasFDerivAt_apply (𝕜 := ℝ) k x)
  refine (HasFDerivAt.finsetProd h1).congr_fderiv ?_
  refine Finset.sum_congr rfl fun a _ => ?_
  rw [smul_smul, ← Finset.mul_prod_erase Finset.univ _ (Finset.mem_univ a), if_pos rfl, mul_comm]
  congr 2
  exact Finset.prod_congr rfl fun k hk => (if_neg (Finset.ne_of_mem_erase hk).symm).symm

/-! ### sums over the support points -/

theorem box_list (n : Fin d → ℕ) :
    ∃ L : List ((k : Fin d) → Fin (n k)),
      boxFrom (List.replicate d 0) (List.ofFn fun k => ((n k : ℕ) : Int)) = L.map tup ∧
      L.Nodup ∧ ∀ idx, idx ∈ L := by
  obtain ⟨B, hB⟩ : ∃ B, B = boxFrom (List.replicate d 0) (List.ofFn fun k => ((n k : ℕ) : Int)) := ⟨_, rfl⟩
  have hmem : ∀ t, t ∈ B ↔ ∃ idx : (k : Fin d) → Fin (n k), tup idx = t := by
    intro t
    rw [hB, mem_boxFrom (by simp)]
    constructor
    · rintro ⟨hl, h⟩
      have hl' : t.length = d := by simpa using hl
      have h' : ∀ k : Fin d, 0 ≤ t.getD k 0 ∧ t.getD k 0 < n k := by
        intro k
        have := h k (by simp)
        simpa [List.getD] using this
      refine ⟨fun k => ⟨(t.getD k 0).toNat, by have := h' k; omega⟩, ?_⟩
      apply List.ext_getElem
      · simp [tup, hl']
      · intro m h1 h2
        have := h' ⟨m, by omega⟩
        simp only [tup, List.getElem_ofFn]
        simp only [List.getD, List.getElem?_eq_getElem h2, Option.getD_some] at this ⊢
        omega
    · rintro ⟨idx, rfl⟩
      refine ⟨by simp [tup], fun k hk => ?_⟩
      have hk' : k < d := by simpa using hk
      simp [tup, List.getD, hk']
  have hrange : ∀ t ∈ B, t ∈ Set.range (tup (n := n)) := fun t ht => (hmem t).1 ht
  obtain ⟨L, hL⟩ : B ∈ Set.range (List.map (tup (n := n))) := by
    rw [Set.range_list_map]; exact hrange
  have hnd : B.Nodup := by
    have := boxFrom_pairwise (ss := List.replicate d 0) (rs := List.ofFn fun k => ((n k : ℕ) : Int)) (by simp)
    rw [← hB] at this
    refine this.imp ?_
    rintro a _ ⟨-, k, -, -, hlt⟩ rfl
    exact lt_irrefl _ hlt
  refine ⟨L, by rw [← hB, hL], List.Nodup.of_map _ (hL ▸ hnd), fun idx => ?_⟩
  have : tup idx ∈ B := (hmem _).2 ⟨idx, rfl⟩
  rw [← hL, List.mem_map] at this
  obtain ⟨j, hj, hji⟩ := this
  exact tup_injective hji ▸ hj

theorem sum_box {M : Type} [AddCommMonoid M] {L : List ((k : Fin d) → Fin (n k))} (hnd : L.Nodup)
    (hall : ∀ idx, idx ∈ L) (h : ((k : Fin d) → Fin (n k)) → M) : (L.map h).sum = ∑ idx, h idx := by
  classical
  rw [← List.sum_toFinset h hnd]
  exact Finset.sum_congr (by ext i; simp [hall]) fun _ _ => rfl

theorem forNested_box {R σ : Type} {b : Fin d → Basis R} (hd : 0 < d) (hcount : ∀ k, (b k).numSupportPoints = n k)
    {L : List ((k : Fin d) → Fin (n k))}
    (hL : boxFrom (List.replicate d 0) (List.ofFn fun k => ((n k : ℕ) : Int)) = L.map tup)
    (body : List Int → σ → Res σ) (s : σ) :
    Sequence.forNestedSequence ((List.ofFn b).map Basis.numSupportPoints) body s
      = runCalls L (fun idx => body (tup idx)) s := by
  have e0 : (List.ofFn b).map Basis.numSupportPoints = List.ofFn fun k => ((n k : ℕ) : Int) := by
    rw [List.map_ofFn]; congr 1; funext k; exact hcount k
  rw [e0]
  have e1 := staticForNested_eq (ends := List.ofFn fun k => ((n k : ℕ) : Int))
    (by intro h; have := congrArg List.length h; simp at this; omega)
    (by intro e he; rw [List.mem_ofFn] at he; obtain ⟨k, rfl⟩ := he; omega) body [] s
  simp only [List.nil_append, List.length_ofFn] at e1
  rw [Sequence.forNestedSequence, e1, hL, runCalls_map]

theorem runCalls_add {ι : Type} {L : List ι} {h : ι → ℝ} {body : ι → ℝ → Res ℝ}
    (hb : ∀ i r, body i r = .ok (r + h i)) (r : ℝ) :
    runCalls L body r = .ok (r + (L.map h).sum) := by
  induction L generalizing r with
  | nil => simp
  | cons i L ih => simp [hb, ih, add_assoc]

/-- The element class with these bases, on a shape with as many dimensions. -/
def elementOf {R : Type} (b : Fin d → Basis R) : Element R := ⟨.ok d, List.ofFn b⟩

theorem elementOf_instantiate {R : Type} (b : Fin d → Basis R) : (elementOf b).instantiate = .ok () := by
  unfold Element.instantiate elementOf
  rw [Res.ok_bind]
  exact staticAssert_true (by simp)

theorem basisValue_eq {R : Type} (A : Arith R) {e : Element R} (he : e.instantiate = .ok ()) {idx : List Int}
    (hl : idx.length = e.bases.length) (x : List R) :
    ParentElement.basisValue A e idx x = BasisProduct.value A e.bases idx x ∧
    InterpolatedShape.value A e idx x = BasisProduct.value A e.bases idx x ∧
    ParentElement.basisGradient A e idx x = BasisProduct.gradient A e.bases idx x ∧
    InterpolatedShape.gradient A e idx x = BasisProduct.gradient A e.bases idx x := by
  refine ⟨?_, ?_, ?_, ?_⟩
  · rw [ParentElement.basisValue, he, Res.ok_bind, staticAssert_bind_true hl]
  · rw [InterpolatedShape.value, he, Res.ok_bind, staticAssert_bind_true hl]
  · rw [ParentElement.basisGradient, he, Res.ok_bind, staticAssert_bind_true hl]
  · rw [InterpolatedShape.gradient, he, Res.ok_bind, staticAssert_bind_true hl]

theorem parent_value (hd : 0 < d) (h : ∀ k, Realises (b k) (n k) (f k) (g k)) (x : Fin d → ℝ)
    (var : List Int → Res ℝ) (y : ((k : Fin d) → Fin (n k)) → ℝ) (hy : ∀ idx, var (tup idx) = .ok (y idx)) :
    ParentElement.value (exactArith ℝ) (elementOf b) (List.ofFn x) var
      = .ok (∑ idx, (∏ k, f k (idx k) (x k)) * y idx) := by
  obtain ⟨L, hL, hnd, hall⟩ := box_list n
  rw [ParentElement.value, elementOf_instantiate, Res.ok_bind]
  rw [show (elementOf b).bases = List.ofFn b from rfl, forNested_box hd (fun k => (h k).count) hL,
    runCalls_add (h := fun idx => (∏ k, f k (idx k) (x k)) * y idx), sum_box hnd hall]
  · simp [exactArith]
  · intro idx r
    rw [ParentElement.valueBody, (basisValue_eq _ (elementOf_instantiate b)
      (by simp [tup_length, elementOf]) _).1, show (elementOf b).bases = List.ofFn b from rfl,
      product_value hd h, Res.ok_bind, hy, Res.ok_bind]
    rfl

theorem set_ofFn {α : Type} (r : Fin d → α) (a : Fin d) (v : α) :
    (List.ofFn r).set a v = List.ofFn (Function.update r a v) := by
  apply List.ext_getElem
  · simp
  · intro m h1 h2
    rw [List.getElem_set]
    by_cases e : (a : ℕ) = m
    · subst e; simp
    · have : (⟨m, by simpa using h2⟩ : Fin d) ≠ a := fun h => e (by rw [← h])
      simp [e, Function.update_of_ne this]

theorem gradientInner_loop (gr : Fin d → ℝ) (var : List Int → Res ℝ) (idx : List Int) (y : ℝ)
    (hy : var idx = .ok y) {L : List (Fin d)} (hL : L.Nodup) (r : Fin d → ℝ) :
    runCalls L (fun a => ParentElement.gradientInner (exactArith ℝ) (List.ofFn gr) var idx ((a : ℕ) : Int))
        (List.ofFn r)
      = .ok (List.ofFn fun k => if k ∈ L then r k + gr k * y else r k) := by
  induction L generalizing r with
  | nil => simp
  | cons a L ih =>
    obtain ⟨ha, hL'⟩ := List.nodup_cons.1 hL
    have e1 : ParentElement.gradientInner (exactArith ℝ) (List.ofFn gr) var idx ((a : ℕ) : Int) (List.ofFn r)
        = .ok (List.ofFn (Function.update r a (r a + gr a * y))) := by
      rw [ParentElement.gradientInner, tableAt_ofFn, tableAt_ofFn, hy]
      simp only [Res.ok_bind, Int.toNat_natCast, set_ofFn]
      rfl
    have e2 : runCalls (a :: L) (fun a => ParentElement.gradientInner (exactArith ℝ) (List.ofFn gr) var idx
        ((a : ℕ) : Int)) (List.ofFn r) = runCalls L (fun a => ParentElement.gradientInner (exactArith ℝ)
          (List.ofFn gr) var idx ((a : ℕ) : Int)) (List.ofFn (Function.update r a (r a + gr a * y))) := by
      simp [e1]
    rw [e2, ih hL']
    congr 2
    funext k
    by_cases hk : k = a
    · subst hk; simp [ha]
    · simp [hk]

theorem runCalls_addVec {ι : Type} {L : List ι} {h : ι → Fin d → ℝ} {body : ι → List ℝ → Res (List ℝ)}
    (hb : ∀ i r, body i (List.ofFn r) = .ok (List.ofFn (r + h i))) (r : Fin d → ℝ) :
    runCalls L body (List.ofFn r) = .ok (List.ofFn (r + (L.map h).sum)) := by
  induction L generalizing r with
  | nil => simp
  | cons i L ih => simp [hb, ih, add_assoc]

theorem parent_gradient (hd : 0 < d) (h : ∀ k, Realises (b k) (n k) (f k) (g k)) (x : Fin d → ℝ)
    (var : List Int → Res ℝ) (y : ((k : Fin d) → Fin (n k)) → ℝ) (hy : ∀ idx, var (tup idx) = .ok (y idx)) :
    ParentElement.gradient (exactArith ℝ) (elementOf b) (List.ofFn x) var
      = .ok (List.ofFn fun a => ∑ idx,
          (∏ k, if a = k then g k (idx k) (x k) else f k (idx k) (x k)) * y idx) := by
  obtain ⟨L, hL, hnd, hall⟩ := box_list n
  have hz : List.replicate d ((exactArith ℝ).lit 0) = List.ofFn (0 : Fin d → ℝ) := by
    simp [exactArith, List.ofFn_const, Pi.zero_def]
  rw [ParentElement.gradient, elementOf_instantiate, Res.ok_bind]
  rw [show (elementOf b).bases = List.ofFn b from rfl, forNested_box hd (fun k => (h k).count) hL,
    List.length_ofFn, hz,
    runCalls_addVec (h := fun idx a => (∏ k, if a = k then g k (idx k) (x k) else f k (idx k) (x k)) * y idx),
    sum_box hnd hall]
  · congr 2
    funext a
    simp [Finset.sum_apply]
  · intro idx r
    rw [ParentElement.gradientBody, (basisValue_eq _ (elementOf_instantiate b)
      (by simp [tup_length, elementOf]) _).2.2.1, show (elementOf b).bases = List.ofFn b from rfl,
      product_gradient hd h, Res.ok_bind, List.length_ofFn, forSequence_eq (by omega),
      upTo_ofFn, List.ofFn_eq_map, runCalls_map, gradientInner_loop _ _ _ _ (hy idx) (List.nodup_finRange d)]
    congr 2
    funext k
    simp

/-! ### Lagrange elements -/

/-- The functions a Lagrange element computes, direction by direction. -/
theorem isLagrange_realises {d : ℕ} {order : Fin d → ℕ} {c : (k : Fin d) → Fin (order k + 1) → ℝ}
    {e : Element ℝ} (h : IsLagrange order c e) :
    ∃ b : Fin d → Basis ℝ, e = elementOf b ∧
      (∀ k, Realises (b k) (order k + 1)
        (fun j x => (Lagrange.basis Finset.univ (c k) j).eval x)
        (fun j x => (Polynomial.derivative (Lagrange.basis Finset.univ (c k) j)).eval x)) ∧
      ∀ k, Function.Injective (c k) := by
  obtain ⟨b, hb, hk⟩ := h.bases
  refine ⟨b, ?_, fun k => ?_, fun k => (hk k).2.choose_spec.1.distinct⟩
  · cases e; simp only [elementOf]; congr 1; exact h.shape
  · obtain ⟨hlt, S, hS, hbk⟩ := hk k
    have hadd : iadd (order k : Int) 1 = .ok ((order k + 1 : ℕ) : Int) := by
      push_cast
      exact tnorm_ok ⟨by show (-2147483648 : Int) ≤ _; omega, by show _ ≤ (2147483647 : Int); omega⟩
    rw [lagrangeBasis, hadd] at hbk
    simp only [Res.constexpr_ok, Res.ok_bind, Res.ok.injEq] at hbk
    rw [← hbk]
    exact ⟨rfl, fun j x => value_eq_basis hS j x, fun j x => gradient_eq_basis hS j x⟩

end Verif.Lemmas
