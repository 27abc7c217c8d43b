import Verif.Lemmas.NodalFloat
import Verif.Props.Finite

/-!
# Property C128: interpolation at support points in `float` and `double`

At a support point the basis function of that point is 1 and all others are 0, so that interpolating there should
return the nodal value itself.
-/

namespace Verif.Props

open Verif.Spec Verif.Lemmas

/-- The claim of C128: evaluating an element at one of its support points returns the nodal value of that point, to the
last bit.  Nodal values are finite. -/
def NodesReproduced : Prop :=
  ∀ (T : RealType) (d : ℕ) (order : Fin d → ℕ) (c : (k : Fin d) → Fin (order k + 1) → ℝ) (e : Element Flt),
    IsShippedIn T order c e → ∀ (idx : (k : Fin d) → Fin (order k + 1)) (var : List Int → Res Flt)
      (y : ((k : Fin d) → Fin (order k + 1)) → ℝ), (∀ i, var (tup i) = .ok (Flt.ofReal (y i))) → (∀ i, Represents T.format (y i)) →
      ∃ r, ParentElement.value (floatArith T.format) e (List.ofFn fun k => Flt.ofReal (c k (idx k))) var = .ok r ∧
        r.datum = .finite (y idx)

/-- Types, families and orders for which every basis function is exactly 1 at its own point. -/
def ExactAtPoints : RealType → Family → ℕ → Prop
  | _, .equal, order => 1 ≤ order ∧ order ≤ 8
  | _, .gaussLegendre, order => 1 ≤ order ∧ order ≤ 3
  | .float, .gaussLobatto, order => 1 ≤ order ∧ order ≤ 3 ∨ order = 5
  | .double, .gaussLobatto, order => 1 ≤ order ∧ order ≤ 4

private theorem exact_orders {T : RealType} {fam : Family} {order : ℕ} (h : ExactAtPoints T fam order) :
    1 ≤ order ∧ order ≤ 8 ∧ fam.Supports order := by
  cases fam with
  | equal => exact ⟨h.1, h.2, by omega, by have := h.2; omega⟩
  | gaussLegendre => exact ⟨h.1, by have := h.2; omega, by omega, by have := h.2; omega⟩
  | gaussLobatto =>
    cases T
    · rcases h with h | h
      · exact ⟨h.1, by omega, by omega, by omega⟩
      · exact ⟨by omega, by omega, by omega, by omega⟩
    · exact ⟨h.1, by have := h.2; omega, by omega, by have := h.2; omega⟩

private theorem exact_one {T : RealType} {fam : Family} {order : ℕ} (h : ExactAtPoints T fam order) (i : Fin (order + 1)) :
    nodalValue T fam order (i : ℕ) = .ok (some 1) := by
  cases fam with
  | equal =>
    have hm : order ∈ [1, 2, 3, 4, 5, 6, 7, 8] := by
      obtain ⟨h1, h2⟩ := h
      simp only [List.mem_cons, List.not_mem_nil, or_false]; omega
    cases T
    · exact nodal_equal_float order hm i
    · exact nodal_equal_double order hm i
  | gaussLegendre =>
    have hm : order ∈ [1, 2, 3] := by
      obtain ⟨h1, h2⟩ := h
      simp only [List.mem_cons, List.not_mem_nil, or_false]; omega
    exact nodal_legendre T (mem_types T) order hm i
  | gaussLobatto =>
    cases T
    · have hm : order ∈ [1, 2, 3, 5] := by
        simp only [List.mem_cons, List.not_mem_nil, or_false]
        rcases h with h | h <;> omega
      exact nodal_lobatto_float order hm i
    · have hm : order ∈ [1, 2, 3, 4] := by
        obtain ⟨h1, h2⟩ := h
        simp only [List.mem_cons, List.not_mem_nil, or_false]; omega
      exact nodal_lobatto_double order hm i

private theorem basis_form (T : RealType) (fam : Family) {order : ℕ} (h8 : order ≤ 8) {b : Basis Flt}
    (hb : T.arith.lagrangeBasis (fam.spacingIn T.arith) order = .ok b) : b =
      ⟨((order + 1 : ℕ) : Int), LagrangeBasis.value (floatArith T.format) (fam.spacingIn T.arith ((order + 1 : ℕ) : Int)) ((order + 1 : ℕ) : Int),
        LagrangeBasis.gradient (floatArith T.format) (fam.spacingIn T.arith ((order + 1 : ℕ) : Int)) ((order + 1 : ℕ) : Int)⟩ := by
  rw [C88_basis, lagrangeBasis_ok _ _ (by omega)] at hb
  exact (Res.ok.inj hb).symm

/-- **C128, other functions.** In `float` and in `double`, a basis function of order 1 to 8 of a shipped family is
exactly zero at the support points of the others. -/
theorem C128_zero (T : RealType) (fam : Family) {order : ℕ} (h1 : 1 ≤ order) (h8 : order ≤ 8) (hs : fam.Supports order)
    {b : Basis Flt} (hb : T.arith.lagrangeBasis (fam.spacingIn T.arith) order = .ok b) {i j : Fin (order + 1)} (hij : j ≠ i) {x : Flt}
    (hx : (fam.spacingIn T.arith ((order + 1 : ℕ) : Int)).coordCT (i : ℕ) = .ok x) :
    ∃ f, b.value (j : ℕ) x = .ok f ∧ f.datum = .finite 0 := by
  obtain ⟨c, hc1, -, hc⟩ := C100_points T fam order h1 h8 hs
  obtain ⟨b', hb', hv⟩ := C100_basis T fam h1 h8 hs hc
  obtain rfl := Res.ok.inj (hb'.symm.trans hb)
  obtain rfl : Flt.ofReal (c i) = x := Res.ok.inj ((hc i).symm.trans hx)
  obtain ⟨⟨f, hf, y, hy, -⟩, -⟩ := hv j (c i) (hc1 i)
  refine ⟨f, hf, value_zero (F := T.format) hij (hc i) ?_ ⟨y, hy⟩⟩
  rw [basis_form T fam h8 hb'] at hf
  exact hf

/-- **C128, own function.** In the cases of `ExactAtPoints`, a basis function is 1 at its own point. -/
theorem C128_one {T : RealType} {fam : Family} {order : ℕ} (h : ExactAtPoints T fam order) {b : Basis Flt}
    (hb : T.arith.lagrangeBasis (fam.spacingIn T.arith) order = .ok b) {i : Fin (order + 1)} {x : Flt}
    (hx : (fam.spacingIn T.arith ((order + 1 : ℕ) : Int)).coordCT (i : ℕ) = .ok x) :
    (1 ≤ order ∧ order ≤ 8 ∧ fam.Supports order) ∧ ∃ f, b.value (i : ℕ) x = .ok f ∧ f.datum = .finite 1 := by
  have ho := exact_orders h
  have := nodalValue_sound (exact_one h i) hx
  rw [Rat.cast_one] at this
  exact ⟨ho, _, by rw [basis_form T fam ho.2.1 hb]; exact this, rfl⟩

/-- **C128, other nodal values.** In `float` and in `double`, the value of an element of up to three dimensions at a
support point does not depend on the nodal values of the other support points, as long as they are finite. -/
theorem C128_local {T : RealType} {d : ℕ} {order : Fin d → ℕ} {c : (k : Fin d) → Fin (order k + 1) → ℝ} {e : Element Flt}
    (h : IsShippedIn T order c e) (hd : d ≤ 3) (idx : (k : Fin d) → Fin (order k + 1)) {u v : List Int → Res Flt}
    {y z : ((k : Fin d) → Fin (order k + 1)) → ℝ} (hu : ∀ i, u (tup i) = .ok (Flt.ofReal (y i)))
    (hv : ∀ i, v (tup i) = .ok (Flt.ofReal (z i))) (hyz : y idx = z idx) :
    ParentElement.value (floatArith T.format) e (List.ofFn fun k => Flt.ofReal (c k (idx k))) u
      = ParentElement.value (floatArith T.format) e (List.ofFn fun k => Flt.ofReal (c k (idx k))) v := by
  obtain ⟨fam, b, hb, hk⟩ := h.bases
  obtain rfl : e = Lemmas.elementOf b := by cases e; simp only [Lemmas.elementOf]; cases hb; congr 1; exact h.shape
  have hc1 : ∀ k, |c k (idx k)| ≤ 1 := fun k => by
    obtain ⟨c', hc1, -, hc⟩ := C100_points T (fam k) (order k) (h.orders k).1 (h.orders k).2 (hk k).1
    have e := Datum.finite.inj (congrArg Flt.datum (Res.ok.inj ((hc (idx k)).symm.trans ((hk k).2.1 (idx k)))))
    exact e ▸ hc1 (idx k)
  have hform := fun k => basis_form T (fam k) (h.orders k).2 (hk k).2.2
  refine parent_value_local (n := fun k => order k + 1) (δ := idx) h.dims (fun k => by rw [hform k]) (fun i => ?_) hu hv hyz
  obtain ⟨f, hf, -, w, hw, -⟩ := C100_shape h hd i (fun k => c k (idx k)) hc1
  have hf' : BasisProduct.value (floatArith T.format) (List.ofFn b) (tup i) (List.ofFn fun k => Flt.ofReal (c k (idx k))) = .ok f :=
    ((basisValue_eq _ (elementOf_instantiate b) (by simp [tup_length, Lemmas.elementOf]) _).1.symm.trans hf)
  refine ⟨f, hf', fun hne => product_zero (fun k j hj g hg hfin => ?_) hne hf' ⟨w, hw⟩⟩
  obtain ⟨g', hg', h0⟩ := C128_zero T (fam k) (h.orders k).1 (h.orders k).2 (hk k).1 (hk k).2.2 hj ((hk k).2.1 (idx k))
  exact (Res.ok.inj (hg'.symm.trans hg)) ▸ h0

private theorem one_represented (T : RealType) : Represents T.format 1 := by
  cases T
  · have := round_represents _ (evalRound_sound binary32 (q := 1) (r := 1) (by decide +kernel))
    rwa [Rat.cast_one] at this
  · have := round_represents _ (evalRound_sound binary64 (q := 1) (r := 1) (by decide +kernel))
    rwa [Rat.cast_one] at this

/-- **C128.** In `float` and in `double`, in any number of dimensions, evaluating an element at a support point returns
exactly the nodal value of that point, for the types, families and orders of `ExactAtPoints`: equal spacing of orders 1
to 8, Gauss-Legendre of orders 1 to 3, Gauss-Lobatto of orders 1 to 3 and 5 in `float` and 1 to 4 in `double`. -/
theorem C128_partial (T : RealType) {d : ℕ} (hd : 0 < d) (order : Fin d → ℕ) (fam : Fin d → Family)
    (h : ∀ k, ExactAtPoints T (fam k) (order k)) {b : Fin d → Basis Flt}
    (hb : ∀ k, T.arith.lagrangeBasis ((fam k).spacingIn T.arith) (order k) = .ok (b k))
    (idx : (k : Fin d) → Fin (order k + 1)) {x : Fin d → Flt}
    (hx : ∀ k, ((fam k).spacingIn T.arith ((order k + 1 : ℕ) : Int)).coordCT (idx k : ℕ) = .ok (x k))
    {var : List Int → Res Flt} {y : ((k : Fin d) → Fin (order k + 1)) → ℝ}
    (hvar : ∀ i, var (tup i) = .ok (Flt.ofReal (y i))) (hy : ∀ i, Represents T.format (y i)) :
    ∃ r, ParentElement.value (floatArith T.format) ⟨.ok d, List.ofFn b⟩ (List.ofFn x) var = .ok r ∧
      r.datum = .finite (y idx) := by
  have ho := fun k => exact_orders (h k)
  have hform := fun k => basis_form T (fam k) (ho k).2.1 (hb k)
  have hone : ∀ k (j : Fin (order k + 1)), ∃ f, (b k).value (j : ℕ) (x k) = .ok f ∧
      f.datum = .finite (if j = idx k then 1 else 0) := by
    intro k j
    by_cases e : j = idx k
    · subst e
      have := nodalValue_sound (exact_one (h k) (idx k)) (hx k)
      rw [Rat.cast_one] at this
      exact ⟨_, by rw [hform k]; exact this, by rw [if_pos rfl]; rfl⟩
    · rw [if_neg e]
      exact C128_zero T (fam k) (ho k).1 (ho k).2.1 (ho k).2.2 (hb k) e (hx k)
  have := parent_value_exact (F := T.format) (n := fun k => order k + 1) (δ := idx) (t := 1) hd (fun k => by rw [hform k])
    (product_bits hd (one_represented T) hone) hvar (by rw [one_mul]; exact hy idx)
  rwa [one_mul] at this

/-- The 1-d Gauss-Lobatto element does not reproduce the nodal value 1 at its first point. -/
private theorem not_reproduced {T : RealType} {order : ℕ} (h1 : 1 ≤ order) (h8 : order ≤ 8)
    (h : notOne T.format (nodalValue T .gaussLobatto order 0) = true) :
    ∃ (c : Fin (order + 1) → ℝ) (b : Basis Flt) (r : Flt) (t : ℝ), IsShippedIn T (fun _ : Fin 1 => order) (fun _ => c) ⟨.ok 1, [b]⟩ ∧
      (∀ i : Fin (order + 1), (T.arith.gaussLobattoSpacing ((order + 1 : ℕ) : Int)).coordCT (i : ℕ) = .ok (Flt.ofReal (c i))) ∧
      T.arith.lagrangeBasis T.arith.gaussLobattoSpacing order = .ok b ∧
      ParentElement.value (floatArith T.format) ⟨.ok 1, [b]⟩ [Flt.ofReal (c 0)] (fun _ => .ok (Flt.ofReal 1)) = .ok r ∧
      r.datum = .finite t ∧ t ≠ 1 := by
  have hs : Family.gaussLobatto.Supports order := ⟨by omega, by omega⟩
  obtain ⟨c, -, -, hc⟩ := C100_points T .gaussLobatto order h1 h8 hs
  obtain ⟨b, hb, -⟩ := C100_basis T .gaussLobatto h1 h8 hs hc
  obtain ⟨q, hq, hne, hrep⟩ := notOne_spec h
  have hform := basis_form T .gaussLobatto h8 hb
  have hval := nodalValue_sound hq (hc 0)
  have hv : ∀ i : Fin 1 → Fin (order + 1), ∃ f, BasisProduct.value (floatArith T.format) (List.ofFn fun _ : Fin 1 => b)
      (tup (n := fun _ : Fin 1 => order + 1) i) (List.ofFn fun _ : Fin 1 => Flt.ofReal (c 0)) = .ok f ∧
        f.datum = .finite (if i = fun _ => 0 then (q : ℝ) else 0) := by
    intro i
    rw [product_one]
    by_cases e : i 0 = 0
    · have : i = fun _ => 0 := by funext k; rw [Subsingleton.elim k 0]; exact e
      refine ⟨Flt.ofReal q, ?_, by rw [if_pos this]; rfl⟩
      rw [e, hform]
      exact hval
    · rw [if_neg (by intro h; exact e (congrFun h 0))]
      exact C128_zero T .gaussLobatto h1 h8 hs hb e (hc 0)
  obtain ⟨r, hr, hd⟩ := parent_value_exact (F := T.format) (d := 1) (n := fun _ => order + 1) (δ := fun _ => 0) (t := (q : ℝ)) (b := fun _ => b)
    (X := fun _ => Flt.ofReal (c 0)) (by norm_num) (fun k => by rw [hform]) hv
    (var := fun _ => .ok (Flt.ofReal 1)) (y := fun _ => 1) (fun _ => rfl) (by rwa [mul_one])
  refine ⟨c, b, r, q * 1, ⟨by norm_num, rfl, fun _ => ⟨h1, h8⟩, fun _ => .gaussLobatto, fun _ => b, rfl, fun _ => ⟨hs, hc, hb⟩⟩,
    hc, hb, hr, hd, ?_⟩
  rw [mul_one]
  exact_mod_cast hne

/-- **C128 fails** for all other orders: in `float` for Gauss-Lobatto elements of orders 4, 6, 7 and 8, in `double` for
those of orders 5 to 8.  Where all nodal values are 1, the value at the first support point is not 1. -/
theorem C128_violated : ¬ NodesReproduced ∧ ∀ (T : RealType) (order : ℕ), 1 ≤ order → order ≤ 8 → ¬ ExactAtPoints T .gaussLobatto order →
    ∃ (c : Fin (order + 1) → ℝ) (b : Basis Flt) (r : Flt) (t : ℝ),
      (∀ i : Fin (order + 1), (T.arith.gaussLobattoSpacing ((order + 1 : ℕ) : Int)).coordCT (i : ℕ) = .ok (Flt.ofReal (c i))) ∧
      T.arith.lagrangeBasis T.arith.gaussLobattoSpacing order = .ok b ∧
      ParentElement.value (floatArith T.format) ⟨.ok 1, [b]⟩ [Flt.ofReal (c 0)] (fun _ => .ok (Flt.ofReal 1)) = .ok r ∧
      r.datum = .finite t ∧ t ≠ 1 := by
  have key : ∀ (T : RealType) (order : ℕ), 1 ≤ order → order ≤ 8 → ¬ ExactAtPoints T .gaussLobatto order →
      notOne T.format (nodalValue T .gaussLobatto order 0) = true := by
    intro T order h1 h8 h
    cases T
    · refine nodal_not_one_float order ?_
      simp only [ExactAtPoints] at h
      simp only [List.mem_cons, List.not_mem_nil, or_false]; omega
    · refine nodal_not_one_double order ?_
      simp only [ExactAtPoints] at h
      simp only [List.mem_cons, List.not_mem_nil, or_false]; omega
  refine ⟨fun hall => ?_, fun T order h1 h8 h => ?_⟩
  · obtain ⟨c, b, r, t, hs, -, -, hr, ht, hne⟩ := not_reproduced (T := .double) (order := 5) (by norm_num) (by norm_num)
      (key .double 5 (by norm_num) (by norm_num) (by simp [ExactAtPoints]))
    obtain ⟨r', hr', ht'⟩ := hall .double 1 _ _ _ hs (fun _ => 0) (fun _ => .ok (Flt.ofReal 1)) (fun _ => 1) (fun _ => rfl)
      (fun _ => one_represented _)
    obtain rfl := Res.ok.inj (hr.symm.trans hr')
    exact hne (Datum.finite.inj (ht.symm.trans ht'))
  · obtain ⟨c, b, r, t, -, hc, hb, hr, ht, hne⟩ := not_reproduced h1 h8 (key T order h1 h8 h)
    exact ⟨c, b, r, t, hc, hb, hr, ht, hne⟩

/-- Non-vacuity of C128: a quadratic Gauss-Lobatto element in two dimensions, in `float`, at its last point. -/
example : ∃ (b : Basis Flt) (x : Flt) (r : Flt), floatMixed.lagrangeBasis floatMixed.gaussLobattoSpacing 2 = .ok b ∧
    (floatMixed.gaussLobattoSpacing 3).coordCT 2 = .ok x ∧
    ParentElement.value (floatArith binary32) ⟨.ok 2, [b, b]⟩ [x, x]
      (fun i => .ok (Flt.ofReal ((if i = [2, 2] then 7 / 4 else 5 : ℚ) : ℝ))) = .ok r ∧ r.datum = .finite ((7 / 4 : ℚ) : ℝ) := by
  obtain ⟨c, -, -, hc⟩ := C100_points .float .gaussLobatto 2 (by norm_num) (by norm_num) ⟨by norm_num, by norm_num⟩
  obtain ⟨b, hb, -⟩ := C100_basis .float .gaussLobatto (by norm_num) (by norm_num) ⟨by norm_num, by norm_num⟩ hc
  obtain ⟨r, hr, hd⟩ := C128_partial .float (d := 2) (by norm_num) (fun _ => 2) (fun _ => .gaussLobatto) (fun _ => .inl ⟨by norm_num, by norm_num⟩)
    (b := fun _ => b) (fun _ => hb) (fun _ => 2) (x := fun _ => Flt.ofReal (c 2)) (fun _ => hc 2)
    (var := fun i => .ok (Flt.ofReal ((if i = [2, 2] then 7 / 4 else 5 : ℚ) : ℝ)))
    (y := fun i => ((if tup i = [2, 2] then 7 / 4 else 5 : ℚ) : ℝ)) (fun _ => rfl) (fun i => by
      split
      · exact round_represents _ (evalRound_sound binary32 (q := 7 / 4) (by decide +kernel))
      · exact round_represents _ (evalRound_sound binary32 (q := 5) (by decide +kernel)))
  exact ⟨b, _, r, hb, hc 2, hr, hd⟩

end Verif.Props
