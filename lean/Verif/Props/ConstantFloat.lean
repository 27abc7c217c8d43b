import Verif.Lemmas.ConstantFloat
import Verif.Props.Finite

/-!
# Property C130: derivatives of fields that do not change in a direction, in `float` and `double`

In exact arithmetic the derivative in a direction along which the nodal values are the same is zero (C33, C42).  Computed with rounding it
is zero only if the terms cancel.
-/

namespace Verif.Props

open Verif.Spec Verif.Lemmas

/-- The nodal values `var` do not change in direction `a`: they do not depend on index `a`. -/
def ConstantAlong {d : ℕ} (order : Fin d → ℕ) (a : Fin d) (var : List Int → Res Flt) : Prop :=
  ∀ (idx : (k : Fin d) → Fin (order k + 1)) (j : Fin (order a + 1)), var (tup (Function.update idx a j)) = var (tup idx)

/-- The claim of C130: for nodal values that are the same along a direction, the derivative in this direction is exactly zero at all
points of the parent element. -/
def NoSpuriousGradient : Prop :=
  ∀ (T : RealType) (d : ℕ) (order : Fin d → ℕ) (c : (k : Fin d) → Fin (order k + 1) → ℝ) (e : Element Flt),
    IsShippedIn T order c e → ∀ (a : Fin d) (var : List Int → Res Flt) (y : ((k : Fin d) → Fin (order k + 1)) → ℝ),
      (∀ i, var (tup i) = .ok (Flt.ofReal (y i))) → (∀ i, Represents T.format (y i) ∧ |y i| ≤ 2 ^ 56) → ConstantAlong order a var →
      ∀ x : Fin d → ℝ, (∀ k, |x k| ≤ 1 ∧ Represents T.format (x k)) →
      ∃ g : Fin d → Flt, ParentElement.gradient (floatArith T.format) e (List.ofFn fun k => Flt.ofReal (x k)) var = .ok (List.ofFn g) ∧
        (g a).datum = .finite 0

private theorem one_exact (T : RealType) : (floatArith T.format).lit 1 = Flt.ofReal 1 := by
  have := lit_pow (format_mem T) (s := 0) (by norm_num)
  rwa [pow_zero, pow_zero] at this

private theorem form (T : RealType) (fam : Family) {order : ℕ} (h8 : order ≤ 8) {b : Basis Flt}
    (hb : T.arith.lagrangeBasis (fam.spacingIn T.arith) order = .ok b) : b =
      ⟨((order + 1 : ℕ) : Int), LagrangeBasis.value (floatArith T.format) (fam.spacingIn T.arith ((order + 1 : ℕ) : Int)) ((order + 1 : ℕ) : Int),
        LagrangeBasis.gradient (floatArith T.format) (fam.spacingIn T.arith ((order + 1 : ℕ) : Int)) ((order + 1 : ℕ) : Int)⟩ := by
  rw [C88_basis, lagrangeBasis_ok _ _ (by omega)] at hb
  exact (Res.ok.inj hb).symm

private theorem zero_value (T : RealType) (fam : Family) {b : Basis Flt}
    (hb : T.arith.lagrangeBasis (fam.spacingIn T.arith) 1 = .ok b) (i : Fin 2) :
    ∃ f, b.value (i : ℕ) (Flt.ofReal 0) = .ok f := by
  have hs : fam.Supports 1 := by cases fam <;> constructor <;> omega
  obtain ⟨c, -, -, hc⟩ := C100_points T fam 1 (by norm_num) (by norm_num) hs
  obtain ⟨b', hb', hv⟩ := C100_basis T fam (by norm_num) (by norm_num) hs hc
  obtain rfl := Res.ok.inj (hb'.symm.trans hb)
  obtain ⟨⟨f, hf, -⟩, -⟩ := hv i 0 (by simp)
  exact ⟨f, hf⟩

section element
variable {T : RealType} {d : ℕ} {order : Fin (d + 1) → ℕ} {c : (k : Fin (d + 1)) → Fin (order k + 1) → ℝ} {e : Element Flt}

/-- **C130, the last direction of order 1.** Let the basis of the last direction be linear (the other orders and all families are
arbitrary), and nodal values not change in the last direction; some may be infinite or not a number.  Then the derivative in the last direction
is exactly zero, at every point and whatever the nodal values are, unless it is infinite or not a number. -/
theorem C130_partial (h : IsShippedIn T order c e) (h1 : order (Fin.last d) = 1) {var : List Int → Res Flt}
    (hok : ∀ idx : (k : Fin (d + 1)) → Fin (order k + 1), ∃ v, var (tup idx) = .ok v) (hc : ConstantAlong order (Fin.last d) var) (x : Fin (d + 1) → Flt)
    {g : Fin (d + 1) → Flt} (hg : ParentElement.gradient (floatArith T.format) e (List.ofFn x) var = .ok (List.ofFn g)) {y : ℝ}
    (hy : (g (Fin.last d)).datum = .finite y) : y = 0 := by
  obtain ⟨fam, b, hb, hk⟩ := h.bases
  obtain rfl : e = Lemmas.elementOf b := by
    rcases e with ⟨s, bs⟩
    have hs : s = .ok ((d + 1 : ℕ) : Int) := h.shape
    have hb : bs = List.ofFn b := hb
    rw [hs, hb]; rfl
  have hcount : ∀ k, (b k).numSupportPoints = ((order k + 1 : ℕ) : Int) := fun k => by
    rw [form T (fam k) (h.orders k).2 (hk k).2.2]
  have hl := (hk (Fin.last d)).2.2
  rw [h1] at hl
  obtain ⟨f, hf⟩ := zero_value T (fam (Fin.last d)) hl 0
  obtain ⟨f', hf'⟩ := zero_value T (fam (Fin.last d)) hl 1
  obtain ⟨C, hC⟩ := mirrored_points T (fam (Fin.last d)) (order := 1) (.inl rfl)
  obtain ⟨bl, hbl⟩ : ∃ bl, bl = b (Fin.last d) := ⟨_, rfl⟩
  have hform := form T (fam (Fin.last d)) (by norm_num) hl
  obtain ⟨g', hg', hz⟩ := gradient_last (n := fun k => order k + 1) hcount (show order (Fin.last d) + 1 = 2 by rw [h1]) (x := x)
    (fun γ γ' hγ hγ' hfin hfin' => by
      rw [hform] at hγ hγ' hf hf'
      exact linear_gradients (one_exact T) hC hf hf' hγ hγ' hfin hfin') (var := var) (fun τ hτ => by
      have hb : ∀ (j : Int), 0 ≤ j → j < 2 → ∀ k : Fin (d + 1), 0 ≤ (Fin.snoc τ j : Fin (d + 1) → Int) k ∧
          (Fin.snoc τ j : Fin (d + 1) → Int) k < ((order k + 1 : ℕ) : Int) := fun j h0 h2 k => by
        refine Fin.lastCases ?_ (fun k => ?_) k
        · rw [Fin.snoc_last, h1]; exact ⟨h0, h2⟩
        · rw [Fin.snoc_castSucc]; exact hτ k
      have he : ∀ (j : Int) (h0 : 0 ≤ j) (h2 : j < 2), tup (fun k => (⟨((Fin.snoc τ j : Fin (d + 1) → Int) k).toNat, by
          have := hb j h0 h2 k; omega⟩ : Fin (order k + 1))) = List.ofFn τ ++ [j] := fun j h0 h2 => by
        have : ∀ k : Fin (d + 1), (((Fin.snoc τ j : Fin (d + 1) → Int) k).toNat : Int) = (Fin.snoc τ j : Fin (d + 1) → Int) k := fun k =>
          Int.toNat_of_nonneg (hb j h0 h2 k).1
        rw [tup]
        simp only [this]
        rw [List.ofFn_succ_last]
        simp
      obtain ⟨v, hv⟩ := hok (fun k => ⟨((Fin.snoc τ 0 : Fin (d + 1) → Int) k).toNat, by have := hb 0 (by decide) (by decide) k; omega⟩)
      have hcc := hc (fun k => ⟨((Fin.snoc τ 0 : Fin (d + 1) → Int) k).toNat, by have := hb 0 (by decide) (by decide) k; omega⟩)
        ⟨1, by rw [h1]; decide⟩
      refine ⟨v, by rw [← he 0 (by decide) (by decide)]; exact hv, ?_⟩
      rw [hv] at hcc
      rw [← hcc, ← he 1 (by decide) (by decide)]
      congr 2
      funext k
      refine Fin.lastCases ?_ (fun k => ?_) k
      · rw [Function.update_self]
        apply Fin.ext
        simp
      · rw [Function.update_of_ne (Fin.castSucc_lt_last k).ne]
        apply Fin.ext
        simp) hg
  obtain rfl : g = g' := List.ofFn_injective hg'
  exact Datum.finite.inj (hy.symm.trans (hz ⟨y, hy⟩))

/-- **C130, finite values.** So it is with up to three dimensions at all points of the parent element, for nodal values up to `2^56`: there the
derivative is finite. -/
theorem C130_finite_partial (h : IsShippedIn T order c e) (hd : d + 1 ≤ 3) (h1 : order (Fin.last d) = 1) {var : List Int → Res Flt}
    (y : ((k : Fin (d + 1)) → Fin (order k + 1)) → ℝ) (hy : ∀ idx, var (tup idx) = .ok (Flt.ofReal (y idx))) (hY : ∀ idx, |y idx| ≤ 2 ^ 56)
    (hc : ConstantAlong order (Fin.last d) var) (x : Fin (d + 1) → ℝ) (hx : ∀ k, |x k| ≤ 1) :
    ∃ g : Fin (d + 1) → Flt,
      ParentElement.gradient (floatArith T.format) e (List.ofFn fun k => Flt.ofReal (x k)) var = .ok (List.ofFn g) ∧
      (g (Fin.last d)).datum = .finite 0 := by
  obtain ⟨g, hg, hw⟩ := C100_interpolation_gradient h hd var y hy (Y := 2 ^ 56) (by norm_num) le_rfl hY x hx
  obtain ⟨z, hz, -⟩ := hw (Fin.last d)
  refine ⟨g, hg, ?_⟩
  rw [hz, C130_partial h h1 (fun idx => ⟨_, hy idx⟩) hc _ hg hz]

end element

private theorem real_le {q : ℚ} {n : ℕ} (h : |q| ≤ n) : |(q : ℝ)| ≤ n := by
  rw [← Rat.cast_abs]; exact_mod_cast h

/-- An element with the same basis in all directions. -/
private theorem same_shipped (T : RealType) (fam : Family) {order d : ℕ} (hd : 0 < d) (h1 : 1 ≤ order) (h8 : order ≤ 8) (hs : fam.Supports order) :
    ∃ (b : Basis Flt) (c : Fin d → Fin (order + 1) → ℝ), T.arith.lagrangeBasis (fam.spacingIn T.arith) order = .ok b ∧
      IsShippedIn T (fun _ : Fin d => order) c ⟨.ok d, List.replicate d b⟩ := by
  obtain ⟨c, -, -, hc⟩ := C100_points T fam order h1 h8 hs
  obtain ⟨b, hb, -⟩ := C100_basis T fam h1 h8 hs hc
  exact ⟨b, fun _ => c, hb, hd, rfl, fun _ => ⟨h1, h8⟩, fun _ => fam, fun _ => b, (List.ofFn_const ..).symm, fun _ => ⟨hs, hc, hb⟩⟩

/-- **C130 is violated** otherwise, even for constant nodal values.  With any of the families, in `float` and in `double`:
the first derivative of a constant on a square of order 1 is not zero everywhere, and neither is the derivative of a constant on a line of
order 2, 3 or 4. -/
theorem C130_violated : ¬ NoSpuriousGradient ∧
    (∀ (T : RealType) (fam : Family), ∃ (b : Basis Flt) (v x y z : ℝ),
      T.arith.lagrangeBasis (fam.spacingIn T.arith) 1 = .ok b ∧ Represents T.format v ∧ |v| ≤ 2 ^ 56 ∧ |x| ≤ 1 ∧ Represents T.format x ∧
      ParentElement.gradient (floatArith T.format) ⟨.ok 2, [b, b]⟩ [Flt.ofReal 0, Flt.ofReal x] (fun _ => .ok (Flt.ofReal v))
        = .ok [Flt.ofReal y, Flt.ofReal z] ∧ y ≠ 0) ∧
    (∀ (T : RealType) (fam : Family) (order : ℕ), 2 ≤ order → order ≤ 4 → fam.Supports order → ∃ (b : Basis Flt) (v x y : ℝ),
      T.arith.lagrangeBasis (fam.spacingIn T.arith) order = .ok b ∧ Represents T.format v ∧ |v| ≤ 2 ^ 56 ∧ |x| ≤ 1 ∧ Represents T.format x ∧
      ParentElement.gradient (floatArith T.format) ⟨.ok 1, [b]⟩ [Flt.ofReal x] (fun _ => .ok (Flt.ofReal v)) = .ok [Flt.ofReal y] ∧ y ≠ 0) := by
  have line : ∀ (T : RealType) (fam : Family) (order : ℕ), 2 ≤ order → order ≤ 4 → fam.Supports order → ∃ (b : Basis Flt) (v x y : ℝ),
      T.arith.lagrangeBasis (fam.spacingIn T.arith) order = .ok b ∧ Represents T.format v ∧ |v| ≤ 2 ^ 56 ∧ |x| ≤ 1 ∧ Represents T.format x ∧
      ParentElement.gradient (floatArith T.format) ⟨.ok 1, [b]⟩ [Flt.ofReal x] (fun _ => .ok (Flt.ofReal v)) = .ok [Flt.ofReal y] ∧ y ≠ 0 := by
    intro T fam order h2 h4 hs
    have hm : order ∈ [2, 3, 4] := by simp only [List.mem_cons, List.not_mem_nil, or_false]; omega
    have hw : constantDiffers T fam order 1 [(constantWitness T fam order).2] (constantWitness T fam order).1 = true := by
      cases fam with
      | gaussLegendre =>
        refine constant_line_legendre order ?_ T (mem_types T)
        have := hs.2
        simp only [List.mem_cons, List.not_mem_nil, or_false]; omega
      | equal => cases T with
        | float => exact constant_line_float order hm _ (by decide)
        | double => exact constant_line_double order hm _ (by decide)
      | gaussLobatto => cases T with
        | float => exact constant_line_float order hm _ (by decide)
        | double => exact constant_line_double order hm _ (by decide)
    obtain ⟨q, l, hq, hk, hl, hc, hbound, hx⟩ := constantDiffers_spec hw
    obtain rfl : l = [] := List.eq_nil_of_length_eq_zero (by omega)
    obtain ⟨b, -, hb, -⟩ := same_shipped T fam (d := 1) (by norm_num) (by omega) (by omega) hs
    exact ⟨b, _, _, q, hb, hc, by have := real_le (n := 2 ^ 56) (by exact_mod_cast hbound); exact_mod_cast this,
      by exact_mod_cast real_le (n := 1) (by exact_mod_cast (hx _ (List.mem_singleton.2 rfl)).1), (hx _ (List.mem_singleton.2 rfl)).2,
      knownConstant_sound hk (form T fam (by omega) hb), by exact_mod_cast hq⟩
  refine ⟨fun hall => ?_, fun T fam => ?_, line⟩
  · obtain ⟨b, v, x, y, hb, hv, hv', hx, hx', hg, hy⟩ := line .double .gaussLobatto 3 (by norm_num) (by norm_num) ⟨by norm_num, by norm_num⟩
    obtain ⟨b', c, hb', hsh⟩ := same_shipped .double .gaussLobatto (order := 3) (d := 1) (by norm_num) (by norm_num) (by norm_num)
      ⟨by norm_num, by norm_num⟩
    obtain rfl := Res.ok.inj (hb.symm.trans hb')
    obtain ⟨g, hg', h0⟩ := hall .double 1 (fun _ => 3) c _ hsh 0 (fun _ => .ok (Flt.ofReal v)) (fun _ => v) (fun _ => rfl)
      (fun _ => ⟨hv, hv'⟩) (fun _ _ => rfl) (fun _ => x) fun _ => ⟨hx, hx'⟩
    have hgg := Res.ok.inj (hg'.symm.trans hg)
    rw [List.ofFn_succ, List.ofFn_zero] at hgg
    rw [(List.cons.inj hgg).1] at h0
    exact hy (Datum.finite.inj h0)
  · have hs : fam.Supports 1 := by cases fam <;> constructor <;> omega
    obtain ⟨q, l, hq, hk, hl, hc, hbound, hx⟩ := constantDiffers_spec (constant_square T (mem_types T) fam (by cases fam <;> decide))
    obtain ⟨r, rfl⟩ := List.length_eq_one_iff.1 (show l.length = 1 by omega)
    obtain ⟨b, -, hb, -⟩ := same_shipped T fam (d := 2) (by norm_num) (by norm_num) (by norm_num) hs
    have hx := hx (constantWitness T fam 1).2 (by simp)
    have hg := knownConstant_sound hk (form T fam (by norm_num) hb)
    refine ⟨b, _, _, q, r, hb, hc, by have := real_le (n := 2 ^ 56) (by exact_mod_cast hbound); exact_mod_cast this,
      by exact_mod_cast real_le (n := 1) (by exact_mod_cast hx.1), hx.2, ?_, by exact_mod_cast hq⟩
    rw [← Rat.cast_zero]
    exact hg

/-- Non-vacuity of C130: a trilinear cube in `float` with nodal values that change in the first and second directions but not in the third, at
a point inside.  The gradient is finite; its third component is zero. -/
example : ∃ (b : Basis Flt) (g : Fin 3 → Flt), floatMixed.lagrangeBasis floatMixed.equalSpacing 1 = .ok b ∧
    ParentElement.gradient (floatArith binary32) ⟨.ok 3, List.replicate 3 b⟩ (List.ofFn fun k : Fin 3 => Flt.ofReal (![1 / 2, -1 / 4, 3 / 4] k))
      (fun l => .ok (Flt.ofReal (if l.getD 0 0 = 1 then 3 else if l.getD 1 0 = 1 then 7 else 0))) = .ok (List.ofFn g) ∧
    (g 2).datum = .finite 0 := by
  obtain ⟨b, c, hb, h⟩ := same_shipped .float .equal (order := 1) (d := 3) (by norm_num) (by norm_num) (by norm_num) ⟨by norm_num, by norm_num⟩
  obtain ⟨g, hg, h0⟩ := C130_finite_partial h (by norm_num) rfl
    (var := fun l => .ok (Flt.ofReal (if l.getD 0 0 = 1 then 3 else if l.getD 1 0 = 1 then 7 else 0)))
    (fun idx => if (tup idx).getD 0 0 = 1 then 3 else if (tup idx).getD 1 0 = 1 then 7 else 0) (fun _ => rfl)
    (fun idx => by split_ifs <;> norm_num) (fun idx j => by simp [tup, Function.update]) ![1 / 2, -1 / 4, 3 / 4]
    (fun k => by fin_cases k <;> norm_num [abs_le])
  exact ⟨b, g, hb, hg, h0⟩

end Verif.Props
