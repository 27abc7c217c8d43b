import Verif.Lemmas.AxesFloat
import Verif.Props.Finite

/-!
# Property C133: the numbering of the axes in `float` and `double`

In exact arithmetic it does not matter which direction of an element comes first.  With rounding, products and sums depend on their order.
-/

namespace Verif.Props

open Verif.Spec Verif.Lemmas

/-- The claim of C133 about shape functions: number the directions of an element in another order `σ`, and the indices and coordinates
with them; then the shape functions have the same values. -/
def ShapesInterchangeable : Prop :=
  ∀ (T : RealType) (d : ℕ) (order : Fin d → ℕ) (c : (k : Fin d) → Fin (order k + 1) → ℝ) (σ : Equiv.Perm (Fin d)) (e e' : Element Flt), d ≤ 3 →
    IsShippedIn T order c e → IsShippedIn T (fun k => order (σ k)) (fun k => c (σ k)) e' →
    ∀ (idx : (k : Fin d) → Fin (order k + 1)) (x : Fin d → ℝ), (∀ k, |x k| ≤ 1 ∧ Represents T.format (x k)) →
      ParentElement.basisValue (floatArith T.format) e' (tup fun k => idx (σ k)) (List.ofFn fun k => Flt.ofReal (x (σ k))) =
        ParentElement.basisValue (floatArith T.format) e (tup idx) (List.ofFn fun k => Flt.ofReal (x k))

/-- The claim of C133 about interpolation. -/
def FieldsInterchangeable : Prop :=
  ∀ (T : RealType) (d : ℕ) (order : Fin d → ℕ) (c : (k : Fin d) → Fin (order k + 1) → ℝ) (σ : Equiv.Perm (Fin d)) (e e' : Element Flt), d ≤ 3 →
    IsShippedIn T order c e → IsShippedIn T (fun k => order (σ k)) (fun k => c (σ k)) e' →
    ∀ (u v : List Int → Res Flt) (y : ((k : Fin d) → Fin (order k + 1)) → ℝ), (∀ idx, u (tup idx) = .ok (Flt.ofReal (y idx))) →
      (∀ idx, v (tup fun k => idx (σ k)) = .ok (Flt.ofReal (y idx))) → (∀ idx, Represents T.format (y idx) ∧ |y idx| ≤ 1) →
    ∀ x : Fin d → ℝ, (∀ k, |x k| ≤ 1 ∧ Represents T.format (x k)) →
      ParentElement.value (floatArith T.format) e' (List.ofFn fun k => Flt.ofReal (x (σ k))) v =
        ParentElement.value (floatArith T.format) e (List.ofFn fun k => Flt.ofReal (x k)) u

/-! ### exchanging the last two directions -/

section exchange
variable {F : FloatFormat} {d : ℕ} (b : Fin (d + 2) → Basis Flt) (idx : Fin (d + 2) → Int) (x : Fin (d + 2) → Flt)
  {σ : Equiv.Perm (Fin (d + 2))} (hσ : σ = Equiv.swap (Fin.last d).castSucc (Fin.last (d + 1)))

private theorem as_product {n : ℕ} (b : Fin n → Basis Flt) (idx : Fin n → Int) (x : Fin n → Flt) :
    ParentElement.basisValue (floatArith F) ⟨.ok (n : ℕ), List.ofFn b⟩ (List.ofFn idx) (List.ofFn x)
      = BasisProduct.value (floatArith F) (List.ofFn b) (List.ofFn idx) (List.ofFn x) ∧
    ParentElement.basisGradient (floatArith F) ⟨.ok (n : ℕ), List.ofFn b⟩ (List.ofFn idx) (List.ofFn x)
      = BasisProduct.gradient (floatArith F) (List.ofFn b) (List.ofFn idx) (List.ofFn x) := by
  have := basisValue_eq (floatArith F) (elementOf_instantiate b) (idx := List.ofFn idx) (by simp [Lemmas.elementOf]) (List.ofFn x)
  exact ⟨this.1, this.2.2.1⟩

include hσ

/-- **C133, shape functions.** Exchanging the last two directions of an element never changes the value of a shape function: not for any
bases, in any dimension, for any format, nor at points that are infinite or not a number. -/
theorem C133_partial {v : Flt}
    (h : ParentElement.basisValue (floatArith F) ⟨.ok (d + 2 : ℕ), List.ofFn b⟩ (List.ofFn idx) (List.ofFn x) = .ok v) :
    ParentElement.basisValue (floatArith F) ⟨.ok (d + 2 : ℕ), List.ofFn fun k => b (σ k)⟩ (List.ofFn fun k => idx (σ k))
      (List.ofFn fun k => x (σ k)) = .ok v := by
  subst hσ
  rw [(as_product _ _ _).1] at h ⊢
  exact value_exchanged h

/-- **C133, gradients.** Nor does it change the gradient of a shape function, other than exchanging its last two components. -/
theorem C133_gradient_partial {g : Fin (d + 2) → Flt}
    (h : ParentElement.basisGradient (floatArith F) ⟨.ok (d + 2 : ℕ), List.ofFn b⟩ (List.ofFn idx) (List.ofFn x) = .ok (List.ofFn g)) :
    ParentElement.basisGradient (floatArith F) ⟨.ok (d + 2 : ℕ), List.ofFn fun k => b (σ k)⟩ (List.ofFn fun k => idx (σ k))
      (List.ofFn fun k => x (σ k)) = .ok (List.ofFn fun a => g (σ a)) := by
  subst hσ
  rw [(as_product _ _ _).2] at h ⊢
  exact gradient_exchanged h

end exchange

/-- **C133, squares.** On a square that is every numbering of the axes. -/
theorem C133_square_partial {F : FloatFormat} (b : Fin 2 → Basis Flt) (idx : Fin 2 → Int) (x : Fin 2 → Flt) (σ : Equiv.Perm (Fin 2)) :
    (∀ v, ParentElement.basisValue (floatArith F) ⟨.ok (2 : ℕ), List.ofFn b⟩ (List.ofFn idx) (List.ofFn x) = .ok v →
      ParentElement.basisValue (floatArith F) ⟨.ok (2 : ℕ), List.ofFn fun k => b (σ k)⟩ (List.ofFn fun k => idx (σ k))
        (List.ofFn fun k => x (σ k)) = .ok v) ∧
    ∀ g : Fin 2 → Flt, ParentElement.basisGradient (floatArith F) ⟨.ok (2 : ℕ), List.ofFn b⟩ (List.ofFn idx) (List.ofFn x) = .ok (List.ofFn g) →
      ParentElement.basisGradient (floatArith F) ⟨.ok (2 : ℕ), List.ofFn fun k => b (σ k)⟩ (List.ofFn fun k => idx (σ k))
        (List.ofFn fun k => x (σ k)) = .ok (List.ofFn fun a => g (σ a)) := by
  have two : ∀ σ : Equiv.Perm (Fin 2), σ = 1 ∨ σ = Equiv.swap 0 1 := by decide
  rcases two σ with rfl | h
  · exact ⟨fun _ h => h, fun _ h => h⟩
  · exact ⟨fun v hv => C133_partial b idx x h hv, fun g hg => C133_gradient_partial b idx x h hg⟩

/-! ### other numberings -/

section difference
variable {T : RealType} {d : ℕ} {order : Fin d → ℕ} {c : (k : Fin d) → Fin (order k + 1) → ℝ} {σ : Equiv.Perm (Fin d)} {e e' : Element Flt}

private theorem renumbered {M : Type} [AddCommMonoid M] (f : ((k : Fin d) → Fin (order (σ k) + 1)) → M) :
    ∑ idx, f idx = ∑ idx : (k : Fin d) → Fin (order k + 1), f fun k => idx (σ k) :=
  (Equiv.sum_comp (Equiv.piCongrLeft' (fun k => Fin (order k + 1)) σ.symm) f).symm

private theorem same_roundings : interpolationRoundings (fun k => order (σ k)) = interpolationRoundings order := by
  unfold interpolationRoundings
  exact congrArg₂ (· + ·) (Equiv.sum_comp σ fun k => 7 * order k + 2) (Equiv.prod_comp σ fun k => order k + 1)

/-- **C133, the difference.** However the axes of a shipped element in up to three dimensions are numbered, interpolated values differ by no more
than twice the rounding error of C100. -/
theorem C133_difference_partial (h : IsShippedIn T order c e) (h' : IsShippedIn T (fun k => order (σ k)) (fun k => c (σ k)) e') (hd : d ≤ 3)
    {u v : List Int → Res Flt} {y : ((k : Fin d) → Fin (order k + 1)) → ℝ} (hu : ∀ idx, u (tup idx) = .ok (Flt.ofReal (y idx)))
    (hv : ∀ idx : (k : Fin d) → Fin (order k + 1), v (tup fun k => idx (σ k)) = .ok (Flt.ofReal (y idx)))
    {Y : ℝ} (hY1 : 1 ≤ Y) (hY2 : Y ≤ 2 ^ 56) (hY : ∀ idx, |y idx| ≤ Y) (x : Fin d → ℝ) (hx : ∀ k, |x k| ≤ 1) :
    let N := fun idx : (k : Fin d) → Fin (order k + 1) =>
      ∏ k, ∏ t ∈ Finset.univ.erase (idx k), (x k - c k t) / (c k (idx k) - c k t)
    ∃ r s p q, ParentElement.value (floatArith T.format) e (List.ofFn fun k => Flt.ofReal (x k)) u = .ok r ∧ r.datum = .finite p ∧
      ParentElement.value (floatArith T.format) e' (List.ofFn fun k => Flt.ofReal (x (σ k))) v = .ok s ∧ s.datum = .finite q ∧
      |p - q| ≤ 2 * (errBound (unitRoundoff T.format) (interpolationRoundings order) * ∑ idx, |N idx| * |y idx|
          + 2 ^ 66 * Y * smallestPositive T.format) := by
  intro N
  obtain ⟨r, hr, p, hp, e1⟩ := C100_interpolation h hd u y hu hY1 hY2 hY x hx
  let back : ((k : Fin d) → Fin (order (σ k) + 1)) → (k : Fin d) → Fin (order k + 1) := (Equiv.piCongrLeft' (fun k => Fin (order k + 1)) σ.symm).symm
  have hback : ∀ i, (fun k => back i (σ k)) = i := (Equiv.piCongrLeft' (fun k => Fin (order k + 1)) σ.symm).apply_symm_apply
  have hforth : ∀ i : (k : Fin d) → Fin (order k + 1), back (fun k => i (σ k)) = i :=
    (Equiv.piCongrLeft' (fun k => Fin (order k + 1)) σ.symm).symm_apply_apply
  obtain ⟨s, hs, q, hq, e2⟩ := C100_interpolation h' hd v (fun i => y (back i)) (fun i => by
      have := hv (back i); rwa [hback] at this) hY1 hY2 (fun i => hY _) (fun k => x (σ k)) fun k => hx _
  have hN : ∀ idx : (k : Fin d) → Fin (order k + 1),
      (∏ k, ∏ t ∈ Finset.univ.erase (idx (σ k)), (x (σ k) - c (σ k) t) / (c (σ k) (idx (σ k)) - c (σ k) t)) = N idx := fun idx =>
    Equiv.prod_comp σ fun k => ∏ t ∈ Finset.univ.erase (idx k), (x k - c k t) / (c k (idx k) - c k t)
  rw [renumbered, renumbered, same_roundings] at e2
  simp only [hN, hforth] at e2
  refine ⟨r, s, p, q, hr, hp, hs, hq, ?_⟩
  have e1 : |p - ∑ idx, N idx * y idx| ≤ errBound (unitRoundoff T.format) (interpolationRoundings order) * ∑ idx, |N idx| * |y idx|
      + 2 ^ 66 * Y * smallestPositive T.format := e1
  calc |p - q| ≤ |p - ∑ idx, N idx * y idx| + |∑ idx, N idx * y idx - q| := abs_sub_le _ _ _
    _ ≤ _ := by rw [abs_sub_comm (∑ idx, N idx * y idx) q]; linarith

end difference

/-! ### counterexamples -/

private theorem form (T : RealType) (fam : Family) {order : ℕ} (h8 : order ≤ 8) {b : Basis Flt}
    (hb : T.arith.lagrangeBasis (fam.spacingIn T.arith) order = .ok b) :
    b = ⟨((order + 1 : ℕ) : Int), LagrangeBasis.value (floatArith T.format) (fam.spacingIn T.arith ((order + 1 : ℕ) : Int)) ((order + 1 : ℕ) : Int),
        LagrangeBasis.gradient (floatArith T.format) (fam.spacingIn T.arith ((order + 1 : ℕ) : Int)) ((order + 1 : ℕ) : Int)⟩ := by
  rw [C88_basis, lagrangeBasis_ok _ _ (by omega)] at hb
  exact (Res.ok.inj hb).symm

/-- An element with the same basis in all directions. -/
private theorem same_shipped (T : RealType) (fam : Family) {order d : ℕ} (hd : 0 < d) (h1 : 1 ≤ order) (h8 : order ≤ 8) (hs : fam.Supports order) :
    ∃ (b : Basis Flt) (c : Fin (order + 1) → ℝ), T.arith.lagrangeBasis (fam.spacingIn T.arith) order = .ok b ∧
      IsShippedIn T (fun _ : Fin d => order) (fun _ => c) ⟨.ok d, List.replicate d b⟩ := by
  obtain ⟨c, -, -, hc⟩ := C100_points T fam order h1 h8 hs
  obtain ⟨b, hb, -⟩ := C100_basis T fam h1 h8 hs hc
  exact ⟨b, c, hb, hd, rfl, fun _ => ⟨h1, h8⟩, fun _ => fam, fun _ => b, (List.ofFn_const ..).symm, fun _ => ⟨hs, hc, hb⟩⟩

private theorem cast_le {q : ℚ} (h : |q| ≤ 1) : |(q : ℝ)| ≤ 1 := by
  rw [← Rat.cast_abs]; exact_mod_cast h

private theorem changed (T : RealType) (fam : Family) {order : ℕ} (h1 : 1 ≤ order) (h8 : order ≤ 8) (hs : fam.Supports order) :
    ∃ n, shapeChanged T fam order n = true := by
  have upTo : ∀ n, 1 ≤ n → n ≤ 8 → n ∈ [1, 2, 3, 4, 5, 6, 7, 8] := by
    intro n h1 h8
    simp only [List.mem_cons, List.not_mem_nil, or_false]; omega
  have h : thirdCoordinates.any (shapeChanged T fam order) = true := by
    cases fam
    · cases T
      · exact changed_equal_float order (upTo _ h1 h8)
      · exact changed_equal_double order (upTo _ h1 h8)
    · refine changed_legendre T (mem_types T) order ?_
      have := hs.2
      simp only [List.mem_cons, List.not_mem_nil, or_false]; omega
    · cases T
      · exact changed_lobatto_float order (upTo _ h1 h8)
      · exact changed_lobatto_double order (upTo _ h1 h8)
  obtain ⟨n, -, hn⟩ := List.any_eq_true.1 h
  exact ⟨n, hn⟩

/-- **C133 is violated.** In a cube, whichever of the families, orders from 1 to 8 and types is taken, exchanging the first two directions changes
the value of the first shape function at some point.  On a square of order 1 exchanging the directions changes the interpolated value of some
field at the centre. -/
theorem C133_violated : ¬ ShapesInterchangeable ∧ ¬ FieldsInterchangeable ∧
    (∀ (T : RealType) (fam : Family) (order : ℕ), 1 ≤ order → order ≤ 8 → fam.Supports order → ∃ (b : Basis Flt) (x y z p q : ℝ),
      T.arith.lagrangeBasis (fam.spacingIn T.arith) order = .ok b ∧ (∀ t ∈ [x, y, z], |t| ≤ 1 ∧ Represents T.format t) ∧
      ParentElement.basisValue (floatArith T.format) ⟨.ok (3 : ℕ), [b, b, b]⟩ [0, 0, 0] [Flt.ofReal x, Flt.ofReal y, Flt.ofReal z] = .ok (Flt.ofReal p) ∧
      ParentElement.basisValue (floatArith T.format) ⟨.ok (3 : ℕ), [b, b, b]⟩ [0, 0, 0] [Flt.ofReal y, Flt.ofReal x, Flt.ofReal z] = .ok (Flt.ofReal q) ∧
      p ≠ q) ∧
    ∀ (T : RealType) (fam : Family), ∃ (b : Basis Flt) (y : List Int → ℝ) (p q : ℝ),
      T.arith.lagrangeBasis (fam.spacingIn T.arith) (1 : ℕ) = .ok b ∧ (∀ i j : Fin 2, Represents T.format (y [i, j]) ∧ |y [i, j]| ≤ 1) ∧
      ParentElement.value (floatArith T.format) ⟨.ok (2 : ℕ), [b, b]⟩ [Flt.ofReal 0, Flt.ofReal 0] (fun i => .ok (Flt.ofReal (y i))) = .ok (Flt.ofReal p) ∧
      ParentElement.value (floatArith T.format) ⟨.ok (2 : ℕ), [b, b]⟩ [Flt.ofReal 0, Flt.ofReal 0] (fun i => .ok (Flt.ofReal (y i.reverse)))
        = .ok (Flt.ofReal q) ∧ p ≠ q := by
  have shapes : ∀ (T : RealType) (fam : Family) (order : ℕ), 1 ≤ order → order ≤ 8 → fam.Supports order → ∀ b : Basis Flt,
      T.arith.lagrangeBasis (fam.spacingIn T.arith) order = .ok b → ∃ x y z p q : ℝ, (∀ t ∈ [x, y, z], |t| ≤ 1 ∧ Represents T.format t) ∧
      ParentElement.basisValue (floatArith T.format) ⟨.ok (3 : ℕ), [b, b, b]⟩ [0, 0, 0] [Flt.ofReal x, Flt.ofReal y, Flt.ofReal z] = .ok (Flt.ofReal p) ∧
      ParentElement.basisValue (floatArith T.format) ⟨.ok (3 : ℕ), [b, b, b]⟩ [0, 0, 0] [Flt.ofReal y, Flt.ofReal x, Flt.ofReal z] = .ok (Flt.ofReal q) ∧
      p ≠ q := by
    intro T fam order h1 h8 hs b hb
    obtain ⟨n, hn⟩ := changed T fam h1 h8 hs
    obtain ⟨x, y, z, p, q, hne, e1, e2, hx⟩ := shapeChanged_spec hn
    refine ⟨x, y, z, p, q, fun t ht => ?_, knownShape_sound (form T fam h8 hb) e1, knownShape_sound (form T fam h8 hb) e2, by exact_mod_cast hne⟩
    simp only [List.mem_cons, List.not_mem_nil, or_false] at ht
    rcases ht with rfl | rfl | rfl
    · exact ⟨cast_le (hx x (by simp)).1, (hx x (by simp)).2⟩
    · exact ⟨cast_le (hx y (by simp)).1, (hx y (by simp)).2⟩
    · exact ⟨cast_le (hx z (by simp)).1, (hx z (by simp)).2⟩
  have fields : ∀ (T : RealType) (fam : Family) (b : Basis Flt), T.arith.lagrangeBasis (fam.spacingIn T.arith) (1 : ℕ) = .ok b →
      ∃ (y : List Int → ℝ) (p q : ℝ), (∀ i j : Fin 2, Represents T.format (y [i, j]) ∧ |y [i, j]| ≤ 1) ∧
      ParentElement.value (floatArith T.format) ⟨.ok (2 : ℕ), [b, b]⟩ [Flt.ofReal 0, Flt.ofReal 0] (fun i => .ok (Flt.ofReal (y i))) = .ok (Flt.ofReal p) ∧
      ParentElement.value (floatArith T.format) ⟨.ok (2 : ℕ), [b, b]⟩ [Flt.ofReal 0, Flt.ofReal 0] (fun i => .ok (Flt.ofReal (y i.reverse)))
        = .ok (Flt.ofReal q) ∧ p ≠ q := by
    intro T fam b hb
    obtain ⟨p, q, hne, e1, e2⟩ := fieldChanged_spec (field_changed T (mem_types T) fam (by cases fam <;> decide))
    have k1 := knownField_sound (form T fam (by norm_num) hb) e1
    have k2 := knownField_sound (form T fam (by norm_num) hb) e2
    simp only [List.map_cons, List.map_nil, Rat.cast_zero] at k1 k2
    refine ⟨fun l => squareNodes T l, p, q, fun i j => ?_, k1, k2, by exact_mod_cast hne⟩
    have := squareNodes_represented T (mem_types T) [((i : ℕ) : Int), ((j : ℕ) : Int)] (by fin_cases i <;> fin_cases j <;> decide)
    exact ⟨round_represents _ (evalRound_sound _ this.1), cast_le this.2⟩
  have sup : Family.equal.Supports (1 : ℕ) := by constructor <;> norm_num
  refine ⟨fun hall => ?_, fun hall => ?_, fun T fam order h1 h8 hs => ?_, fun T fam => ?_⟩
  · obtain ⟨b, c, hb, h⟩ := same_shipped .double .equal (order := 1) (d := 3) (by norm_num) (by norm_num) (by norm_num) sup
    obtain ⟨x, y, z, p, q, hx, e1, e2, hne⟩ := shapes .double .equal 1 (by norm_num) (by norm_num) sup b hb
    have := hall .double 3 _ _ (Equiv.swap 0 1) _ _ (by norm_num) h h (fun _ => 0) ![x, y, z] (fun k => hx _ (by fin_cases k <;> simp))
    have l1 : (List.ofFn fun k : Fin 3 => Flt.ofReal (![x, y, z] (Equiv.swap 0 1 k))) = [Flt.ofReal y, Flt.ofReal x, Flt.ofReal z] := rfl
    have l2 : (List.ofFn fun k : Fin 3 => Flt.ofReal (![x, y, z] k)) = [Flt.ofReal x, Flt.ofReal y, Flt.ofReal z] := rfl
    rw [l1, l2] at this
    have := (e2.symm.trans this).trans e1
    exact hne (Datum.finite.inj (Flt.mk.inj (Res.ok.inj this)).1).symm
  · obtain ⟨b, c, hb, h⟩ := same_shipped .double .equal (order := 1) (d := 2) (by norm_num) (by norm_num) (by norm_num) sup
    obtain ⟨y, p, q, hy, e1, e2, hne⟩ := fields .double .equal b hb
    have r0 : Represents binary64 0 := by
      have := round_represents binary64 (evalRound_sound binary64 (q := 0) (r := 0) (by decide +kernel))
      push_cast at this; exact this
    have := hall .double 2 _ _ (Equiv.swap 0 1) _ _ (by norm_num) h h (fun i => .ok (Flt.ofReal (y i))) (fun i => .ok (Flt.ofReal (y i.reverse)))
      (fun i => y [((i 0 : ℕ) : Int), ((i 1 : ℕ) : Int)]) (fun _ => rfl) (fun _ => rfl) (fun i => hy _ _) (fun _ => 0) fun _ => ⟨by norm_num, r0⟩
    have := (e2.symm.trans this).trans e1
    exact hne (Datum.finite.inj (Flt.mk.inj (Res.ok.inj this)).1).symm
  · obtain ⟨b, -, hb, -⟩ := same_shipped T fam (d := 1) (by norm_num) h1 h8 hs
    obtain ⟨x, y, z, p, q, hx, e1, e2, hne⟩ := shapes T fam order h1 h8 hs b hb
    exact ⟨b, x, y, z, p, q, hb, hx, e1, e2, hne⟩
  · obtain ⟨b, -, hb, -⟩ := same_shipped T fam (order := 1) (d := 1) (by norm_num) (by norm_num) (by norm_num) (by cases fam <;> constructor <;> norm_num)
    obtain ⟨y, p, q, hy, e1, e2, hne⟩ := fields T fam b hb
    exact ⟨b, y, p, q, hb, hy, e1, e2, hne⟩

/-- Non-vacuity of C133: in a cube of order 2 on Gauss-Lobatto points the shape function of the indices 0, 1, 2 at (1/2, 1/4, -3/4) is
45/4096 in `double`, also with the last two directions exchanged; and the interpolated values of the field that is the first
index differ little when the first two directions are exchanged. -/
example : ∃ (b : Basis Flt) (c : Fin 3 → ℝ), doubleMixed.lagrangeBasis doubleMixed.gaussLobattoSpacing (2 : ℕ) = .ok b ∧
    IsShippedIn .double (fun _ : Fin 3 => 2) (fun _ => c) ⟨.ok (3 : ℕ), [b, b, b]⟩ ∧
    (ParentElement.basisValue (floatArith binary64) ⟨.ok (3 : ℕ), [b, b, b]⟩ [0, 1, 2]
        [Flt.ofReal (1 / 2), Flt.ofReal (1 / 4), Flt.ofReal (-3 / 4)] = .ok (Flt.ofReal (45 / 4096)) ∧
      ParentElement.basisValue (floatArith binary64) ⟨.ok (3 : ℕ), [b, b, b]⟩ [0, 2, 1]
        [Flt.ofReal (1 / 2), Flt.ofReal (-3 / 4), Flt.ofReal (1 / 4)] = .ok (Flt.ofReal (45 / 4096))) ∧
    ∃ r s p q, ParentElement.value (floatArith binary64) ⟨.ok (3 : ℕ), [b, b, b]⟩ [Flt.ofReal (1 / 3), Flt.ofReal (1 / 5), Flt.ofReal (1 / 7)]
        (fun l => .ok (Flt.ofReal (l.getD 0 0 : ℤ))) = .ok r ∧ r.datum = .finite p ∧
      ParentElement.value (floatArith binary64) ⟨.ok (3 : ℕ), [b, b, b]⟩ [Flt.ofReal (1 / 5), Flt.ofReal (1 / 3), Flt.ofReal (1 / 7)]
        (fun l => .ok (Flt.ofReal (l.getD 1 0 : ℤ))) = .ok s ∧ s.datum = .finite q ∧
      ∃ M, |p - q| ≤ 2 * (errBound (unitRoundoff binary64) (interpolationRoundings fun _ : Fin 3 => 2) * M + 2 ^ 66 * 2 * smallestPositive binary64) := by
  obtain ⟨b, c, hb, h⟩ := same_shipped .double .gaussLobatto (order := 2) (d := 3) (by norm_num) (by norm_num) (by norm_num)
    (by constructor <;> norm_num)
  refine ⟨b, c, hb, h, ?_, ?_⟩
  · have hk : knownShape .double .gaussLobatto 2 3 [0, 1, 2] [1 / 2, 1 / 4, -3 / 4] = .ok (some (45 / 4096)) := by decide +kernel
    have e1 := knownShape_sound (form .double .gaussLobatto (by norm_num) hb) hk
    simp only [List.map_cons, List.map_nil] at e1
    push_cast at e1
    refine ⟨e1, ?_⟩
    exact C133_partial (d := 1) (fun _ => b) ![0, 1, 2] ![Flt.ofReal (1 / 2), Flt.ofReal (1 / 4), Flt.ofReal (-3 / 4)] rfl e1
  · have hx : ∀ k : Fin 3, |(![1 / 3, 1 / 5, 1 / 7] : Fin 3 → ℝ) k| ≤ 1 := fun k => by fin_cases k <;> norm_num [abs_le]
    obtain ⟨r, s, p, q, hr, hp, hs, hq, hle⟩ := C133_difference_partial (σ := Equiv.swap 0 1) h h (by norm_num)
      (u := fun l => .ok (Flt.ofReal (l.getD 0 0 : ℤ))) (v := fun l => .ok (Flt.ofReal (l.getD 1 0 : ℤ)))
      (y := fun i => (((i 0 : ℕ) : ℤ) : ℝ)) (fun _ => rfl) (fun _ => rfl) (Y := 2) (by norm_num) (by norm_num) (fun i => by
        have : (i 0 : ℕ) ≤ 2 := by omega
        have : (((i 0 : ℕ) : ℤ) : ℝ) ≤ 2 := by exact_mod_cast this
        rw [abs_of_nonneg (by positivity)]; exact this) ![1 / 3, 1 / 5, 1 / 7] hx
    exact ⟨r, s, p, q, hr, hp, hs, hq, _, hle⟩

end Verif.Props
