import Verif.Lemmas.MirrorFloat
import Verif.Props.Finite

/-!
# Property C129: mirrored points in `float` and `double`

C37 says that in exact arithmetic function `n - 1 - i` at `-x` has the value of function `i` at `x`.  Computed with rounding, the factors
are the same but their product is formed from the other end.
-/

namespace Verif.Props

open Verif.Spec Verif.Lemmas

/-- The claim of C129: mirrored points give the same values, to the last bit. -/
def MirrorSymmetric : Prop :=
  ∀ (T : RealType) (fam : Family) (order : ℕ), 1 ≤ order → order ≤ 8 → fam.Supports order →
    ∀ b, T.arith.lagrangeBasis (fam.spacingIn T.arith) order = .ok b → ∀ (i : Fin (order + 1)) (x : ℝ), |x| ≤ 1 → Represents T.format x →
      b.value (i.rev : ℕ) (Flt.ofReal (-x)) = b.value (i : ℕ) (Flt.ofReal x)

private theorem one_exact (T : RealType) : (floatArith T.format).lit 1 = Flt.ofReal 1 := by
  have := lit_pow (format_mem T) (s := 0) (by norm_num)
  rwa [pow_zero, pow_zero] at this

private theorem form (T : RealType) (fam : Family) {order : ℕ} (h8 : order ≤ 8) {b : Basis Flt}
    (hb : T.arith.lagrangeBasis (fam.spacingIn T.arith) order = .ok b) : b =
      ⟨((order + 1 : ℕ) : Int), LagrangeBasis.value (floatArith T.format) (fam.spacingIn T.arith ((order + 1 : ℕ) : Int)) ((order + 1 : ℕ) : Int),
        LagrangeBasis.gradient (floatArith T.format) (fam.spacingIn T.arith ((order + 1 : ℕ) : Int)) ((order + 1 : ℕ) : Int)⟩ := by
  rw [C88_basis, lagrangeBasis_ok _ _ (by omega)] at hb
  exact (Res.ok.inj hb).symm

private theorem supports (fam : Family) {order : ℕ} (h : order = 1 ∨ order = 2) : fam.Supports order := by
  cases fam <;> constructor <;> omega

private theorem zero_value (T : RealType) (fam : Family) {order : ℕ} (h : order = 1 ∨ order = 2) {b : Basis Flt}
    (hb : T.arith.lagrangeBasis (fam.spacingIn T.arith) order = .ok b) (i : Fin (order + 1)) :
    ∃ f, b.value (i : ℕ) (Flt.ofReal 0) = .ok f := by
  obtain ⟨c, -, -, hc⟩ := C100_points T fam order (by omega) (by omega) (supports fam h)
  obtain ⟨b', hb', hv⟩ := C100_basis T fam (by omega) (by omega) (supports fam h) hc
  obtain rfl := Res.ok.inj (hb'.symm.trans hb)
  obtain ⟨⟨f, hf, -⟩, -⟩ := hv i 0 (by simp)
  exact ⟨f, hf⟩

/-- **C129, orders 1 and 2.** In `float` and in `double`, for all three families: at every coordinate, also an infinite one or one that
is not a number, function `n - 1 - i` at the mirrored coordinate returns what function `i` returns, to the last bit and with
the same exceptions.  Its derivative, where finite, has the opposite sign and is otherwise the same.  Missing: higher orders, for which
`C129_violated` refutes it. -/
theorem C129_partial (T : RealType) (fam : Family) {order : ℕ} (h : order = 1 ∨ order = 2) {b : Basis Flt}
    (hb : T.arith.lagrangeBasis (fam.spacingIn T.arith) order = .ok b) (i : Fin (order + 1)) (x : Flt) :
    (∃ f, b.value (i : ℕ) x = .ok f ∧ b.value (i.rev : ℕ) x.neg = .ok f) ∧
    ∀ g y, b.gradient (i : ℕ) x = .ok g → g.datum = .finite y → b.gradient (i.rev : ℕ) x.neg = .ok g.neg := by
  obtain ⟨C, hC⟩ := mirrored_points T fam h
  obtain ⟨f, hf⟩ := zero_value T fam h hb i
  have hform := form T fam (by omega) hb
  subst hform
  have hn : order + 1 = 2 ∨ order + 1 = 3 := by omega
  exact ⟨value_mirror (one_exact T) hn hC hf x, fun g y hg hy => gradient_mirror (one_exact T) hn hC hf hg ⟨y, hy⟩⟩

section tensor
variable {T : RealType} {d : ℕ} {order : Fin d → ℕ} {fam : Fin d → Family} {b : Fin d → Basis Flt}

/-- **C129, shape functions.** So it is for elements of orders 1 and 2 in any number of dimensions, if any of the directions are
mirrored: shape functions are the same, and the components of a finite gradient change sign in the mirrored directions only. -/
theorem C129_shape_partial (hd : 0 < d) (h : ∀ k, order k = 1 ∨ order k = 2)
    (hb : ∀ k, T.arith.lagrangeBasis ((fam k).spacingIn T.arith) (order k) = .ok (b k)) (mirrored : Fin d → Bool)
    (idx idx' : (k : Fin d) → Fin (order k + 1)) (hidx : ∀ k, idx' k = if mirrored k then (idx k).rev else idx k)
    (x x' : Fin d → Flt) (hx : ∀ k, x' k = if mirrored k then (x k).neg else x k) :
    (∃ f, ParentElement.basisValue (floatArith T.format) ⟨.ok d, List.ofFn b⟩ (tup idx) (List.ofFn x) = .ok f ∧
      ParentElement.basisValue (floatArith T.format) ⟨.ok d, List.ofFn b⟩ (tup idx') (List.ofFn x') = .ok f) ∧
    ∀ g : Fin d → Flt, ParentElement.basisGradient (floatArith T.format) ⟨.ok d, List.ofFn b⟩ (tup idx) (List.ofFn x) = .ok (List.ofFn g) →
      (∀ a, ∃ y, (g a).datum = .finite y) →
      ParentElement.basisGradient (floatArith T.format) ⟨.ok d, List.ofFn b⟩ (tup idx') (List.ofFn x')
        = .ok (List.ofFn fun a => if mirrored a then (g a).neg else g a) := by
  have key := fun k => C129_partial T (fam k) (h k) (hb k) (idx k) (x k)
  have hm := product_mirror (F := T.format) (b := b) (idx := idx) (idx' := idx') (x := x) (x' := x') hd mirrored (fun k => by
      obtain ⟨f, h1, h2⟩ := (key k).1
      refine ⟨f, h1, ?_⟩
      rw [hidx, hx]
      cases mirrored k
      · simp only [Bool.false_eq_true, if_false]; exact h1
      · simp only [if_true]; exact h2)
    (fun k g hg ⟨y, hy⟩ => by
      rw [hidx, hx]
      cases mirrored k
      · simp only [Bool.false_eq_true, if_false]; exact hg
      · simp only [if_true]; exact (key k).2 g y hg hy)
  have he := fun (i : (k : Fin d) → Fin (order k + 1)) x =>
    basisValue_eq (floatArith T.format) (elementOf_instantiate b) (idx := tup i) (by simp [tup_length, Lemmas.elementOf]) x
  have e1 := fun i x => (he i x).1
  have e2 := fun i x => (he i x).2.2.1
  simp only [Lemmas.elementOf] at e1 e2
  simp only [e1, e2]
  exact hm

end tensor

/-- **C129 is violated** for every other order: in `float` and in `double`, with each of the families and each order from 3 to 8 that it
supports, there are a function and a point of the parent interval where mirroring changes the value. -/
theorem C129_violated : ¬ MirrorSymmetric ∧
    ∀ (T : RealType) (fam : Family) (order : ℕ), 3 ≤ order → order ≤ 8 → fam.Supports order →
      ∃ (b : Basis Flt) (i : Fin (order + 1)) (x y z : ℝ), T.arith.lagrangeBasis (fam.spacingIn T.arith) order = .ok b ∧
        |x| ≤ 1 ∧ Represents T.format x ∧ b.value (i : ℕ) (Flt.ofReal x) = .ok (Flt.ofReal y) ∧
        b.value (i.rev : ℕ) (Flt.ofReal (-x)) = .ok (Flt.ofReal z) ∧ y ≠ z := by
  have all : ∀ (T : RealType) (fam : Family) (order : ℕ), 3 ≤ order → order ≤ 8 → fam.Supports order →
      ∃ (b : Basis Flt) (i : Fin (order + 1)) (x y z : ℝ), T.arith.lagrangeBasis (fam.spacingIn T.arith) order = .ok b ∧
        |x| ≤ 1 ∧ Represents T.format x ∧ b.value (i : ℕ) (Flt.ofReal x) = .ok (Flt.ofReal y) ∧
        b.value (i.rev : ℕ) (Flt.ofReal (-x)) = .ok (Flt.ofReal z) ∧ y ≠ z := by
    intro T fam order h3 h8 hs
    have hm : order ∈ [3, 4, 5, 6, 7, 8] := by simp only [List.mem_cons, List.not_mem_nil, or_false]; omega
    have hw : mirrorDiffers T fam order (mirrorWitness T fam order) = true := by
      cases fam with
      | equal => cases T with
        | float => exact mirror_equal_float order hm
        | double => exact mirror_equal_double order hm
      | gaussLegendre =>
        obtain rfl : order = 3 := by have := hs.2; omega
        exact mirror_legendre T (mem_types T)
      | gaussLobatto => cases T with
        | float => exact mirror_lobatto_float order hm
        | double => exact mirror_lobatto_double order hm
    obtain ⟨i, x, y, z, hx, hrep, hne, hy, hz⟩ := mirrorDiffers_spec hw
    obtain ⟨c, -, -, hc⟩ := C100_points T fam order (by omega) h8 hs
    obtain ⟨b, hb, -⟩ := C100_basis T fam (by omega) h8 hs hc
    have hform := form T fam h8 hb
    refine ⟨b, i, x, y, z, hb, ?_, hrep, ?_, ?_, ?_⟩
    · rw [← Rat.cast_abs, ← Rat.cast_one]; exact Rat.cast_le.2 hx
    · rw [hform]; exact knownValue_sound hy
    · have := knownValue_sound hz
      rw [hform]
      push_cast at this ⊢
      exact this
    · exact_mod_cast hne
  refine ⟨fun hall => ?_, all⟩
  obtain ⟨b, i, x, y, z, hb, hx, hrep, hy, hz, hne⟩ := all .double .gaussLobatto 3 (by norm_num) (by norm_num) ⟨by norm_num, by norm_num⟩
  have := hall .double .gaussLobatto 3 (by norm_num) (by norm_num) ⟨by norm_num, by norm_num⟩ b hb i x hx hrep
  rw [hy, hz] at this
  exact hne (Datum.finite.inj (congrArg Flt.datum (Res.ok.inj this))).symm

/-- Non-vacuity of C129: the hypotheses are met by quadratic bases; in `float` the first function of equal spacing
at -1/2 and the last at 1/2 both return 3/8. -/
example : ∃ b, floatMixed.lagrangeBasis floatMixed.equalSpacing 2 = .ok b ∧
    b.value 0 (Flt.ofReal ((-1 / 2 : ℚ) : ℝ)) = .ok (Flt.ofReal ((3 / 8 : ℚ) : ℝ)) ∧
    b.value 2 (Flt.ofReal ((-1 / 2 : ℚ) : ℝ)).neg = .ok (Flt.ofReal ((3 / 8 : ℚ) : ℝ)) := by
  obtain ⟨c, -, -, hc⟩ := C100_points .float .equal 2 (by norm_num) (by norm_num) ⟨by norm_num, by norm_num⟩
  obtain ⟨b, hb, -⟩ := C100_basis .float .equal (by norm_num) (by norm_num) ⟨by norm_num, by norm_num⟩ hc
  have h0 : b.value 0 (Flt.ofReal ((-1 / 2 : ℚ) : ℝ)) = .ok (Flt.ofReal ((3 / 8 : ℚ) : ℝ)) := by
    rw [form .float .equal (by norm_num) hb]
    exact knownValue_sound (T := .float) (fam := .equal) (order := 2) (by decide +kernel)
  obtain ⟨f, h1, h2⟩ := (C129_partial .float .equal (.inr rfl) hb 0 (Flt.ofReal ((-1 / 2 : ℚ) : ℝ))).1
  obtain rfl := Res.ok.inj (h1.symm.trans h0)
  exact ⟨b, hb, h0, h2⟩

end Verif.Props
