import Verif.Props.Lagrange
import Verif.Lemmas.OutOfRange

/-! # Property C99: indices of points and basis functions that are out of range -/

namespace Verif.Props

open Verif.Spec Verif.Lemmas

/-- **C99 is false.** Point 5 of 3 equally spaced points is 4.  Point 4 of the 4-point Gauss-Legendre rule is 0 as a
template argument and -0.86 as a function argument, and its weight is the largest `double`.  Function 3 of the quadratic basis, which has functions 0, 1 and 2, compiles and is -1/16 at 1/2. -/
theorem C99_violated :
    (equalSpacing ratArith 3).coordCT 5 = .ok 4 ∧
    (quadratureGaussLegendre ratArith 4).coordCT 4 = .ok 0 ∧
    (quadratureGaussLegendre ratArith 4).coordRT 4 = .ok (-0.8611363115940525752239464888928095051) ∧
    (quadratureGaussLegendre ratArith 4).weightCT 4 = .ok realMax ∧
    (quadratureGaussLobatto ratArith 3).weightRT (-1) = .ok 1.3333333333333333333333333333333333 ∧
    (do let b ← lagrangeBasis ratArith (equalSpacing ratArith) 2; b.value 3 (1 / 2)) = .ok (-1 / 16) := by decide +kernel

/-- Step and origin of the spacings that continue evenly past their ends. -/
private theorem even_step {f : Int → ℝ} {h : ℝ} (h0 : 0 < h) (hf : ∀ i, f (i + 1) - f i = h) : Function.Injective f := by
  have : StrictMono f := strictMono_int_of_lt_succ fun i => by have := hf i; linarith
  exact this.injective

/-- **C99, coordinates.** `coordinate< i >()` always compiles.  Equal spacings and the Gauss spacings of two and three points
continue evenly past their ends; the other Gauss spacings give 0 for every index that is out of range. -/
theorem C99_coordinates (fam : Family) (n : ℕ) (hn : 2 ≤ n) (hs : fam.Supports ((n : Int) - 1)) :
    (fam = .equal ∨ n ≤ 3 → ∃ (h : ℝ) (c : Int → ℝ), 0 < h ∧ (∀ i, c (i + 1) - c i = h) ∧
      ∀ i, (fam.spacing (exactArith ℝ) n).coordCT i = .ok (c i)) ∧
    (¬ (fam = .equal ∨ n ≤ 3) → ∀ i : Int, ¬ (0 ≤ i ∧ i < n) → (fam.spacing (exactArith ℝ) n).coordCT i = .ok 0) := by
  constructor
  · intro h
    cases fam with
    | equal =>
      obtain ⟨h, c, -, hh, hct, -, -, -, hstep, -, -⟩ := C23_equalSpacing n (by omega) (by have := hs.2; omega)
      refine ⟨h, c, ?_, hstep, hct⟩
      have : (2 : ℝ) ≤ ((n : ℕ) : Int) := by exact_mod_cast hn
      rw [hh]; exact div_pos two_pos (by linarith)
    | gaussLegendre =>
      have h3 : n ≤ 3 := by simpa using h
      rcases (show n = 2 ∨ n = 3 by omega) with rfl | rfl
      · refine ⟨0.57735026918962576450914878050195745565 * 2,
          fun i => 0.57735026918962576450914878050195745565 * (-1 + i * 2), by norm_num, fun i => ?_, fun i => ?_⟩
        · push_cast; ring
        · show GaussLegendre.coordCT (exactArith ℝ) 2 i = _
          rw [GaussLegendre.coordCT, if_pos rfl]
          simp only [GaussLegendre.invSqrt3, exactArith]; push_cast; norm_num
      · refine ⟨0.77459666924148337703585307995647992217,
          fun i => 0.77459666924148337703585307995647992217 * (-1 + i), by norm_num, fun i => ?_, fun i => ?_⟩
        · push_cast; ring
        · show GaussLegendre.coordCT (exactArith ℝ) 3 i = _
          rw [GaussLegendre.coordCT, if_neg (by norm_num), if_pos rfl]
          simp only [GaussLegendre.sqrt3div5, exactArith]; push_cast; norm_num
    | gaussLobatto =>
      have h3 : n ≤ 3 := by simpa using h
      rcases (show n = 2 ∨ n = 3 by omega) with rfl | rfl
      · refine ⟨2, fun i => -1 + i * 2, by norm_num, fun i => ?_, fun i => ?_⟩
        · push_cast; ring
        · show GaussLobatto.coordCT (exactArith ℝ) 2 i = _
          rw [GaussLobatto.coordCT, if_pos rfl]
          simp only [exactArith]; push_cast; norm_num
      · refine ⟨1, fun i => -1 + i, by norm_num, fun i => ?_, fun i => ?_⟩
        · push_cast; ring
        · show GaussLobatto.coordCT (exactArith ℝ) 3 i = _
          rw [GaussLobatto.coordCT, if_neg (by norm_num), if_pos rfl]
          simp only [exactArith]; push_cast; norm_num
  · intro h i hi
    cases fam with
    | equal => exact absurd (.inl rfl) h
    | gaussLegendre =>
      have hn4 : n = 4 := by have := hs.2; simp at h; omega
      subst hn4
      show GaussLegendre.coordCT (exactArith ℝ) 4 i = _
      have hi' : ¬ (0 ≤ i ∧ i < 4) := hi
      simp [GaussLegendre.coordCT, tableCT, hi', exactArith]
    | gaussLobatto =>
      have h9 : n ≤ 9 := by have := hs.2; omega
      have h4 : 4 ≤ n := by simp at h; omega
      show GaussLobatto.coordCT _ _ _ = _
      rcases (show n = 4 ∨ n = 5 ∨ n = 6 ∨ n = 7 ∨ n = 8 ∨ n = 9 by omega) with rfl | rfl | rfl | rfl | rfl | rfl <;>
        · push_cast at hi
          simp [GaussLobatto.coordCT, tableCT, hi, exactArith]

/-- Both cases occur: three equally spaced points, and six Gauss-Lobatto points. -/
example : Family.Supports .equal (((3 : ℕ) : Int) - 1) ∧ Family.Supports .gaussLobatto (((6 : ℕ) : Int) - 1) := by
  constructor <;> constructor <;> norm_num

/-- **C99, weights.** `weight< i >()` compiles for every index if the number of points is supported.  Out of range it is 1 for two points, the
value of the point of the same parity for three Gauss-Lobatto points, and the largest `double` otherwise. -/
theorem C99_weights {R : Type} (A : Arith R) (n : ℕ) (i : Int) (hi : ¬ (0 ≤ i ∧ i < n)) :
    (n = 2 → (quadratureGaussLegendre A n).weightCT i = .ok (A.lit 1) ∧
      (quadratureGaussLobatto A n).weightCT i = .ok (A.lit 1)) ∧
    (3 ≤ n ∧ n ≤ 4 → (quadratureGaussLegendre A n).weightCT i = .ok (A.lit realMax)) ∧
    (4 ≤ n ∧ n ≤ 9 → (quadratureGaussLobatto A n).weightCT i = .ok (A.lit realMax)) ∧
    (n = 3 → (quadratureGaussLobatto A n).weightCT i = (quadratureGaussLobatto A n).weightCT (i % 2)) := by
  refine ⟨?_, ?_, ?_, ?_⟩
  · rintro rfl; exact ⟨rfl, rfl⟩
  · rintro ⟨h1, h2⟩
    show QuadratureGaussLegendre.weightCT _ _ _ = _
    rcases (show n = 3 ∨ n = 4 by omega) with rfl | rfl <;>
      · push_cast at hi
        simp [QuadratureGaussLegendre.weightCT, Res.staticAssert, tableCT, hi]
  · rintro ⟨h1, h2⟩
    show QuadratureGaussLobatto.weightCT _ _ _ = _
    rcases (show n = 4 ∨ n = 5 ∨ n = 6 ∨ n = 7 ∨ n = 8 ∨ n = 9 by omega) with rfl | rfl | rfl | rfl | rfl | rfl <;>
      · push_cast at hi
        simp [QuadratureGaussLobatto.weightCT, Res.staticAssert, tableCT, hi]
  · rintro rfl
    show QuadratureGaussLobatto.weightCT _ _ _ = QuadratureGaussLobatto.weightCT _ _ _
    have h1 : Int.land i 1 = Int.land (i % 2) 1 := by rw [land_one, land_one]; omega
    simp [QuadratureGaussLobatto.weightCT, Res.staticAssert, h1]

/-- Three Gauss-Lobatto points, index -1: the weight is that of the middle point. -/
example : (quadratureGaussLobatto ratArith 3).weightCT (-1) = (quadratureGaussLobatto ratArith 3).weightCT 1 :=
  (C99_weights ratArith 3 (-1) (by norm_num)).2.2.2 rfl

/-- **C99, undefined behaviour.** `coordinate( i )` of five Gauss-Lobatto points is undefined behaviour for every index that
is out of range, in any arithmetic. -/
theorem C99_runtime_ub {R : Type} (A : Arith R) (i : Int) (hi : ¬ (0 ≤ i ∧ i < 5)) :
    (gaussLobattoSpacing A 5).coordRT i = .ub := by
  show GaussLobatto.coordRT A 5 i = _
  simp [GaussLobatto.coordRT, tableAt, hi]

example : (gaussLobattoSpacing ratArith 5).coordRT 5 = .ub := C99_runtime_ub _ _ (by norm_num)

/-- **C99, basis functions.** For any spacing: if the index `j` of a basis function is out of range and the spacing has a coordinate `a` for it
that is not a node, `value< j >( x )` is the polynomial of degree `order + 1` that vanishes at all nodes and is 1 at
`a`, and `gradient< j >( x )` is its derivative.  If `a` is a node neither compiles. -/
theorem C99_basis {S : Int → Spacing ℝ} {order : ℕ} {c : Fin (order + 1) → ℝ} (horder : order < 2147483647)
    (hc : ∀ i : Fin (order + 1), (S ((order + 1 : ℕ) : Int)).coordCT (i : ℕ) = .ok (c i)) (j : Int)
    (hj : ¬ (0 ≤ j ∧ j ≤ order)) (a : ℝ) (ha : (S ((order + 1 : ℕ) : Int)).coordCT j = .ok a) :
    ∃ b, lagrangeBasis (exactArith ℝ) S order = .ok b ∧
      ((∀ t, a ≠ c t) → ∀ x, b.value j x = .ok (∏ t, (x - c t) / (a - c t)) ∧
        b.gradient j x = .ok (deriv (fun x => ∏ t, (x - c t) / (a - c t)) x)) ∧
      ((∃ t, a = c t) → ∀ x, b.value j x = .illFormed ∧ b.gradient j x = .illFormed) := by
  have hadd : iadd (order : Int) 1 = .ok ((order + 1 : ℕ) : Int) := by
    push_cast
    exact tnorm_ok ⟨by show (-2147483648 : Int) ≤ _; omega, by show _ ≤ (2147483647 : Int); omega⟩
  have hj' : ¬ (0 ≤ j ∧ j < ((order + 1 : ℕ) : Int)) := by push_cast; omega
  refine ⟨_, by rw [lagrangeBasis, hadd]; rfl, fun hne x => ?_, fun ⟨t, ht⟩ x => outside_illFormed hc hj' ha ht x⟩
  have e : (fun x => ∏ t, (x - c t) / (a - c t)) = fun x => ∏ t, (x - c t) * (1 / (a - c t)) := by
    funext x; exact Finset.prod_congr rfl fun t _ => by rw [mul_one_div]
  constructor
  · show LagrangeBasis.value _ _ _ _ _ = _
    rw [outside_value (by omega) hc hj' ha hne, congrFun e x]
  · show LagrangeBasis.gradient _ _ _ _ _ = _
    rw [outside_gradient (by omega) hc hj' ha hne, e, (hasDerivAt_outside x).deriv]

/-- **C99, the part that holds.** Of the shipped bases, those of order 0 and those with the 5, 7 and 9 Gauss-Lobatto points
reject every basis function index that is out of range.  Missing: the others accept every index. -/
theorem C99_rejected_partial (fam : Family) (order : ℕ) (hs : fam.Supports order) (j : Int) (hj : ¬ (0 ≤ j ∧ j ≤ order)) :
    ∃ b, lagrangeBasis (exactArith ℝ) (fam.spacing (exactArith ℝ)) order = .ok b ∧
      (order = 0 ∨ fam = .gaussLobatto ∧ (order = 4 ∨ order = 6 ∨ order = 8) →
        ∀ x, b.value j x = .illFormed ∧ b.gradient j x = .illFormed) ∧
      (¬ (order = 0 ∨ fam = .gaussLobatto ∧ (order = 4 ∨ order = 6 ∨ order = 8)) →
        ∀ x, (b.value j x).IsOk ∧ (b.gradient j x).IsOk) := by
  have hlt : order < 2147483647 := by cases fam <;> have := hs.2 <;> omega
  rcases Nat.eq_zero_or_pos order with h0 | h0
  · subst h0
    have hadd : iadd ((0 : ℕ) : Int) 1 = .ok 1 := by decide
    refine ⟨_, by rw [lagrangeBasis, hadd]; rfl, fun _ x => ?_, fun h => absurd (.inl rfl) h⟩
    have hj0 : ¬ (0 ≤ j ∧ j < ((1 : ℕ) : Int)) := by push_cast at hj ⊢; omega
    have hj1 : j ≠ 0 := by rintro rfl; exact hj0 (by simp)
    cases fam with
    | equal =>
      have hco : ∀ i, (equalSpacing (exactArith ℝ) 1).coordCT i = .nonfinite := by
        intro i
        have : isub 1 1 = .ok 0 := by decide
        simp [equalSpacing, EqualSpacing.coordCT, EqualSpacing.interval, this, exactArith]
      have ht : LagrangeBasis.valueProductTerm (exactArith ℝ) (equalSpacing (exactArith ℝ) 1) j 0 x = .illFormed := by
        rw [LagrangeBasis.valueProductTerm, if_neg hj1, hco]; rfl
      have hm : Sequence.makeIntegerSequence 1 = .ok [0] := by decide
      constructor
      · show LagrangeBasis.value _ (equalSpacing (exactArith ℝ) 1) 1 j x = _
        rw [LagrangeBasis.value, hm, Res.ok_bind]; simpa [foldRight] using ht
      · show LagrangeBasis.gradient _ (equalSpacing (exactArith ℝ) 1) 1 j x = _
        rw [LagrangeBasis.gradient, hm, Res.ok_bind]; simp [sequenceRes, ht]
    | gaussLegendre =>
      have hco : ∀ i, (gaussLegendreSpacing (exactArith ℝ) 1).coordCT i = .ok 0 := by
        intro i; simp [gaussLegendreSpacing, GaussLegendre.coordCT, exactArith]
      exact outside_illFormed (n := 1) (c := fun _ => 0) (fun i => hco _) hj0 (hco j) (t := 0) rfl x
    | gaussLobatto =>
      have hco : ∀ i, (gaussLobattoSpacing (exactArith ℝ) 1).coordCT i = .ok 0 := by
        intro i; simp [gaussLobattoSpacing, GaussLobatto.coordCT, exactArith]
      exact outside_illFormed (n := 1) (c := fun _ => 0) (fun i => hco _) hj0 (hco j) (t := 0) rfl x
  · obtain ⟨c, hc, hmono, hsym⟩ := C36_supported_nodes fam order hs
    have hcc := hc.coord (by omega)
    obtain ⟨heven, hzero⟩ := C99_coordinates fam (order + 1) (by omega) (by push_cast; rwa [add_sub_cancel_right])
    by_cases hf : fam = .equal ∨ order + 1 ≤ 3
    · obtain ⟨h, f, hpos, hstep, hf'⟩ := heven hf
      obtain ⟨b, hb, hok, -⟩ := C99_basis (S := fam.spacing (exactArith ℝ)) hlt hcc j hj (f j) (hf' j)
      refine ⟨b, hb, fun hbad => ?_, fun _ x => ?_⟩
      · rcases hf with rfl | hf
        · rcases hbad with h | ⟨h, -⟩
          · omega
          · cases h
        · rcases hbad with h | ⟨-, h⟩ <;> omega
      · have := hok (fun t ht => ?_) x
        · exact ⟨⟨_, this.1⟩, ⟨_, this.2⟩⟩
        · have h1 : f j = f ((t : ℕ) : Int) := by
            have h2 := (hf' ((t : ℕ) : Int)).symm.trans (hcc t)
            rw [ht]; exact (Res.ok.inj h2).symm
          have h3 := even_step hpos hstep h1
          exact hj ⟨by omega, by omega⟩
    · have hz := hzero hf j (by push_cast; omega)
      obtain ⟨b, hb, hok, hbad⟩ := C99_basis (S := fam.spacing (exactArith ℝ)) hlt hcc j hj 0 hz
      have hc0 : ∀ t, c t = 0 ↔ t = t.rev := by
        intro t
        constructor
        · intro h
          apply hmono.injective
          rw [hsym, h, neg_zero]
        · intro h
          have := hsym t
          rw [← h] at this
          linarith
      refine ⟨b, hb, fun h x => hbad ?_ x, fun h x => ?_⟩
      · rcases h with h | ⟨-, h⟩
        · omega
        · refine ⟨⟨order / 2, by omega⟩, ((hc0 _).2 (Fin.ext ?_)).symm⟩
          rw [Fin.val_rev]; simp only []; omega
      · have := hok (fun t ht => ?_) x
        · exact ⟨⟨_, this.1⟩, ⟨_, this.2⟩⟩
        · have h1 := congrArg Fin.val ((hc0 t).1 ht.symm)
          rw [Fin.val_rev] at h1
          have h3 : ¬ (order + 1 ≤ 3) := fun h3 => hf (.inr h3)
          have hne : fam ≠ .equal := fun h3 => hf (.inl h3)
          cases fam with
          | equal => exact hne rfl
          | gaussLegendre => have := hs.2; omega
          | gaussLobatto =>
            have := hs.2
            have : ¬ (order = 4 ∨ order = 6 ∨ order = 8) := fun h4 => h (.inr ⟨rfl, h4⟩)
            omega

/-- Function 7 of the basis on five Gauss-Lobatto points does not compile; that of the basis on six does. -/
example :
    (∃ b, lagrangeBasis (exactArith ℝ) (gaussLobattoSpacing (exactArith ℝ)) 4 = .ok b ∧ ∀ x, b.value 7 x = .illFormed) ∧
    (∃ b, lagrangeBasis (exactArith ℝ) (gaussLobattoSpacing (exactArith ℝ)) 5 = .ok b ∧ ∀ x, (b.value 7 x).IsOk) := by
  obtain ⟨b, hb, h, -⟩ := C99_rejected_partial .gaussLobatto 4 (by constructor <;> norm_num) 7 (by norm_num)
  obtain ⟨b', hb', -, h'⟩ := C99_rejected_partial .gaussLobatto 5 (by constructor <;> norm_num) 7 (by norm_num)
  exact ⟨⟨b, hb, fun x => (h (.inr ⟨rfl, .inl rfl⟩) x).1⟩, ⟨b', hb', fun x => (h' (by simp) x).1⟩⟩

end Verif.Props
