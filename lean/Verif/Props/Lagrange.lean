import Verif.Lemmas.Lagrange
import Verif.Spec.Families
import Verif.Props.Quadrature

/-! # Properties C32–C37: the Lagrange basis

All statements are for an arbitrary spacing class with distinct coordinates; `C36_supported_nodes` shows
that the three shipped families satisfy the hypothesis for every supported order. -/

namespace Verif.Props

open Verif.Spec Verif.Lemmas Polynomial

variable {S : Int → Spacing ℝ} {order : ℕ} {c : Fin (order + 1) → ℝ}

private theorem basis_ok (horder : order < 2147483647) :
    lagrangeBasis (exactArith ℝ) S order = .ok ⟨((order + 1 : ℕ) : Int),
      LagrangeBasis.value (exactArith ℝ) (S ((order + 1 : ℕ) : Int)) ((order + 1 : ℕ) : Int),
      LagrangeBasis.gradient (exactArith ℝ) (S ((order + 1 : ℕ) : Int)) ((order + 1 : ℕ) : Int)⟩ := by
  have h : iadd (order : Int) 1 = .ok ((order + 1 : ℕ) : Int) := by
    push_cast
    exact tnorm_ok ⟨by show (-2147483648 : Int) ≤ _; omega, by show _ ≤ (2147483647 : Int); omega⟩
  rw [lagrangeBasis, h]; rfl

/-- **C32.** Basis function `j` is 1 at node `j` and 0 at every other node. -/
theorem C32_kronecker (horder : order < 2147483647)
    (hc : Nodes (S ((order + 1 : ℕ) : Int)) (order + 1) c) :
    ∃ b, lagrangeBasis (exactArith ℝ) S order = .ok b ∧ b.numSupportPoints = (order : Int) + 1 ∧
      ∀ i j : Fin (order + 1), b.value (j : ℕ) (c i) = .ok (if i = j then 1 else 0) := by
  refine ⟨_, basis_ok horder, by push_cast; rfl, fun i j => ?_⟩
  show LagrangeBasis.value _ _ _ _ _ = _
  rw [value_eq_basis hc]
  congr 1
  by_cases e : i = j
  · subst e
    rw [if_pos rfl]
    exact Lagrange.eval_basis_self hc.distinct.injOn (Finset.mem_univ _)
  · rw [if_neg e]
    exact Lagrange.eval_basis_of_ne (Ne.symm e) (Finset.mem_univ _)

/-- **C33.** At every coordinate the basis values sum to 1 and the basis gradients sum to 0. -/
theorem C33_partition_of_unity (horder : order < 2147483647)
    (hc : Nodes (S ((order + 1 : ℕ) : Int)) (order + 1) c) :
    ∃ b, lagrangeBasis (exactArith ℝ) S order = .ok b ∧
      ∀ x : ℝ, ∃ f g : Fin (order + 1) → ℝ,
        (∀ j : Fin (order + 1), b.value (j : ℕ) x = .ok (f j)) ∧
        (∀ j : Fin (order + 1), b.gradient (j : ℕ) x = .ok (g j)) ∧
        ∑ j, f j = 1 ∧ ∑ j, g j = 0 := by
  refine ⟨_, basis_ok horder, fun x => ⟨fun j => (Lagrange.basis Finset.univ c j).eval x,
    fun j => (derivative (Lagrange.basis Finset.univ c j)).eval x,
    fun j => value_eq_basis hc j x, fun j => gradient_eq_basis hc j x, ?_, ?_⟩⟩
  · rw [← eval_finsetSum, Lagrange.sum_basis hc.distinct.injOn Finset.univ_nonempty, eval_one]
  · rw [← eval_finsetSum, ← derivative_sum, Lagrange.sum_basis hc.distinct.injOn Finset.univ_nonempty,
      derivative_one, eval_zero]

/-- **C34.** The gradient is the derivative of the value, at every coordinate. -/
theorem C34_gradient_is_derivative (horder : order < 2147483647)
    (hc : Nodes (S ((order + 1 : ℕ) : Int)) (order + 1) c) :
    ∃ b, lagrangeBasis (exactArith ℝ) S order = .ok b ∧
      ∀ j : Fin (order + 1), ∃ f g : ℝ → ℝ, (∀ x, b.value (j : ℕ) x = .ok (f x)) ∧
        (∀ x, b.gradient (j : ℕ) x = .ok (g x)) ∧ ∀ x, HasDerivAt f (g x) x :=
  ⟨_, basis_ok horder, fun j => ⟨_, _, fun x => value_eq_basis hc j x,
    fun x => gradient_eq_basis hc j x, fun x => Polynomial.hasDerivAt _ x⟩⟩

/-- **C35, reproduction.** Interpolating the node values of a polynomial of degree at most `order` gives
back the polynomial, and interpolating with the gradients gives its derivative. -/
theorem C35_reproduction (horder : order < 2147483647)
    (hc : Nodes (S ((order + 1 : ℕ) : Int)) (order + 1) c) :
    ∃ b, lagrangeBasis (exactArith ℝ) S order = .ok b ∧
      ∀ x : ℝ, ∃ f g : Fin (order + 1) → ℝ,
        (∀ j : Fin (order + 1), b.value (j : ℕ) x = .ok (f j)) ∧
        (∀ j : Fin (order + 1), b.gradient (j : ℕ) x = .ok (g j)) ∧
        ∀ p : ℝ[X], p.natDegree ≤ order →
          ∑ j, p.eval (c j) * f j = p.eval x ∧ ∑ j, p.eval (c j) * g j = (derivative p).eval x := by
  refine ⟨_, basis_ok horder, fun x => ⟨fun j => (Lagrange.basis Finset.univ c j).eval x,
    fun j => (derivative (Lagrange.basis Finset.univ c j)).eval x,
    fun j => value_eq_basis hc j x, fun j => gradient_eq_basis hc j x, fun p hp => ?_⟩⟩
  have hdeg : p.degree < (Finset.univ : Finset (Fin (order + 1))).card := by
    refine lt_of_le_of_lt degree_le_natDegree ?_
    rw [Finset.card_univ, Fintype.card_fin]
    exact_mod_cast Nat.lt_succ_of_le hp
  have hp' := Lagrange.eq_interpolate (v := c) hc.distinct.injOn hdeg
  rw [Lagrange.interpolate_apply] at hp'
  constructor
  · conv_rhs => rw [hp']
    rw [eval_finsetSum]
    exact Finset.sum_congr rfl fun j _ => by rw [eval_mul, eval_C]
  · conv_rhs => rw [hp']
    rw [derivative_sum, eval_finsetSum]
    exact Finset.sum_congr rfl fun j _ => by rw [derivative_C_mul, eval_mul, eval_C]

/-- **C35, uniqueness.** Each basis function is the only polynomial of degree at most `order` that is 1 at
its own node and 0 at the others. -/
theorem C35_unique (horder : order < 2147483647)
    (hc : Nodes (S ((order + 1 : ℕ) : Int)) (order + 1) c) :
    ∃ b, lagrangeBasis (exactArith ℝ) S order = .ok b ∧
      ∀ j : Fin (order + 1), ∃ p : ℝ[X], p.natDegree ≤ order ∧
        (∀ x, b.value (j : ℕ) x = .ok (p.eval x)) ∧
        ∀ q : ℝ[X], q.natDegree ≤ order → (∀ i, q.eval (c i) = if i = j then 1 else 0) → q = p := by
  refine ⟨_, basis_ok horder, fun j => ⟨Lagrange.basis Finset.univ c j, ?_, fun x => value_eq_basis hc j x,
    fun q hq hqi => ?_⟩⟩
  · rw [Lagrange.natDegree_basis hc.distinct.injOn (Finset.mem_univ j)]; simp
  · have hdeg : ∀ r : ℝ[X], r.natDegree ≤ order →
        r.degree < (Finset.univ : Finset (Fin (order + 1))).card := fun r hr => by
      refine lt_of_le_of_lt degree_le_natDegree ?_
      rw [Finset.card_univ, Fintype.card_fin]
      exact_mod_cast Nat.lt_succ_of_le hr
    refine eq_of_degrees_lt_of_eval_index_eq Finset.univ hc.distinct.injOn (hdeg q hq) (hdeg _ ?_)
      fun i _ => ?_
    · rw [Lagrange.natDegree_basis hc.distinct.injOn (Finset.mem_univ j)]; simp
    · rw [hqi i]
      by_cases e : i = j
      · subst e
        rw [if_pos rfl]
        exact (Lagrange.eval_basis_self hc.distinct.injOn (Finset.mem_univ _)).symm
      · rw [if_neg e]
        exact (Lagrange.eval_basis_of_ne (Ne.symm e) (Finset.mem_univ _)).symm

/-- **C37.** For nodes symmetric about 0, function `order - j` at `-x` equals function `j` at `x`, and its
gradient is the opposite. -/
theorem C37_mirror (horder : order < 2147483647)
    (hc : Nodes (S ((order + 1 : ℕ) : Int)) (order + 1) c) (hsymm : ∀ i, c i.rev = -c i) :
    ∃ b, lagrangeBasis (exactArith ℝ) S order = .ok b ∧
      ∀ (j : Fin (order + 1)) (x : ℝ), ∃ v g,
        b.value (j : ℕ) x = .ok v ∧ b.value (order - (j : ℕ)) (-x) = .ok v ∧
        b.gradient (j : ℕ) x = .ok g ∧ b.gradient (order - (j : ℕ)) (-x) = .ok (-g) := by
  have hval : ∀ (j : Fin (order + 1)) (x : ℝ),
      (Lagrange.basis Finset.univ c j.rev).eval (-x) = (Lagrange.basis Finset.univ c j).eval x := by
    intro j x
    rw [← prod_factor_eq, ← prod_factor_eq, ← Equiv.prod_comp Fin.revPerm]
    refine Finset.prod_congr rfl fun t _ => ?_
    simp only [factor, Fin.revPerm_apply, Fin.rev_inj]
    split
    · rfl
    · rw [hsymm, hsymm, show -c j - -c t = -(c j - c t) by ring, one_div_neg_eq_neg_one_div]; ring
  have hder : ∀ (j : Fin (order + 1)) (x : ℝ),
      (derivative (Lagrange.basis Finset.univ c j.rev)).eval (-x)
        = -(derivative (Lagrange.basis Finset.univ c j)).eval x := by
    intro j x
    have h1 := ((Lagrange.basis Finset.univ c j.rev).hasDerivAt (-x)).comp x (hasDerivAt_neg x)
    have h2 := (Lagrange.basis Finset.univ c j).hasDerivAt x
    have e : (fun y => eval y (Lagrange.basis Finset.univ c j.rev)) ∘ Neg.neg
        = fun y => eval y (Lagrange.basis Finset.univ c j) := funext fun y => hval j y
    have := HasDerivAt.unique (e ▸ h1) h2
    linarith
  refine ⟨_, basis_ok horder, fun j x => ⟨_, _, value_eq_basis hc j x, ?_, gradient_eq_basis hc j x, ?_⟩⟩
  · have e : ((order : Int) - ((j : ℕ) : Int)) = ((j.rev : ℕ) : Int) := by
      rw [Fin.val_rev]; omega
    show LagrangeBasis.value _ _ _ _ _ = _
    rw [e, value_eq_basis hc, hval]
  · have e : ((order : Int) - ((j : ℕ) : Int)) = ((j.rev : ℕ) : Int) := by
      rw [Fin.val_rev]; omega
    show LagrangeBasis.gradient _ _ _ _ _ = _
    rw [e, gradient_eq_basis hc, hder]

/-- **C36, supported orders.** For every family and supported order the coordinates are increasing (so
distinct) and symmetric about 0: the hypotheses of C32–C35 and C37 hold. -/
theorem C36_supported_nodes (fam : Family) (order : ℕ) (h : fam.Supports order) :
    ∃ c : Fin (order + 1) → ℝ,
      Nodes (fam.spacing (exactArith ℝ) ((order + 1 : ℕ) : Int)) (order + 1) c ∧
      StrictMono c ∧ ∀ i, c i.rev = -c i := by
  by_cases h0 : order = 0
  · subst h0
    exact ⟨fun _ => 0, ⟨by omega, fun i j _ => Fin.ext (by omega)⟩,
      fun i j hij => absurd (Fin.ext (by omega)) hij.ne, by simp⟩
  cases fam with
  | equal =>
    have h' : order < 2147483647 := by have := h.2; omega
    obtain ⟨-, c, -, -, hct, -, -, -, -, hmono, hsym⟩ :=
      C23_equalSpacing ((order + 1 : ℕ) : Int) (by omega) (by omega)
    have hm : StrictMono fun i : Fin (order + 1) => c ((i : ℕ) : Int) :=
      fun i j hij => hmono (by exact_mod_cast hij)
    refine ⟨_, ⟨fun _ i => hct _, hm.injective⟩, hm, fun i => ?_⟩
    rw [← hsym, Fin.val_rev]; congr 1; omega
  | gaussLegendre =>
    obtain ⟨c, hct, hmono, hsym, -⟩ := C24_gaussLegendre_coordinates (order + 1) (by omega)
      (by have := h.2; omega)
    exact ⟨c, ⟨fun _ => hct, hmono.injective⟩, hmono, hsym⟩
  | gaussLobatto =>
    obtain ⟨c, hct, hmono, hsym, -⟩ := C24_gaussLobatto_coordinates (order + 1) (by omega)
      (by have := h.2; omega)
    exact ⟨c, ⟨fun _ => hct, hmono.injective⟩, hmono, hsym⟩

private theorem illFormed_of_equal_coords {T : Spacing ℝ} {n : Int} (hn : 2 ≤ n)
    (h : ∀ i, T.coordCT i = .ok 0) (bf : Int) (x : ℝ) :
    LagrangeBasis.value (exactArith ℝ) T n bf x = .illFormed ∧
      LagrangeBasis.gradient (exactArith ℝ) T n bf x = .illFormed := by
  have hterm : ∀ t, bf ≠ t → LagrangeBasis.valueProductTerm (exactArith ℝ) T bf t x = .illFormed := by
    intro t ht
    rw [LagrangeBasis.valueProductTerm, if_neg ht, h, h]
    simp [exactArith]
  have hup : upTo 0 n = 0 :: 1 :: upTo 2 n := by
    rw [upTo_cons (by omega), upTo_cons (by omega)]; norm_num
  have hself : LagrangeBasis.valueProductTerm (exactArith ℝ) T bf bf x = .ok 1 := by
    simp [LagrangeBasis.valueProductTerm, exactArith]
  constructor
  · rw [LagrangeBasis.value, makeIntegerSequence_ok (by omega), Res.ok_bind, hup]
    simp only [List.map_cons, foldRight]
    by_cases e : bf = 0
    · subst e
      rw [hself, Res.ok_bind]
      rw [hterm 1 (by norm_num)]
      cases (upTo 2 n) <;> simp [foldRight]
    · rw [hterm 0 e, Res.illFormed_bind]
  · rw [LagrangeBasis.gradient, makeIntegerSequence_ok (by omega), Res.ok_bind, hup]
    simp only [List.map_cons, sequenceRes]
    by_cases e : bf = 0
    · subst e
      rw [hself, Res.ok_bind, hterm 1 (by norm_num)]
      simp
    · rw [hterm 0 e]; simp

/-- **C36.** For each family and every `int` order, the basis functions compile exactly for the supported
orders: then every value and gradient with an in-range index exists at every coordinate; otherwise no
value and no gradient compiles. -/
theorem C36_compiles_iff_supported (fam : Family) (order : Int) (ho : IsInt order) :
    (fam.Supports order → ∃ b, lagrangeBasis (exactArith ℝ) (fam.spacing (exactArith ℝ)) order = .ok b ∧
      ∀ j : Int, 0 ≤ j → j ≤ order → ∀ x, (b.value j x).IsOk ∧ (b.gradient j x).IsOk) ∧
    (¬ fam.Supports order → ∀ (j : Int) (x : ℝ),
      (lagrangeBasis (exactArith ℝ) (fam.spacing (exactArith ℝ)) order >>= fun b => b.value j x)
        = .illFormed ∧
      (lagrangeBasis (exactArith ℝ) (fam.spacing (exactArith ℝ)) order >>= fun b => b.gradient j x)
        = .illFormed) := by
  constructor
  · intro h
    obtain ⟨k, rfl⟩ : ∃ k : ℕ, order = k := ⟨order.toNat, by cases fam <;> have := h.1 <;> omega⟩
    have hk : k < 2147483647 := by cases fam <;> have := h.2 <;> omega
    obtain ⟨c, hc, -, -⟩ := C36_supported_nodes fam k h
    refine ⟨_, basis_ok hk, fun j h0 h1 x => ?_⟩
    obtain ⟨m, rfl⟩ : ∃ m : ℕ, j = m := ⟨j.toNat, by omega⟩
    exact ⟨⟨_, value_eq_basis hc ⟨m, by omega⟩ x⟩, ⟨_, gradient_eq_basis hc ⟨m, by omega⟩ x⟩⟩
  · intro h j x
    by_cases hmax : order = 2147483647
    · subst hmax
      have : iadd 2147483647 1 = .ub := by decide
      simp [lagrangeBasis, this]
    have hadd : iadd order 1 = .ok (order + 1) := by
      have := ho.1; have := ho.2
      exact tnorm_ok ⟨by show (-2147483648 : Int) ≤ _; omega, by show _ ≤ (2147483647 : Int); omega⟩
    rw [lagrangeBasis, hadd]
    simp only [Res.constexpr_ok, Res.ok_bind]
    have hord := ho.2
    by_cases hneg : order < 0
    · by_cases hm1 : order = -1
      · subst hm1
        simp [LagrangeBasis.value, LagrangeBasis.gradient, Sequence.makeIntegerSequence, sequenceRes,
          foldRight]
      · have : ¬ (0 ≤ order + 1) := by omega
        simp [LagrangeBasis.value, LagrangeBasis.gradient, Sequence.makeIntegerSequence, this]
    · cases fam with
      | equal => exact absurd ⟨by omega, by omega⟩ h
      | gaussLegendre =>
        have hn : ¬ (order + 1 ≤ 4) := fun h4 => h ⟨by omega, by omega⟩
        refine illFormed_of_equal_coords (by omega) (fun i => ?_) j x
        have := ((C31_violated (exactArith ℝ) (order + 1) i).1 (by omega)).2
        simpa [exactArith, Family.spacing] using this
      | gaussLobatto =>
        have hn : ¬ (order + 1 ≤ 9) := fun h4 => h ⟨by omega, by omega⟩
        refine illFormed_of_equal_coords (by omega) (fun i => ?_) j x
        have := ((C31_violated (exactArith ℝ) (order + 1) i).2.2) (by omega)
        simpa [exactArith, Family.spacing] using this

/-- Non-vacuity of C32–C37: the second function of the quadratic equally spaced basis is `1 - x^2`, here at
1/2, with derivative -1; the cubic Gauss-Lobatto family is supported and order 9 is not. -/
example : (do let b ← lagrangeBasis ratArith (equalSpacing ratArith) 2; b.value 1 (1 / 2)) = .ok (3 / 4) ∧
    (do let b ← lagrangeBasis ratArith (equalSpacing ratArith) 2; b.gradient 1 (1 / 2)) = .ok (-1) ∧
    (do let b ← lagrangeBasis ratArith (gaussLobattoSpacing ratArith) 9; b.value 1 (1 / 2))
      = .illFormed := by decide +kernel

/-- Non-vacuity of C32–C37: both a supported and an unsupported order exist. -/
example : Family.gaussLobatto.Supports 8 ∧ ¬ Family.gaussLobatto.Supports 9 := by
  constructor
  · exact ⟨by norm_num, by norm_num⟩
  · rintro ⟨-, h⟩; norm_num at h

end Verif.Props
