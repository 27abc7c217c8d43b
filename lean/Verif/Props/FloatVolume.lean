import Verif.Props.FiniteInverse
import Verif.Props.MixedTables
import Verif.Props.CellVolume

/-! # Property C125: volumes of cells in `float` and `double` -/

namespace Verif.Props

open Verif.Spec Verif.Lemmas MeasureTheory

private theorem ofReal_injective {x y : ℝ} (h : (Res.ok (Flt.ofReal x) : Res Flt) = .ok (Flt.ofReal y)) : x = y :=
  Datum.finite.inj (congrArg Flt.datum (Res.ok.inj h))

/-- From polynomials to monomials. -/
private theorem monomials {N D E : ℕ} {c w : Fin N → ℝ} {δ ε : ℝ} (hDE : D < E) (hδ : δ ≤ ε)
    (h : ∀ p : Polynomial ℝ, p.natDegree ≤ D →
      |∑ i, w i * p.eval (c i) - ∫ x in (-1 : ℝ)..1, p.eval x| ≤ δ * ∑ k ∈ Finset.range E, |p.coeff k|)
    (m : ℕ) (hm : m ≤ D) : |∑ i, w i * c i ^ m - ∫ x in (-1 : ℝ)..1, x ^ m| ≤ ε := by
  have h1 := h (Polynomial.X ^ m) ((Polynomial.natDegree_X_pow_le m).trans hm)
  simp only [Polynomial.eval_pow, Polynomial.eval_X, Polynomial.coeff_X_pow] at h1
  have h2 : ∑ k ∈ Finset.range E, |(if k = m then (1 : ℝ) else 0)| = 1 := by
    rw [Finset.sum_eq_single m]
    · simp
    · intro k _ hk; simp [hk]
    · intro hk; exact absurd (Finset.mem_range.2 (by omega)) hk
  rw [h2, mul_one] at h1
  exact h1.trans hδ

/-- The points and weights of a rule in `T`. -/
private theorem rule_in (T : RealType) (r : Rule) (n : ℕ) (h : r.Points n) {ε : ℝ}
    (hε : 2 * unitRoundoff T.format + literalError n ≤ ε) :
    ∃ q w : Fin n → ℝ,
      (∀ i : Fin n, (r.quadratureIn T.arith n).coordCT (i : ℕ) = .ok (Flt.ofReal (q i))) ∧
      (∀ i : Fin n, (r.quadratureIn T.arith n).weightCT (i : ℕ) = .ok (Flt.ofReal (w i))) ∧
      (∀ i, |q i| ≤ 1) ∧ (∀ i, 0 < w i) ∧
      ∀ m ≤ r.degree n, |∑ i, w i * q i ^ m - ∫ x in (-1 : ℝ)..1, x ^ m| ≤ ε := by
  obtain ⟨q, w, h1, h2, h3, -, -, h4⟩ := C87_rules T r n h
  refine ⟨q, w, h1, h2, fun i => ?_, fun i => (h3 i).2.2, monomials (Nat.lt_succ_self _) hε h4⟩
  obtain ⟨m, rfl⟩ : ∃ m, n = m + 1 := ⟨n - 1, by cases r <;> (have := h.1; omega)⟩
  obtain ⟨p, hp, -, hc⟩ := C100_points T r.family m (by cases r <;> (have := h.1; omega))
    (by cases r <;> (have := h.2; omega)) (by
      cases r
      · exact ⟨by have := h.1; omega, by have := h.2; omega⟩
      · exact ⟨by have := h.1; omega, by have := h.2; omega⟩)
  have e : q i = p i := ofReal_injective ((h1 i).symm.trans
    ((congrFun (rule_coord T.arith r ((m + 1 : ℕ) : Int)).2 _).trans (hc i)))
  rw [e]
  exact hp i

section cell
variable {T : RealType} {order : Fin 3 → ℕ} {c : (k : Fin 3) → Fin (order k + 1) → ℝ}
  {t : LinearTransform Flt} {X : ((k : Fin 3) → Fin (order k + 1)) → Fin 3 → ℝ}

private theorem shipped_distinct (h : IsShippedIn T order c t.shape) (k : Fin 3) : Function.Injective (c k) := by
  obtain ⟨fam, b, -, hk⟩ := h.bases
  obtain ⟨hs, hc, -⟩ := hk k
  obtain ⟨p, -, hp, hc'⟩ := C100_points T (fam k) (order k) (h.orders k).1 (h.orders k).2 hs
  have e : c k = p := funext fun i => ofReal_injective ((hc i).symm.trans (hc' i))
  rw [e]
  exact hp.injective

/-- The map of a cell as polynomials. -/
theorem cellMap_eval (ξ : Fin 3 → ℝ) (i : Fin 3) :
    cellMap c X ξ i = MvPolynomial.eval ξ (mapPoly c X i) := by
  simp only [cellMap, mapPoly, map_sum, map_mul, map_prod, eval_inVar, MvPolynomial.eval_C, lagrange_quotients]
  exact Finset.sum_congr rfl fun idx _ => mul_comm _ _

/-- The derivative of the map of a cell. -/
theorem derivative_entry {D : Matrix (Fin 3) (Fin 3) ℝ} {ξ : Fin 3 → ℝ} (hD : IsDerivative (cellMap c X) D ξ) (i j : Fin 3) :
    D i j = MvPolynomial.eval ξ (MvPolynomial.pderiv j (mapPoly c X i)) := by
  have h4 := hD i
  simp only [cellMap_eval] at h4
  have h5 := congrArg (fun L : (Fin 3 → ℝ) →L[ℝ] ℝ => L (Pi.single j 1))
    (h4.unique (hasFDerivAt_eval (mapPoly c X i) ξ))
  simpa [Pi.single_apply] using h5

private theorem derivative_det {D : Matrix (Fin 3) (Fin 3) ℝ} {ξ : Fin 3 → ℝ} (hD : IsDerivative (cellMap c X) D ξ) :
    D.det = MvPolynomial.eval ξ (jacobianPoly (mapPoly c X)).det := by
  have e : D = Matrix.of fun i j => MvPolynomial.eval ξ (MvPolynomial.pderiv j (mapPoly c X i)) := funext fun i => funext fun j => derivative_entry hD i j
  rw [eval_det, e]

theorem cellMagnitude_nonneg {ξ : Fin 3 → ℝ} (i j : Fin 3) : 0 ≤ cellMagnitude c X ξ i j := by
  refine Finset.sum_nonneg fun idx _ => mul_nonneg (Finset.prod_nonneg fun k _ => ?_) (abs_nonneg _)
  split
  · exact Finset.sum_nonneg fun a _ => mul_nonneg (abs_nonneg _) (Finset.prod_nonneg fun t _ => abs_nonneg _)
  · exact abs_nonneg _

/-- The terms of a determinant. -/
theorem detMagnitude_le {M : Matrix (Fin 3) (Fin 3) ℝ} {C : ℝ} (h0 : ∀ i j, 0 ≤ M i j) (h : ∀ i j, M i j ≤ C) :
    detMagnitude M ≤ 6 * C ^ 3 := by
  calc detMagnitude M ≤ ∑ _σ : Equiv.Perm (Fin 3), C ^ 3 := by
        refine Finset.sum_le_sum fun σ _ => ?_
        calc ∏ i, |M (σ i) i| ≤ ∏ _i : Fin 3, C :=
              Finset.prod_le_prod (fun _ _ => abs_nonneg _) fun i _ => by rw [abs_of_nonneg (h0 _ _)]; exact h _ _
          _ = C ^ 3 := by simp
    _ = 6 * C ^ 3 := by simp [Fintype.card_perm, Nat.factorial]

/-- **C125.** In `float` and in `double`: for every three-dimensional cell with shipped shape functions of order `order k`
in direction `k`, whose vertices and derivative terms are at most `C`, and for shipped rules exact to degree
`3 * order k - 1` in direction `k`, the determinant `inverseJacobian` returns at every quadrature point is finite, and the
sum of the products of the computed weights with the computed determinants is the volume of the cell up to the roundings of
the determinants (the first term) and of the points and weights (the second term). -/
theorem C125_volume (h : IsShippedIn T order c t.shape) (hX : HoldsPoints t.data fun idx i => Flt.ofReal (X idx i))
    (cfg : Config) {C : ℝ} (hC1 : 1 ≤ C) (hC : C ^ 3 ≤ 2 ^ 120) (hXC : ∀ idx i, |X idx i| ≤ C)
    (hB : ∀ ξ ∈ cube 3, ∀ i j, cellMagnitude c X ξ i j ≤ C)
    (r : Fin 3 → Rule) (n : Fin 3 → ℕ) (hn : ∀ k, (r k).Points (n k)) (hdeg : ∀ k, 3 * order k ≤ (r k).degree (n k) + 1)
    {ε : ℝ} (hε : ∀ k, 2 * unitRoundoff T.format + literalError (n k) ≤ ε) :
    ∃ (q w : (k : Fin 3) → Fin (n k) → ℝ) (det : ((k : Fin 3) → Fin (n k)) → ℝ) (P : MvPolynomial (Fin 3) ℝ),
      (∀ k (i : Fin (n k)), ((r k).quadratureIn T.arith (n k)).coordCT (i : ℕ) = .ok (Flt.ofReal (q k i))) ∧
      (∀ k (i : Fin (n k)), ((r k).quadratureIn T.arith (n k)).weightCT (i : ℕ) = .ok (Flt.ofReal (w k i))) ∧
      (∀ p, ∃ f after, LinearTransform.inverseJacobianValue cfg (floatArith T.format) t
          (List.ofFn fun k => Flt.ofReal (q k (p k))) = .ok (f, after) ∧ f.datum = .finite (det p)) ∧
      (∀ ξ D, IsDerivative (cellMap c X) D ξ → D.det = MvPolynomial.eval ξ P) ∧
      (Set.InjOn (cellMap c X) (cube 3) →
        (∀ ξ ∈ cube 3, ∀ D, IsDerivative (cellMap c X) D ξ → 0 ≤ D.det) →
        |∑ p : (k : Fin 3) → Fin (n k), (∏ k, w k (p k)) * det p - (volume (cellMap c X '' cube 3)).toReal|
          ≤ (2 + ε) ^ 3 * (errBound (unitRoundoff T.format) (3 * gradientRoundings order + 5) * (6 * C ^ 3)
              + 2 ^ 84 * C ^ 3 * smallestPositive T.format)
            + ((2 + ε) ^ 3 - 2 ^ 3) * coeffSum P) := by
  have hu0 : 0 ≤ unitRoundoff T.format := roundoff_nonneg T.format
  have hε0 : 0 ≤ ε := by
    refine le_trans ?_ (hε 0)
    unfold literalError
    split <;> positivity
  choose q w h1 h2 h3 h4 h5 using fun k => rule_in T (r k) (n k) (hn k) (hε k)
  have hq : ∀ p : (k : Fin 3) → Fin (n k), (fun k => q k (p k)) ∈ cube 3 := fun p k => abs_le.1 (h3 k (p k))
  have hC2 : C ^ 2 * 1 ≤ 2 ^ 120 := by
    refine le_trans ?_ hC
    rw [mul_one]
    exact pow_le_pow_right₀ hC1 (by norm_num)
  obtain ⟨E, hE⟩ : ∃ E, E = errBound (unitRoundoff T.format) (3 * gradientRoundings order + 5) * (6 * C ^ 3)
              + 2 ^ 84 * C ^ 3 * smallestPositive T.format := ⟨_, rfl⟩
  have point : ∀ p : (k : Fin 3) → Fin (n k), ∃ y f after,
      LinearTransform.inverseJacobianValue cfg (floatArith T.format) t
          (List.ofFn fun k => Flt.ofReal (q k (p k))) = .ok (f, after) ∧ f.datum = .finite y ∧
        |y - MvPolynomial.eval (fun k => q k (p k)) (jacobianPoly (mapPoly c X)).det| ≤ E := by
    intro p
    obtain ⟨D, f, after, hD, e1, ⟨y, e2, e3⟩, -⟩ := C101_inverseJacobian h hX cfg (fun k => q k (p k))
      (fun k => h3 k (p k)) hC1 hC hXC (hB _ (hq p)) (le_refl (1 : ℝ)) hC2
    refine ⟨y, f, after, e1, e2, ?_⟩
    rw [← derivative_det hD, hE]
    refine e3.trans (add_le_add_left (mul_le_mul_of_nonneg_left ?_ (errBound_nonneg hu0 _)) _)
    exact detMagnitude_le (fun i j => cellMagnitude_nonneg i j) (hB _ (hq p))
  choose det f after e1 e2 e3 using point
  refine ⟨q, w, det, (jacobianPoly (mapPoly c X)).det, h1, h2, fun p => ⟨f p, after p, e1 p, e2 p⟩,
    fun ξ D hD => derivative_det hD, fun hi hpos => ?_⟩
  rw [← hE]
  have hvol : ∫ ξ in cube 3, MvPolynomial.eval ξ (jacobianPoly (mapPoly c X)).det
      = (volume (cellMap c X '' cube 3)).toReal := by
    have e : cellMap c X = fun ξ i => MvPolynomial.eval ξ (mapPoly c X i) := by
      funext ξ i; exact cellMap_eval ξ i
    rw [e] at hi ⊢
    refine volume_image _ hi fun ξ hξ => ?_
    have hD : IsDerivative (cellMap c X)
        (Matrix.of fun i j => MvPolynomial.eval ξ (MvPolynomial.pderiv j (mapPoly c X i))) ξ := by
      intro i
      simp only [cellMap_eval]
      exact hasFDerivAt_eval (mapPoly c X i) ξ
    rw [← derivative_det hD]
    exact hpos ξ hξ _ hD
  have hrule := tensor_rule q w (fun k => (r k).degree (n k)) ε hε0 h5 (jacobianPoly (mapPoly c X)).det fun k => by
    refine (degreeOf_det_le _ order (degreeOf_mapPoly (shipped_distinct h)) k).trans ?_
    have := hdeg k
    omega
  rw [hvol] at hrule
  have hw : ∑ p : (k : Fin 3) → Fin (n k), ∏ k, w k (p k) ≤ (2 + ε) ^ 3 := by
    have e : ∑ p : (k : Fin 3) → Fin (n k), ∏ k, w k (p k) = ∏ k, ∑ j, w k j := by
      rw [Finset.prod_univ_sum, Fintype.piFinset_univ]
    rw [e]
    calc ∏ k, ∑ j, w k j ≤ ∏ _k : Fin 3, (2 + ε) := by
          refine Finset.prod_le_prod (fun k _ => Finset.sum_nonneg fun j _ => (h4 k j).le) fun k _ => ?_
          have := h5 k 0 (Nat.zero_le _)
          simp only [pow_zero, mul_one, intervalIntegral.integral_const, smul_eq_mul] at this
          have := (abs_le.1 this).2
          linarith
      _ = (2 + ε) ^ 3 := by simp
  have hsum : |∑ p : (k : Fin 3) → Fin (n k), (∏ k, w k (p k)) * det p
      - ∑ p : (k : Fin 3) → Fin (n k), (∏ k, w k (p k))
          * MvPolynomial.eval (fun k => q k (p k)) (jacobianPoly (mapPoly c X)).det| ≤ (2 + ε) ^ 3 * E := by
    rw [← Finset.sum_sub_distrib]
    refine (Finset.abs_sum_le_sum_abs _ _).trans ?_
    calc _ ≤ ∑ p : (k : Fin 3) → Fin (n k), (∏ k, w k (p k)) * E := by
          refine Finset.sum_le_sum fun p _ => ?_
          have hp : 0 ≤ ∏ k, w k (p k) := Finset.prod_nonneg fun k _ => (h4 k (p k)).le
          rw [← mul_sub, abs_mul, abs_of_nonneg hp]
          exact mul_le_mul_of_nonneg_left (e3 p) hp
      _ = (∑ p : (k : Fin 3) → Fin (n k), ∏ k, w k (p k)) * E := (Finset.sum_mul _ _ _).symm
      _ ≤ _ := mul_le_mul_of_nonneg_right hw (by
          rw [hE]
          have := smallest_pos T.format
          have := errBound_nonneg hu0 (3 * gradientRoundings order + 5)
          positivity)
  exact (abs_sub_le _ _ _).trans (add_le_add hsum hrule)

end cell

/-! ### hexahedra -/

section hexahedra
variable {T : RealType} {c : (k : Fin 3) → Fin 2 → ℝ} {t : LinearTransform Flt} {X : (Fin 3 → Fin 2) → Fin 3 → ℝ}

private theorem linear_magnitude {v : Fin 2 → ℝ} (h0 : v 0 = -1) (h1 : v 1 = 1) {x : ℝ} (hx : -1 ≤ x ∧ x ≤ 1) (b : Prop)
    [Decidable b] : ∑ a : Fin 2, (if b then derivMagnitude v a x
      else |∏ t ∈ Finset.univ.erase a, (x - v t) / (v a - v t)|) = 1 := by
  rw [Fin.sum_univ_two]
  unfold derivMagnitude
  rw [show (Finset.univ.erase (0 : Fin 2)) = {1} by decide, show (Finset.univ.erase (1 : Fin 2)) = {0} by decide]
  simp only [Finset.sum_singleton, Finset.prod_singleton, h0, h1]
  split
  · rw [show (({1} : Finset (Fin 2)).erase 1) = ∅ by decide, show (({0} : Finset (Fin 2)).erase 0) = ∅ by decide]
    norm_num
  · rw [abs_of_nonneg (div_nonneg_of_nonpos (by linarith) (by norm_num)),
      abs_of_nonneg (div_nonneg (by linarith) (by norm_num))]
    ring

/-- The terms of the derivatives of a hexahedron. -/
theorem hexahedron_magnitude (hc : ∀ k, c k 0 = -1 ∧ c k 1 = 1) {B : ℝ} (hB : ∀ idx i, |X idx i| ≤ B)
    {ξ : Fin 3 → ℝ} (hξ : ξ ∈ cube 3) (i j : Fin 3) :
    cellMagnitude (order := fun _ => 1) c X ξ i j ≤ B := by
  have hB0 : 0 ≤ B := (abs_nonneg _).trans (hB 0 0)
  obtain ⟨g, hg⟩ : ∃ g : (k : Fin 3) → Fin 2 → ℝ, g = fun k a => if j = k then derivMagnitude (c k) a (ξ k)
    else |∏ t ∈ Finset.univ.erase a, (ξ k - c k t) / (c k a - c k t)| := ⟨_, rfl⟩
  have h0 : ∀ k a, 0 ≤ g k a := by
    intro k a
    rw [hg]
    dsimp only
    split
    · exact Finset.sum_nonneg fun a _ => mul_nonneg (abs_nonneg _) (Finset.prod_nonneg fun t _ => abs_nonneg _)
    · exact abs_nonneg _
  have h1 : ∀ k, ∑ a, g k a = 1 := fun k => by rw [hg]; exact linear_magnitude (hc k).1 (hc k).2 (hξ k) _
  calc cellMagnitude (order := fun _ => 1) c X ξ i j = ∑ idx : Fin 3 → Fin 2, (∏ k, g k (idx k)) * |X idx i| := by
        rw [hg]; rfl
    _ ≤ ∑ idx : Fin 3 → Fin 2, (∏ k, g k (idx k)) * B :=
        Finset.sum_le_sum fun idx _ => mul_le_mul_of_nonneg_left (hB idx i) (Finset.prod_nonneg fun k _ => h0 k _)
    _ = (∏ k, ∑ a, g k a) * B := by
        rw [← Finset.sum_mul, Finset.prod_univ_sum, Fintype.piFinset_univ]
    _ = B := by simp [h1]

/-- **C125, hexahedra.** For bases with the two nodes -1 and 1 and eight vertices with coordinates of magnitude at most `B`,
and any shipped rules but the one with two Gauss-Lobatto points, the sum of the computed weights times the computed
determinants is the volume of the hexahedron up to `100000 * (u + δ) * B^3`, where `u` is `2^-24` in `float` and `2^-53` in
`double`, and `δ` is zero unless a rule has six points or more. -/
theorem C125_hexahedron (h : IsShippedIn T (fun _ : Fin 3 => 1) c t.shape) (hc : ∀ k, c k 0 = -1 ∧ c k 1 = 1)
    (hX : HoldsPoints t.data fun (idx : Fin 3 → Fin 2) i => Flt.ofReal (X idx i))
    (cfg : Config) {B : ℝ} (hB1 : 1 ≤ B) (hB : B ^ 3 ≤ 2 ^ 120) (hXB : ∀ idx i, |X idx i| ≤ B)
    (r : Fin 3 → Rule) (n : Fin 3 → ℕ) (hn : ∀ k, (r k).Points (n k)) (hdeg : ∀ k, ¬ (r k = .gaussLobatto ∧ n k = 2))
    {δ : ℝ} (hδ : ∀ k, literalError (n k) ≤ δ) (hδ1 : δ ≤ 2 / 10 ^ 14) :
    ∃ (q w : (k : Fin 3) → Fin (n k) → ℝ) (det : ((k : Fin 3) → Fin (n k)) → ℝ),
      (∀ k (i : Fin (n k)), ((r k).quadratureIn T.arith (n k)).coordCT (i : ℕ) = .ok (Flt.ofReal (q k i))) ∧
      (∀ k (i : Fin (n k)), ((r k).quadratureIn T.arith (n k)).weightCT (i : ℕ) = .ok (Flt.ofReal (w k i))) ∧
      (∀ p, ∃ f after, LinearTransform.inverseJacobianValue cfg (floatArith T.format) t
          (List.ofFn fun k => Flt.ofReal (q k (p k))) = .ok (f, after) ∧ f.datum = .finite (det p)) ∧
      (Set.InjOn (cellMap (order := fun _ => 1) c X) (cube 3) →
        (∀ ξ ∈ cube 3, ∀ D, IsDerivative (cellMap (order := fun _ => 1) c X) D ξ → 0 ≤ D.det) →
        |∑ p : (k : Fin 3) → Fin (n k), (∏ k, w k (p k)) * det p
            - (volume (cellMap (order := fun _ => 1) c X '' cube 3)).toReal|
          ≤ 100000 * (unitRoundoff T.format + δ) * B ^ 3) := by
  have hu0 : 0 ≤ unitRoundoff T.format := roundoff_nonneg T.format
  have hu1 := formats_unit T
  have hδ0 : 0 ≤ δ := by
    refine le_trans ?_ (hδ 0)
    unfold literalError
    split <;> positivity
  obtain ⟨q, w, det, P, e1, e2, e3, e4, e5⟩ := C125_volume (order := fun _ => 1) (c := c) (X := X) h hX cfg hB1 hB hXB
    (fun ξ hξ i j => hexahedron_magnitude hc hXB hξ i j) r n hn (fun k => by
      have a1 := hn k
      have a2 := hdeg k
      generalize r k = G at a1 a2 ⊢
      cases G <;> simp only [Rule.Points, Rule.degree, true_and] at a1 a2 ⊢ <;> omega)
    (ε := 2 * unitRoundoff T.format + δ) (fun k => by have := hδ k; linarith)
  refine ⟨q, w, det, e1, e2, e3, fun hi hpos => (e5 hi hpos).trans ?_⟩
  have hP : coeffSum P ≤ 3072 * B ^ 3 := by
    have hPeq : P = (jacobianPoly (mapPoly (order := fun _ => 1) c X)).det := by
      refine MvPolynomial.funext fun ξ => ?_
      have hD : IsDerivative (cellMap (order := fun _ => 1) c X)
          (Matrix.of fun i j => MvPolynomial.eval ξ (MvPolynomial.pderiv j (mapPoly (order := fun _ => 1) c X i))) ξ := by
        intro i
        simp only [cellMap_eval]
        exact hasFDerivAt_eval _ ξ
      exact (e4 ξ _ hD).symm.trans (derivative_det hD)
    rw [hPeq]
    refine (coeffSum_det_le _ (fun _ => 1) (degreeOf_mapPoly (shipped_distinct h)) (B := 8 * B) fun i => ?_).trans ?_
    · exact coeffSum_mapPoly hc i fun idx => hXB idx i
    · simp only [Finset.prod_const, Finset.card_univ, Fintype.card_fin, Nat.cast_one, one_mul]
      norm_num [Nat.factorial]
      ring_nf
      exact le_refl _
  have hs : 2 ^ 84 * smallestPositive T.format ≤ unitRoundoff T.format := by
    have a1 := formats_tiny T
    have a2 : 1 / 2 ^ 53 ≤ unitRoundoff T.format := by
      cases T <;> norm_num [unitRoundoff, RealType.format, binary32, binary64]
    rw [← tiny_smallest]
    norm_num at a1 a2 ⊢
    linarith
  have hr : errBound (unitRoundoff T.format) (3 * gradientRoundings (fun _ : Fin 3 => 1) + 5)
      ≤ 418 * unitRoundoff T.format := by
    rw [show 3 * gradientRoundings (fun _ : Fin 3 => 1) + 5 = 209 by decide, errBound]
    have := pow_roundoff_le hu0 209 (by norm_num at hu1 ⊢; linarith)
    norm_num at this ⊢
    linarith
  obtain ⟨u, hu⟩ : ∃ u, u = unitRoundoff T.format := ⟨_, rfl⟩
  rw [← hu] at hu0 hu1 hs hr ⊢
  have hB3 : 0 ≤ B ^ 3 := by positivity
  obtain ⟨ε, hε⟩ : ∃ ε, ε = 2 * u + δ := ⟨_, rfl⟩
  rw [← hε]
  have hε0 : 0 ≤ ε := by linarith
  have hε1 : ε ≤ 1 / 10 ^ 6 := by norm_num at hu1 hδ1 ⊢; linarith
  have hcube : (2 + ε) ^ 3 - 2 ^ 3 ≤ 121 / 10 * ε := by nlinarith [mul_nonneg hε0 hε0]
  have hcube' : (2 + ε) ^ 3 ≤ 81 / 10 := by linarith
  have g1 : errBound u (3 * gradientRoundings (fun _ : Fin 3 => 1) + 5) * (6 * B ^ 3)
      + 2 ^ 84 * B ^ 3 * smallestPositive T.format ≤ 2509 * u * B ^ 3 := by
    have a1 := mul_le_mul_of_nonneg_right hr (show 0 ≤ 6 * B ^ 3 by positivity)
    have a2 := mul_le_mul_of_nonneg_right hs hB3
    linarith
  have g2 : (2 + ε) ^ 3 * (errBound u (3 * gradientRoundings (fun _ : Fin 3 => 1) + 5) * (6 * B ^ 3)
      + 2 ^ 84 * B ^ 3 * smallestPositive T.format) ≤ 81 / 10 * (2509 * u * B ^ 3) :=
    (mul_le_mul_of_nonneg_left g1 (by positivity)).trans (mul_le_mul_of_nonneg_right hcube' (by positivity))
  have g3 : ((2 + ε) ^ 3 - 2 ^ 3) * coeffSum P ≤ 121 / 10 * ε * (3072 * B ^ 3) :=
    mul_le_mul hcube hP (coeffSum_nonneg _) (by positivity)
  have g4 : 0 ≤ u * B ^ 3 := by positivity
  have g5 : 0 ≤ δ * B ^ 3 := by positivity
  rw [hε] at g2 g3 ⊢
  nlinarith

/-- Non-vacuity of C125: in `float` and in `double`, the parent cube as a cell, with the two-point Gauss-Legendre rule in
two directions and six Gauss-Lobatto points in the third. -/
example (T : RealType) : ∃ (t : LinearTransform Flt) (X : (Fin 3 → Fin 2) → Fin 3 → ℝ),
    IsShippedIn T (fun _ : Fin 3 => 1) (fun _ => ![-1, 1]) t.shape ∧
    HoldsPoints t.data (fun idx i => Flt.ofReal (X idx i)) ∧ (∀ idx i, |X idx i| ≤ 1) ∧
    Set.InjOn (cellMap (order := fun _ : Fin 3 => 1) (fun _ => ![-1, 1]) X) (cube 3) ∧
    (∀ ξ ∈ cube 3, ∀ D, IsDerivative (cellMap (order := fun _ : Fin 3 => 1) (fun _ => ![-1, 1]) X) D ξ → 0 ≤ D.det) ∧
    (∀ k, (![Rule.gaussLegendre, .gaussLegendre, .gaussLobatto] k).Points (![2, 2, 6] k)) ∧
    ∀ k, literalError (![2, 2, 6] k) ≤ 2 / 10 ^ 14 := by
  obtain ⟨t, h, hX⟩ := sample_cell_in T
  have hid := identity_cell_map
  refine ⟨t, _, h, hX, fun idx i => ?_, fun ξ _ η _ e => ?_, fun ξ _ D hD => ?_, fun k => ?_, fun k => ?_⟩
  · have : ∀ a : Fin 2, |(![-1, 1] : Fin 2 → ℝ) a| ≤ 1 := by intro a; fin_cases a <;> simp
    exact this _
  · funext i
    have := congrFun e i
    rwa [hid, hid] at this
  · rw [derivative_det hD, ← derivative_det (identity_cell_derivative ξ), Matrix.det_one]
    exact zero_le_one
  · fin_cases k <;> exact ⟨by simp, by simp⟩
  · unfold literalError
    split <;> norm_num

end hexahedra

end Verif.Props
