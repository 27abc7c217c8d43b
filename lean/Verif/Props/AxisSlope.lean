import Verif.Lemmas.AxisSlope
import Verif.Props.AxisOrder
import Verif.Props.Degenerate

/-!
# Property C151: the derivative along an axis has the sign of the differences of the nodal values

For interpolation of order one this holds in exact arithmetic.  In `float` and `double` it holds in the last direction, and need not hold in the others.
-/

namespace Verif.Props

open Verif.Spec Verif.Lemmas

variable {d : ℕ}

private theorem hat_deriv (j : Fin 2) (x : ℝ) : HasDerivAt (hat j) (hatSlope j) x := by
  rcases (show ∀ j : Fin 2, j = 0 ∨ j = 1 by decide) j with rfl | rfl
  · have : HasDerivAt (fun x : ℝ => (1 - x) / 2) (-1 / 2) x := ((hasDerivAt_id x).const_sub 1).div_const 2
    exact this
  · have : HasDerivAt (fun x : ℝ => (1 + x) / 2) (1 / 2) x := ((hasDerivAt_id x).const_add 1).div_const 2
    exact this

private theorem basis_hat {v : Fin 2 → ℝ} (h0 : v 0 = -1) (h1 : v 1 = 1) (j : Fin 2) (x : ℝ) :
    (Lagrange.basis Finset.univ v j).eval x = hat j x := by
  rw [← prod_factor_eq, Fin.prod_univ_two]
  rcases (show ∀ j : Fin 2, j = 0 ∨ j = 1 by decide) j with rfl | rfl
  · simp [factor, hat, h0, h1]; ring
  · simp [factor, hat, h0, h1]; ring

private theorem basis_slope {v : Fin 2 → ℝ} (h0 : v 0 = -1) (h1 : v 1 = 1) (j : Fin 2) (x : ℝ) :
    (Polynomial.derivative (Lagrange.basis Finset.univ v j)).eval x = hatSlope j := by
  have e : (fun x => (Lagrange.basis Finset.univ v j).eval x) = hat j := funext fun x => basis_hat h0 h1 j x
  rw [← Polynomial.deriv, e]
  exact (hat_deriv j x).deriv

private theorem term_hat {c : Fin 2 → ℝ} (h0 : c 0 = -1) (h1 : c 1 = 1) (j : Fin 2) :
    (fun s : ℝ => ∏ t ∈ Finset.univ.erase j, (s - c t) / (c j - c t)) = hat j := by
  funext s
  rcases (show ∀ a : Fin 2, a = 0 ∨ a = 1 by decide) j with e | e <;> rw [e]
  · rw [show Finset.univ.erase (0 : Fin 2) = {1} by decide, Finset.prod_singleton, h0, h1, hat, if_pos rfl]
    ring
  · rw [show Finset.univ.erase (1 : Fin 2) = {0} by decide, Finset.prod_singleton, h0, h1, hat, if_neg (by decide)]
    ring

private theorem magnitude_half {c : Fin 2 → ℝ} (h0 : c 0 = -1) (h1 : c 1 = 1) (j : Fin 2) (x : ℝ) : derivMagnitude c j x = 1 / 2 := by
  unfold derivMagnitude
  rcases (show ∀ a : Fin 2, a = 0 ∨ a = 1 by decide) j with e | e <;> rw [e]
  · rw [show Finset.univ.erase (0 : Fin 2) = {1} by decide, Finset.sum_singleton, show ({1} : Finset (Fin 2)).erase 1 = ∅ by decide,
      Finset.prod_empty, h0, h1]
    norm_num [abs_of_neg]
  · rw [show Finset.univ.erase (1 : Fin 2) = {0} by decide, Finset.sum_singleton, show ({0} : Finset (Fin 2)).erase 0 = ∅ by decide,
      Finset.prod_empty, h0, h1]
    norm_num

/-- **C151, exact arithmetic.** For elements of order one with nodes at -1 and 1, in any number of dimensions and at all points of the parent cube: the
derivative in direction `k` is at least half of the least and at most half of the greatest difference of nodal values along `k`.  So it is not negative
if the nodal values do not decrease along `k`. -/
theorem C151_exact {e : Element ℝ} {c : (k : Fin d) → Fin 2 → ℝ} (h : IsLagrange (fun _ : Fin d => 1) c e)
    (hc : ∀ k, c k 0 = -1 ∧ c k 1 = 1) {u : List Int → Res ℝ} {y : (Fin d → Fin 2) → ℝ} (hu : ∀ i, u (tup i) = .ok (y i))
    {x : Fin d → ℝ} (hx : ∀ j, |x j| ≤ 1) :
    ∃ g : Fin d → ℝ, ParentElement.gradient (exactArith ℝ) e (List.ofFn x) u = .ok (List.ofFn g) ∧
      ∀ k, (NodesIncrease k y → 0 ≤ g k) ∧
        ∀ m : ℝ, ((∀ i, m ≤ y (Function.update i k 1) - y (Function.update i k 0)) → m / 2 ≤ g k) ∧
          ((∀ i, y (Function.update i k 1) - y (Function.update i k 0) ≤ m) → g k ≤ m / 2) := by
  obtain ⟨b, rfl, hr, -⟩ := isLagrange_realises h
  refine ⟨cellSlope y x, ?_, fun k => ⟨fun hy => ?_, fun m => cellSlope_bounds hx m⟩⟩
  · rw [parent_gradient h.dims hr x u y hu]
    refine congrArg (fun f => Res.ok (List.ofFn f)) (funext fun a => ?_)
    rw [← cellSlope_sum]
    refine Finset.sum_congr rfl fun i _ => ?_
    congr 1
    refine Finset.prod_congr rfl fun j _ => ?_
    rw [basis_hat (hc j).1 (hc j).2, basis_slope (hc j).1 (hc j).2]
  · have := (cellSlope_bounds (Y := y) (k := k) hx 0).1 fun i => by linarith [hy i]
    linarith

/-- The claim of C151 for `float` and `double`. -/
def SlopesHaveSign : Prop :=
  ∀ (T : RealType) (d : ℕ) (c : Fin d → Fin 2 → ℝ) (e : Element Flt), IsLinearIn T e c →
    ∀ (var : List Int → Res Flt) (y : (Fin d → Fin 2) → ℝ), (∀ i, var (tup (n := fun _ : Fin d => 2) i) = .ok (Flt.ofReal (y i))) →
      (∀ i, Represents T.format (y i) ∧ |y i| ≤ 2 ^ 56) → ∀ k, NodesIncrease k y →
      ∀ x : Fin d → ℝ, (∀ j, |x j| ≤ 1 ∧ Represents T.format (x j)) →
      ∃ (g : Fin d → Flt) (p : ℝ), ParentElement.gradient (floatArith T.format) e (List.ofFn fun j => Flt.ofReal (x j)) var = .ok (List.ofFn g) ∧
        (g k).datum = .finite p ∧ 0 ≤ p

private theorem linear_both {T : RealType} {e : Element Flt} {c : Fin d → Fin 2 → ℝ} (h : IsLinearIn T e c) :
    ∃ (S : Fin d → Spacing Flt) (b : Fin d → Basis Flt), e = Lemmas.elementOf b ∧ (∀ k, EndPoints (S k)) ∧
      (∀ k, (b k).numSupportPoints = (2 : ℕ)) ∧ (∀ k i x, (b k).value i x = LagrangeBasis.value (floatArith T.format) (S k) 2 i x) ∧
      ∀ k i x, (b k).gradient i x = LagrangeBasis.gradient (floatArith T.format) (S k) 2 i x := by
  obtain ⟨fam, b, hb, hk⟩ := h.shipped.bases
  refine ⟨fun k => (fam k).spacingIn T.arith ((1 + 1 : ℕ) : Int), b, ?_, fun k => ⟨?_, ?_⟩, fun k => ?_, fun k i x => ?_, fun k i x => ?_⟩
  · rcases e with ⟨s, bs⟩
    have hs : s = .ok (d : Int) := h.shipped.shape
    have hb : bs = List.ofFn b := hb
    rw [hs, hb]; rfl
  · have := (hk k).2.1 0
    rw [(h.ends k).1] at this
    exact this
  · have := (hk k).2.1 1
    rw [(h.ends k).2] at this
    exact this
  · rw [linear_form T (fam k) (hk k).2.2]
  · rw [linear_form T (fam k) (hk k).2.2]; rfl
  · rw [linear_form T (fam k) (hk k).2.2]; rfl

private theorem neg_finite {f : Flt} {p : ℝ} (h : f.datum = .finite p) : f.neg.datum = .finite (-p) := by
  rw [Flt.neg, h]

section last
variable {T : RealType} {c : Fin (d + 1) → Fin 2 → ℝ} {e : Element Flt}

/-- **C151, the last direction.** In `float` and `double` and any number of dimensions: if the nodal values do not decrease in the last direction, the
derivative in the last direction is not negative at any point of the parent element, unless it is infinite or not a number; if they do not increase, it
is not positive.  On a line this is the whole property. -/
theorem C151_last_partial (h : IsLinearIn T e c) {u : List Int → Res Flt} {y : (Fin (d + 1) → Fin 2) → ℝ}
    (hu : ∀ i, u (tup (n := fun _ : Fin (d + 1) => 2) i) = .ok (Flt.ofReal (y i))) {x : Fin (d + 1) → ℝ} (hx : ∀ j, |x j| ≤ 1)
    {g : Fin (d + 1) → Flt} (hg : ParentElement.gradient (floatArith T.format) e (List.ofFn fun j => Flt.ofReal (x j)) u = .ok (List.ofFn g))
    {p : ℝ} (hp : (g (Fin.last d)).datum = .finite p) :
    (NodesIncrease (Fin.last d) y → 0 ≤ p) ∧ (NodesIncrease (Fin.last d) (fun i => -y i) → p ≤ 0) := by
  obtain ⟨S, b, rfl, hS, hc, hb, hb'⟩ := linear_both h
  have hX : ∀ (k : Fin (d + 1)) w, (Flt.ofReal (x k)).datum = .finite w → |w| ≤ 1 := fun k w hw => by rw [← Datum.finite.inj hw]; exact hx k
  have h0 : ((floatArith T.format).lit 0).datum = .finite 0 := by
    show (Flt.round T.format false ((0 : ℚ) : ℝ)).datum = _
    rw [Rat.cast_zero, round_zero]
  have nodes : ∀ τ : Fin d → Int, (∀ k, τ k = 0 ∨ τ k = 1) → ∃ i : Fin (d + 1) → Fin 2,
      u (List.ofFn τ ++ [0]) = .ok (Flt.ofReal (y (Function.update i (Fin.last d) 0))) ∧
      u (List.ofFn τ ++ [1]) = .ok (Flt.ofReal (y (Function.update i (Fin.last d) 1))) := by
    intro τ hτ
    have hi : ∀ k, ∃ a : Fin 2, ((a : ℕ) : Int) = τ k := fun k => by
      rcases hτ k with e | e <;> rw [e]
      · exact ⟨0, rfl⟩
      · exact ⟨1, rfl⟩
    choose a ha using hi
    have et : ∀ j : Fin 2, tup (n := fun _ : Fin (d + 1) => 2) (Function.update (Fin.snoc a 0 : Fin (d + 1) → Fin 2) (Fin.last d) j)
        = List.ofFn τ ++ [((j : ℕ) : Int)] := fun j => by
      rw [tup, List.ofFn_succ_last, Function.update_self]
      congr 2
      funext k
      rw [Function.update_of_ne (Fin.castSucc_lt_last k).ne, Fin.snoc_castSucc]
      exact ha k
    refine ⟨Fin.snoc a 0, ?_, ?_⟩
    · rw [← hu, et]; rfl
    · rw [← hu, et]; rfl
  constructor
  · intro hy
    obtain ⟨g', hg', hz⟩ := gradient_last_sign (wide_format T) hS hc hb hb' hX (var := u) InOrder Nonneg
      (fun w hw => by rw [← Datum.finite.inj (h0.symm.trans hw)]) (fun r w w' v v' hr hw hw' hv => add_pair hr hw hw' hv)
      (fun τ hτ => by
        obtain ⟨i, e0, e1⟩ := nodes τ hτ
        exact ⟨_, _, e0, e1, fun _ _ => ⟨_, _, rfl, rfl, hy i⟩⟩) hg
    obtain rfl : g = g' := List.ofFn_injective hg'
    exact hz p hp
  · intro hy
    obtain ⟨g', hg', hz⟩ := gradient_last_sign (wide_format T) hS hc hb hb' hX (var := u) (fun v v' => InOrder v' v) (fun r => Nonneg r.neg)
      (fun w hw => by rw [← Datum.finite.inj ((neg_finite h0).symm.trans hw), neg_zero]) (fun r w w' v v' hr hw hw' hv => add_pair_neg hr hw hw' hv)
      (fun τ hτ => by
        obtain ⟨i, e0, e1⟩ := nodes τ hτ
        exact ⟨_, _, e0, e1, fun _ _ => ⟨_, _, rfl, rfl, neg_le_neg_iff.1 (hy i)⟩⟩) hg
    obtain rfl : g = g' := List.ofFn_injective hg'
    have := hz (-p) (neg_finite hp)
    linarith

end last

section cells
variable {T : RealType} {c : Fin (d + 1) → Fin 2 → ℝ} {t : LinearTransform Flt} {X : (Fin (d + 1) → Fin 2) → Fin (d + 1) → ℝ}

/-- **C151, Jacobians.** In `float` and `double`, in up to three dimensions: if coordinate `i` of the vertices of a cell does not decrease in the last
parent direction, then entry `(i, last)` of the Jacobian is not negative at any point of the parent element, unless it is infinite or not a number. -/
theorem C151_jacobian_partial (h : IsLinearIn T t.shape c) (hd : d + 1 ≤ 3)
    (hX : HoldsPoints t.data (fun (a : Fin (d + 1) → Fin 2) i => Flt.ofReal (X a i))) (cfg : Config) {ξ : Fin (d + 1) → ℝ}
    (hξ : ∀ j, |ξ j| ≤ 1) (extra : List Flt) (he : d + 1 + extra.length = 3) :
    ∃ (mem : List Flt) (J : Matrix (Fin (d + 1)) (Fin (d + 1)) Flt),
      LinearTransform.jacobianValue cfg (floatArith T.format) t ((List.ofFn fun j => Flt.ofReal (ξ j)) ++ extra) = .ok mem ∧ HoldsMatrix mem J ∧
      ∀ i, NodesIncrease (Fin.last d) (fun a => X a i) → ∀ p, (J i (Fin.last d)).datum = .finite p → 0 ≤ p := by
  classical
  obtain ⟨mem, J, h1, h2, h3⟩ := C145_rows h.shipped hd hX cfg (fun j => Flt.ofReal (ξ j)) extra he
  refine ⟨mem, J, h1, h2, fun i hi p hp => ?_⟩
  obtain ⟨var, hvar⟩ : ∃ var : List Int → Res Flt, ∀ a : Fin (d + 1) → Fin 2,
      var (tup (n := fun _ : Fin (d + 1) => 2) a) = .ok (Flt.ofReal (X a i)) := by
    refine ⟨fun l => if h : ∃ a : Fin (d + 1) → Fin 2, tup (n := fun _ : Fin (d + 1) => 2) a = l then .ok (Flt.ofReal (X h.choose i)) else .ub,
      fun a => ?_⟩
    have hex : ∃ j : Fin (d + 1) → Fin 2, tup (n := fun _ : Fin (d + 1) => 2) j = tup (n := fun _ : Fin (d + 1) => 2) a := ⟨a, rfl⟩
    exact (dif_pos hex).trans (by rw [tup_injective hex.choose_spec])
  exact (C151_last_partial h hvar hξ (h3 i var hvar) hp).1 hi

end cells

section element
variable {T : RealType} {c : Fin d → Fin 2 → ℝ} {e : Element Flt}

/-- **C151, all directions.** In up to three dimensions, for nodal values of magnitude at most `Y`, the derivative in direction `k` is finite and between
half of the least and half of the greatest difference of nodal values along `k`, but for the rounding error of C100. -/
theorem C151_error_partial (h : IsLinearIn T e c) (hd : d ≤ 3) {u : List Int → Res Flt} {y : (Fin d → Fin 2) → ℝ}
    (hu : ∀ i, u (tup (n := fun _ : Fin d => 2) i) = .ok (Flt.ofReal (y i))) {Y : ℝ} (hY1 : 1 ≤ Y) (hY2 : Y ≤ 2 ^ 56) (hY : ∀ i, |y i| ≤ Y)
    {x : Fin d → ℝ} (hx : ∀ j, |x j| ≤ 1) :
    ∃ g : Fin d → Flt, ParentElement.gradient (floatArith T.format) e (List.ofFn fun j => Flt.ofReal (x j)) u = .ok (List.ofFn g) ∧
      ∀ k, ∃ p, (g k).datum = .finite p ∧ ∀ m : ℝ,
        ((∀ i, m ≤ y (Function.update i k 1) - y (Function.update i k 0)) →
          m / 2 ≤ p + (errBound (unitRoundoff T.format) (20 * d + 2 ^ d) * Y + 2 ^ 78 * Y * smallestPositive T.format)) ∧
        ((∀ i, y (Function.update i k 1) - y (Function.update i k 0) ≤ m) →
          p ≤ m / 2 + (errBound (unitRoundoff T.format) (20 * d + 2 ^ d) * Y + 2 ^ 78 * Y * smallestPositive T.format)) := by
  have hE : 0 ≤ errBound (unitRoundoff T.format) (20 * d + 2 ^ d) := by
    unfold errBound
    have : (1 : ℝ) ≤ (1 + unitRoundoff T.format) ^ (20 * d + 2 ^ d) := one_le_pow₀ (by
      have : (0 : ℝ) ≤ unitRoundoff T.format := by unfold unitRoundoff; positivity
      linarith)
    linarith
  have hround : gradientRoundings (fun _ : Fin d => 1) = 20 * d + 2 ^ d := by
    unfold gradientRoundings
    simp; ring
  obtain ⟨g, hg, hw⟩ := C100_interpolation_gradient h.shipped hd u y hu hY1 hY2 hY x hx
  refine ⟨g, hg, fun k => ?_⟩
  obtain ⟨p, hp, herr⟩ := hw k
  have e1 : ∀ (j : Fin d) (a : Fin 2), (fun s : ℝ => ∏ t ∈ Finset.univ.erase a, (s - c j t) / (c j a - c j t)) = hat a :=
    fun j a => term_hat (h.ends j).1 (h.ends j).2 a
  have e2 : ∀ (j : Fin d) (a : Fin 2) (s : ℝ), ∏ t ∈ Finset.univ.erase a, (s - c j t) / (c j a - c j t) = hat a s :=
    fun j a s => congrFun (e1 j a) s
  have herr' : |p - ∑ i : Fin d → Fin 2, (∏ j, if k = j then hatSlope (i j) else hat (i j) (x j)) * y i|
      ≤ errBound (unitRoundoff T.format) (20 * d + 2 ^ d) * ∑ i : Fin d → Fin 2, (∏ j, if k = j then 1 / 2 else |hat (i j) (x j)|) * |y i|
        + 2 ^ 78 * Y * smallestPositive T.format := by
    have t1 : ∀ i : Fin d → Fin 2, (∏ j, if k = j then deriv (fun s : ℝ => ∏ t ∈ Finset.univ.erase (i j), (s - c j t) / (c j (i j) - c j t)) (x j)
        else ∏ t ∈ Finset.univ.erase (i j), (x j - c j t) / (c j (i j) - c j t)) = ∏ j, if k = j then hatSlope (i j) else hat (i j) (x j) := fun i =>
      Finset.prod_congr rfl fun j _ => by rw [e1, e2, (hat_deriv (i j) (x j)).deriv]
    have t2 : ∀ i : Fin d → Fin 2, (∏ j, if k = j then derivMagnitude (c j) (i j) (x j)
        else |∏ t ∈ Finset.univ.erase (i j), (x j - c j t) / (c j (i j) - c j t)|) = ∏ j, if k = j then 1 / 2 else |hat (i j) (x j)| := fun i =>
      Finset.prod_congr rfl fun j _ => by rw [e2, magnitude_half (h.ends j).1 (h.ends j).2]
    rw [← hround]
    simp only [← t1, ← t2]
    exact herr
  rw [cellSlope_sum] at herr'
  have hsum : ∑ i : Fin d → Fin 2, (∏ j, if k = j then (1 / 2 : ℝ) else |hat (i j) (x j)|) * |y i| ≤ Y := by
    have hpos : ∀ i : Fin d → Fin 2, 0 ≤ ∏ j, (if k = j then (1 / 2 : ℝ) else |hat (i j) (x j)|) := fun i =>
      Finset.prod_nonneg fun j _ => by split_ifs <;> [norm_num; exact abs_nonneg _]
    calc _ ≤ ∑ i : Fin d → Fin 2, (∏ j, if k = j then (1 / 2 : ℝ) else |hat (i j) (x j)|) * Y :=
          Finset.sum_le_sum fun i _ => mul_le_mul_of_nonneg_left (hY i) (hpos i)
      _ = Y := by rw [← Finset.sum_mul, sum_hatSlope x hx, one_mul]
  have hle := abs_le.1 (herr'.trans (add_le_add_left (mul_le_mul_of_nonneg_left hsum hE) _))
  refine ⟨p, hp, fun m => ⟨fun hm => ?_, fun hm => ?_⟩⟩
  · linarith [(cellSlope_bounds (Y := y) (k := k) hx m).1 hm]
  · linarith [(cellSlope_bounds (Y := y) (k := k) hx m).2 hm]

end element

/-- **C151 is violated** in the first direction of a square, in `float` and `double`, with EqualSpacing and with GaussLobattoSpacing: there are nodal
values of the type, between 1 and 4, that increase strictly in the first direction, and a point at which the first derivative is negative. -/
theorem C151_violated : ¬ SlopesHaveSign ∧
    ∀ (T : RealType) (fam : Family), fam = .equal ∨ fam = .gaussLobatto → ∃ b : Basis Flt,
      T.arith.lagrangeBasis (fam.spacingIn T.arith) (1 : ℕ) = .ok b ∧
      ∃ (y : List Int → ℝ) (x : Fin 2 → ℝ) (p q : ℝ), (∀ l, 1 ≤ y l ∧ y l ≤ 4 ∧ Represents T.format (y l)) ∧
        (∀ j, (j = 0 ∨ j = 1) → y [0, j] < y [1, j]) ∧ (∀ j, |x j| ≤ 1 ∧ Represents T.format (x j)) ∧
        ParentElement.gradient (floatArith T.format) ⟨.ok (2 : ℕ), List.replicate 2 b⟩ (List.ofFn fun j => Flt.ofReal (x j))
          (fun l => .ok (Flt.ofReal (y l))) = .ok [Flt.ofReal p, Flt.ofReal q] ∧ p < 0 := by
  have each : ∀ (T : RealType) (fam : Family), fam = .equal ∨ fam = .gaussLobatto → ∀ b : Basis Flt,
      T.arith.lagrangeBasis (fam.spacingIn T.arith) (1 : ℕ) = .ok b →
      ∃ (y : List Int → ℝ) (x : Fin 2 → ℝ) (p q : ℝ), (∀ l, 1 ≤ y l ∧ y l ≤ 4 ∧ Represents T.format (y l)) ∧
        (∀ j, (j = 0 ∨ j = 1) → y [0, j] < y [1, j]) ∧ (∀ j, |x j| ≤ 1 ∧ Represents T.format (x j)) ∧
        ParentElement.gradient (floatArith T.format) ⟨.ok (2 : ℕ), List.replicate 2 b⟩ (List.ofFn fun j => Flt.ofReal (x j))
          (fun l => .ok (Flt.ofReal (y l))) = .ok [Flt.ofReal p, Flt.ofReal q] ∧ p < 0 := by
    intro T fam hfam b hb
    have hm : fam ∈ [Family.equal, .gaussLobatto] := by rcases hfam with rfl | rfl <;> decide
    have hneg := slopes_negative T (mem_types T) fam hm
    obtain ⟨h0, h1, hrep⟩ := slope_values T (mem_types T)
    have rep : ∀ q ∈ [(3 : ℚ), 1, 3 + 4 * belowOne T, 1 + 2 * belowOne T, 0, -7 / 8 - 4 * belowOne T], Represents T.format (q : ℝ) :=
      fun q hq => round_represents _ (evalRound_sound _ (hrep q hq))
    unfold slopeNegative at hneg
    split at hneg
    · next p q e =>
      refine ⟨fun l => (slightlyUp T l : ℝ), ![((0 : ℚ) : ℝ), ((-7 / 8 - 4 * belowOne T : ℚ) : ℝ)], p, q, fun l => ?_, fun j hj => ?_, fun j => ?_, ?_,
        by exact_mod_cast of_decide_eq_true hneg⟩
      · have : 1 ≤ slightlyUp T l ∧ slightlyUp T l ≤ 4 := by
          unfold slightlyUp
          split_ifs <;> constructor <;> linarith
        dsimp only
        refine ⟨by exact_mod_cast this.1, by exact_mod_cast this.2, rep _ ?_⟩
        unfold slightlyUp
        split_ifs <;> simp
      · have : slightlyUp T [0, j] < slightlyUp T [1, j] := by
          rcases hj with rfl | rfl
          · simp [slightlyUp, h0]
          · simp [slightlyUp, h0]
        dsimp only
        exact_mod_cast this
      · rcases (show ∀ j : Fin 2, j = 0 ∨ j = 1 by decide) j with rfl | rfl
        · refine ⟨?_, rep 0 (by simp)⟩
          show |((0 : ℚ) : ℝ)| ≤ 1
          norm_num
        · refine ⟨?_, rep _ (by simp)⟩
          show |((-7 / 8 - 4 * belowOne T : ℚ) : ℝ)| ≤ 1
          rw [← Rat.cast_abs]
          have : |(-7 / 8 - 4 * belowOne T : ℚ)| ≤ 1 := by rw [abs_le]; constructor <;> linarith
          exact_mod_cast this
      · exact axisGradient_sound (l := [p, q]) e (linear_form T fam hb)
    · cases hneg
  refine ⟨fun hall => ?_, fun T fam hfam => ?_⟩
  · obtain ⟨b, c, hb, hlin⟩ := same_linear .double (fam := .equal) (.inl rfl) (d := 2) (by norm_num)
    obtain ⟨y, x, p, q, hy, hup, hx, hg, hp⟩ := each .double .equal (.inl rfl) b hb
    have val : ∀ i : Fin 2 → Fin 2, tup (n := fun _ : Fin 2 => 2) i = [((i 0 : ℕ) : Int), ((i 1 : ℕ) : Int)] := fun i => rfl
    obtain ⟨g, r, hg', hr, hle⟩ := hall .double 2 c _ hlin (fun l => .ok (Flt.ofReal (y l))) (fun i => y (tup (n := fun _ : Fin 2 => 2) i))
      (fun _ => rfl) (fun i => ⟨(hy _).2.2, by
        rw [abs_of_nonneg (by linarith [(hy (tup (n := fun _ : Fin 2 => 2) i)).1])]
        exact (hy _).2.1.trans (by norm_num)⟩) 0 (fun i => by
        dsimp only
        rw [val, val]
        exact (hup (((i 1 : ℕ) : Int)) (by omega)).le) x hx
    have e := Res.ok.inj (hg'.symm.trans hg)
    rw [List.ofFn_succ] at e
    rw [(List.cons.inj e).1] at hr
    have := Datum.finite.inj hr
    linarith
  · obtain ⟨b, -, hb, -⟩ := same_linear T hfam (d := 2) (by norm_num)
    exact ⟨b, hb, each T fam hfam b hb⟩

/-- Non-vacuity of C151: in exact arithmetic a cube whose nodal values are the sums of their indices has the derivative 1/2 in all directions; in `float`
a square whose nodal values increase in the last direction has a last derivative that is finite and not negative at a given point. -/
example : (∃ (e : Element ℝ) (g : Fin 3 → ℝ),
      ParentElement.gradient (exactArith ℝ) e (List.ofFn ![1 / 3, -1 / 2, 1]) (fun l => .ok ((l.sum : ℤ) : ℝ)) = .ok (List.ofFn g) ∧ ∀ k, g k = 1 / 2) ∧
    ∃ (b : Basis Flt) (g : Fin 2 → Flt) (p : ℝ), floatMixed.lagrangeBasis floatMixed.equalSpacing (1 : ℕ) = .ok b ∧
      ParentElement.gradient (floatArith binary32) ⟨.ok (2 : ℕ), List.replicate 2 b⟩ (List.ofFn fun k : Fin 2 => Flt.ofReal (![-1 / 3, 1 / 7] k))
        (fun l => .ok (Flt.ofReal (if l = [0, 0] then -1 else if l = [0, 1] then 0 else if l = [1, 0] then 2 else 5))) = .ok (List.ofFn g) ∧
      (g 1).datum = .finite p ∧ 0 ≤ p := by
  constructor
  · obtain ⟨w, hw, -, -⟩ := C36_supported_nodes .equal 1 ⟨by norm_num, by norm_num⟩
    have hwe := C76_end_nodes .equal 1 (by norm_num) (by decide) ⟨by norm_num, by norm_num⟩ w hw
    obtain ⟨b, hb, -⟩ := (C36_compiles_iff_supported .equal 1 ⟨by norm_num, by norm_num⟩).1 ⟨by norm_num, by norm_num⟩
    obtain ⟨g, hg, hk⟩ := C151_exact (e := ⟨.ok 3, List.ofFn fun _ : Fin 3 => b⟩) (c := fun _ => w)
      ⟨by norm_num, rfl, _, rfl, fun _ => ⟨by norm_num, _, hw, hb⟩⟩ (fun _ => hwe) (u := fun l => .ok ((l.sum : ℤ) : ℝ))
      (y := fun i => (((tup (n := fun _ : Fin 3 => 2) i).sum : ℤ) : ℝ)) (fun _ => rfl) (x := ![1 / 3, -1 / 2, 1])
      (fun j => by rcases (show ∀ j : Fin 3, j = 0 ∨ j = 1 ∨ j = 2 by decide) j with rfl | rfl | rfl <;> rw [abs_le] <;>
        [(constructor <;> norm_num); (constructor <;> norm_num); exact ⟨by show (-1 : ℝ) ≤ 1; norm_num, le_refl (1 : ℝ)⟩])
    refine ⟨_, g, hg, fun k => ?_⟩
    have h : ∀ (k : Fin 3) (i : Fin 3 → Fin 2),
        (tup (n := fun _ : Fin 3 => 2) (Function.update i k 1)).sum = (tup (n := fun _ : Fin 3 => 2) (Function.update i k 0)).sum + 1 := by decide
    have diff : ∀ i : Fin 3 → Fin 2, (((tup (n := fun _ : Fin 3 => 2) (Function.update i k 1)).sum : ℤ) : ℝ)
        - (((tup (n := fun _ : Fin 3 => 2) (Function.update i k 0)).sum : ℤ) : ℝ) = 1 := fun i => by
      rw [h]; push_cast; ring
    obtain ⟨h1, h2⟩ := (hk k).2 1
    exact le_antisymm (h2 fun i => (diff i).le) (h1 fun i => (diff i).ge)
  · obtain ⟨b, c, hb, h⟩ := same_linear .float (fam := .equal) (.inl rfl) (d := 2) (by norm_num)
    have hx : ∀ k : Fin 2, |(![-1 / 3, 1 / 7] : Fin 2 → ℝ) k| ≤ 1 := fun k => by fin_cases k <;> norm_num [abs_le]
    obtain ⟨g, hg, hk⟩ := C151_error_partial h (by norm_num)
      (u := fun l => .ok (Flt.ofReal (if l = [0, 0] then -1 else if l = [0, 1] then 0 else if l = [1, 0] then 2 else 5)))
      (y := fun i => if tup (n := fun _ : Fin 2 => 2) i = [0, 0] then -1 else if tup (n := fun _ : Fin 2 => 2) i = [0, 1] then 0
        else if tup (n := fun _ : Fin 2 => 2) i = [1, 0] then 2 else 5) (fun _ => rfl) (Y := 5) (by norm_num) (by norm_num)
      (fun i => by split_ifs <;> norm_num) hx
    obtain ⟨p, hp, -⟩ := hk 1
    refine ⟨b, g, p, hb, hg, hp, (C151_last_partial (d := 1) h
      (u := fun l => .ok (Flt.ofReal (if l = [0, 0] then -1 else if l = [0, 1] then 0 else if l = [1, 0] then 2 else 5)))
      (y := fun i => if tup (n := fun _ : Fin 2 => 2) i = [0, 0] then -1 else if tup (n := fun _ : Fin 2 => 2) i = [0, 1] then 0
        else if tup (n := fun _ : Fin 2 => 2) i = [1, 0] then 2 else 5) (fun _ => rfl) hx hg hp).1 fun i => ?_⟩
    have low : ∀ i : Fin 2 → Fin 2, (tup (n := fun _ : Fin 2 => 2) (Function.update i (Fin.last 1) 0) = [0, 0] ∧
        tup (n := fun _ : Fin 2 => 2) (Function.update i (Fin.last 1) 1) = [0, 1]) ∨
        (tup (n := fun _ : Fin 2 => 2) (Function.update i (Fin.last 1) 0) = [1, 0] ∧
        tup (n := fun _ : Fin 2 => 2) (Function.update i (Fin.last 1) 1) = [1, 1]) := by decide
    dsimp only
    rcases low i with ⟨e0, e1⟩ | ⟨e0, e1⟩
    · rw [e0, e1]; norm_num
    · rw [e0, e1]; norm_num

/-- Non-vacuity of `C151_jacobian_partial`: a cube with a slanted top, whose third coordinate increases in the third direction at all vertices. -/
example (T : RealType) (cfg : Config) : ∃ (t : LinearTransform Flt) (mem : List Flt) (J : Matrix (Fin 3) (Fin 3) Flt),
    HoldsPoints t.data (fun (a : Fin 3 → Fin 2) i => Flt.ofReal ((![if a 0 = 0 then -1 else 1, if a 1 = 0 then -1 else 1,
      if a 2 = 0 then -1 else if a 0 = 0 then 1 else 2] : Fin 3 → ℝ) i)) ∧
    LinearTransform.jacobianValue cfg (floatArith T.format) t (List.ofFn fun _ : Fin 3 => Flt.ofReal (1 / 2)) = .ok mem ∧ HoldsMatrix mem J ∧
    ∀ p, (J 2 2).datum = .finite p → 0 ≤ p := by
  obtain ⟨t, h1, -, h2⟩ := float_cell T fun a => ![if a 0 = 0 then -1 else 1, if a 1 = 0 then -1 else 1,
    if a 2 = 0 then -1 else if a 0 = 0 then 1 else 2]
  obtain ⟨mem, J, h3, h4, h5⟩ := C151_jacobian_partial (d := 2) ⟨h1, fun _ => ⟨rfl, rfl⟩⟩ (by norm_num) h2 cfg (ξ := fun _ => 1 / 2)
    (fun _ => by norm_num [abs_le]) [] rfl
  rw [List.append_nil] at h3
  refine ⟨t, mem, J, h2, h3, h4, h5 2 fun a => ?_⟩
  obtain ⟨a0, ha0⟩ : ∃ z : Fin 3 → Fin 2, z = Function.update a (Fin.last 2) 0 := ⟨_, rfl⟩
  obtain ⟨a1, ha1⟩ : ∃ z : Fin 3 → Fin 2, z = Function.update a (Fin.last 2) 1 := ⟨_, rfl⟩
  have e0 : a0 2 = 0 := by rw [ha0]; exact Function.update_self ..
  have e1 : a1 2 ≠ 0 := by rw [ha1, show (Function.update a (Fin.last 2) 1 : Fin 3 → Fin 2) 2 = 1 from Function.update_self ..]; decide
  rw [← ha0, ← ha1]
  show (if a0 2 = 0 then (-1 : ℝ) else if a0 0 = 0 then 1 else 2) ≤ if a1 2 = 0 then (-1 : ℝ) else if a1 0 = 0 then 1 else 2
  rw [if_pos e0, if_neg e1]
  split_ifs <;> norm_num

end Verif.Props
