import Verif.Props.FaceFloat
import Verif.Props.AxisSlope

/-!
# Property C155: along an edge, the derivative is half of the difference of the nodal values at its ends, correctly rounded

For interpolation of order one.  An edge is given by its direction `k` and one of its ends `v`.
-/

namespace Verif.Props

open Verif.Spec Verif.Lemmas

/-! ### exact arithmetic -/

private theorem slope_of_line {c : Fin 2 → ℝ} (h0 : c 0 = -1) (h1 : c 1 = 1) (x : ℝ) :
    (Polynomial.derivative (Lagrange.basis Finset.univ c 0)).eval x = -1 / 2 ∧ (Polynomial.derivative (Lagrange.basis Finset.univ c 1)).eval x = 1 / 2 := by
  have e0 : Lagrange.basis Finset.univ c 0 = Polynomial.C (-1 / 2) * (Polynomial.X - Polynomial.C 1) := by
    rw [Lagrange.basis, show Finset.univ.erase (0 : Fin 2) = {1} by decide, Finset.prod_singleton, Lagrange.basisDivisor, h0, h1]
    norm_num
  have e1 : Lagrange.basis Finset.univ c 1 = Polynomial.C (1 / 2) * (Polynomial.X - Polynomial.C (-1)) := by
    rw [Lagrange.basis, show Finset.univ.erase (1 : Fin 2) = {0} by decide, Finset.prod_singleton, Lagrange.basisDivisor, h0, h1]
    norm_num
  rw [e0, e1]
  simp

/-- **C155, exact arithmetic.** For elements of order one with nodes at -1 and 1, in any number of dimensions: on an edge in direction `k`, the derivative in direction `k` is half
of the difference of the nodal values at the ends of the edge. -/
theorem C155_exact {d : ℕ} {e : Element ℝ} {c : (k : Fin d) → Fin 2 → ℝ} (h : IsLagrange (fun _ : Fin d => 1) c e) (hc : ∀ k, c k 0 = -1 ∧ c k 1 = 1)
    {u : List Int → Res ℝ} {y : (Fin d → Fin 2) → ℝ} (hu : ∀ i, u (tup i) = .ok (y i)) (k : Fin d) (v : Fin d → Fin 2) {x : Fin d → ℝ}
    (hx : ∀ j, j ≠ k → x j = if v j = 0 then -1 else 1) :
    ∃ g : Fin d → ℝ, ParentElement.gradient (exactArith ℝ) e (List.ofFn x) u = .ok (List.ofFn g) ∧
      g k = (y (Function.update v k 1) - y (Function.update v k 0)) / 2 := by
  obtain ⟨b, rfl, hr, hinj⟩ := isLagrange_realises h
  refine ⟨_, parent_gradient h.dims hr x u y hu, ?_⟩
  have hxc : ∀ j, j ≠ k → x j = c j (v j) := fun j hj => by
    rw [hx j hj]
    rcases (show ∀ a : Fin 2, a = 0 ∨ a = 1 by decide) (v j) with e | e <;> rw [e]
    · rw [if_pos rfl, (hc j).1]
    · rw [if_neg (by decide), (hc j).2]
  have hinj2 : Function.Injective fun a : Fin 2 => Function.update v k a := fun a a' haa => by
    have := congrFun haa k
    simpa using this
  have hterm : ∀ a : Fin 2, (∏ j, if k = j then (Polynomial.derivative (Lagrange.basis Finset.univ (c j) (Function.update v k a j))).eval (x j)
      else (Lagrange.basis Finset.univ (c j) (Function.update v k a j)).eval (x j)) = (Polynomial.derivative (Lagrange.basis Finset.univ (c k) a)).eval (x k) := by
    intro a
    rw [← Finset.mul_prod_erase Finset.univ _ (Finset.mem_univ k), if_pos rfl, Function.update_self, Finset.prod_eq_one, mul_one]
    intro j hj
    have hj := Finset.ne_of_mem_erase hj
    rw [if_neg (Ne.symm hj), Function.update_of_ne hj, hxc j hj, Lagrange.eval_basis_self (hinj j).injOn (Finset.mem_univ _)]
  rw [← Finset.sum_subset (Finset.subset_univ (Finset.univ.image fun a : Fin 2 => Function.update v k a)), Finset.sum_image (fun a _ a' _ h => hinj2 h),
    Fin.sum_univ_two, hterm, hterm, (slope_of_line (hc k).1 (hc k).2 _).1, (slope_of_line (hc k).1 (hc k).2 _).2]
  · ring
  · intro idx _ hi
    obtain ⟨j, hj, hne⟩ : ∃ j, j ≠ k ∧ idx j ≠ v j := by
      by_contra hcon
      push Not at hcon
      refine hi (Finset.mem_image.2 ⟨idx k, Finset.mem_univ _, funext fun j => ?_⟩)
      by_cases e : j = k
      · subst e; rw [Function.update_self]
      · rw [Function.update_of_ne e, hcon j e]
    rw [Finset.prod_eq_zero (Finset.mem_univ j), zero_mul]
    rw [if_neg (Ne.symm hj), hxc j hj]
    exact Lagrange.eval_basis_of_ne hne (Finset.mem_univ _)

/-! ### `float` and `double` -/

section numbers
variable {F : FloatFormat}

private theorem round_finite {x : ℝ} (h : |F.nearest x| < 2 ^ (F.maxExp + 1)) (r : Bool) : (Flt.round F r x).datum = .finite (F.nearest x) := by
  have ho : ¬ F.Overflows x := not_le.2 h
  simp [Flt.round, ho]

/-- Half of a difference, as a line element computes it. -/
private theorem half_difference {f₀ f₁ z : Flt} (hz : z.datum = .finite 0) (h₀ : f₀.datum = .finite (-1 / 2)) (h₁ : f₁.datum = .finite (1 / 2)) {y₀ y₁ : ℝ}
    (r₀ : Represents F y₀) (r₁ : Represents F y₁) (s₀ : Represents F (y₀ / 2)) (s₁ : Represents F (y₁ / 2)) :
    (Flt.add F (Flt.add F z (Flt.mul F f₀ (Flt.ofReal y₀))) (Flt.mul F f₁ (Flt.ofReal y₁))).datum = .finite (F.nearest ((y₁ - y₀) / 2)) := by
  have m₀ : (Flt.mul F f₀ (Flt.ofReal y₀)).datum = .finite (-(y₀ / 2)) := by
    simp only [Flt.mul, h₀, Flt.ofReal]
    rw [show (-1 / 2 : ℝ) * y₀ = -(y₀ / 2) by ring]
    exact round_represented (represents_neg s₀) _
  have m₁ : (Flt.mul F f₁ (Flt.ofReal y₁)).datum = .finite (y₁ / 2) := by
    simp only [Flt.mul, h₁, Flt.ofReal]
    rw [show (1 / 2 : ℝ) * y₁ = y₁ / 2 by ring]
    exact round_represented s₁ _
  have a₀ : (Flt.add F z (Flt.mul F f₀ (Flt.ofReal y₀))).datum = .finite (-(y₀ / 2)) := by
    have := add_data (F := F) hz m₀ (by rw [zero_add]; exact represents_neg s₀)
    rwa [zero_add] at this
  generalize Flt.add F z (Flt.mul F f₀ (Flt.ofReal y₀)) = w at a₀ ⊢
  simp only [Flt.add, a₀, m₁]
  rw [show -(y₀ / 2) + y₁ / 2 = (y₁ - y₀) / 2 by ring]
  refine round_finite ?_ _
  have hm : Represents F (max |y₀| |y₁|) := by
    rcases max_cases |y₀| |y₁| with ⟨e, -⟩ | ⟨e, -⟩ <;> rw [e]
    · rcases abs_choice y₀ with e | e <;> rw [e]
      · exact r₀
      · exact represents_neg r₀
    · rcases abs_choice y₁ with e | e <;> rw [e]
      · exact r₁
      · exact represents_neg r₁
  have hle : |(y₁ - y₀) / 2| ≤ max |y₀| |y₁| := by
    rw [abs_div, abs_two]
    have := abs_sub y₁ y₀
    have h1 := le_max_left |y₀| |y₁|
    have h2 := le_max_right |y₀| |y₁|
    linarith
  have hb := abs_le.1 hle
  have u1 : F.nearest ((y₁ - y₀) / 2) ≤ max |y₀| |y₁| := by
    rw [← hm.1]; exact nearest_mono hb.2
  have u2 : -max |y₀| |y₁| ≤ F.nearest ((y₁ - y₀) / 2) := by
    have := nearest_mono (F := F) hb.1
    rwa [nearest_neg, hm.1] at this
  have hpos : 0 ≤ max |y₀| |y₁| := (abs_nonneg _).trans (le_max_left _ _)
  have := hm.2
  rw [abs_of_nonneg hpos] at this
  exact (abs_le.2 ⟨u2, u1⟩).trans_lt this

end numbers

theorem exists_variable {d : ℕ} {n : Fin d → ℕ} (y : ((k : Fin d) → Fin (n k)) → Flt) : ∃ var : List Int → Res Flt, ∀ idx, var (tup idx) = .ok (y idx) := by
  classical
  refine ⟨fun l => if h : ∃ idx : (k : Fin d) → Fin (n k), tup idx = l then .ok (y h.choose) else .ub, fun idx => ?_⟩
  have h : ∃ j : (k : Fin d) → Fin (n k), tup j = tup idx := ⟨idx, rfl⟩
  dsimp only
  rw [dif_pos h, tup_injective h.choose_spec]

private theorem line_form (T : RealType) (fam : Family) {b : Basis Flt} (hb : T.arith.lagrangeBasis (fam.spacingIn T.arith) (1 : ℕ) = .ok b) :
    b = ⟨((1 + 1 : ℕ) : Int), LagrangeBasis.value (floatArith T.format) (fam.spacingIn T.arith ((1 + 1 : ℕ) : Int)) ((1 + 1 : ℕ) : Int),
      LagrangeBasis.gradient (floatArith T.format) (fam.spacingIn T.arith ((1 + 1 : ℕ) : Int)) ((1 + 1 : ℕ) : Int)⟩ := by
  rw [C88_basis, lagrangeBasis_ok _ _ (by omega)] at hb
  exact (Res.ok.inj hb).symm

/-- A line. -/
private theorem line {T : RealType} {c : Fin 1 → Fin 2 → ℝ} {fam : Fin 1 → Family} {b : Fin 1 → Basis Flt}
    (hf : ∀ j, (fam j).Supports 1) (hb : ∀ j, T.arith.lagrangeBasis ((fam j).spacingIn T.arith) (1 : ℕ) = .ok (b j))
    (hc : ∀ j (i : Fin 2), ((fam j).spacingIn T.arith ((1 + 1 : ℕ) : Int)).coordCT (i : ℕ) = .ok (Flt.ofReal (c j i))) (he : ∀ j, c j 0 = -1 ∧ c j 1 = 1)
    {u : List Int → Res Flt} {y : (Fin 1 → Fin 2) → ℝ} (hu : ∀ i, u (tup (n := fun _ : Fin 1 => 2) i) = .ok (Flt.ofReal (y i)))
    (r : ∀ i, Represents T.format (y i)) (s : ∀ a : Fin 2, Represents T.format (y (fun _ => a) / 2)) {x : Fin 1 → ℝ} (hx : ∀ j, |x j| ≤ 1) :
    ∃ g : Fin 1 → Flt, ParentElement.gradient (floatArith T.format) ⟨.ok ((1 : ℕ) : Int), List.ofFn b⟩ (List.ofFn fun j => Flt.ofReal (x j)) u = .ok (List.ofFn g) ∧
      (g 0).datum = .finite (T.format.nearest ((y (fun _ => 1) - y (fun _ => 0)) / 2)) := by
  have hs : IsShippedIn T (fun _ : Fin 1 => 1) c (Lemmas.elementOf b) := ⟨by omega, rfl, fun _ => ⟨by norm_num, by norm_num⟩, fam, b, rfl, fun j => ⟨hf j, hc j, hb j⟩⟩
  have form := fun j => line_form T (fam j) (hb j)
  have hS : ∀ j, EndPoints ((fam j).spacingIn T.arith ((1 + 1 : ℕ) : Int)) := fun j => ⟨by
    have := hc j 0; rw [(he j).1] at this; exact this, by have := hc j 1; rw [(he j).2] at this; exact this⟩
  have hgrad : ∀ idx : Fin 1 → Fin 2, ∃ f : Fin 1 → Flt, BasisProduct.gradient (floatArith T.format) (List.ofFn b) (tup (n := fun _ : Fin 1 => 2) idx)
      (List.ofFn fun j => Flt.ofReal (x j)) = .ok (List.ofFn f) ∧ (f 0).datum = .finite (hatSlope (idx 0)) := by
    intro idx
    obtain ⟨f, h1, -, h2⟩ := C100_shape_gradient hs (by norm_num) idx _ hx
    have h1 := (basisValue_eq (floatArith T.format) (elementOf_instantiate b) (idx := tup (n := fun _ : Fin 1 => 2) idx) (by simp [tup_length, Lemmas.elementOf])
      (List.ofFn fun j => Flt.ofReal (x j))).2.2.1.symm.trans h1
    refine ⟨f, h1, ?_⟩
    have h3 := gradient_component (n := fun _ : Fin 1 => 2) (by norm_num) h1 0
    obtain ⟨w, hw, -⟩ := h2 0
    have h3 : (b 0).gradient ((idx 0 : ℕ) : Int) (Flt.ofReal (x 0)) = .ok (f 0) := h3
    rw [form 0] at h3
    exact linear_slopes (wide_format T) (hS 0) (i := idx 0) h3 ⟨w, hw⟩
  choose f hf1 hf2 using hgrad
  have hL : boxFrom (List.replicate 1 0) (List.ofFn fun _ : Fin 1 => (((2 : ℕ) : ℕ) : Int))
      = List.map (tup (n := fun _ : Fin 1 => 2)) [fun _ => 0, fun _ => 1] := by decide
  refine ⟨_, gradient_total (n := fun _ : Fin 1 => 2) (by norm_num) (fun j => by rw [form j]) hL hf1 hu, ?_⟩
  refine half_difference ?_ ?_ ?_ (r _) (r _) (s 0) (s 1)
  · show (Flt.round T.format false ((0 : ℚ) : ℝ)).datum = _
    rw [Rat.cast_zero, Lemmas.round_zero]
  · rw [hf2, hatSlope, if_pos rfl]
  · rw [hf2, hatSlope, if_neg (by decide)]

private theorem insert_update {d : ℕ} (k : Fin (d + 2)) (j : Fin (d + 1)) (v : Fin (d + 2) → Fin 2) (a : Fin 2) :
    (k.insertNth (v k) (Function.update (fun i => v (k.succAbove i)) j a) : Fin (d + 2) → Fin 2) = Function.update v (k.succAbove j) a := by
  funext i
  by_cases e : i = k
  · subst e
    rw [Fin.insertNth_apply_same, Function.update_of_ne (Fin.succAbove_ne i j).symm]
  · obtain ⟨l, rfl⟩ := Fin.exists_succAbove_eq e
    rw [Fin.insertNth_apply_succAbove]
    by_cases e2 : l = j
    · subst e2; rw [Function.update_self, Function.update_self]
    · rw [Function.update_of_ne e2, Function.update_of_ne (fun h => e2 (Fin.succAbove_right_injective h))]

private theorem edge (T : RealType) : ∀ (d : ℕ), d + 1 ≤ 3 → ∀ (c : Fin (d + 1) → Fin 2 → ℝ) (fam : Fin (d + 1) → Family) (b : Fin (d + 1) → Basis Flt),
    (∀ j, (fam j).Supports 1) → (∀ j, T.arith.lagrangeBasis ((fam j).spacingIn T.arith) (1 : ℕ) = .ok (b j)) →
    (∀ j (i : Fin 2), ((fam j).spacingIn T.arith ((1 + 1 : ℕ) : Int)).coordCT (i : ℕ) = .ok (Flt.ofReal (c j i))) → (∀ j, c j 0 = -1 ∧ c j 1 = 1) →
    ∀ (u : List Int → Res Flt) (y : (Fin (d + 1) → Fin 2) → ℝ), (∀ i, u (tup (n := fun _ : Fin (d + 1) => 2) i) = .ok (Flt.ofReal (y i))) →
    (∀ i, Represents T.format (y i)) → ∀ (k : Fin (d + 1)) (v : Fin (d + 1) → Fin 2), (∀ a, Represents T.format (y (Function.update v k a) / 2)) →
    ∀ x : Fin (d + 1) → ℝ, (∀ j, |x j| ≤ 1) → (∀ j, j ≠ k → x j = if v j = 0 then -1 else 1) →
    ∃ g : Fin (d + 1) → Flt, ParentElement.gradient (floatArith T.format) ⟨.ok ((d + 1 : ℕ) : Int), List.ofFn b⟩ (List.ofFn fun j => Flt.ofReal (x j)) u
        = .ok (List.ofFn g) ∧
      (g k).datum = .finite (T.format.nearest ((y (Function.update v k 1) - y (Function.update v k 0)) / 2)) := by
  intro d
  induction d with
  | zero =>
    intro _ c fam b hf hb hc he u y hu r k v s x hx _
    obtain rfl : k = 0 := Fin.eq_zero k
    have up : ∀ a : Fin 2, Function.update v 0 a = fun _ => a := fun a => funext fun j => by
      obtain rfl : j = 0 := Fin.eq_zero j
      rw [Function.update_self]
    rw [up, up]
    exact line hf hb hc he hu r (fun a => by have := s a; rwa [up] at this) hx
  | succ d ih =>
    intro hd c fam b hf hb hc he u y hu r k v s x hx hxv
    obtain ⟨m, hm⟩ : ∃ m : Fin (d + 2), k ≠ m := by
      by_cases e : k = 0
      · exact ⟨1, by rw [e]; exact Fin.zero_ne_one⟩
      · exact ⟨0, e⟩
    obtain ⟨j, rfl⟩ := Fin.exists_succAbove_eq hm
    obtain ⟨u', hu'⟩ := exists_variable (n := fun _ : Fin (d + 1) => 2) fun idx => Flt.ofReal (y (m.insertNth (v m) idx))
    have hxm : x m = c m (v m) := by
      rw [hxv m hm.symm]
      rcases (show ∀ a : Fin 2, a = 0 ∨ a = 1 by decide) (v m) with e | e <;> rw [e]
      · rw [if_pos rfl, (he m).1]
      · rw [if_neg (by decide), (he m).2]
    obtain ⟨-, g, g', h1, h2, h3⟩ := C154_float (T := T) hd (order := fun _ => 1) (fun _ => ⟨by norm_num, by norm_num⟩) hf hb m
      (by cases fam m <;> cases T <;> first | exact ⟨by norm_num, by norm_num⟩ | exact .inl ⟨by norm_num, by norm_num⟩) (v m) (y := y) hu hu' x hx
      (by rw [hxm]; exact hc m (v m))
    obtain ⟨g'', h4, h5⟩ := ih (by omega) (fun i => c (m.succAbove i)) (fun i => fam (m.succAbove i)) (fun i => b (m.succAbove i)) (fun i => hf _) (fun i => hb _)
      (fun i => hc _) (fun i => he _) u' (fun idx => y (m.insertNth (v m) idx)) hu' (fun i => r _) j (fun i => v (m.succAbove i))
      (fun a => by rw [insert_update]; exact s a) (fun i => x (m.succAbove i)) (fun i => hx _)
      (fun i hi => hxv _ fun h => hi (Fin.succAbove_right_injective h))
    obtain rfl : g' = g'' := List.ofFn_injective (Res.ok.inj (h2.symm.trans h4))
    refine ⟨g, h1, (h3 j).trans ?_⟩
    rw [h5, insert_update, insert_update]

variable {T : RealType} {d : ℕ} {c : Fin d → Fin 2 → ℝ}

/-- **C155, float and double.** For elements of order one with nodes at -1 and 1, in up to three dimensions, and nodal values that are numbers of the type: on an edge in direction
`k`, the derivative in direction `k` is the number of the type that is nearest to half of the difference of the nodal values at the ends of the edge.  (Halves of numbers of the
type are numbers of the type, except for some that are smaller than twice the smallest normal number.) -/
theorem C155_float {e : Element Flt} (h : IsLinearIn T e c) (hd : d ≤ 3) {u : List Int → Res Flt} {y : (Fin d → Fin 2) → ℝ}
    (hu : ∀ i, u (tup (n := fun _ : Fin d => 2) i) = .ok (Flt.ofReal (y i))) (hy : ∀ i, Represents T.format (y i)) (k : Fin d) (v : Fin d → Fin 2)
    (hk : ∀ a, Represents T.format (y (Function.update v k a) / 2)) {x : Fin d → ℝ} (hx : ∀ j, |x j| ≤ 1) (hxv : ∀ j, j ≠ k → x j = if v j = 0 then -1 else 1) :
    ∃ g : Fin d → Flt, ParentElement.gradient (floatArith T.format) e (List.ofFn fun j => Flt.ofReal (x j)) u = .ok (List.ofFn g) ∧
      (g k).datum = .finite (T.format.nearest ((y (Function.update v k 1) - y (Function.update v k 0)) / 2)) := by
  obtain ⟨fam, b, hb, hf⟩ := h.shipped.bases
  obtain rfl : e = ⟨.ok (d : Int), List.ofFn b⟩ := by
    rcases e with ⟨s, bs⟩
    have hs : s = .ok (d : Int) := h.shipped.shape
    have hb : bs = List.ofFn b := hb
    rw [hs, hb]
  obtain ⟨n, rfl⟩ : ∃ n, d = n + 1 := ⟨d - 1, by have := h.shipped.dims; omega⟩
  exact edge T n hd c fam b (fun j => (hf j).1) (fun j => (hf j).2.2) (fun j => (hf j).2.1) h.ends u y hu hy k v hk x hx hxv

/-- **C155, shared edges.** Two elements of any numbers of dimensions up to three have an edge in common, with the same nodal values at its ends.  They compute the same derivative
along the edge, to the last bit, at any two points of it; if the edge has opposite directions in the two, they compute opposite numbers. -/
theorem C155_shared {d' : ℕ} {c' : Fin d' → Fin 2 → ℝ} {e e' : Element Flt} (h : IsLinearIn T e c) (h' : IsLinearIn T e' c') (hd : d ≤ 3) (hd' : d' ≤ 3)
    {u u' : List Int → Res Flt} {y : (Fin d → Fin 2) → ℝ} {y' : (Fin d' → Fin 2) → ℝ} (hu : ∀ i, u (tup (n := fun _ : Fin d => 2) i) = .ok (Flt.ofReal (y i)))
    (hu' : ∀ i, u' (tup (n := fun _ : Fin d' => 2) i) = .ok (Flt.ofReal (y' i))) (hy : ∀ i, Represents T.format (y i)) (hy' : ∀ i, Represents T.format (y' i))
    (k : Fin d) (v : Fin d → Fin 2) (k' : Fin d') (v' : Fin d' → Fin 2) (hk : ∀ a, Represents T.format (y (Function.update v k a) / 2)) (reversed : Bool)
    (hyy : ∀ a : Fin 2, y' (Function.update v' k' (if reversed then a.rev else a)) = y (Function.update v k a))
    {x : Fin d → ℝ} {x' : Fin d' → ℝ} (hx : ∀ j, |x j| ≤ 1) (hx' : ∀ j, |x' j| ≤ 1) (hxv : ∀ j, j ≠ k → x j = if v j = 0 then -1 else 1)
    (hxv' : ∀ j, j ≠ k' → x' j = if v' j = 0 then -1 else 1) :
    ∃ (g : Fin d → Flt) (g' : Fin d' → Flt) (p : ℝ), ParentElement.gradient (floatArith T.format) e (List.ofFn fun j => Flt.ofReal (x j)) u = .ok (List.ofFn g) ∧
      ParentElement.gradient (floatArith T.format) e' (List.ofFn fun j => Flt.ofReal (x' j)) u' = .ok (List.ofFn g') ∧
      (g k).datum = .finite p ∧ (g' k').datum = .finite (if reversed then -p else p) := by
  have h0 := hyy 0
  have h1 := hyy 1
  have hk' : ∀ a, Represents T.format (y' (Function.update v' k' a) / 2) := fun a => by
    have e := hyy (if reversed then a.rev else a)
    have : (if reversed then (if reversed then a.rev else a).rev else (if reversed then a.rev else a)) = a := by cases reversed <;> simp
    rw [this] at e
    rw [e]; exact hk _
  obtain ⟨g, g1, g2⟩ := C155_float h hd hu hy k v hk hx hxv
  obtain ⟨g', g3, g4⟩ := C155_float h' hd' hu' hy' k' v' hk' hx' hxv'
  refine ⟨g, g', _, g1, g3, g2, ?_⟩
  rw [g4]
  cases reversed
  · simp only [Bool.false_eq_true, if_false] at h0 h1 ⊢
    rw [h0, h1]
  · simp only [if_true] at h0 h1 ⊢
    rw [← nearest_neg, ← h0, ← h1, show (0 : Fin 2).rev = 1 by decide, show (1 : Fin 2).rev = 0 by decide]
    congr 2
    ring

/-- **C155, Jacobians.** In up to three dimensions, for cells whose vertices are given by numbers of the type: on an edge in direction `k`, column `k` of the Jacobian is half of the
edge vector, correctly rounded.  At a vertex this holds for all columns. -/
theorem C155_jacobian {t : LinearTransform Flt} {X : (Fin d → Fin 2) → Fin d → ℝ} (h : IsLinearIn T t.shape c) (hd : d ≤ 3)
    (hX : HoldsPoints t.data (fun (a : Fin d → Fin 2) i => Flt.ofReal (X a i))) (hr : ∀ a i, Represents T.format (X a i) ∧ Represents T.format (X a i / 2))
    (cfg : Config) {ξ : Fin d → ℝ} (hξ : ∀ j, |ξ j| ≤ 1) (extra : List Flt) (he : d + extra.length = 3) :
    ∃ (mem : List Flt) (J : Matrix (Fin d) (Fin d) Flt),
      LinearTransform.jacobianValue cfg (floatArith T.format) t ((List.ofFn fun j => Flt.ofReal (ξ j)) ++ extra) = .ok mem ∧ HoldsMatrix mem J ∧
      ∀ (k : Fin d) (v : Fin d → Fin 2), (∀ j, j ≠ k → ξ j = if v j = 0 then -1 else 1) →
        ∀ i, (J i k).datum = .finite (T.format.nearest ((X (Function.update v k 1) i - X (Function.update v k 0) i) / 2)) := by
  obtain ⟨mem, J, h1, h2, h3⟩ := C145_rows h.shipped hd hX cfg (fun j => Flt.ofReal (ξ j)) extra he
  refine ⟨mem, J, h1, h2, fun k v hv i => ?_⟩
  obtain ⟨u, hu⟩ := exists_variable (n := fun _ : Fin d => 2) fun a => Flt.ofReal (X a i)
  obtain ⟨g, g1, g2⟩ := C155_float (y := fun a => X a i) h hd hu (fun a => (hr a i).1) k v (fun a => (hr _ i).2) hξ hv
  have := List.ofFn_injective (Res.ok.inj ((h3 i u hu).symm.trans g1))
  rw [← g2, ← congrFun this k]

/-- **C155, when halves are numbers.** The half of a number of the type is a number of the type if it is zero or at least the smallest normal number: only numbers with a half below
`2^-126` (`float`) or `2^-1022` (`double`) are left out of `C155_float` and `C155_jacobian`. -/
theorem C155_halves {F : FloatFormat} {y : ℝ} (h : Represents F y) (hy : y = 0 ∨ 2 ^ (F.minExp : ℤ) ≤ |y / 2|) : Represents F (y / 2) := by
  rcases hy with rfl | hy
  · rw [zero_div]
    exact h
  · have e : y / 2 = y * 2 ^ (-1 : ℤ) := by rw [zpow_neg_one, div_eq_mul_inv]
    have hle : |y / 2| ≤ |y| := by
      rw [abs_div, abs_two]
      linarith [abs_nonneg y]
    refine ⟨?_, hle.trans_lt h.2⟩
    rw [e, nearest_scale (hy.trans hle) (by rw [← e]; exact hy), h.1]

/-! ### the hypotheses can be met -/

/-- The numbers of the examples. -/
theorem small_numbers (T : RealType) : ∀ q : ℝ, q = -1 ∨ q = 1 ∨ q = 2 → Represents T.format q ∧ Represents T.format (q / 2) := by
  have h := wide_format T
  have r1 : Represents T.format 1 := by have := h.pow (k := 0) (by norm_num) (by norm_num); rwa [zpow_zero] at this
  have r2 : Represents T.format 2 := by have := h.pow (k := 1) (by norm_num) (by norm_num); rwa [zpow_one] at this
  have rh : Represents T.format (1 / 2) := by have := h.pow (k := -1) (by norm_num) (by norm_num); rwa [zpow_neg_one, inv_eq_one_div] at this
  rintro q (rfl | rfl | rfl)
  · exact ⟨represents_neg r1, by have := represents_neg rh; rwa [neg_div]⟩
  · exact ⟨r1, rh⟩
  · exact ⟨r2, by rwa [div_self (by norm_num)]⟩

/-- Non-vacuity of `C155_float` and `C155_jacobian`: a cube with a slanted top.  At the vertex (1, -1, 1) its third edge has length 3. -/
example (T : RealType) (cfg : Config) : ∃ (t : LinearTransform Flt) (mem : List Flt) (J : Matrix (Fin 3) (Fin 3) Flt),
    LinearTransform.jacobianValue cfg (floatArith T.format) t (List.ofFn fun j : Fin 3 => Flt.ofReal (![1, -1, 1] j)) = .ok mem ∧ HoldsMatrix mem J ∧
    (J 2 2).datum = .finite (T.format.nearest ((2 - -1) / 2)) := by
  obtain ⟨t, h1, -, h2⟩ := float_cell T fun a => ![if a 0 = 0 then -1 else 1, if a 1 = 0 then -1 else 1,
    if a 2 = 0 then -1 else if a 0 = 0 then 1 else 2]
  obtain ⟨mem, J, h3, h4, h5⟩ := C155_jacobian (d := 3) ⟨h1, fun _ => ⟨rfl, rfl⟩⟩ le_rfl h2
    (fun a i => small_numbers T _ (by
      rcases (show ∀ i : Fin 3, i = 0 ∨ i = 1 ∨ i = 2 by decide) i with rfl | rfl | rfl
      · show (if a 0 = 0 then (-1 : ℝ) else 1) = -1 ∨ (if a 0 = 0 then (-1 : ℝ) else 1) = 1 ∨ (if a 0 = 0 then (-1 : ℝ) else 1) = 2
        split_ifs <;> simp
      · show (if a 1 = 0 then (-1 : ℝ) else 1) = -1 ∨ (if a 1 = 0 then (-1 : ℝ) else 1) = 1 ∨ (if a 1 = 0 then (-1 : ℝ) else 1) = 2
        split_ifs <;> simp
      · show (if a 2 = 0 then (-1 : ℝ) else if a 0 = 0 then 1 else 2) = -1 ∨ (if a 2 = 0 then (-1 : ℝ) else if a 0 = 0 then 1 else 2) = 1 ∨
          (if a 2 = 0 then (-1 : ℝ) else if a 0 = 0 then 1 else 2) = 2
        split_ifs <;> simp)) cfg (ξ := ![1, -1, 1])
    (fun j => by
      rcases (show ∀ i : Fin 3, i = 0 ∨ i = 1 ∨ i = 2 by decide) j with rfl | rfl | rfl
      · show |(1 : ℝ)| ≤ 1; norm_num
      · show |(-1 : ℝ)| ≤ 1; norm_num
      · show |(1 : ℝ)| ≤ 1; norm_num) [] rfl
  rw [List.append_nil] at h3
  refine ⟨t, mem, J, h3, h4, ?_⟩
  exact h5 2 ![1, 0, 1] (fun j hj => by
    rcases (show ∀ i : Fin 3, i = 0 ∨ i = 1 ∨ i = 2 by decide) j with rfl | rfl | rfl
    · rfl
    · rfl
    · exact absurd rfl hj) 2

/-- Non-vacuity of `C155_shared`: a cube and a square that share an edge, in opposite directions. -/
example (T : RealType) : ∃ (b : Basis Flt) (g : Fin 3 → Flt) (g' : Fin 2 → Flt) (p : ℝ),
    ParentElement.gradient (floatArith T.format) ⟨.ok (3 : ℕ), List.replicate 3 b⟩ (List.ofFn fun j : Fin 3 => Flt.ofReal (![1, -1, 1 / 3] j))
      (fun l => .ok (Flt.ofReal (if l = [1, 0, 0] then 2 else if l = [1, 0, 1] then 1 else -1))) = .ok (List.ofFn g) ∧
    ParentElement.gradient (floatArith T.format) ⟨.ok (2 : ℕ), List.replicate 2 b⟩ (List.ofFn fun j : Fin 2 => Flt.ofReal (![1 / 7, -1] j))
      (fun l => .ok (Flt.ofReal (if l = [0, 0] then 1 else 2))) = .ok (List.ofFn g') ∧
    (g 2).datum = .finite p ∧ (g' 0).datum = .finite (-p) := by
  obtain ⟨b, c, hb, h⟩ := same_linear T (fam := .equal) (.inl rfl) (d := 3) (by norm_num)
  obtain ⟨b', c', hb', h'⟩ := same_linear T (fam := .equal) (.inl rfl) (d := 2) (by norm_num)
  obtain rfl := Res.ok.inj (hb'.symm.trans hb)
  obtain ⟨g, g', p, h1, h2, h3, h4⟩ := C155_shared h h' le_rfl (by norm_num)
    (u := fun l => .ok (Flt.ofReal (if l = [1, 0, 0] then 2 else if l = [1, 0, 1] then 1 else -1))) (u' := fun l => .ok (Flt.ofReal (if l = [0, 0] then 1 else 2)))
    (y := fun i => if tup (n := fun _ : Fin 3 => 2) i = [1, 0, 0] then 2 else if tup (n := fun _ : Fin 3 => 2) i = [1, 0, 1] then 1 else -1)
    (y' := fun i => if tup (n := fun _ : Fin 2 => 2) i = [0, 0] then 1 else 2) (fun _ => rfl) (fun _ => rfl)
    (fun i => (small_numbers T _ (by split_ifs <;> simp)).1) (fun i => (small_numbers T _ (by split_ifs <;> simp)).1) 2 ![1, 0, 0] 0 ![0, 0]
    (fun a => (small_numbers T _ (by split_ifs <;> simp)).2) true
    (fun a => by
      rcases (show ∀ a : Fin 2, a = 0 ∨ a = 1 by decide) a with rfl | rfl
      · rw [if_neg (by decide), if_pos (by decide)]
      · rw [if_pos (by decide), if_neg (by decide), if_pos (by decide)])
    (x := ![1, -1, 1 / 3]) (x' := ![1 / 7, -1])
    (fun j => by
      rcases (show ∀ i : Fin 3, i = 0 ∨ i = 1 ∨ i = 2 by decide) j with rfl | rfl | rfl
      · show |(1 : ℝ)| ≤ 1; norm_num
      · show |(-1 : ℝ)| ≤ 1; norm_num
      · show |(1 / 3 : ℝ)| ≤ 1; norm_num [abs_le])
    (fun j => by
      rcases (show ∀ i : Fin 2, i = 0 ∨ i = 1 by decide) j with rfl | rfl
      · show |(1 / 7 : ℝ)| ≤ 1; norm_num [abs_le]
      · show |(-1 : ℝ)| ≤ 1; norm_num)
    (fun j hj => by
      rcases (show ∀ i : Fin 3, i = 0 ∨ i = 1 ∨ i = 2 by decide) j with rfl | rfl | rfl
      · rfl
      · rfl
      · exact absurd rfl hj)
    (fun j hj => by
      rcases (show ∀ i : Fin 2, i = 0 ∨ i = 1 by decide) j with rfl | rfl
      · exact absurd rfl hj
      · rfl)
  exact ⟨b', g, g', p, h1, h2, h3, h4⟩

end Verif.Props
