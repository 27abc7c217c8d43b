import Verif.Lemmas.FloatSim
import Verif.Lemmas.RoundedMapping

/-! A Lagrange element in a binary format simulates one in `roundedArith`. -/

namespace Verif.Lemmas

open Verif.Spec

variable {F : FloatFormat}

/-- Division has a value unless the divisor is zero. -/
theorem flt_div_ok {a b : Flt} (h : b.datum ≠ .finite 0) : ∃ f, Flt.div F a b = .ok f := by
  obtain ⟨da, ra⟩ := a
  obtain ⟨db, rb⟩ := b
  have hy : ∀ y, db = .finite y → y ≠ 0 := by
    rintro y rfl rfl; exact h rfl
  cases da <;> cases db <;> simp only [Flt.div]
  case finite.finite x y => rw [if_neg (hy y rfl)]; exact ⟨_, rfl⟩
  case inf.finite x y => rw [if_neg (hy y rfl)]; exact ⟨_, rfl⟩
  all_goals exact ⟨_, rfl⟩

/-- Without a division by zero the simulation is total. -/
theorem sim_div_ok {a a' : ℝ} {b b' : Flt} (h : Sim a b) (h' : Sim a' b') (h0 : b'.datum ≠ .finite 0) :
    ResRel False Sim ((roundedArith (cleanRound F)).div a a') (Flt.div F b b') := by
  intro r hr
  obtain ⟨f, hf⟩ := flt_div_ok (F := F) (a := b) h0
  rcases sim_div F h h' r hr with ⟨g, hg, hs⟩ | ⟨-, hn⟩
  · exact .inl ⟨g, hg, hs⟩
  · exact absurd hf (hn f)

/-- The difference of two distinct numbers of the format is not zero. -/
theorem sub_ne_zero_of_represents {x y : ℝ} (hx : Represents F x) (hy : Represents F y) (h : x ≠ y) :
    (Flt.sub F (Flt.ofReal x) (Flt.ofReal y)).datum ≠ .finite 0 := by
  show (Flt.round F false (x + -y)).datum ≠ .finite 0
  unfold Flt.round
  split_ifs with ho
  · simp
  have hg : ∀ {z : ℝ}, Represents F z → OnGrid (F.minExp - F.fracBits) z := fun {z} hz => by
    have := (onGrid_unit F z).mono (unitExp_min F z)
    rwa [hz.1] at this
  have hu : ¬ F.Underflows (x + -y) := not_underflows_of_onGrid F ((hg hx).add (hg hy).neg)
  have h1 := fl_ne_zero (cleanRound_rounds F) (x := x + -y) (by rw [← sub_eq_add_neg]; exact sub_ne_zero.2 h)
  rw [cleanRound, if_neg hu] at h1
  simpa using h1

/-- The nodes as a spacing over the reals. -/
noncomputable def realSpacing {n : ℕ} (N : Int) (c : Fin n → ℝ) : Spacing ℝ where
  numPoints := N
  coordRT _ := .ub
  coordCT i := if h : 2 ≤ n ∧ 0 ≤ i ∧ i < n then .ok (c ⟨i.toNat, by omega⟩) else .ub

theorem realSpacing_coord {n : ℕ} {N : Int} {c : Fin n → ℝ} {i : Int} {a : ℝ} :
    (realSpacing N c).coordCT i = .ok a ↔ 2 ≤ n ∧ ∃ k : Fin n, i = ((k : ℕ) : Int) ∧ a = c k := by
  unfold realSpacing
  simp only
  split_ifs with h
  · constructor
    · intro h'
      exact ⟨h.1, ⟨i.toNat, by omega⟩, by simp only; omega, (Res.ok.inj h').symm⟩
    · rintro ⟨-, k, rfl, rfl⟩; rfl
  · simp only [false_iff]
    rintro ⟨h2, k, rfl, -⟩
    exact h ⟨h2, by omega, by omega⟩

theorem realSpacing_nodes {n : ℕ} {N : Int} {c : Fin n → ℝ} (hc : Function.Injective c) :
    Nodes (realSpacing N c) n c :=
  ⟨fun h2 i => realSpacing_coord.2 ⟨h2, i, rfl, rfl⟩, hc⟩

variable {n : ℕ} {S : Spacing Flt} {c : Fin n → ℝ}

theorem realSpacing_rel (h : 2 ≤ n → ∀ i : Fin n, S.coordCT (i : ℕ) = .ok (Flt.ofReal (c i))) :
    SpacingRel False Sim (realSpacing S.numPoints c) S where
  num := rfl
  rt _ := .notOk (by simp [realSpacing])
  ct i := by
    intro a ha
    obtain ⟨h2, k, rfl, rfl⟩ := realSpacing_coord.1 ha
    exact .inl ⟨_, h h2 k, sim_ofReal _⟩

theorem realSpacing_div (h : 2 ≤ n → ∀ i : Fin n, S.coordCT (i : ℕ) = .ok (Flt.ofReal (c i)))
    (hc : Function.Injective c) (hr : ∀ i, Represents F (c i)) :
    NodeDivRel False (roundedArith (cleanRound F)) (floatArith F) Sim (realSpacing S.numPoints c) S := by
  intro i j a b a' b' ha hb ha' hb' hij hab hab'
  obtain ⟨h2, k, rfl, rfl⟩ := realSpacing_coord.1 ha
  obtain ⟨-, k', rfl, rfl⟩ := realSpacing_coord.1 ha'
  have e1 := Res.ok.inj (hb.symm.trans (h h2 k))
  have e2 := Res.ok.inj (hb'.symm.trans (h h2 k'))
  subst e1; subst e2
  have hne : c k ≠ c k' := fun e => hij (by rw [hc e])
  exact sim_div_ok ((float_sim F).lit 1) ((float_sim F).sub hab hab')
    (sub_ne_zero_of_represents (hr k) (hr k') hne)

/-- The basis in the format simulates the basis with a rounding function. -/
theorem floatBasis_rel (h : 2 ≤ n → ∀ i : Fin n, S.coordCT (i : ℕ) = .ok (Flt.ofReal (c i)))
    (hc : Function.Injective c) (hr : ∀ i, Represents F (c i)) (m : Int) :
    BasisRel False Sim
      ⟨m, LagrangeBasis.value (roundedArith (cleanRound F)) (realSpacing S.numPoints c) m,
        LagrangeBasis.gradient (roundedArith (cleanRound F)) (realSpacing S.numPoints c) m⟩
      ⟨m, LagrangeBasis.value (floatArith F) S m, LagrangeBasis.gradient (floatArith F) S m⟩ where
  num := rfl
  value i _ _ hx := basisValue_rel (float_sim F).toOpsRel (realSpacing_rel h) (realSpacing_div h hc hr) m i hx
  gradient i _ _ hx := basisGradient_rel (float_sim F).toOpsRel (realSpacing_rel h) (realSpacing_div h hc hr) m i hx

theorem lagrangeBasis_ok {R : Type} (A : Arith R) (S : Int → Spacing R) {order : ℕ} (horder : order < 2147483647) :
    lagrangeBasis A S order = .ok ⟨((order + 1 : ℕ) : Int),
      LagrangeBasis.value A (S ((order + 1 : ℕ) : Int)) ((order + 1 : ℕ) : Int),
      LagrangeBasis.gradient A (S ((order + 1 : ℕ) : Int)) ((order + 1 : ℕ) : Int)⟩ := by
  have h : iadd (order : Int) 1 = .ok ((order + 1 : ℕ) : Int) := by
    push_cast
    exact tnorm_ok ⟨by show (-2147483648 : Int) ≤ _; omega, by show _ ≤ (2147483647 : Int); omega⟩
  rw [lagrangeBasis, h]; rfl

theorem forall₂_ofFn {α β : Type} {ρ : α → β → Prop} {d : ℕ} {f : Fin d → α} {g : Fin d → β}
    (h : ∀ k, ρ (f k) (g k)) : List.Forall₂ ρ (List.ofFn f) (List.ofFn g) := by
  rw [List.forall₂_iff_get]
  refine ⟨by simp, fun i h1 h2 => ?_⟩
  simp only [List.get_eq_getElem, List.getElem_ofFn]
  exact h _

theorem forall₂_ofReal {xs : List ℝ} : List.Forall₂ Sim xs (xs.map Flt.ofReal) := by
  induction xs with
  | nil => exact .nil
  | cons x xs ih => exact .cons (sim_ofReal x) ih

/-- An element over the reals whose kernels the given element follows. -/
theorem floatElement_rel {d : ℕ} {order : Fin d → ℕ} {c : (k : Fin d) → Fin (order k + 1) → ℝ} {e : Element Flt}
    (h : IsLagrangeFloat F order c e) :
    ∃ e' : Element ℝ, IsLagrangeIn (roundedArith (cleanRound F)) order c e' ∧ ElementRel False Sim e' e := by
  obtain ⟨b, hb, hk⟩ := h.bases
  choose hlt S hS hbk using hk
  obtain ⟨b', hb'⟩ : ∃ b' : Fin d → Basis ℝ, ∀ k,
      lagrangeBasis (roundedArith (cleanRound F))
        (fun _ => realSpacing (S k ((order k + 1 : ℕ) : Int)).numPoints (c k)) (order k) = .ok (b' k) :=
    ⟨_, fun k => lagrangeBasis_ok _ _ (hlt k)⟩
  refine ⟨⟨e.shapeDims, List.ofFn b'⟩, ⟨h.dims, h.shape, b', rfl, fun k =>
    ⟨hlt k, _, realSpacing_nodes (h.distinct k), hb' k⟩⟩, rfl, ?_⟩
  rw [hb]
  refine forall₂_ofFn fun k => ?_
  have e1 := Res.ok.inj ((lagrangeBasis_ok _ _ (hlt k)).symm.trans (hb' k))
  have e2 := Res.ok.inj ((lagrangeBasis_ok _ _ (hlt k)).symm.trans (hbk k))
  rw [← e1, ← e2]
  exact floatBasis_rel (fun h2 => hS k (by omega)) (h.distinct k) (h.represented k) _

/-- The bound carries over. -/
theorem Sim.accurate {r target bound : ℝ} {f : Flt} (h : Sim r f) (hb : |r - target| ≤ bound) :
    Accurate f target bound := by
  obtain ⟨d, q⟩ := f
  cases q
  · refine .inr ⟨r, ?_, hb⟩
    have : d = .finite r := h rfl
    rw [this]; rfl
  · exact .inl rfl

theorem ResRel.total {α β : Type} {ρ : α → β → Prop} {x : Res α} {y : Res β} {a : α} (h : ResRel False ρ x y)
    (ha : x = .ok a) : ∃ b, y = .ok b ∧ ρ a b := by
  rcases h a ha with h | ⟨h, -⟩
  · exact h
  · exact h.elim

end Verif.Lemmas
