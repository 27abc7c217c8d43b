import Verif.Lemmas.Lagrange

/-! # Lagrange basis functions whose index is out of range -/

namespace Verif.Lemmas

variable {R : Type}

theorem ldiff_one (m : ℕ) : Nat.ldiff 1 m = 1 - m % 2 := by
  apply Nat.eq_of_testBit_eq
  intro i
  rw [Nat.testBit_ldiff]
  rcases i with _ | i
  · rcases Nat.mod_two_eq_zero_or_one m with h | h <;> simp [Nat.testBit_zero, h]
  · have h1 : Nat.testBit 1 (i + 1) = false := by simp [Nat.testBit_succ]
    rw [h1]
    rcases Nat.mod_two_eq_zero_or_one m with h | h <;> simp [h, Nat.testBit_succ]

theorem land_one (i : Int) : Int.land i 1 = i % 2 := by
  cases i with
  | ofNat n =>
    show ((Nat.land n 1 : ℕ) : Int) = _
    have : Nat.land n 1 = n % 2 := Nat.and_one_is_mod n
    rw [this]; rfl
  | negSucc m =>
    show ((Nat.ldiff 1 m : ℕ) : Int) = _
    rw [ldiff_one, Int.negSucc_eq]; omega

theorem foldRight_illFormed (op : R → R → R) {l : List (Res R)} (h : ∀ x ∈ l, x.IsOk ∨ x = .illFormed)
    (hbad : .illFormed ∈ l) : foldRight op l = .illFormed := by
  induction l with
  | nil => simp at hbad
  | cons a l ih =>
    cases l with
    | nil => simp only [List.mem_singleton] at hbad; rw [foldRight, ← hbad]
    | cons b l =>
      rw [foldRight]
      rcases h a (by simp) with ⟨v, rfl⟩ | rfl
      · rw [Res.ok_bind, ih (fun x hx => h x (by simp [List.mem_cons.1 hx])) (by simpa using hbad), Res.illFormed_bind]
      · rfl

theorem sequenceRes_illFormed {l : List (Res R)} (h : ∀ x ∈ l, x.IsOk ∨ x = .illFormed)
    (hbad : .illFormed ∈ l) : sequenceRes l = .illFormed := by
  induction l with
  | nil => simp at hbad
  | cons a l ih =>
    rw [sequenceRes]
    rcases h a (by simp) with ⟨v, rfl⟩ | rfl
    · rw [Res.ok_bind, ih (fun x hx => h x (by simp [hx])) (by simpa using hbad), Res.illFormed_bind]
    · rfl

variable {S : Spacing ℝ} {n : ℕ} {c : Fin n → ℝ} {j : Int} {a : ℝ}

theorem outside_term (hc : ∀ i : Fin n, S.coordCT (i : ℕ) = .ok (c i)) (hj : ¬ (0 ≤ j ∧ j < n)) (ha : S.coordCT j = .ok a)
    (x : ℝ) (t : Fin n) : LagrangeBasis.valueProductTerm (exactArith ℝ) S j (t : ℕ) x
      = if a = c t then .illFormed else .ok ((x - c t) * (1 / (a - c t))) := by
  have e : j ≠ ((t : ℕ) : Int) := by intro e; exact hj ⟨by omega, by omega⟩
  rw [LagrangeBasis.valueProductTerm, if_neg e, hc t, ha]
  by_cases h : a = c t
  · simp [exactArith, h]
  · simp [exactArith, h, sub_ne_zero.2 h]

theorem outside_value (hn : 0 < n) (hc : ∀ i : Fin n, S.coordCT (i : ℕ) = .ok (c i)) (hj : ¬ (0 ≤ j ∧ j < n))
    (ha : S.coordCT j = .ok a) (hne : ∀ t, a ≠ c t) (x : ℝ) :
    LagrangeBasis.value (exactArith ℝ) S n j x = .ok (∏ t, (x - c t) * (1 / (a - c t))) := by
  unfold LagrangeBasis.value
  rw [makeIntegerSequence_ok (by omega), Res.ok_bind]
  exact foldRight_mul_fin hn _ _ fun t => by rw [outside_term hc hj ha, if_neg (hne t)]

theorem outside_gradient (hn : 0 < n) (hc : ∀ i : Fin n, S.coordCT (i : ℕ) = .ok (c i)) (hj : ¬ (0 ≤ j ∧ j < n))
    (ha : S.coordCT j = .ok a) (hne : ∀ t, a ≠ c t) (x : ℝ) :
    LagrangeBasis.gradient (exactArith ℝ) S n j x
      = .ok (∑ s, 1 / (a - c s) * ∏ t, if t = s then 1 else (x - c t) * (1 / (a - c t))) := by
  unfold LagrangeBasis.gradient
  rw [makeIntegerSequence_ok (by omega), Res.ok_bind,
    sequenceRes_fin _ (fun t => (x - c t) * (1 / (a - c t))) (fun t => by rw [outside_term hc hj ha, if_neg (hne t)]),
    Res.ok_bind]
  refine foldRight_add_fin hn _ _ fun s => ?_
  have e : j ≠ ((s : ℕ) : Int) := by intro e; exact hj ⟨by omega, by omega⟩
  have hg : LagrangeBasis.gradientOfValueTerm (exactArith ℝ) S j (s : ℕ) = .ok (1 / (a - c s)) := by
    rw [LagrangeBasis.gradientOfValueTerm, if_neg e, hc s, ha]
    simp [exactArith, sub_ne_zero.2 (hne s)]
  unfold LagrangeBasis.gradientTerm
  rw [hg, Res.ok_bind, foldRight_mul_fin hn _ (fun t => if t = s then 1 else (x - c t) * (1 / (a - c t))), Res.ok_bind]
  · rfl
  · intro b
    unfold LagrangeBasis.valueProductFactor
    by_cases e : b = s
    · subst e; simp [exactArith]
    · have e' : ((b : ℕ) : Int) ≠ (s : ℕ) := by
        intro h; exact e (Fin.ext (by exact_mod_cast h))
      rw [if_neg e', if_neg e, tableAt_ofFn]

theorem hasDerivAt_outside (x : ℝ) : HasDerivAt (fun x => ∏ t, (x - c t) * (1 / (a - c t)))
    (∑ s, 1 / (a - c s) * ∏ t, if t = s then 1 else (x - c t) * (1 / (a - c t))) x := by
  have h1 : ∀ t ∈ Finset.univ, HasDerivAt (fun x => (x - c t) * (1 / (a - c t))) (1 / (a - c t)) x := fun t _ => by
    simpa using ((hasDerivAt_id x).sub_const (c t)).mul_const (1 / (a - c t))
  refine (HasDerivAt.fun_finsetProd h1).congr_deriv ?_
  refine Finset.sum_congr rfl fun a _ => ?_
  rw [smul_eq_mul, mul_comm, ← Finset.mul_prod_erase Finset.univ _ (Finset.mem_univ a), if_pos rfl, one_mul]
  congr 1
  exact Finset.prod_congr rfl fun b hb => (if_neg (Finset.ne_of_mem_erase hb)).symm

theorem outside_illFormed (hc : ∀ i : Fin n, S.coordCT (i : ℕ) = .ok (c i)) (hj : ¬ (0 ≤ j ∧ j < n))
    (ha : S.coordCT j = .ok a) {t : Fin n} (ht : a = c t) (x : ℝ) :
    LagrangeBasis.value (exactArith ℝ) S n j x = .illFormed ∧
    LagrangeBasis.gradient (exactArith ℝ) S n j x = .illFormed := by
  have hall : ∀ y ∈ (upTo 0 (n : Int)).map fun s => LagrangeBasis.valueProductTerm (exactArith ℝ) S j s x,
      y.IsOk ∨ y = .illFormed := by
    intro y hy
    rw [mapUpTo, List.mem_ofFn] at hy
    obtain ⟨s, rfl⟩ := hy
    rw [outside_term hc hj ha]
    by_cases h : a = c s
    · exact .inr (if_pos h)
    · exact .inl ⟨_, if_neg h⟩
  have hmem : Res.illFormed ∈ (upTo 0 (n : Int)).map fun s => LagrangeBasis.valueProductTerm (exactArith ℝ) S j s x := by
    rw [mapUpTo, List.mem_ofFn]
    exact ⟨t, by rw [outside_term hc hj ha, if_pos ht]⟩
  constructor
  · rw [LagrangeBasis.value, makeIntegerSequence_ok (by omega), Res.ok_bind]
    exact foldRight_illFormed _ hall hmem
  · rw [LagrangeBasis.gradient, makeIntegerSequence_ok (by omega), Res.ok_bind, sequenceRes_illFormed hall hmem]; rfl

end Verif.Lemmas
