import Verif.Spec.SameWay
import Verif.Lemmas.Contraction

/-! # Signs and order when products may be fused -/

namespace Verif.Lemmas

open Verif.Spec

section
variable {fl : ℝ → ℝ}

/-! ### the relation -/

theorem SameWay.left {t t' : Term} {v v' : ℝ} (h : SameWay fl t v t' v') : Contracted fl t v := by
  induction h with
  | num => exact .num _
  | lit => exact .lit _
  | neg _ ih => exact .neg ih
  | op _ _ h _ ha hb => exact .op ha hb h
  | mul_add _ _ _ h1 h2 h3 => exact .mul_add h1 h2 h3
  | add_mul _ _ _ h1 h2 h3 => exact .add_mul h1 h2 h3
  | mul_sub _ _ _ h1 h2 h3 => exact .mul_sub h1 h2 h3
  | sub_mul _ _ _ h1 h2 h3 => exact .sub_mul h1 h2 h3

theorem SameWay.right {t t' : Term} {v v' : ℝ} (h : SameWay fl t v t' v') : Contracted fl t' v' := by
  induction h with
  | num => exact .num _
  | lit => exact .lit _
  | neg _ ih => exact .neg ih
  | op _ _ _ h ha hb => exact .op ha hb h
  | mul_add _ _ _ h1 h2 h3 => exact .mul_add h1 h2 h3
  | add_mul _ _ _ h1 h2 h3 => exact .add_mul h1 h2 h3
  | mul_sub _ _ _ h1 h2 h3 => exact .mul_sub h1 h2 h3
  | sub_mul _ _ _ h1 h2 h3 => exact .sub_mul h1 h2 h3

theorem SameWay.self {t : Term} {v : ℝ} (h : Contracted fl t v) : SameWay fl t v t v := by
  induction h with
  | num => exact .num _ _
  | lit => exact .lit _
  | neg _ ih => exact .neg ih
  | op _ _ h ha hb => exact .op ha hb h h
  | mul_add _ _ _ h1 h2 h3 => exact .mul_add h1 h2 h3
  | add_mul _ _ _ h1 h2 h3 => exact .add_mul h1 h2 h3
  | mul_sub _ _ _ h1 h2 h3 => exact .mul_sub h1 h2 h3
  | sub_mul _ _ _ h1 h2 h3 => exact .sub_mul h1 h2 h3

theorem SameWay.swap {t t' : Term} {v v' : ℝ} (h : SameWay fl t v t' v') : SameWay fl t' v' t v := by
  induction h with
  | num => exact .num _ _
  | lit => exact .lit _
  | neg _ ih => exact .neg ih
  | op _ _ h h' ha hb => exact .op ha hb h' h
  | mul_add _ _ _ h1 h2 h3 => exact .mul_add h1 h2 h3
  | add_mul _ _ _ h1 h2 h3 => exact .add_mul h1 h2 h3
  | mul_sub _ _ _ h1 h2 h3 => exact .mul_sub h1 h2 h3
  | sub_mul _ _ _ h1 h2 h3 => exact .sub_mul h1 h2 h3

/-- The same function returns the same result for the same data. -/
theorem SameWay.det {t t' : Term} {v v' : ℝ} (h : SameWay fl t v t' v') (e : t = t') : v = v' := by
  induction h with
  | num => exact Term.num.inj e
  | lit => rfl
  | neg _ ih => rw [ih (Term.neg.inj e)]
  | op _ _ h h' ha hb =>
    obtain ⟨-, e1, e2⟩ := Term.op.inj e
    rw [ha e1, hb e2] at h
    rw [h] at h'
    rw [Option.some.inj h']
  | mul_add _ _ _ h1 h2 h3 =>
    obtain ⟨-, e1, e2⟩ := Term.op.inj e
    obtain ⟨-, e3, e4⟩ := Term.op.inj e1
    rw [h1 e3, h2 e4, h3 e2]
  | add_mul _ _ _ h1 h2 h3 =>
    obtain ⟨-, e1, e2⟩ := Term.op.inj e
    obtain ⟨-, e3, e4⟩ := Term.op.inj e2
    rw [h1 e3, h2 e4, h3 e1]
  | mul_sub _ _ _ h1 h2 h3 =>
    obtain ⟨-, e1, e2⟩ := Term.op.inj e
    obtain ⟨-, e3, e4⟩ := Term.op.inj e1
    rw [h1 e3, h2 e4, h3 e2]
  | sub_mul _ _ _ h1 h2 h3 =>
    obtain ⟨-, e1, e2⟩ := Term.op.inj e
    obtain ⟨-, e3, e4⟩ := Term.op.inj e2
    rw [h1 e3, h2 e4, h3 e1]

/-! ### shape functions of order one -/

/-- A factor of a basis function of order one: zero at `a` and one at `b`. -/
def hatTerm (a b x : ℝ) : Term :=
  .op .mul (.op .sub (.num x) (.num a)) (.op .div (.lit 1) (.op .sub (.num b) (.num a)))

/-- The basis functions of order one. -/
def hatValue (c : Fin 2 → ℝ) (j : Fin 2) (x : ℝ) : Term :=
  if j = 0 then .op .mul (.lit 1) (hatTerm (c 1) (c 0) x) else .op .mul (hatTerm (c 0) (c 1) x) (.lit 1)

theorem hatValue_eq {S : Spacing ℝ} {c : Fin 2 → ℝ} (hS : Nodes S 2 c) (j : Fin 2) (x : ℝ) :
    LagrangeBasis.value termArith (held S) ((2 : ℕ) : Int) ((j : ℕ) : Int) (.num x) = .ok (hatValue c j x) := by
  have c0 : S.coordCT 0 = .ok (c 0) := hS.coord le_rfl 0
  have c1 : S.coordCT 1 = .ok (c 1) := hS.coord le_rfl 1
  have d0 : ((held S).coordCT 0).constexpr = .ok (.num (c 0)) := by
    show (Term.num <$> S.coordCT 0).constexpr = _
    rw [c0]; rfl
  have d1 : ((held S).coordCT 1).constexpr = .ok (.num (c 1)) := by
    show (Term.num <$> S.coordCT 1).constexpr = _
    rw [c1]; rfl
  have hs : Sequence.makeIntegerSequence ((2 : ℕ) : Int) = .ok [0, 1] := by decide
  rw [LagrangeBasis.value, hs, Res.ok_bind]
  rcases (show ∀ i : Fin 2, i = 0 ∨ i = 1 by decide) j with rfl | rfl
  · show foldRight _ [LagrangeBasis.valueProductTerm termArith (held S) 0 0 (.num x), LagrangeBasis.valueProductTerm termArith (held S) 0 1 (.num x)] = _
    simp only [LagrangeBasis.valueProductTerm, if_pos, if_neg (show ¬ (0 : Int) = 1 by decide), d0, d1, Res.ok_bind]
    rfl
  · show foldRight _ [LagrangeBasis.valueProductTerm termArith (held S) 1 0 (.num x), LagrangeBasis.valueProductTerm termArith (held S) 1 1 (.num x)] = _
    simp only [LagrangeBasis.valueProductTerm, if_pos, if_neg (show ¬ (1 : Int) = 0 by decide), d0, d1, Res.ok_bind]
    rfl

/-- No evaluation gives a negative number. -/
def NotNeg (fl : ℝ → ℝ) (t : Term) : Prop := ∀ v, Contracted fl t v → 0 ≤ v

theorem fl_nonneg (hm : Monotone fl) (h0 : fl 0 = 0) {x : ℝ} (h : 0 ≤ x) : 0 ≤ fl x := h0 ▸ hm h

theorem fl_nonpos (hm : Monotone fl) (h0 : fl 0 = 0) {x : ℝ} (h : x ≤ 0) : fl x ≤ 0 := h0 ▸ hm h

theorem notNeg_mul (hm : Monotone fl) (h0 : fl 0 = 0) {a b : Term} (ha : NotNeg fl a) (hb : NotNeg fl b) : NotNeg fl (.op .mul a b) := by
  intro v h
  cases h with
  | op h1 h2 h3 => cases h3; exact fl_nonneg hm h0 (mul_nonneg (ha _ h1) (hb _ h2))

theorem notNeg_one (hm : Monotone fl) (h0 : fl 0 = 0) : NotNeg fl (.lit 1) := by
  intro v h
  cases h
  exact fl_nonneg hm h0 (by norm_num)

/-- The value of a factor. -/
theorem hatTerm_value {a b x v : ℝ} (h : Contracted fl (hatTerm a b x) v) : v = fl (fl (x - a) * fl (fl 1 / fl (b - a))) := by
  unfold hatTerm at h
  cases h with
  | op h1 h2 h3 =>
    cases h3
    cases h1 with
    | op h4 h5 h6 =>
      cases h4; cases h5; cases h6
      cases h2 with
      | op h7 h8 h9 =>
        cases h7
        cases h8 with
        | op h10 h11 h12 =>
          cases h10; cases h11; cases h12
          simp only [Op.apply] at h9
          split at h9
          · cases h9
          · cases h9
            norm_num

theorem div_nonneg_fl (hm : Monotone fl) (h0 : fl 0 = 0) {a b : ℝ} (h : a ≤ b) : 0 ≤ fl (fl 1 / fl (b - a)) :=
  fl_nonneg hm h0 (div_nonneg (fl_nonneg hm h0 zero_le_one) (fl_nonneg hm h0 (sub_nonneg.2 h)))

theorem div_nonpos_fl (hm : Monotone fl) (h0 : fl 0 = 0) {a b : ℝ} (h : b ≤ a) : fl (fl 1 / fl (b - a)) ≤ 0 :=
  fl_nonpos hm h0 (div_nonpos_of_nonneg_of_nonpos (fl_nonneg hm h0 zero_le_one) (fl_nonpos hm h0 (sub_nonpos.2 h)))

theorem notNeg_hat (hm : Monotone fl) (h0 : fl 0 = 0) {c : Fin 2 → ℝ} (hc : c 0 < c 1) {x : ℝ} (hx : c 0 ≤ x ∧ x ≤ c 1) (j : Fin 2) :
    NotNeg fl (hatValue c j x) := by
  unfold hatValue
  split
  · refine notNeg_mul hm h0 (notNeg_one hm h0) fun v hv => ?_
    rw [hatTerm_value hv]
    exact fl_nonneg hm h0 (mul_nonneg_of_nonpos_of_nonpos (fl_nonpos hm h0 (sub_nonpos.2 hx.2)) (div_nonpos_fl hm h0 hc.le))
  · refine notNeg_mul hm h0 (fun v hv => ?_) (notNeg_one hm h0)
    rw [hatTerm_value hv]
    exact fl_nonneg hm h0 (mul_nonneg (fl_nonneg hm h0 (sub_nonneg.2 hx.1)) (div_nonneg_fl hm h0 hc.le))

/-- Products of terms that are in order and not negative. -/
theorem inOrder_mul (hm : Monotone fl) {a a' b b' : Term} (ha : InOrder fl a a') (hb : InOrder fl b b') (na : NotNeg fl a') (nb : NotNeg fl b) :
    InOrder fl (.op .mul a b) (.op .mul a' b') := by
  intro v v' h
  cases h with
  | op h1 h2 h3 h4 =>
    cases h3; cases h4
    exact hm (mul_le_mul (ha _ _ h1) (hb _ _ h2) (nb _ (SameWay.left h2)) (na _ (SameWay.right h1)))

theorem inOrder_self (t : Term) : InOrder fl t t := fun _ _ h => (SameWay.det h rfl).le

/-- Between the nodes, the second basis function grows with the point and the first decreases. -/
theorem inOrder_hat (hm : Monotone fl) (h0 : fl 0 = 0) {c : Fin 2 → ℝ} (hc : c 0 < c 1) {x x' : ℝ} (hx : c 0 ≤ x) (hxx : x ≤ x') (hx' : x' ≤ c 1) :
    InOrder fl (hatValue c 0 x') (hatValue c 0 x) ∧ InOrder fl (hatValue c 1 x) (hatValue c 1 x') := by
  have one := notNeg_one hm h0
  constructor
  · show InOrder fl (.op .mul (.lit 1) (hatTerm (c 1) (c 0) x')) (.op .mul (.lit 1) (hatTerm (c 1) (c 0) x))
    refine inOrder_mul hm (inOrder_self _) (fun v v' h => ?_) one fun v hv => ?_
    · rw [hatTerm_value (SameWay.left h), hatTerm_value (SameWay.right h)]
      exact hm (mul_le_mul_of_nonpos_right (hm (by linarith)) (div_nonpos_fl hm h0 hc.le))
    · rw [hatTerm_value hv]
      exact fl_nonneg hm h0 (mul_nonneg_of_nonpos_of_nonpos (fl_nonpos hm h0 (sub_nonpos.2 hx')) (div_nonpos_fl hm h0 hc.le))
  · show InOrder fl (.op .mul (hatTerm (c 0) (c 1) x) (.lit 1)) (.op .mul (hatTerm (c 0) (c 1) x') (.lit 1))
    refine inOrder_mul hm (fun v v' h => ?_) (inOrder_self _) (fun v hv => ?_) one
    · rw [hatTerm_value (SameWay.left h), hatTerm_value (SameWay.right h)]
      exact hm (mul_le_mul_of_nonneg_right (hm (by linarith)) (div_nonneg_fl hm h0 hc.le))
    · rw [hatTerm_value hv]
      exact fl_nonneg hm h0 (mul_nonneg (fl_nonneg hm h0 (sub_nonneg.2 (hx.trans hxx))) (div_nonneg_fl hm h0 hc.le))

/-- Products of pairwise ordered factors. -/
theorem inOrder_foldRight (hm : Monotone fl) (h0 : fl 0 = 0) : ∀ {n : ℕ} {f g : Fin n → Term} {s t : Term},
    (∀ k, InOrder fl (f k) (g k)) → (∀ k, NotNeg fl (f k)) → (∀ k, NotNeg fl (g k)) →
    foldRight (Term.op .mul) (List.ofFn fun k => .ok (f k)) = .ok s → foldRight (Term.op .mul) (List.ofFn fun k => .ok (g k)) = .ok t →
    InOrder fl s t ∧ NotNeg fl s ∧ NotNeg fl t
  | 0, _, _, _, _, _, _, _, h, _ => by simp [foldRight] at h
  | 1, f, g, s, t, ho, hf, hg, hs, ht => by
    simp only [List.ofFn_succ, List.ofFn_zero, foldRight, Res.ok.injEq] at hs ht
    subst hs; subst ht
    exact ⟨ho 0, hf 0, hg 0⟩
  | n + 2, f, g, s, t, ho, hf, hg, hs, ht => by
    rw [List.ofFn_succ, List.ofFn_succ, foldRight, Res.ok_bind, ← List.ofFn_succ (f := fun i : Fin (n + 1) => Res.ok (f i.succ))] at hs
    rw [List.ofFn_succ, List.ofFn_succ, foldRight, Res.ok_bind, ← List.ofFn_succ (f := fun i : Fin (n + 1) => Res.ok (g i.succ))] at ht
    obtain ⟨a, ha, hs⟩ := Res.bind_eq_ok.1 hs
    obtain ⟨b, hb, ht⟩ := Res.bind_eq_ok.1 ht
    obtain rfl := Res.ok.inj hs
    obtain rfl := Res.ok.inj ht
    obtain ⟨h1, h2, h3⟩ := inOrder_foldRight hm h0 (fun k => ho k.succ) (fun k => hf k.succ) (fun k => hg k.succ) ha hb
    exact ⟨inOrder_mul hm (ho 0) h1 (hg 0) h2, notNeg_mul hm h0 (hf 0) h2, notNeg_mul hm h0 (hg 0) h3⟩

/-! ### sums -/

/-- The sum that the loop builds, from `r`. -/
def sumTerm {ι : Type} (f : ι → Term) (y : ι → ℝ) (L : List ι) (r : Term) : Term :=
  L.foldl (fun r i => .op .add r (.op .mul (f i) (.num (y i)))) r

theorem runCalls_sum {ι : Type} {f : ι → Term} {y : ι → ℝ} {body : ι → Term → Res Term} (L : List ι)
    (h : ∀ i r, body i r = .ok (.op .add r (.op .mul (f i) (.num (y i))))) : ∀ r, runCalls L body r = .ok (sumTerm f y L r) := by
  induction L with
  | nil => intro r; rfl
  | cons i L ih =>
    intro r
    rw [runCalls, List.foldlM_cons]
    show body i r >>= _ = _
    rw [h, Res.ok_bind]
    exact ih _

theorem inOrder_sum (hm : Monotone fl) {ι : Type} {f f' : ι → Term} {y y' : ι → ℝ}
    (hw : ∀ i w w', SameWay fl (f i) w (f' i) w' → w * y i ≤ w' * y' i) : ∀ (L : List ι) {r r' : Term}, (∀ a b, r ≠ .op .mul a b) → InOrder fl r r' →
    InOrder fl (sumTerm f y L r) (sumTerm f' y' L r') := by
  intro L
  induction L with
  | nil => intro r r' _ h; exact h
  | cons i L ih =>
    intro r r' hr h
    refine ih (by intro a b e; cases e) fun v v' hv => ?_
    cases hv with
    | op h1 h2 h3 h4 =>
      cases h3; cases h4
      cases h2 with
      | op h5 h6 h7 h8 =>
        cases h6; cases h7; cases h8
        exact hm (add_le_add (h _ _ h1) (hm (hw i _ _ h5)))
    | mul_add => exact absurd rfl (hr _ _)
    | add_mul h1 h2 h3 =>
      cases h2
      exact hm (add_le_add (h _ _ h3) (hw i _ _ h1))

theorem notNeg_sum (hm : Monotone fl) (h0 : fl 0 = 0) {ι : Type} {f : ι → Term} {y : ι → ℝ} (hf : ∀ i, NotNeg fl (f i)) (hy : ∀ i, 0 ≤ y i) :
    ∀ (L : List ι) {r : Term}, (∀ a b, r ≠ .op .mul a b) → NotNeg fl r → NotNeg fl (sumTerm f y L r) := by
  intro L
  induction L with
  | nil => intro r _ h; exact h
  | cons i L ih =>
    intro r hr h
    refine ih (by intro a b e; cases e) fun v hv => ?_
    cases hv with
    | op h1 h2 h3 =>
      cases h3
      cases h2 with
      | op h4 h5 h6 =>
        cases h5; cases h6
        exact fl_nonneg hm h0 (add_nonneg (h _ h1) (fl_nonneg hm h0 (mul_nonneg (hf i _ h4) (hy i))))
    | mul_add => exact absurd rfl (hr _ _)
    | add_mul h1 h2 h3 =>
      cases h2
      exact fl_nonneg hm h0 (add_nonneg (h _ h3) (mul_nonneg (hf i _ h1) (hy i)))

end

/-! ### values exist -/

section
variable {fl : ℝ → ℝ}

theorem contracted_hat {c : Fin 2 → ℝ} (h1 : fl (c 1 - c 0) ≠ 0) (h2 : fl (c 0 - c 1) ≠ 0) (j : Fin 2) (x : ℝ) : ∃ v, Contracted fl (hatValue c j x) v := by
  have h : ∀ a b, fl (b - a) ≠ 0 → ∃ v, Contracted fl (hatTerm a b x) v := fun a b hab =>
    ⟨_, .op (.op (.num _) (.num _) rfl) (.op (.lit 1) (.op (.num _) (.num _) rfl) (if_neg hab)) rfl⟩
  unfold hatValue
  split
  · obtain ⟨v, hv⟩ := h _ _ h2
    exact ⟨_, .op (.lit 1) hv rfl⟩
  · obtain ⟨v, hv⟩ := h _ _ h1
    exact ⟨_, .op hv (.lit 1) rfl⟩

theorem contracted_mul {a b : Term} (ha : ∃ v, Contracted fl a v) (hb : ∃ v, Contracted fl b v) : ∃ v, Contracted fl (.op .mul a b) v :=
  ⟨_, .op ha.choose_spec hb.choose_spec rfl⟩

theorem sameWay_sum {ι : Type} {f : ι → Term} {y y' : ι → ℝ} (hf : ∀ i, ∃ v, Contracted fl (f i) v) :
    ∀ (L : List ι) {r r' : Term}, (∃ v v', SameWay fl r v r' v') → ∃ v v', SameWay fl (sumTerm f y L r) v (sumTerm f y' L r') v' := by
  intro L
  induction L with
  | nil => intro r r' h; exact h
  | cons i L ih =>
    intro r r' h
    obtain ⟨v, v', h⟩ := h
    exact ih ⟨_, _, .op h (.op (SameWay.self (hf i).choose_spec) (.num _ _) rfl rfl) rfl rfl⟩

end

/-! ### any relative errors -/

section
variable {u : ℝ}

/-- Every evaluation gives a number, and none is negative. -/
def NotNegIn (u : ℝ) (t : Term) : Prop := ∀ o, Evaluates u t o → ∃ v, o = some v ∧ 0 ≤ v

theorem sign_pos (hu : u < 1) {v z : ℝ} (h : |v - z| ≤ u * |z|) (hz : 0 < z) : 0 < v := by
  rw [abs_of_pos hz] at h
  have := (abs_le.1 h).1
  nlinarith

theorem sign_nonneg (hu : u < 1) {v z : ℝ} (h : |v - z| ≤ u * |z|) (hz : 0 ≤ z) : 0 ≤ v := by
  rw [abs_of_nonneg hz] at h
  have := (abs_le.1 h).1
  nlinarith

theorem sign_neg (hu : u < 1) {v z : ℝ} (h : |v - z| ≤ u * |z|) (hz : z < 0) : v < 0 := by
  rw [abs_of_neg hz] at h
  have := (abs_le.1 h).2
  nlinarith

theorem sign_nonpos (hu : u < 1) {v z : ℝ} (h : |v - z| ≤ u * |z|) (hz : z ≤ 0) : v ≤ 0 := by
  rw [abs_of_nonpos hz] at h
  have := (abs_le.1 h).2
  nlinarith

theorem notNegIn_mul (hu : u < 1) {a b : Term} (ha : NotNegIn u a) (hb : NotNegIn u b) : NotNegIn u (.op .mul a b) := by
  intro o h
  cases h with
  | op h1 h2 h3 h4 =>
    cases h3
    obtain ⟨x, e, hx⟩ := ha _ h1; cases e
    obtain ⟨y, e, hy⟩ := hb _ h2; cases e
    exact ⟨_, rfl, sign_nonneg hu h4 (mul_nonneg hx hy)⟩
  | fail h1 h2 h3 => cases h3
  | left_fail h => obtain ⟨_, e, -⟩ := ha _ h; cases e
  | right_fail h => obtain ⟨_, e, -⟩ := hb _ h; cases e

theorem notNegIn_add (hu : u < 1) {a b : Term} (ha : NotNegIn u a) (hb : NotNegIn u b) : NotNegIn u (.op .add a b) := by
  intro o h
  cases h with
  | op h1 h2 h3 h4 =>
    cases h3
    obtain ⟨x, e, hx⟩ := ha _ h1; cases e
    obtain ⟨y, e, hy⟩ := hb _ h2; cases e
    exact ⟨_, rfl, sign_nonneg hu h4 (add_nonneg hx hy)⟩
  | fail h1 h2 h3 => cases h3
  | left_fail h => obtain ⟨_, e, -⟩ := ha _ h; cases e
  | right_fail h => obtain ⟨_, e, -⟩ := hb _ h; cases e

theorem notNegIn_num {x : ℝ} (h : 0 ≤ x) : NotNegIn u (.num x) := by
  intro o ho
  cases ho
  exact ⟨x, rfl, h⟩

theorem notNegIn_lit (hu : u < 1) {q : ℚ} (h : 0 ≤ q) : NotNegIn u (.lit q) := by
  intro o ho
  cases ho with
  | lit h' => exact ⟨_, rfl, sign_nonneg hu h' (by exact_mod_cast h)⟩

/-- A difference of held numbers. -/
theorem evaluates_sub {a x : ℝ} {o : Option ℝ} (h : Evaluates u (.op .sub (.num x) (.num a)) o) :
    ∃ v, o = some v ∧ |v - (x - a)| ≤ u * |x - a| := by
  cases h with
  | op h1 h2 h3 h4 => cases h1; cases h2; cases h3; exact ⟨_, rfl, h4⟩
  | fail h1 h2 h3 => cases h3
  | left_fail h => cases h
  | right_fail h => cases h

/-- The reciprocal of a difference, other than zero. -/
theorem evaluates_inv (hu : u < 1) {a b : ℝ} (hab : b ≠ a) {o : Option ℝ} (h : Evaluates u (.op .div (.lit 1) (.op .sub (.num b) (.num a))) o) :
    ∃ v, o = some v ∧ (a < b → 0 ≤ v) ∧ (b < a → v ≤ 0) := by
  cases h with
  | op h1 h2 h3 h4 =>
    cases h1 with
    | lit h1 =>
      obtain ⟨w, e, hw⟩ := evaluates_sub h2; cases e
      have h1 := sign_pos hu h1 (by norm_num)
      simp only [Op.apply] at h3
      split at h3
      · cases h3
      · cases h3
        refine ⟨_, rfl, fun h => ?_, fun h => ?_⟩
        · exact sign_nonneg hu h4 (div_nonneg h1.le (sign_pos hu hw (sub_pos.2 h)).le)
        · exact sign_nonpos hu h4 (div_nonpos_of_nonneg_of_nonpos h1.le (sign_neg hu hw (sub_neg.2 h)).le)
  | fail h1 h2 h3 =>
    obtain ⟨w, e, hw⟩ := evaluates_sub h2; cases e
    simp only [Op.apply] at h3
    split at h3
    · rename_i h
      rcases lt_or_gt_of_ne hab with h' | h'
      · exact absurd h (sign_neg hu hw (sub_neg.2 h')).ne
      · exact absurd h (sign_pos hu hw (sub_pos.2 h')).ne'
    · cases h3
  | left_fail h => cases h
  | right_fail h => obtain ⟨_, e, -⟩ := evaluates_sub h; cases e

theorem notNegIn_hat (hu : u < 1) {c : Fin 2 → ℝ} (hc : c 0 < c 1) {x : ℝ} (hx : c 0 ≤ x ∧ x ≤ c 1) (j : Fin 2) : NotNegIn u (hatValue c j x) := by
  have one : NotNegIn u (.lit 1) := notNegIn_lit hu zero_le_one
  unfold hatValue
  split
  · refine notNegIn_mul hu one fun o h => ?_
    unfold hatTerm at h
    cases h with
    | op h1 h2 h3 h4 =>
      cases h3
      obtain ⟨v, e, hv⟩ := evaluates_sub h1; cases e
      obtain ⟨w, e, -, hw⟩ := evaluates_inv hu hc.ne h2; cases e
      exact ⟨_, rfl, sign_nonneg hu h4 (mul_nonneg_of_nonpos_of_nonpos (sign_nonpos hu hv (sub_nonpos.2 hx.2)) (hw hc))⟩
    | fail h1 h2 h3 => cases h3
    | left_fail h => obtain ⟨_, e, -⟩ := evaluates_sub h; cases e
    | right_fail h => obtain ⟨_, e, -⟩ := evaluates_inv hu hc.ne h; cases e
  · refine notNegIn_mul hu (fun o h => ?_) one
    unfold hatTerm at h
    cases h with
    | op h1 h2 h3 h4 =>
      cases h3
      obtain ⟨v, e, hv⟩ := evaluates_sub h1; cases e
      obtain ⟨w, e, hw, -⟩ := evaluates_inv hu hc.ne' h2; cases e
      exact ⟨_, rfl, sign_nonneg hu h4 (mul_nonneg (sign_nonneg hu hv (sub_nonneg.2 hx.1)) (hw hc))⟩
    | fail h1 h2 h3 => cases h3
    | left_fail h => obtain ⟨_, e, -⟩ := evaluates_sub h; cases e
    | right_fail h => obtain ⟨_, e, -⟩ := evaluates_inv hu hc.ne' h; cases e

theorem notNegIn_sum (hu : u < 1) {ι : Type} {f : ι → Term} {y : ι → ℝ} (hf : ∀ i, NotNegIn u (f i)) (hy : ∀ i, 0 ≤ y i) :
    ∀ (L : List ι) {r : Term}, NotNegIn u r → NotNegIn u (sumTerm f y L r) := by
  intro L
  induction L with
  | nil => intro r h; exact h
  | cons i L ih =>
    intro r h
    exact ih (notNegIn_add hu h (notNegIn_mul hu (hf i) (notNegIn_num (hy i))))

end

end Verif.Lemmas
