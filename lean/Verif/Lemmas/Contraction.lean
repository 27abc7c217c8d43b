import Verif.Spec.Contraction
import Verif.Lemmas.Evaluation
import Verif.Lemmas.FloatEval
import Verif.Lemmas.Tensor
import Verif.Lemmas.MatrixMemory

/-! # Fused multiplications and additions -/

namespace Verif.Lemmas

open Verif.Spec

section
variable {fl : ℝ → ℝ}

/-! ### expressions without sums of products -/

theorem unaffected_num (x : ℝ) : Unaffected fl (.num x) := by
  intro v w hv hw
  cases hv; cases hw; rfl

theorem unaffected_lit (q : ℚ) : Unaffected fl (.lit q) := by
  intro v w hv hw
  cases hv; cases hw; rfl

theorem unaffected_mul {a b : Term} (ha : Unaffected fl a) (hb : Unaffected fl b) : Unaffected fl (.op .mul a b) := by
  intro v w hv hw
  cases hv with
  | op h1 h2 h3 => cases hw with
    | op h4 h5 h6 =>
      cases h3; cases h6
      rw [ha _ _ h1 h4, hb _ _ h2 h5]

theorem unaffected_div {a b : Term} (ha : Unaffected fl a) (hb : Unaffected fl b) : Unaffected fl (.op .div a b) := by
  intro v w hv hw
  cases hv with
  | op h1 h2 h3 => cases hw with
    | op h4 h5 h6 =>
      rw [ha _ _ h1 h4, hb _ _ h2 h5] at h3
      rw [h3] at h6
      rw [Option.some.inj h6]

theorem unaffected_sub (x y : ℝ) : Unaffected fl (.op .sub (.num x) (.num y)) := by
  intro v w hv hw
  cases hv with
  | op h1 h2 h3 => cases hw with
    | op h4 h5 h6 =>
      rw [unaffected_num _ _ _ h1 h4, unaffected_num _ _ _ h2 h5] at h3
      rw [h3] at h6
      rw [Option.some.inj h6]

theorem foldRight_closed {R : Type} {op : R → R → R} {P : R → Prop} (hP : ∀ a b, P a → P b → P (op a b)) :
    ∀ {l : List (Res R)} {r : R}, (∀ x ∈ l, ∀ a, x = .ok a → P a) → foldRight op l = .ok r → P r
  | [], _, _, h => by cases h
  | [x], _, hl, h => hl x (List.mem_cons_self ..) _ h
  | x :: y :: l, r, hl, h => by
    rw [foldRight] at h
    obtain ⟨a, ha, h⟩ := Res.bind_eq_ok.1 h
    obtain ⟨b, hb, h⟩ := Res.bind_eq_ok.1 h
    obtain rfl := Res.ok.inj h
    exact hP _ _ (hl x (List.mem_cons_self ..) _ ha) (foldRight_closed hP (fun z hz => hl z (List.mem_cons_of_mem _ hz)) hb)

theorem held_coord {S : Spacing ℝ} {i : Int} {t : Term} (h : ((held S).coordCT i).constexpr = .ok t) : ∃ c, S.coordCT i = .ok c ∧ t = .num c := by
  have h : (Term.num <$> S.coordCT i) = .ok t := eq_ok_of_constexpr h
  cases hc : S.coordCT i with
  | ok c => rw [hc] at h; exact ⟨c, rfl, (Res.ok.inj h).symm⟩
  | _ => rw [hc] at h; cases h

/-- A factor of a basis function. -/
theorem productTerm_form {S : Spacing ℝ} {bf i : Int} {x : ℝ} {t : Term}
    (h : LagrangeBasis.valueProductTerm termArith (held S) bf i (.num x) = .ok t) :
    (bf = i ∧ t = .lit 1) ∨ ∃ c c', S.coordCT i = .ok c ∧
      t = .op .mul (.op .sub (.num x) (.num c)) (.op .div (.lit 1) (.op .sub (.num c') (.num c))) := by
  unfold LagrangeBasis.valueProductTerm at h
  by_cases e : bf = i
  · rw [if_pos e] at h
    exact .inl ⟨e, (Res.ok.inj h).symm⟩
  · rw [if_neg e] at h
    obtain ⟨a, ha, h⟩ := Res.bind_eq_ok.1 h
    obtain ⟨b, hb, h⟩ := Res.bind_eq_ok.1 h
    obtain ⟨q, hq, h⟩ := Res.bind_eq_ok.1 h
    obtain ⟨c, hc, rfl⟩ := held_coord ha
    obtain ⟨c', -, rfl⟩ := held_coord hb
    obtain rfl := Res.ok.inj h
    have hq := eq_ok_of_constexpr hq
    obtain rfl := Res.ok.inj hq
    exact .inr ⟨c, c', hc, rfl⟩

theorem value_unaffected {S : Spacing ℝ} {n bf : Int} {x : ℝ} {t : Term}
    (h : LagrangeBasis.value termArith (held S) n bf (.num x) = .ok t) : Unaffected fl t := by
  unfold LagrangeBasis.value at h
  obtain ⟨is, -, h⟩ := Res.bind_eq_ok.1 h
  refine foldRight_closed (P := Unaffected fl) (fun a b => unaffected_mul) (fun y hy a ha => ?_) h
  obtain ⟨i, -, rfl⟩ := List.mem_map.1 hy
  rcases productTerm_form ha with ⟨-, rfl⟩ | ⟨c, c', -, rfl⟩
  · exact unaffected_lit 1
  · exact unaffected_mul (unaffected_sub _ _) (unaffected_div (unaffected_lit 1) (unaffected_sub _ _))

/-! ### zeros -/

/-- The expression is always zero, and if it is a product, also before it is rounded. -/
def Gone (fl : ℝ → ℝ) (t : Term) : Prop :=
  AlwaysIs fl t 0 ∧ ∀ a b, t = .op .mul a b → ∀ x y, Contracted fl a x → Contracted fl b y → x * y = 0

theorem gone_num : Gone fl (.num 0) := ⟨fun w h => by cases h; rfl, by intro a b h; cases h⟩

theorem gone_mul_left (h0 : fl 0 = 0) {a b : Term} (h : AlwaysIs fl a 0) : Gone fl (.op .mul a b) := by
  have key : ∀ x y, Contracted fl a x → Contracted fl b y → x * y = 0 := fun x y hx _ => by rw [h x hx, zero_mul]
  refine ⟨fun w hw => ?_, fun a' b' e => by cases e; exact key⟩
  cases hw with
  | op h1 h2 h3 => cases h3; rw [key _ _ h1 h2, h0]

theorem gone_mul_right (h0 : fl 0 = 0) {a b : Term} (h : AlwaysIs fl b 0) : Gone fl (.op .mul a b) := by
  have key : ∀ x y, Contracted fl a x → Contracted fl b y → x * y = 0 := fun x y _ hy => by rw [h y hy, mul_zero]
  refine ⟨fun w hw => ?_, fun a' b' e => by cases e; exact key⟩
  cases hw with
  | op h1 h2 h3 => cases h3; rw [key _ _ h1 h2, h0]

theorem gone_add (h0 : fl 0 = 0) {a b : Term} (ha : Gone fl a) (hb : Gone fl b) : Gone fl (.op .add a b) := by
  refine ⟨fun w hw => ?_, fun a' b' e => by cases e⟩
  cases hw with
  | op h1 h2 h3 => cases h3; rw [ha.1 _ h1, hb.1 _ h2, add_zero, h0]
  | mul_add h1 h2 h3 => rw [ha.2 _ _ rfl _ _ h1 h2, hb.1 _ h3, add_zero, h0]
  | add_mul h1 h2 h3 => rw [hb.2 _ _ rfl _ _ h1 h2, ha.1 _ h3, add_zero, h0]

theorem gone_sub (h0 : fl 0 = 0) {a b : Term} (ha : Gone fl a) (hb : Gone fl b) : Gone fl (.op .sub a b) := by
  refine ⟨fun w hw => ?_, fun a' b' e => by cases e⟩
  cases hw with
  | op h1 h2 h3 => cases h3; rw [ha.1 _ h1, hb.1 _ h2, sub_zero, h0]
  | mul_sub h1 h2 h3 => rw [ha.2 _ _ rfl _ _ h1 h2, hb.1 _ h3, sub_zero, h0]
  | sub_mul h1 h2 h3 => rw [hb.2 _ _ rfl _ _ h1 h2, ha.1 _ h3, sub_zero, h0]

theorem foldRight_gone (h0 : fl 0 = 0) : ∀ {l : List (Res Term)} {r : Term},
    (∃ x ∈ l, ∀ a, x = .ok a → AlwaysIs fl a 0) → foldRight (Term.op .mul) l = .ok r → AlwaysIs fl r 0
  | [], _, _, h => by cases h
  | [x], _, ⟨y, hy, hl⟩, h => by
    obtain rfl := List.mem_singleton.1 hy
    exact hl _ h
  | x :: y :: l, r, ⟨z, hz, hl⟩, h => by
    rw [foldRight] at h
    obtain ⟨a, ha, h⟩ := Res.bind_eq_ok.1 h
    obtain ⟨b, hb, h⟩ := Res.bind_eq_ok.1 h
    obtain rfl := Res.ok.inj h
    rcases List.mem_cons.1 hz with rfl | hz
    · exact (gone_mul_left h0 (hl _ ha)).1
    · exact (gone_mul_right h0 (foldRight_gone h0 ⟨z, hz, hl⟩ hb)).1

/-- At the nodes of the others, a basis function vanishes. -/
theorem term_value_zero (h0 : fl 0 = 0) {S : Spacing ℝ} {n : ℕ} {c : Fin n → ℝ} (hS : Nodes S n c) {i j : Fin n} (hij : j ≠ i) {t : Term}
    (h : LagrangeBasis.value termArith (held S) n ((j : ℕ) : Int) (.num (c i)) = .ok t) : AlwaysIs fl t 0 := by
  unfold LagrangeBasis.value at h
  rw [makeIntegerSequence_ok (by omega), Res.ok_bind] at h
  refine foldRight_gone h0 ⟨_, List.mem_map.2 ⟨((i : ℕ) : Int), ?_, rfl⟩, fun a ha => ?_⟩ h
  · rw [mem_upTo]; constructor <;> [omega; exact_mod_cast i.2]
  · rcases productTerm_form ha with ⟨e, -⟩ | ⟨x, c', hx, rfl⟩
    · exact absurd (Fin.ext (by exact_mod_cast e)) hij
    · rw [hS.coord (by have := i.2; have := j.2; have : (i : ℕ) ≠ j := fun e => hij (Fin.ext e.symm); omega) i] at hx
      obtain rfl := Res.ok.inj hx
      refine (gone_mul_left h0 fun w hw => ?_).1
      cases hw with
      | op h1 h2 h3 => cases h3; cases h1; cases h2; rw [sub_self, h0]

/-! ### exact evaluations -/

theorem nothingRounded_always {t : Term} {v : ℝ} (h : NothingRounded fl t v) : AlwaysIs fl t v := by
  have key : ∀ w, Contracted fl t w → ∀ v, NothingRounded fl t v → w = v := by
    clear h
    intro w hw
    induction hw with
    | num x => intro v h; cases h; rfl
    | lit q => intro v h; cases h with | lit h => exact h
    | neg _ ih => intro v h; cases h with | neg h => rw [ih _ h]
    | op _ _ h3 ih1 ih2 =>
      intro v h
      cases h with
      | op k1 k2 k3 k4 =>
        rw [ih1 _ k1, ih2 _ k2, k3] at h3
        rw [← Option.some.inj h3, k4]
    | mul_add _ _ _ ih1 ih2 ih3 =>
      intro v h
      cases h with
      | op k1 k2 k3 k4 => cases k1 with
        | op j1 j2 j3 _ => cases j3; cases k3; rw [ih1 _ j1, ih2 _ j2, ih3 _ k2, k4]
    | add_mul _ _ _ ih1 ih2 ih3 =>
      intro v h
      cases h with
      | op k1 k2 k3 k4 => cases k2 with
        | op j1 j2 j3 _ => cases j3; cases k3; rw [ih1 _ j1, ih2 _ j2, ih3 _ k1, k4]
    | mul_sub _ _ _ ih1 ih2 ih3 =>
      intro v h
      cases h with
      | op k1 k2 k3 k4 => cases k1 with
        | op j1 j2 j3 _ => cases j3; cases k3; rw [ih1 _ j1, ih2 _ j2, ih3 _ k2, k4]
    | sub_mul _ _ _ ih1 ih2 ih3 =>
      intro v h
      cases h with
      | op k1 k2 k3 k4 => cases k2 with
        | op j1 j2 j3 _ => cases j3; cases k3; rw [ih1 _ j1, ih2 _ j2, ih3 _ k1, k4]
  exact fun w hw => key w hw v h

theorem nothingRounded_contracted {t : Term} {v : ℝ} (h : NothingRounded fl t v) : Contracted fl t v := by
  induction h with
  | num x => exact .num x
  | @lit q h => rw [← h]; exact .lit q
  | neg _ ih => exact .neg ih
  | @op o a b x y z _ _ h3 h4 ih1 ih2 => rw [← h4]; exact .op ih1 ih2 h3

/-! ### the inverse of a matrix -/

theorem term_inverse_form (N : Matrix (Fin 3) (Fin 3) Term) : ∃ after, MathUtilities.inverseNative termArith (matMem N) = .ok
    (.op .add (.op .add
      (.op .mul (N 0 0) (.op .sub (.op .mul (N 1 1) (N 2 2)) (.op .mul (N 1 2) (N 2 1))))
      (.op .mul (N 1 0) (.op .sub (.op .mul (N 0 2) (N 2 1)) (.op .mul (N 0 1) (N 2 2)))))
      (.op .mul (N 2 0) (.op .sub (.op .mul (N 0 1) (N 1 2)) (.op .mul (N 0 2) (N 1 1)))), after) := ⟨_, rfl⟩

theorem det_gone (h0 : fl 0 = 0) {N : Matrix (Fin 3) (Fin 3) Term} (h : (∃ i, ∀ k, N i k = .num 0) ∨ ∃ k, ∀ i, N i k = .num 0) :
    ∃ det after, MathUtilities.inverseNative termArith (matMem N) = .ok (det, after) ∧ AlwaysIs fl det 0 := by
  obtain ⟨after, e⟩ := term_inverse_form N
  refine ⟨_, after, e, (gone_add h0 (gone_add h0 ?_ ?_) ?_).1⟩ <;>
  rcases h with ⟨i, h⟩ | ⟨k, h⟩
  all_goals
    first
    | (fin_cases i <;> simp only [Fin.zero_eta, Fin.mk_one, Fin.reduceFinMk] at h <;> simp only [h] <;>
        first
        | exact gone_mul_left h0 gone_num.1
        | exact gone_mul_right h0 (gone_sub h0 (gone_mul_left h0 gone_num.1) (gone_mul_left h0 gone_num.1)).1
        | exact gone_mul_right h0 (gone_sub h0 (gone_mul_left h0 gone_num.1) (gone_mul_right h0 gone_num.1)).1
        | exact gone_mul_right h0 (gone_sub h0 (gone_mul_right h0 gone_num.1) (gone_mul_right h0 gone_num.1)).1)
    | (fin_cases k <;> simp only [Fin.zero_eta, Fin.mk_one, Fin.reduceFinMk] at h <;> simp only [h] <;>
        first
        | exact gone_mul_left h0 gone_num.1
        | exact gone_mul_right h0 (gone_sub h0 (gone_mul_left h0 gone_num.1) (gone_mul_left h0 gone_num.1)).1
        | exact gone_mul_right h0 (gone_sub h0 (gone_mul_left h0 gone_num.1) (gone_mul_right h0 gone_num.1)).1
        | exact gone_mul_right h0 (gone_sub h0 (gone_mul_right h0 gone_num.1) (gone_mul_right h0 gone_num.1)).1
        | exact gone_mul_right h0 (gone_sub h0 (gone_mul_right h0 gone_num.1) (gone_mul_left h0 gone_num.1)).1)

/-! ### sums with one term -/

/-- Adding up products of which only the one of `i₀` is not zero. -/
theorem runCalls_one (h0 : fl 0 = 0) (hi : ∀ z, fl (fl z) = fl z) {ι : Type} {L : List ι} (hL : L.Nodup) {i₀ : ι}
    {body : ι → Term → Res Term} {f : ι → Term} {y : ι → ℝ} (hb : ∀ i r, body i r = .ok (.op .add r (.op .mul (f i) (.num (y i)))))
    (hf : ∀ i, i ≠ i₀ → AlwaysIs fl (f i) 0) {w : ℝ} (hw : AlwaysIs fl (f i₀) w) {r : Term} (hr : ∀ a b, r ≠ .op .mul a b) {v : ℝ}
    (hrv : AlwaysIs fl r v) (hv : i₀ ∈ L ∧ v = 0 ∨ i₀ ∉ L ∧ v = fl (w * y i₀)) :
    ∃ s, runCalls L body r = .ok s ∧ AlwaysIs fl s (fl (w * y i₀)) := by
  induction L generalizing r v with
  | nil =>
    rcases hv with ⟨h, -⟩ | ⟨-, rfl⟩
    · cases h
    · exact ⟨r, rfl, hrv⟩
  | cons i L ih =>
    obtain ⟨hi', hL⟩ := List.nodup_cons.1 hL
    rw [runCalls_cons, hb, Res.ok_bind]
    by_cases e : i = i₀
    · subst e
      rcases hv with ⟨-, rfl⟩ | ⟨h, -⟩
      · refine ih hL (by intro a b e; cases e) (v := fl (w * y i)) (fun z hz => ?_) (.inr ⟨hi', rfl⟩)
        cases hz with
        | op h1 h2 h3 =>
          cases h3
          rw [hrv _ h1, zero_add]
          cases h2 with
          | op h4 h5 h6 =>
            cases h6; cases h5
            rw [hw _ h4, hi]
        | mul_add => exact absurd rfl (hr _ _)
        | add_mul h4 h5 h1 =>
          cases h5
          rw [hrv _ h1, hw _ h4, zero_add]
      · exact absurd (List.mem_cons_self ..) h
    · have hvv : fl v = v := by
        rcases hv with ⟨-, rfl⟩ | ⟨-, rfl⟩
        exacts [h0, hi _]
      refine ih hL (by intro a b e; cases e) (v := v) (fun z hz => ?_) (hv.imp (And.imp_left fun h => ?_) (And.imp_left fun h => ?_))
      · have g := gone_mul_left (b := .num (y i)) h0 (hf i e)
        cases hz with
        | op h1 h2 h3 => cases h3; rw [hrv _ h1, g.1 _ h2, add_zero, hvv]
        | mul_add => exact absurd rfl (hr _ _)
        | add_mul h4 h5 h1 => rw [hrv _ h1, g.2 _ _ rfl _ _ h4 h5, add_zero, hvv]
      · exact (List.mem_cons.1 h).resolve_left fun h => e h.symm
      · exact fun h' => h (List.mem_cons_of_mem _ h')

end

/-! ### an evaluation that fuses whatever it can -/

variable (F : FloatFormat)

/-- Numbers of the format; if products are to be fused, for products also the exact product.  A sum or difference takes the exact product of its right operand, or else of its left one;
a difference prefers the left one. -/
def fusedArith (fuse : Bool) : Arith (Option (ℚ × Option ℚ)) where
  lit q := do some (← evalRound F q, none)
  add a b := do
    let (x, p) ← a
    let (y, q) ← b
    match p, q with
    | _, some z => some (← evalRound F (x + z), none)
    | some z, none => some (← evalRound F (z + y), none)
    | none, none => some (← evalRound F (x + y), none)
  sub a b := do
    let (x, p) ← a
    let (y, q) ← b
    match p, q with
    | some z, _ => some (← evalRound F (z - y), none)
    | none, some z => some (← evalRound F (x - z), none)
    | none, none => some (← evalRound F (x - y), none)
  mul a b := do
    let (x, _) ← a
    let (y, _) ← b
    some (← evalRound F (x * y), if fuse then some (x * y) else none)
  neg a := do
    let (x, _) ← a
    some (-x, none)
  div a b := match a, b with
    | some (x, _), some (y, _) => if y = 0 then .nonfinite else .ok (do some (← evalRound F (x / y), none))
    | _, _ => .nonfinite

/-- The expression can have that value. -/
def CanBe (s : Option (ℚ × Option ℚ)) (t : Term) : Prop := ∀ v p, s = some (v, p) → Contracted F.nearest t v ∧
  ∀ z, p = some z → ∃ (a b : Term) (x y : ℝ), t = .op .mul a b ∧ Contracted F.nearest a x ∧ Contracted F.nearest b y ∧ x * y = z

variable {F}

theorem evalRound_nearest {q r : ℚ} (h : evalRound F q = some r) : F.nearest (q : ℝ) = r := by
  have := evalRound_sound F h
  unfold Flt.round at this
  split at this
  · cases this
  · exact Datum.finite.inj (congrArg Flt.datum this)

theorem canBe_num (q : ℚ) : CanBe F (some (q, none)) (.num q) := by
  intro v p h
  cases h
  exact ⟨.num _, by intro z h; cases h⟩

theorem fused_rel (fuse : Bool) : ArithRel False (fusedArith F fuse) termArith (CanBe F) where
  lit q v p h := by
    obtain ⟨r, hr, h⟩ := Option.bind_eq_some_iff.1 h
    cases h
    refine ⟨?_, by intro z h; cases h⟩
    rw [← evalRound_nearest hr]
    exact .lit q
  add {a b a' b'} ha hb v p h := by
    obtain ⟨⟨x, p'⟩, rfl, h⟩ := Option.bind_eq_some_iff.1 h
    obtain ⟨⟨y, q'⟩, rfl, h⟩ := Option.bind_eq_some_iff.1 h
    obtain ⟨h1, h2⟩ := ha _ _ rfl
    obtain ⟨h3, h4⟩ := hb _ _ rfl
    rcases q' with _ | z
    · rcases p' with _ | z
      · obtain ⟨r, hr, h⟩ := Option.bind_eq_some_iff.1 h
        cases h
        refine ⟨?_, by intro z h; cases h⟩
        rw [← evalRound_nearest hr, Rat.cast_add]
        exact .op h1 h3 rfl
      · obtain ⟨r, hr, h⟩ := Option.bind_eq_some_iff.1 h
        cases h
        refine ⟨?_, by intro z h; cases h⟩
        obtain ⟨c, d, s, t, rfl, hc, hd, e⟩ := h2 z rfl
        rw [← evalRound_nearest hr, Rat.cast_add, ← e]
        exact .mul_add hc hd h3
    · obtain ⟨r, hr, h⟩ := Option.bind_eq_some_iff.1 h
      cases h
      refine ⟨?_, by intro z h; cases h⟩
      obtain ⟨c, d, s, t, rfl, hc, hd, e⟩ := h4 z rfl
      rw [← evalRound_nearest hr, Rat.cast_add, ← e]
      exact .add_mul hc hd h1
  sub {a b a' b'} ha hb v p h := by
    obtain ⟨⟨x, p'⟩, rfl, h⟩ := Option.bind_eq_some_iff.1 h
    obtain ⟨⟨y, q'⟩, rfl, h⟩ := Option.bind_eq_some_iff.1 h
    obtain ⟨h1, h2⟩ := ha _ _ rfl
    obtain ⟨h3, h4⟩ := hb _ _ rfl
    rcases p' with _ | z
    · rcases q' with _ | z
      · obtain ⟨r, hr, h⟩ := Option.bind_eq_some_iff.1 h
        cases h
        refine ⟨?_, by intro z h; cases h⟩
        rw [← evalRound_nearest hr, Rat.cast_sub]
        exact .op h1 h3 rfl
      · obtain ⟨r, hr, h⟩ := Option.bind_eq_some_iff.1 h
        cases h
        refine ⟨?_, by intro z h; cases h⟩
        obtain ⟨c, d, s, t, rfl, hc, hd, e⟩ := h4 z rfl
        rw [← evalRound_nearest hr, Rat.cast_sub, ← e]
        exact .sub_mul hc hd h1
    · obtain ⟨r, hr, h⟩ := Option.bind_eq_some_iff.1 h
      cases h
      refine ⟨?_, by intro z h; cases h⟩
      obtain ⟨c, d, s, t, rfl, hc, hd, e⟩ := h2 z rfl
      rw [← evalRound_nearest hr, Rat.cast_sub, ← e]
      exact .mul_sub hc hd h3
  mul {a b a' b'} ha hb v p h := by
    obtain ⟨⟨x, p'⟩, rfl, h⟩ := Option.bind_eq_some_iff.1 h
    obtain ⟨⟨y, q'⟩, rfl, h⟩ := Option.bind_eq_some_iff.1 h
    obtain ⟨h1, -⟩ := ha _ _ rfl
    obtain ⟨h3, -⟩ := hb _ _ rfl
    obtain ⟨r, hr, h⟩ := Option.bind_eq_some_iff.1 h
    cases h
    refine ⟨?_, fun z hz => ?_⟩
    · rw [← evalRound_nearest hr, Rat.cast_mul]
      exact .op h1 h3 rfl
    · obtain rfl : x * y = z := by
        cases fuse
        · cases hz
        · exact Option.some.inj hz
      exact ⟨_, _, _, _, rfl, h1, h3, (Rat.cast_mul ..).symm⟩
  neg {a b} ha v p h := by
    obtain ⟨⟨x, p'⟩, rfl, h⟩ := Option.bind_eq_some_iff.1 h
    cases h
    refine ⟨?_, by intro z h; cases h⟩
    rw [Rat.cast_neg]
    exact .neg (ha _ _ rfl).1
  div {a b a' b'} ha hb := by
    intro z hz
    rcases a with _ | ⟨x, p⟩ <;> rcases a' with _ | ⟨y, q⟩ <;> simp only [fusedArith] at hz
    · cases hz
    · cases hz
    · cases hz
    · split_ifs at hz with h0
      obtain rfl := Res.ok.inj hz
      refine .inl ⟨_, rfl, fun v p h => ?_⟩
      obtain ⟨r, hr, h⟩ := Option.bind_eq_some_iff.1 h
      cases h
      refine ⟨?_, by intro z h; cases h⟩
      rw [← evalRound_nearest hr, Rat.cast_div]
      refine .op (ha _ _ rfl).1 (hb _ _ rfl).1 ?_
      simp [Op.apply, h0]

end Verif.Lemmas
