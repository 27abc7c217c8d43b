import Verif.Spec.Units
import Verif.Lemmas.MonotoneFloat
import Verif.Lemmas.Inverse
import Verif.Lemmas.MixedScaling

/-! Multiplying inputs by powers of two. -/

namespace Verif.Lemmas

open Verif.Spec

theorem _root_.Verif.Spec.IsPowerOfTwo.ne_zero {c : ℝ} (h : IsPowerOfTwo c) : c ≠ 0 := by
  obtain ⟨k, hk⟩ := h
  rintro rfl
  rw [abs_zero] at hk
  exact absurd hk.symm (by positivity)

theorem _root_.Verif.Spec.IsPowerOfTwo.mul {c d : ℝ} (hc : IsPowerOfTwo c) (hd : IsPowerOfTwo d) : IsPowerOfTwo (c * d) := by
  obtain ⟨k, hk⟩ := hc
  obtain ⟨l, hl⟩ := hd
  exact ⟨k + l, by rw [abs_mul, hk, hl, zpow_add₀ (by norm_num)]⟩

theorem _root_.Verif.Spec.IsPowerOfTwo.inv {c : ℝ} (hc : IsPowerOfTwo c) : IsPowerOfTwo c⁻¹ := by
  obtain ⟨k, hk⟩ := hc
  exact ⟨-k, by rw [abs_inv, hk, zpow_neg]⟩

theorem isPowerOfTwo_one : IsPowerOfTwo 1 := ⟨0, by simp⟩

section
variable {F : FloatFormat}

private theorem tiny_scale {x c : ℝ} {k : ℤ} (hk : |c| = 2 ^ k) (hx : |x| < 2 ^ F.minExp) (h : F.nearest x = x)
    (hu : ¬ F.Underflows (c * x)) : F.nearest (c * x) = c * x := by
  by_cases hb : |c * x| < 2 ^ F.minExp
  · by_contra hne
    exact hu ⟨hb, hne⟩
  · rw [not_lt] at hb
    have hcx : |c * x| = |x| * 2 ^ k := by rw [abs_mul, hk, mul_comm]
    have h0 : 0 < |c * x| := lt_of_lt_of_le (by positivity) hb
    -- `x` is a multiple of the smallest unit
    have hg : OnGrid (F.minExp - F.fracBits) x := by
      have : F.unitExp x = F.minExp - F.fracBits := by
        unfold FloatFormat.unitExp
        rcases eq_or_ne x 0 with rfl | hx0
        · rw [mul_zero, abs_zero] at h0; exact absurd h0 (lt_irrefl _)
        · rw [max_eq_right]
          have := (Int.lt_zpow_iff_log_lt (b := 2) (r := |x|) (x := F.minExp) (by norm_num) (by positivity)).1 (by exact_mod_cast hx)
          omega
      rw [← h, FloatFormat.nearest, this]
      exact ⟨_, rfl⟩
    obtain ⟨n, hn⟩ := hg
    refine nearest_of_onGrid F ?_
    have hlog : Int.log 2 |c * x| < F.minExp + k := by
      refine (Int.lt_zpow_iff_log_lt (b := 2) (by norm_num) h0).1 ?_
      have : |x| * 2 ^ k < 2 ^ F.minExp * 2 ^ k := mul_lt_mul_of_pos_right hx (by positivity)
      rw [← hcx, ← zpow_add₀ (by norm_num)] at this
      exact_mod_cast this
    have hlow : F.minExp ≤ Int.log 2 |c * x| := (Int.zpow_le_iff_le_log (b := 2) (by norm_num) h0).1 (by exact_mod_cast hb)
    have hle : F.unitExp (c * x) ≤ F.minExp - F.fracBits + k := by
      unfold FloatFormat.unitExp
      rw [max_eq_left hlow]
      omega
    obtain ⟨j, hj⟩ : ∃ j : ℕ, F.minExp - F.fracBits + k = F.unitExp (c * x) + j := ⟨(F.minExp - F.fracBits + k - F.unitExp (c * x)).toNat, by omega⟩
    have hs : c = 2 ^ k ∨ c = -2 ^ k := by
      rcases abs_eq (a := c) (b := (2 : ℝ) ^ k) (by positivity) |>.1 hk with h | h
      · exact .inl h
      · exact .inr h
    have hp : (2 : ℝ) ^ k * 2 ^ (F.minExp - F.fracBits) = 2 ^ j * 2 ^ F.unitExp (c * x) := by
      rw [← zpow_natCast, ← zpow_add₀ (by norm_num), ← zpow_add₀ (by norm_num)]
      congr 1; omega
    rcases hs with hs | hs
    · refine ⟨n * 2 ^ j, ?_⟩
      push_cast
      calc c * x = n * (2 ^ k * 2 ^ (F.minExp - F.fracBits)) := by rw [hn, hs]; ring
        _ = _ := by rw [hp]; ring
    · refine ⟨-n * 2 ^ j, ?_⟩
      push_cast
      calc c * x = -n * (2 ^ k * 2 ^ (F.minExp - F.fracBits)) := by rw [hn, hs]; ring
        _ = _ := by rw [hp]; ring

/-- Rounding commutes with the multiplication by powers of two unless something underflows. -/
theorem nearest_times {c x : ℝ} (hc : IsPowerOfTwo c) (h : ¬ F.Underflows x) (h' : ¬ F.Underflows (c * x)) :
    F.nearest (c * x) = c * F.nearest x := by
  obtain ⟨k, hk⟩ := hc
  by_cases hx : |x| < 2 ^ F.minExp
  · have e : F.nearest x = x := by
      by_contra hne
      exact h ⟨hx, hne⟩
    rw [e]
    exact tiny_scale hk hx e h'
  · by_cases hcx : |c * x| < 2 ^ F.minExp
    · have e : F.nearest (c * x) = c * x := by
        by_contra hne
        exact h' ⟨hcx, hne⟩
      have hc0 : c ≠ 0 := IsPowerOfTwo.ne_zero ⟨k, hk⟩
      have hi : c⁻¹ * (c * x) = x := by field_simp
      have := tiny_scale (c := c⁻¹) (k := -k) (by rw [abs_inv, hk, zpow_neg]) hcx e (by rw [hi]; exact h)
      rw [hi] at this
      rw [e, this]
    · rw [not_lt] at hx hcx
      rcases abs_eq (a := c) (b := (2 : ℝ) ^ k) (by positivity) |>.1 hk with rfl | rfl
      · rw [mul_comm, nearest_scale hx (by rwa [mul_comm] at hcx), mul_comm]
      · have e : |x * 2 ^ k| = |-2 ^ k * x| := by rw [abs_mul, abs_mul, abs_neg, mul_comm]
        rw [show -(2 : ℝ) ^ k * x = -(x * 2 ^ k) by ring, nearest_neg, nearest_scale hx (by rw [e]; exact hcx)]
        ring

theorem round_raised {r : Bool} {x : ℝ} (h : (Flt.round F r x).raised = false) :
    r = false ∧ ¬ F.Underflows x ∧ (Flt.round F r x).datum = .finite (F.nearest x) := by
  unfold Flt.round at h ⊢
  split_ifs at h with ho
  rw [if_neg ho]
  simp only [Bool.or_eq_false_iff, decide_eq_false_iff_not] at h
  exact ⟨h.1, h.2, rfl⟩

theorem add_raised {a b : Flt} (h : (Flt.add F a b).raised = false) : a.raised = false ∧ b.raised = false := by
  obtain ⟨x, r⟩ := a
  obtain ⟨y, s⟩ := b
  cases x <;> cases y <;> simp only [Flt.add] at h
  · simpa using (round_raised h).1
  all_goals first | simpa using h | (split_ifs at h; simpa using h)

theorem mul_raised {a b : Flt} (h : (Flt.mul F a b).raised = false) : a.raised = false ∧ b.raised = false := by
  obtain ⟨x, r⟩ := a
  obtain ⟨y, s⟩ := b
  cases x <;> cases y <;> simp only [Flt.mul] at h
  · simpa using (round_raised h).1
  all_goals first | simpa using h | (split_ifs at h; simpa using h)

theorem neg_raised {a : Flt} : a.neg.raised = a.raised := by
  obtain ⟨x, r⟩ := a
  cases x <;> rfl

theorem scaled_round {c x : ℝ} (hc : IsPowerOfTwo c) {r s : Bool} (h : (Flt.round F r x).raised = false)
    (h' : (Flt.round F s (c * x)).raised = false) : (Flt.round F s (c * x)).datum = timesDatum c (Flt.round F r x).datum := by
  obtain ⟨-, u, e⟩ := round_raised h
  obtain ⟨-, u', e'⟩ := round_raised h'
  rw [e, e', nearest_times hc u u']
  rfl

theorem scaled_refl (a : Flt) : ScaledBy 1 a a := by
  intro _ _
  have h : ¬ (1 : ℝ) < 0 := by norm_num
  rcases a with ⟨x | s | _, r⟩ <;> simp [timesDatum, h]

theorem scaled_of_eq {c d : ℝ} {a b : Flt} (h : ScaledBy c a b) (e : c = d) : ScaledBy d a b := e ▸ h

theorem scaled_neg {c : ℝ} {a b : Flt} (h : ScaledBy c a b) : ScaledBy c a.neg b.neg := by
  intro ha hb
  rw [neg_raised] at ha hb
  have := h ha hb
  obtain ⟨x, r⟩ := a
  obtain ⟨y, s⟩ := b
  dsimp only at this
  subst this
  cases x <;> simp [Flt.neg, timesDatum]

theorem scaled_add {c : ℝ} (hc : IsPowerOfTwo c) {a a' b b' : Flt} (h : ScaledBy c a a') (h' : ScaledBy c b b') :
    ScaledBy c (Flt.add F a b) (Flt.add F a' b') := by
  intro hr hr'
  have e := h (add_raised hr).1 (add_raised hr').1
  have e' := h' (add_raised hr).2 (add_raised hr').2
  obtain ⟨x, r⟩ := a
  obtain ⟨x', r'⟩ := a'
  obtain ⟨y, s⟩ := b
  obtain ⟨y', s'⟩ := b'
  dsimp only at e e'
  subst e e'
  cases x <;> cases y <;> simp only [Flt.add, timesDatum] at hr hr' ⊢
  · rw [← mul_add] at hr' ⊢
    exact scaled_round hc hr hr'
  · rename_i s t
    split_ifs at hr hr' with h1 h2
    · rw [if_pos h2, if_pos h1]

theorem scaled_sub {c : ℝ} (hc : IsPowerOfTwo c) {a a' b b' : Flt} (h : ScaledBy c a a') (h' : ScaledBy c b b') :
    ScaledBy c (Flt.sub F a b) (Flt.sub F a' b') := scaled_add hc h (scaled_neg h')

open Classical in
private theorem decide_mul {a b : ℝ} (ha : a ≠ 0) (hb : b ≠ 0) : decide (a * b < 0) = (decide (a < 0) != decide (b < 0)) := by
  rcases lt_or_gt_of_ne ha with h | h <;> rcases lt_or_gt_of_ne hb with h' | h' <;>
    simp [h, h', not_lt.2 h.le, not_lt.2 h'.le, mul_pos_of_neg_of_neg, mul_neg_of_neg_of_pos, mul_neg_of_pos_of_neg, le_of_lt]

theorem scaled_mul {c d : ℝ} (hc : IsPowerOfTwo c) (hd : IsPowerOfTwo d) {a a' b b' : Flt} (h : ScaledBy c a a') (h' : ScaledBy d b b') :
    ScaledBy (c * d) (Flt.mul F a b) (Flt.mul F a' b') := by
  intro hr hr'
  have e := h (mul_raised hr).1 (mul_raised hr').1
  have e' := h' (mul_raised hr).2 (mul_raised hr').2
  have c0 := hc.ne_zero
  have d0 := hd.ne_zero
  obtain ⟨x, r⟩ := a
  obtain ⟨x', r'⟩ := a'
  obtain ⟨y, s⟩ := b
  obtain ⟨y', s'⟩ := b'
  dsimp only at e e'
  subst e e'
  cases x <;> cases y <;> simp only [Flt.mul, timesDatum] at hr hr' ⊢
  · rename_i x y
    rw [show c * x * (d * y) = c * d * (x * y) by ring] at hr' ⊢
    exact scaled_round (hc.mul hd) hr hr'
  · rename_i x t
    by_cases hx : x = 0
    · rw [if_pos hx] at hr; cases hr
    · rw [if_neg (mul_ne_zero c0 hx), if_neg hx]
      simp only [decide_mul c0 d0, decide_mul c0 hx]
      congr 1
      cases decide (c < 0) <;> cases decide (d < 0) <;> cases decide (x < 0) <;> cases t <;> rfl
  · rename_i t y
    by_cases hy : y = 0
    · rw [if_pos hy] at hr; cases hr
    · rw [if_neg (mul_ne_zero d0 hy), if_neg hy]
      simp only [decide_mul c0 d0, decide_mul d0 hy]
      congr 1
      cases decide (c < 0) <;> cases decide (d < 0) <;> cases decide (y < 0) <;> cases t <;> rfl
  · rename_i t u
    simp only [decide_mul c0 d0]
    congr 1
    cases decide (c < 0) <;> cases decide (d < 0) <;> cases t <;> cases u <;> rfl

theorem scaled_div {c d : ℝ} (hc : IsPowerOfTwo c) (hd : IsPowerOfTwo d) {a a' b b' : Flt} (h : ScaledBy c a a') (h' : ScaledBy d b b') {z z' : Flt}
    (hz : Flt.div F a b = .ok z) (hz' : Flt.div F a' b' = .ok z') : ScaledBy (c * d⁻¹) z z' := by
  intro hr hr'
  have c0 := hc.ne_zero
  have d0 := hd.ne_zero
  have raised : ∀ {a b z : Flt}, Flt.div F a b = .ok z → z.raised = false → a.raised = false ∧ b.raised = false := by
    intro a b z hz hr
    obtain ⟨x, r⟩ := a
    obtain ⟨y, s⟩ := b
    cases x <;> cases y <;> simp only [Flt.div] at hz
    · split_ifs at hz
      obtain rfl := Res.ok.inj hz
      simpa using (round_raised hr).1
    all_goals first
      | (obtain rfl := Res.ok.inj hz; first | (simp at hr; done) | simpa using hr)
      | (split_ifs at hz; obtain rfl := Res.ok.inj hz; simpa using hr)
  have e := h (raised hz hr).1 (raised hz' hr').1
  have e' := h' (raised hz hr).2 (raised hz' hr').2
  obtain ⟨x, r⟩ := a
  obtain ⟨x', r'⟩ := a'
  obtain ⟨y, s⟩ := b
  obtain ⟨y', s'⟩ := b'
  dsimp only at e e'
  subst e e'
  have di : d⁻¹ ≠ 0 := inv_ne_zero d0
  cases x <;> cases y <;> simp only [Flt.div, timesDatum] at hz hz'
  · rename_i x y
    by_cases hy : y = 0
    · rw [if_pos hy] at hz; cases hz
    · rw [if_neg hy] at hz
      rw [if_neg (mul_ne_zero d0 hy)] at hz'
      obtain rfl := Res.ok.inj hz
      obtain rfl := Res.ok.inj hz'
      have e : c * x / (d * y) = c * d⁻¹ * (x / y) := by field_simp
      rw [e] at hr' ⊢
      exact scaled_round (hc.mul hd.inv) hr hr'
  · obtain rfl := Res.ok.inj hz
    obtain rfl := Res.ok.inj hz'
    simp [timesDatum]
  · obtain rfl := Res.ok.inj hz
    obtain rfl := Res.ok.inj hz'
    simp [timesDatum]
  · rename_i t y
    by_cases hy : y = 0
    · rw [if_pos hy] at hz; cases hz
    · rw [if_neg hy] at hz
      rw [if_neg (mul_ne_zero d0 hy)] at hz'
      obtain rfl := Res.ok.inj hz
      obtain rfl := Res.ok.inj hz'
      simp only [timesDatum, decide_mul c0 di, decide_mul d0 hy]
      congr 1
      rw [show (decide (d⁻¹ < 0) : Bool) = decide (d < 0) by simp]
      cases decide (c < 0) <;> cases decide (d < 0) <;> cases decide (y < 0) <;> cases t <;> rfl
  all_goals
    obtain rfl := Res.ok.inj hz
    obtain rfl := Res.ok.inj hz'
    rfl

theorem scaled_convert {c : ℝ} (hc : IsPowerOfTwo c) {a b : Flt} (h : ScaledBy c a b) : ScaledBy c (Flt.convert F a) (Flt.convert F b) := by
  have raised : ∀ {a : Flt}, (Flt.convert F a).raised = false → a.raised = false := by
    intro a ha
    obtain ⟨x, r⟩ := a
    cases x
    · exact (round_raised ha).1
    all_goals exact ha
  intro ha hb
  have e := h (raised ha) (raised hb)
  obtain ⟨x, r⟩ := a
  obtain ⟨y, s⟩ := b
  dsimp only at e
  subst e
  cases x
  · exact scaled_round hc ha hb
  all_goals rfl

theorem scaled_zero (c : ℝ) : ScaledBy c ((floatArith F).lit 0) ((floatArith F).lit 0) := by
  have e : (floatArith F).lit 0 = Flt.ofReal 0 := by
    show Flt.round F false ((0 : ℚ) : ℝ) = _
    rw [Rat.cast_zero, round_zero]; rfl
  rw [e]
  intro _ _
  simp [Flt.ofReal, timesDatum]

/-- One step of an accumulation. -/
private theorem scaled_step {c : ℝ} (hc : IsPowerOfTwo c) {r r' y y' : Flt} (v : Flt) (hr : ScaledBy c r r') (hy : ScaledBy c y y') :
    ScaledBy c ((floatArith F).add r ((floatArith F).mul v y)) ((floatArith F).add r' ((floatArith F).mul v y')) :=
  scaled_add hc hr (scaled_of_eq (scaled_mul isPowerOfTwo_one hc (scaled_refl v) hy) (one_mul c))

section lifted
variable {c : ℝ} (hc : IsPowerOfTwo c)
include hc

theorem scaled_value (e : Element Flt) (coord : List Flt) {var var' : List Int → Res Flt} (h : ∀ i, ResRel False (ScaledBy c) (var i) (var' i)) :
    ResRel False (ScaledBy c) (ParentElement.value (floatArith F) e coord var) (ParentElement.value (floatArith F) e coord var') := by
  unfold ParentElement.value
  refine .bindEq fun _ => forNestedSequence_rel (fun i s t hs => ?_) _ (scaled_zero c)
  exact .bindEq fun v => (h i).bind fun y y' hy => .ok (scaled_step hc v hs hy)

theorem scaled_gradient (e : Element Flt) (coord : List Flt) {var var' : List Int → Res Flt} (h : ∀ i, ResRel False (ScaledBy c) (var i) (var' i)) :
    ResRel False (List.Forall₂ (ScaledBy c)) (ParentElement.gradient (floatArith F) e coord var)
      (ParentElement.gradient (floatArith F) e coord var') := by
  unfold ParentElement.gradient
  refine .bindEq fun _ => forNestedSequence_rel (fun i s t hs => ?_) _ ?_
  · unfold ParentElement.gradientBody
    refine .bindEq fun g => forSequence_rel (fun a s t hs => ?_) _ hs
    exact (tableAt_rel hs a).bind fun r r' hr => .bindEq fun v => (h i).bind fun y y' hy =>
      .ok (forall₂_set hs _ (scaled_step hc v hr hy))
  · generalize e.bases.length = n
    induction n with
    | zero => exact .nil
    | succ n ih => exact .cons (scaled_zero c) ih

variable {t t' : LinearTransform Flt} (hs : t'.shape = t.shape) (hd : List.Forall₂ (ScaledBy c) t.data t'.data)
include hs hd

private theorem scaled_accumulate (cfg : Config) (g : List Flt) (sp : List Int) (i j : Int) {J J' : List Flt} (hJ : List.Forall₂ (ScaledBy c) J J') :
    ResRel False (List.Forall₂ (ScaledBy c)) (LinearTransform.accumulate cfg (floatArith F) t g sp i j J)
      (LinearTransform.accumulate cfg (floatArith F) t' g sp i j J') := by
  unfold LinearTransform.accumulate LinearTransform.jacobianView LinearTransform.dataView LinearTransform.numDims
  rw [hs]
  exact (read_rel cfg hJ _ _).bind fun r r' hr => .bindEq fun v => (read_rel cfg hd _ _).bind fun y y' hy =>
    write_rel cfg hJ _ _ (scaled_step hc v hr hy)

theorem scaled_jacobian (cfg : Config) (x : List Flt) {J J' : List Flt} (hJ : List.Forall₂ (ScaledBy c) J J') :
    ResRel False (List.Forall₂ (ScaledBy c)) (LinearTransform.jacobian cfg (floatArith F) t x J)
      (LinearTransform.jacobian cfg (floatArith F) t' x J') := by
  unfold LinearTransform.jacobian InterpolatedShape.supportLoop BasisProduct.supportLoop
  rw [hs]
  refine .bindEq fun _ => forNestedSequence_rel (fun i s s' hJ => ?_) _ hJ
  unfold LinearTransform.jacobianBody LinearTransform.numDims
  rw [hs]
  refine .bindEq fun g => forNestedSequence_rel (fun ij s s' hJ => ?_) _ hJ
  exact .bindEq fun a => .bindEq fun b => scaled_accumulate hc hs hd cfg g i a b hJ

theorem scaled_jacobianQuadrature (cfg : Config) (Q : Spacing Flt) (qa : List Int) {J J' : List Flt} (hJ : List.Forall₂ (ScaledBy c) J J') :
    ResRel False (List.Forall₂ (ScaledBy c)) (LinearTransform.jacobianQuadrature cfg (floatArith F) t Q qa J)
      (LinearTransform.jacobianQuadrature cfg (floatArith F) t' Q qa J') := by
  unfold LinearTransform.jacobianQuadrature InterpolatedShape.supportLoop BasisProduct.supportLoop
  rw [hs]
  refine .bindEq fun x => .bindEq fun _ => forNestedSequence_rel (fun i s s' hJ => ?_) _ hJ
  unfold LinearTransform.jacobianQuadratureBody LinearTransform.numDims
  rw [hs]
  refine .bindEq fun g => forNestedSequence_rel (fun ij s s' hJ => ?_) _ hJ
  exact .bindEq fun a => .bindEq fun b => scaled_accumulate hc hs hd cfg g i b a hJ

theorem scaled_jacobianValue (cfg : Config) (x : List Flt) :
    ResRel False (List.Forall₂ (ScaledBy c)) (LinearTransform.jacobianValue cfg (floatArith F) t x)
      (LinearTransform.jacobianValue cfg (floatArith F) t' x) := by
  unfold LinearTransform.jacobianValue LinearTransform.numDims
  rw [hs]
  exact .bindEq fun _ => (listInit_rel (scaled_zero c) _ (.cons (scaled_zero c) .nil)).bind fun J J' hJ =>
    scaled_jacobian hc hs hd cfg x hJ

end lifted

/-! ### the inverse of a matrix -/

/-- Dividing one by a scaled number. -/
theorem scaled_reciprocal {c : ℝ} (hc : IsPowerOfTwo c) {a b : Flt} (h : ScaledBy c a b) :
    (∀ q q', (floatArith F).div ((floatArith F).lit 1) a = .ok q → (floatArith F).div ((floatArith F).lit 1) b = .ok q' → ScaledBy c⁻¹ q q') ∧
    (a.raised = false → b.raised = false →
      ((∃ q, (floatArith F).div ((floatArith F).lit 1) a = .ok q) ↔ ∃ q, (floatArith F).div ((floatArith F).lit 1) b = .ok q)) := by
  refine ⟨fun q q' hq hq' => scaled_of_eq (scaled_div isPowerOfTwo_one hc (scaled_refl _) h hq hq') (one_mul _), fun ha hb => ?_⟩
  have e := h ha hb
  have c0 := hc.ne_zero
  show (∃ q, Flt.div F ((floatArith F).lit 1) a = .ok q) ↔ ∃ q, Flt.div F ((floatArith F).lit 1) b = .ok q
  generalize (floatArith F).lit 1 = o
  obtain ⟨x, r⟩ := a
  obtain ⟨y, s⟩ := b
  obtain ⟨z, w⟩ := o
  dsimp only at e
  subst e
  cases x
  · rename_i x
    by_cases hx : x = 0
    · subst hx
      cases z <;> simp [Flt.div, timesDatum]
    · cases z <;> simp [Flt.div, timesDatum, hx, c0]
  all_goals cases z <;> simp [Flt.div, timesDatum]

open MathUtilities in
theorem scaled_inverse {r s : Fin 3 → ℝ} (hr : ∀ i, IsPowerOfTwo (r i)) (hs : ∀ i, IsPowerOfTwo (s i)) {M M' : Matrix (Fin 3) (Fin 3) Flt}
    (h : ∀ i j, ScaledBy (r i * s j) (M i j) (M' i j)) :
    ∃ d n d' n', inverseNative (floatArith F) (matMem M) = .ok (d, n) ∧ inverseNative (floatArith F) (matMem M') = .ok (d', n') ∧
      ScaledBy (r 0 * r 1 * r 2 * (s 0 * s 1 * s 2)) d d' ∧
      (d.raised = false → d'.raised = false → ((∃ l, n = .ok l) ↔ ∃ l, n' = .ok l)) ∧
      ∀ l l', n = .ok l → n' = .ok l' → ∃ N N' : Matrix (Fin 3) (Fin 3) Flt, l = matMem N ∧ l' = matMem N' ∧
        ∀ i j, ScaledBy ((s i)⁻¹ * (r j)⁻¹) (N i j) (N' i j) := by
  have p := fun i j => (hr i).mul (hs j)
  have r0 := fun i => (hr i).ne_zero
  have s0 := fun i => (hs i).ne_zero
  -- a cofactor
  have cof : ∀ {i j k l m n o q : Fin 3} {c : ℝ}, c = r i * s j * (r k * s l) → c = r m * s n * (r o * s q) →
      ScaledBy c ((floatArith F).sub ((floatArith F).mul (M i j) (M k l)) ((floatArith F).mul (M m n) (M o q)))
        ((floatArith F).sub ((floatArith F).mul (M' i j) (M' k l)) ((floatArith F).mul (M' m n) (M' o q))) := by
    intro i j k l m n o q c e e'
    exact scaled_sub (e ▸ (p i j).mul (p k l)) (scaled_of_eq (scaled_mul (p i j) (p k l) (h i j) (h k l)) e.symm)
      (scaled_of_eq (scaled_mul (p m n) (p o q) (h m n) (h o q)) e'.symm)
  have pr : ∀ {i j k l : Fin 3}, IsPowerOfTwo (r i * s j * (r k * s l)) := fun {i j k l} => (p i j).mul (p k l)
  have c00 := cof (i := 1) (j := 1) (k := 2) (l := 2) (m := 1) (n := 2) (o := 2) (q := 1) rfl (by ring)
  have c01 := cof (i := 0) (j := 2) (k := 2) (l := 1) (m := 0) (n := 1) (o := 2) (q := 2) rfl (by ring)
  have c02 := cof (i := 0) (j := 1) (k := 1) (l := 2) (m := 0) (n := 2) (o := 1) (q := 1) rfl (by ring)
  have c10 := cof (i := 1) (j := 2) (k := 2) (l := 0) (m := 1) (n := 0) (o := 2) (q := 2) rfl (by ring)
  have c11 := cof (i := 0) (j := 0) (k := 2) (l := 2) (m := 0) (n := 2) (o := 2) (q := 0) rfl (by ring)
  have c12 := cof (i := 0) (j := 2) (k := 1) (l := 0) (m := 0) (n := 0) (o := 1) (q := 2) rfl (by ring)
  have c20 := cof (i := 1) (j := 0) (k := 2) (l := 1) (m := 1) (n := 1) (o := 2) (q := 0) rfl (by ring)
  have c21 := cof (i := 0) (j := 1) (k := 2) (l := 0) (m := 0) (n := 0) (o := 2) (q := 1) rfl (by ring)
  have c22 := cof (i := 0) (j := 0) (k := 1) (l := 1) (m := 0) (n := 1) (o := 1) (q := 0) rfl (by ring)
  obtain ⟨D, hD⟩ : ∃ D, D = r 0 * r 1 * r 2 * (s 0 * s 1 * s 2) := ⟨_, rfl⟩
  have pD : IsPowerOfTwo D := hD ▸ (((hr 0).mul (hr 1)).mul (hr 2)).mul (((hs 0).mul (hs 1)).mul (hs 2))
  have det := scaled_add (F := F) pD (scaled_add (F := F) pD (scaled_of_eq (scaled_mul (F := F) (p 0 0) pr (h 0 0) c00) (d := D) (by rw [hD]; ring))
    (scaled_of_eq (scaled_mul (F := F) (p 1 0) pr (h 1 0) c01) (d := D) (by rw [hD]; ring)))
    (scaled_of_eq (scaled_mul (F := F) (p 2 0) pr (h 2 0) c02) (d := D) (by rw [hD]; ring))
  rw [matMem_three, matMem_three, inverseNative_eq, inverseNative_eq]
  refine ⟨_, _, _, _, rfl, rfl, hD ▸ det, ?_, ?_⟩
  · intro hd hd'
    have := (scaled_reciprocal (F := F) pD det).2 hd hd'
    constructor
    · rintro ⟨l, hl⟩
      obtain ⟨q, hq, -⟩ := Res.bind_eq_ok.1 hl
      obtain ⟨q', hq'⟩ := this.1 ⟨q, hq⟩
      exact ⟨_, Res.bind_eq_ok.2 ⟨q', hq', rfl⟩⟩
    · rintro ⟨l, hl⟩
      obtain ⟨q, hq, -⟩ := Res.bind_eq_ok.1 hl
      obtain ⟨q', hq'⟩ := this.2 ⟨q, hq⟩
      exact ⟨_, Res.bind_eq_ok.2 ⟨q', hq', rfl⟩⟩
  · intro l l' hl hl'
    obtain ⟨q, hq, e⟩ := Res.bind_eq_ok.1 hl
    obtain ⟨q', hq', e'⟩ := Res.bind_eq_ok.1 hl'
    have hqq := (scaled_reciprocal (F := F) pD det).1 q q' hq hq'
    obtain rfl := Res.ok.inj e
    obtain rfl := Res.ok.inj e'
    have fin : ∀ {a a' : Flt} {c : ℝ} (i j : Fin 3), IsPowerOfTwo c → ScaledBy c a a' → c * D⁻¹ = (s i)⁻¹ * (r j)⁻¹ →
        ScaledBy ((s i)⁻¹ * (r j)⁻¹) ((floatArith F).mul a q) ((floatArith F).mul a' q') := fun i j hc ha e =>
      scaled_of_eq (scaled_mul hc pD.inv ha hqq) e
    have e0 := r0 0; have e1 := r0 1; have e2 := r0 2; have f0 := s0 0; have f1 := s0 1; have f2 := s0 2
    refine ⟨Matrix.of ![![_, _, _], ![_, _, _], ![_, _, _]], Matrix.of ![![_, _, _], ![_, _, _], ![_, _, _]], rfl, rfl, ?_⟩
    intro i j
    fin_cases i <;> fin_cases j
    · exact fin 0 0 pr c00 (by rw [hD]; field_simp)
    · exact fin 0 1 pr c01 (by rw [hD]; field_simp)
    · exact fin 0 2 pr c02 (by rw [hD]; field_simp)
    · exact fin 1 0 pr c10 (by rw [hD]; field_simp)
    · exact fin 1 1 pr c11 (by rw [hD]; field_simp)
    · exact fin 1 2 pr c12 (by rw [hD]; field_simp)
    · exact fin 2 0 pr c20 (by rw [hD]; field_simp)
    · exact fin 2 1 pr c21 (by rw [hD]; field_simp)
    · exact fin 2 2 pr c22 (by rw [hD]; field_simp)

theorem forall₂_matMem {ρ : Flt → Flt → Prop} {M M' : Matrix (Fin 3) (Fin 3) Flt} :
    List.Forall₂ ρ (matMem M) (matMem M') ↔ ∀ i j, ρ (M i j) (M' i j) := by
  rw [matMem_three, matMem_three]
  constructor
  · intro h
    simp only [List.forall₂_cons] at h
    obtain ⟨h0, h1, h2, h3, h4, h5, h6, h7, h8, -⟩ := h
    intro i j
    fin_cases i <;> fin_cases j
    exacts [h0, h1, h2, h3, h4, h5, h6, h7, h8]
  · intro h
    exact .cons (h 0 0) (.cons (h 0 1) (.cons (h 0 2) (.cons (h 1 0) (.cons (h 1 1) (.cons (h 1 2) (.cons (h 2 0) (.cons (h 2 1)
      (.cons (h 2 2) .nil))))))))

theorem write_length {R : Type} {cfg : Config} {J K : List R} {v : View} {idx : List Int} {x : R} (h : CArray.write cfg J v idx x = .ok K) :
    K.length = J.length := by
  obtain ⟨a, -, h⟩ := Res.bind_eq_ok.1 h
  unfold CArray.store at h
  split_ifs at h
  obtain rfl := Res.ok.inj h
  simp

theorem jacobian_length {cfg : Config} {A : Arith Flt} {t : LinearTransform Flt} {x J K : List Flt} (h : LinearTransform.jacobian cfg A t x J = .ok K) :
    K.length = J.length := by
  have : ResRel False (fun s s' : List Flt => s = s' ∧ s.length = J.length) (LinearTransform.jacobian cfg A t x J)
      (LinearTransform.jacobian cfg A t x J) := by
    refine .bindEq fun _ => forNestedSequence_rel (fun i s s' hs => ?_) _ ⟨rfl, rfl⟩
    refine .bindEq fun g => forNestedSequence_rel (fun ij s s' hs => ?_) _ hs
    refine .bindEq fun a => .bindEq fun b => .bindOk (ρ := fun r r' => r = r') ?_ ?_
    · rw [hs.1]; exact .refl _
    · rintro r r' - - rfl
      refine .bindEq fun g => .bindEq fun y => ?_
      obtain ⟨rfl, hl⟩ := hs
      intro K hK
      exact .inl ⟨K, hK, rfl, (write_length hK).trans hl⟩
  rcases this K h with ⟨b, -, -, hb⟩ | ⟨hf, -⟩
  · exact hb
  · exact hf.elim

theorem scaled_inverseJacobianValue {c : ℝ} (hc : IsPowerOfTwo c) {t t' : LinearTransform Flt} (hs : t'.shape = t.shape)
    (hd : List.Forall₂ (ScaledBy c) t.data t'.data) (h3 : t.shape.bases.length = 3) (cfg : Config) (x : List Flt) {d : Flt} {n : Res (List Flt)}
    (h : LinearTransform.inverseJacobianValue cfg (floatArith F) t x = .ok (d, n)) :
    ∃ d' n', LinearTransform.inverseJacobianValue cfg (floatArith F) t' x = .ok (d', n') ∧ ScaledBy (c ^ 3) d d' ∧
      (d.raised = false → d'.raised = false → ((∃ l, n = .ok l) ↔ ∃ l, n' = .ok l)) ∧
      ∀ l l', n = .ok l → n' = .ok l' → List.Forall₂ (ScaledBy c⁻¹) l l' := by
  have h3' : t'.shape.bases.length = 3 := hs ▸ h3
  unfold LinearTransform.inverseJacobianValue LinearTransform.inverseJacobian LinearTransform.jacobianView LinearTransform.numDims at h ⊢
  rw [h3] at h
  rw [h3']
  obtain ⟨_, hx, h⟩ := Res.bind_eq_ok.1 h
  obtain ⟨J, hJ, h⟩ := Res.bind_eq_ok.1 h
  obtain ⟨K, hK, h⟩ := Res.bind_eq_ok.1 h
  have hl : J.length = 3 * 3 := by
    have e : CArray.listInit ((floatArith F).lit 0) [(3 : ℕ), (3 : ℕ)] [(floatArith F).lit 0] = .ok (List.replicate 9 ((floatArith F).lit 0)) := rfl
    rw [e] at hJ
    rw [← Res.ok.inj hJ]; simp
  have hJJ : List.Forall₂ (ScaledBy c) J J := by
    have e : CArray.listInit ((floatArith F).lit 0) [(3 : ℕ), (3 : ℕ)] [(floatArith F).lit 0] = .ok (List.replicate 9 ((floatArith F).lit 0)) := rfl
    rw [e] at hJ
    rw [← Res.ok.inj hJ]
    generalize 9 = n
    induction n with
    | zero => exact .nil
    | succ n ih => exact .cons (scaled_zero c) ih
  rcases scaled_jacobian (F := F) hc hs hd cfg x hJJ K hK with ⟨K', hK', hKK⟩ | ⟨hf, -⟩
  · have lK := (jacobian_length hK).trans hl
    obtain ⟨M, hM⟩ := exists_matMem lK
    obtain ⟨M', hM'⟩ := exists_matMem (hKK.length_eq ▸ lK : K'.length = 3 * 3)
    rw [hM, hM', forall₂_matMem] at hKK
    obtain ⟨D, N, D', N', e, e', hdet, hiff, hinv⟩ := scaled_inverse (F := F) (r := fun _ => c) (s := fun _ => 1) (fun _ => hc)
      (fun _ => isPowerOfTwo_one) (M := M) (M' := M') fun i j => scaled_of_eq (hKK i j) (mul_one c).symm
    have view : ∀ {M : Matrix (Fin 3) (Fin 3) Flt} {D : Flt} {N : Res (List Flt)}, MathUtilities.inverseNative (floatArith F) (matMem M) = .ok (D, N) →
        MathUtilities.inverse (floatArith F) (MathUtilities.carray cfg (CArray.whole [(3 : ℕ), (3 : ℕ)])) (matMem M) = .ok (D, N) := by
      intro M D N e
      have := inverse_carray cfg (floatArith F) [] [] (m := matMem M) (matMem_length M)
      rw [List.nil_append, List.append_nil] at this
      refine this.trans ?_
      rw [e]
      show Res.ok (D, (fun m' => [] ++ m' ++ []) <$> N) = _
      congr 2
      cases N
      · show Res.ok _ = _; simp
      all_goals rfl
    rw [hM] at h
    obtain ⟨rfl, rfl⟩ := Prod.mk.inj (Res.ok.inj (h.symm.trans (view e)))
    refine ⟨D', N', ?_, scaled_of_eq hdet (by ring), hiff, ?_⟩
    · rw [hx, Res.ok_bind, hJ, Res.ok_bind, hK', Res.ok_bind, hM']
      exact view e'
    · intro l l' hl hl'
      obtain ⟨P, P', rfl, rfl, hP⟩ := hinv l l' hl hl'
      rw [forall₂_matMem]
      exact fun i j => scaled_of_eq (hP i j) (by simp)
  · exact hf.elim

/-! ### scalings -/

section scalings
variable (T : RealType)

theorem scaled_narrow {c : ℝ} (hc : IsPowerOfTwo c) {a b : Flt} (h : ScaledBy c a b) : ScaledBy c (T.arith.narrow a) (T.arith.narrow b) := by
  cases T
  · exact scaled_convert hc h
  · exact h

theorem scaled_half {c : ℝ} (hc : IsPowerOfTwo c) (q : ℚ) {a b : Flt} (h : ScaledBy c a b) :
    ScaledBy c (T.arith.wide.mul (T.arith.wide.lit q) (T.arith.widen a)) (T.arith.wide.mul (T.arith.wide.lit q) (T.arith.widen b)) := by
  cases T <;> exact scaled_of_eq (scaled_mul isPowerOfTwo_one hc (scaled_refl _) h) (one_mul c)

theorem scaled_wide_mul {c d : ℝ} (hc : IsPowerOfTwo c) (hd : IsPowerOfTwo d) {a a' b b' : Flt} (h : ScaledBy c a a') (h' : ScaledBy d b b') :
    ScaledBy (c * d) (T.arith.wide.mul a (T.arith.widen b)) (T.arith.wide.mul a' (T.arith.widen b')) := by
  cases T <;> exact scaled_mul hc hd h h'

theorem scaled_quotient {c : ℝ} (hc : IsPowerOfTwo c) {a b : Flt} (h : ScaledBy c a b) {q q' : Flt} (hq : mixedQuotient T.arith a = .ok q)
    (hq' : mixedQuotient T.arith b = .ok q') : ScaledBy c⁻¹ q q' := by
  obtain ⟨z, hz, e⟩ := Res.bind_eq_ok.1 hq
  obtain ⟨z', hz', e'⟩ := Res.bind_eq_ok.1 hq'
  obtain rfl := Res.ok.inj e
  obtain rfl := Res.ok.inj e'
  refine scaled_narrow T hc.inv ?_
  cases T <;> exact scaled_of_eq (scaled_div isPowerOfTwo_one hc (scaled_refl _) h hz hz') (one_mul _)

end scalings

end

end Verif.Lemmas
