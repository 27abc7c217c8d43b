import Verif.Lemmas.Float
import Verif.Lemmas.Relational

/-! Results computed in a binary format without exceptions are those of `roundedArith`. -/

namespace Verif.Lemmas

open Verif.Spec

variable (F : FloatFormat)

/-- If no exception was raised, the computed value is the number `r`. -/
def Sim (r : ℝ) (f : Flt) : Prop := f.raised = false → f.datum = .finite r

theorem sim_round {r : Bool} {x : ℝ} : (Flt.round F r x).raised = false →
    r = false ∧ (Flt.round F r x).datum = .finite (cleanRound F x) := by
  unfold Flt.round
  split_ifs with h
  · simp
  · intro hr
    simp only [Bool.or_eq_false_iff, decide_eq_false_iff_not] at hr
    refine ⟨hr.1, ?_⟩
    simp only [cleanRound, if_neg hr.2]

theorem sim_ofReal (x : ℝ) : Sim x (Flt.ofReal x) := fun _ => rfl

theorem sim_neg {a : ℝ} {b : Flt} (h : Sim a b) : Sim (-a) b.neg := by
  obtain ⟨d, r⟩ := b
  cases d <;> intro hr <;> have := h hr <;> simp_all [Flt.neg]

theorem sim_add {a a' : ℝ} {b b' : Flt} (h : Sim a b) (h' : Sim a' b') :
    Sim (cleanRound F (a + a')) (Flt.add F b b') := by
  obtain ⟨d, r⟩ := b
  obtain ⟨d', r'⟩ := b'
  intro hr
  cases d <;> cases d' <;> simp only [Flt.add] at hr ⊢
  · obtain ⟨h1, h2⟩ := sim_round F hr
    rw [Bool.or_eq_false_iff] at h1
    have e1 := Datum.finite.inj (h h1.1)
    have e2 := Datum.finite.inj (h' h1.2)
    subst e1; subst e2
    exact h2
  all_goals first
    | (rw [Bool.or_eq_false_iff] at hr; have e1 := h hr.1; have e2 := h' hr.2; simp at e1 e2)
    | (split_ifs at hr; simp only [Bool.or_eq_false_iff] at hr; have e1 := h hr.1; simp at e1)

theorem sim_mul {a a' : ℝ} {b b' : Flt} (h : Sim a b) (h' : Sim a' b') :
    Sim (cleanRound F (a * a')) (Flt.mul F b b') := by
  obtain ⟨d, r⟩ := b
  obtain ⟨d', r'⟩ := b'
  intro hr
  cases d <;> cases d' <;> simp only [Flt.mul] at hr ⊢
  · obtain ⟨h1, h2⟩ := sim_round F hr
    rw [Bool.or_eq_false_iff] at h1
    have e1 := Datum.finite.inj (h h1.1)
    have e2 := Datum.finite.inj (h' h1.2)
    subst e1; subst e2
    exact h2
  all_goals first
    | (rw [Bool.or_eq_false_iff] at hr; have e1 := h hr.1; have e2 := h' hr.2; simp at e1 e2)
    | (split_ifs at hr; simp only [Bool.or_eq_false_iff] at hr; have e1 := h hr.1; have e2 := h' hr.2
       simp at e1 e2)

theorem sim_div {a a' : ℝ} {b b' : Flt} (h : Sim a b) (h' : Sim a' b') :
    ResRel True Sim ((roundedArith (cleanRound F)).div a a') (Flt.div F b b') := by
  intro r hr
  obtain ⟨d, q⟩ := b
  obtain ⟨d', q'⟩ := b'
  have hr' : a' ≠ 0 ∧ r = cleanRound F (a / a') := by
    simp only [roundedArith] at hr
    split_ifs at hr with h0
    exact ⟨h0, (Res.ok.inj hr).symm⟩
  obtain ⟨ha', rfl⟩ := hr'
  cases d <;> cases d' <;> simp only [Flt.div]
  case finite.finite x y =>
    split_ifs with hy
    · exact .inr ⟨trivial, by simp⟩
    · refine .inl ⟨_, rfl, fun hr => ?_⟩
      obtain ⟨h1, h2⟩ := sim_round F hr
      rw [Bool.or_eq_false_iff] at h1
      have e1 := Datum.finite.inj (h h1.1)
      have e2 := Datum.finite.inj (h' h1.2)
      subst e1; subst e2
      exact h2
  case inf.finite s y =>
    split_ifs with hy
    · exact .inr ⟨trivial, by simp⟩
    · refine .inl ⟨_, rfl, fun hr => ?_⟩
      simp only [Bool.or_eq_false_iff] at hr
      have e1 := h hr.1
      simp at e1
  all_goals
    refine .inl ⟨_, rfl, fun hr => ?_⟩
    first
      | simp at hr; done
      | (simp only [Bool.or_eq_false_iff] at hr; have e1 := h hr.1; have e2 := h' hr.2; simp at e1 e2)

/-- The code run in a binary format simulates the code run with a rounding function. -/
theorem float_sim : ArithRel True (roundedArith (cleanRound F)) (floatArith F) Sim where
  lit q := fun hr => (sim_round F hr).2
  add h h' := sim_add F h h'
  sub {a b a' b'} h h' := by
    have := sim_add F h (sim_neg h')
    rw [← sub_eq_add_neg] at this
    exact this
  mul h h' := sim_mul F h h'
  neg h := sim_neg h
  div h h' := sim_div F h h'

/-! ### ranges -/

/-- A grid and a bound: multiples of `2^grid` of magnitude at most `2^top`. -/
structure Range where
  grid : ℤ
  top : ℤ

/-- A finite number in the range, obtained without exceptions. -/
def InRange (s : Range) (f : Flt) : Prop := ∃ x, f = Flt.ofReal x ∧ OnGrid s.grid x ∧ |x| ≤ 2 ^ s.top

variable {F}

theorem round_inRange {s : Range} (hg : F.minExp - F.fracBits ≤ s.grid) (ht : s.top ≤ F.maxExp)
    (hb : F.minExp - F.fracBits ≤ s.top) {x : ℝ} (h1 : OnGrid s.grid x) (h2 : |x| ≤ 2 ^ s.top) :
    InRange s (Flt.round F false x) := by
  have hno : ¬ F.Overflows x := not_overflows F (h2.trans (zpow_le_zpow_right₀ (by norm_num) ht)) (hb.trans ht)
  have hnu : ¬ F.Underflows x := not_underflows_of_onGrid F (h1.mono hg)
  refine ⟨F.nearest x, ?_, onGrid_nearest F h1, nearest_le_zpow F hb h2⟩
  simp [Flt.round, hno, hnu, Flt.ofReal]

/-- Numbers that need not be on a grid: the result is on the grid of the format. -/
theorem round_inRange_of_le {g M : ℤ} (hg : F.minExp ≤ g) (ht : M ≤ F.maxExp)
    (hb : F.minExp - F.fracBits ≤ M) {x : ℝ} (h1 : x = 0 ∨ 2 ^ g ≤ |x|) (h2 : |x| ≤ 2 ^ M) :
    InRange ⟨g - F.fracBits, M⟩ (Flt.round F false x) := by
  rcases eq_or_ne x 0 with rfl | h0
  · exact round_inRange (by simp only; omega) ht hb (OnGrid.zero _) h2
  have h1 := h1.resolve_left h0
  have hno : ¬ F.Overflows x := not_overflows F (h2.trans (zpow_le_zpow_right₀ (by norm_num) ht)) (hb.trans ht)
  have hnu : ¬ F.Underflows x :=
    not_underflows_of_le F ((zpow_le_zpow_right₀ (by norm_num) hg).trans h1)
  refine ⟨F.nearest x, by simp [Flt.round, hno, hnu, Flt.ofReal], (onGrid_unit F x).mono ?_, nearest_le_zpow F hb h2⟩
  have : g ≤ Int.log 2 |x| := (Int.zpow_le_iff_le_log (by norm_num) (abs_pos.2 h0)).1 (by exact_mod_cast h1)
  unfold FloatFormat.unitExp
  show g - (F.fracBits : ℤ) ≤ _
  omega

theorem inRange_add {s s' : Range} {a b : Flt} (ha : InRange s a) (hb : InRange s' b)
    (hg : F.minExp - F.fracBits ≤ min s.grid s'.grid) (ht : max s.top s'.top + 1 ≤ F.maxExp)
    (hm : F.minExp - F.fracBits ≤ max s.top s'.top + 1) :
    InRange ⟨min s.grid s'.grid, max s.top s'.top + 1⟩ (Flt.add F a b) := by
  obtain ⟨x, rfl, hx1, hx2⟩ := ha
  obtain ⟨y, rfl, hy1, hy2⟩ := hb
  refine round_inRange (x := x + y) hg ht hm ((hx1.mono (min_le_left _ _)).add (hy1.mono (min_le_right _ _))) ?_
  have h1 : (2 : ℝ) ^ s.top ≤ 2 ^ (max s.top s'.top) := zpow_le_zpow_right₀ (by norm_num) (le_max_left _ _)
  have h2 : (2 : ℝ) ^ s'.top ≤ 2 ^ (max s.top s'.top) := zpow_le_zpow_right₀ (by norm_num) (le_max_right _ _)
  show |x + y| ≤ 2 ^ (max s.top s'.top + 1)
  rw [zpow_add_one₀ (by norm_num)]
  linarith [abs_add_le x y]

theorem inRange_neg {s : Range} {a : Flt} (ha : InRange s a) : InRange s a.neg := by
  obtain ⟨x, rfl, hx1, hx2⟩ := ha
  exact ⟨-x, rfl, hx1.neg, by rwa [abs_neg]⟩

theorem inRange_sub {s s' : Range} {a b : Flt} (ha : InRange s a) (hb : InRange s' b)
    (hg : F.minExp - F.fracBits ≤ min s.grid s'.grid) (ht : max s.top s'.top + 1 ≤ F.maxExp)
    (hm : F.minExp - F.fracBits ≤ max s.top s'.top + 1) :
    InRange ⟨min s.grid s'.grid, max s.top s'.top + 1⟩ (Flt.sub F a b) :=
  inRange_add ha (inRange_neg hb) hg ht hm

theorem inRange_mul {s s' : Range} {a b : Flt} (ha : InRange s a) (hb : InRange s' b)
    (hg : F.minExp - F.fracBits ≤ s.grid + s'.grid) (ht : s.top + s'.top ≤ F.maxExp)
    (hm : F.minExp - F.fracBits ≤ s.top + s'.top) :
    InRange ⟨s.grid + s'.grid, s.top + s'.top⟩ (Flt.mul F a b) := by
  obtain ⟨x, rfl, hx1, hx2⟩ := ha
  obtain ⟨y, rfl, hy1, hy2⟩ := hb
  refine round_inRange (x := x * y) hg ht hm (hx1.mul hy1) ?_
  show |x * y| ≤ 2 ^ (s.top + s'.top)
  rw [zpow_add₀ (by norm_num), abs_mul]
  exact mul_le_mul hx2 hy2 (abs_nonneg _) (by positivity)

/-- As `inRange_mul`, where the product may need rounding near the bottom of its range. -/
theorem inRange_mul_of_le {s s' : Range} {a b : Flt} (ha : InRange s a) (hb : InRange s' b)
    {g : ℤ} (hl : ∀ y, b = Flt.ofReal y → y = 0 ∨ 2 ^ g ≤ |y|)
    (hg : F.minExp ≤ s.grid + g) (ht : s.top + s'.top ≤ F.maxExp)
    (hm : F.minExp - F.fracBits ≤ s.top + s'.top) :
    InRange ⟨s.grid + g - F.fracBits, s.top + s'.top⟩ (Flt.mul F a b) := by
  obtain ⟨x, rfl, hx1, hx2⟩ := ha
  obtain ⟨y, rfl, hy1, hy2⟩ := hb
  refine round_inRange_of_le (x := x * y) hg ht hm ?_ ?_
  · rcases eq_or_ne x 0 with rfl | hx
    · simp
    rcases hl y rfl with rfl | hy
    · simp
    right
    rw [zpow_add₀ (by norm_num), abs_mul]
    exact mul_le_mul (hx1.le_abs hx) hy (by positivity) (abs_nonneg _)
  · show |x * y| ≤ 2 ^ (s.top + s'.top)
    rw [zpow_add₀ (by norm_num), abs_mul]
    exact mul_le_mul hx2 hy2 (abs_nonneg _) (by positivity)

end Verif.Lemmas
