import Verif.Spec.Faces
import Mathlib.MeasureTheory.Constructions.Pi
import Mathlib.MeasureTheory.Measure.Lebesgue.Basic
import Mathlib.MeasureTheory.Integral.IntervalIntegral.Basic
import Mathlib.Analysis.SpecialFunctions.Integrals.Basic

/-! Lebesgue measure of boxes and corner simplices. -/

namespace Verif.Lemmas

open MeasureTheory Verif.Spec

theorem volume_box (n : ℕ) {lo hi : ℝ} (h : lo ≤ hi) :
    volume (box n lo hi) = ENNReal.ofReal ((hi - lo) ^ n) := by
  have : box n lo hi = Set.Icc (fun _ => lo) (fun _ => hi) := by
    ext x; simp [box, Set.mem_Icc, Pi.le_def, forall_and]
  rw [this, Real.volume_Icc_pi]
  simp [ENNReal.ofReal_pow (sub_nonneg.2 h)]

theorem cornerSimplex_neg (n : ℕ) {lo l : ℝ} (h : l < 0) : cornerSimplex n lo l = ∅ := by
  ext x
  simp only [cornerSimplex, Set.mem_ofPred_eq, Set.mem_empty_iff_false, iff_false, not_and, not_le]
  intro hx
  exact lt_of_lt_of_le h (Finset.sum_nonneg fun i _ => sub_nonneg.2 (hx i))

/-- The simplex in one more dimension as a subset of a product. -/
def simplexProd (n : ℕ) (lo l : ℝ) : Set (ℝ × (Fin n → ℝ)) :=
  {p | lo ≤ p.1 ∧ (∀ i, lo ≤ p.2 i) ∧ (p.1 - lo) + ∑ i, (p.2 i - lo) ≤ l}

theorem isClosed_simplexProd (n : ℕ) (lo l : ℝ) : IsClosed (simplexProd n lo l) := by
  have : simplexProd n lo l = {p | lo ≤ p.1} ∩ ((⋂ i, {p | lo ≤ p.2 i}) ∩
      {p | (p.1 - lo) + ∑ i, (p.2 i - lo) ≤ l}) := by
    ext x; simp [simplexProd]
  rw [this]
  refine IsClosed.inter (isClosed_le continuous_const continuous_fst) (IsClosed.inter ?_ ?_)
  · exact isClosed_iInter fun i => isClosed_le continuous_const (by fun_prop)
  · exact isClosed_le (by fun_prop) continuous_const

theorem simplexProd_slice (n : ℕ) (lo l x : ℝ) :
    Prod.mk x ⁻¹' simplexProd n lo l
      = if lo ≤ x then cornerSimplex n lo (l - (x - lo)) else ∅ := by
  ext y
  split
  · rename_i h
    simp only [simplexProd, cornerSimplex, Set.mem_preimage, Set.mem_ofPred_eq, h, true_and]
    constructor <;> rintro ⟨h1, h2⟩ <;> exact ⟨h1, by linarith⟩
  · rename_i h
    simp [simplexProd, h]

theorem volume_cornerSimplex (n : ℕ) {lo l : ℝ} (h : 0 ≤ l) :
    volume (cornerSimplex n lo l) = ENNReal.ofReal (l ^ n / n.factorial) := by
  induction n generalizing l with
  | zero =>
    have : cornerSimplex 0 lo l = Set.univ := by ext x; simp [cornerSimplex, h]
    rw [this]
    simp [volume_pi]
  | succ n ih =>
    have hpre : cornerSimplex (n + 1) lo l
        = MeasurableEquiv.piFinSuccAbove (fun _ => ℝ) 0 ⁻¹' simplexProd n lo l := by
      ext x
      simp only [cornerSimplex, simplexProd, Set.mem_ofPred_eq, Set.mem_preimage,
        MeasurableEquiv.piFinSuccAbove_apply, Fin.insertNthEquiv_zero, Fin.consEquiv_symm_apply,
        Fin.forall_fin_succ, Fin.sum_univ_succ, Fin.tail, and_assoc]
    have hmp := volume_preserving_piFinSuccAbove (fun _ : Fin (n + 1) => ℝ) 0
    rw [hpre, hmp.measure_preimage (isClosed_simplexProd n lo l).measurableSet.nullMeasurableSet]
    rw [show (volume : Measure (ℝ × (Fin n → ℝ))) = volume.prod volume from rfl,
      Measure.prod_apply (isClosed_simplexProd n lo l).measurableSet]
    have hslice : ∀ x : ℝ, volume (Prod.mk x ⁻¹' simplexProd n lo l)
        = (Set.Icc lo (lo + l)).indicator
            (fun x => ENNReal.ofReal ((l - (x - lo)) ^ n / n.factorial)) x := by
      intro x
      rw [simplexProd_slice]
      by_cases h1 : lo ≤ x
      · rw [if_pos h1]
        by_cases h2 : x ≤ lo + l
        · rw [Set.indicator_of_mem (Set.mem_Icc.2 ⟨h1, h2⟩)]
          exact ih (by linarith)
        · rw [Set.indicator_of_notMem (fun hc => h2 hc.2), cornerSimplex_neg _ (by linarith)]
          simp
      · rw [if_neg h1, Set.indicator_of_notMem (fun hc => h1 hc.1)]
        simp
    simp only [hslice]
    rw [lintegral_indicator measurableSet_Icc, ← ofReal_integral_eq_lintegral_ofReal]
    · congr 1
      rw [integral_Icc_eq_integral_Ioc, ← intervalIntegral.integral_of_le (by linarith)]
      have e : (fun x : ℝ => (l - (x - lo)) ^ n / (n.factorial : ℝ))
          = fun x => (fun y : ℝ => y ^ n / (n.factorial : ℝ)) ((lo + l) - x) := by
        funext x; simp only []; congr 2; ring
      rw [e, intervalIntegral.integral_comp_sub_left (fun y : ℝ => y ^ n / (n.factorial : ℝ)),
        intervalIntegral.integral_div, integral_pow]
      have : (n.factorial : ℝ) ≠ 0 := by positivity
      have : (n : ℝ) + 1 ≠ 0 := by positivity
      rw [Nat.factorial_succ]
      push_cast
      simp only [sub_self, add_sub_cancel_left]
      field_simp
      ring
    · refine ContinuousOn.integrableOn_Icc (Continuous.continuousOn ?_)
      fun_prop
    · filter_upwards [self_mem_ae_restrict measurableSet_Icc] with x hx
      have : 0 ≤ l - (x - lo) := by have := hx.2; linarith
      show (0 : ℝ) ≤ _
      positivity

end Verif.Lemmas
