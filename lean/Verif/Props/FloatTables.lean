import Verif.Lemmas.FloatTables
import Verif.Props.Float

/-!
# Property C82: the shipped points and weights as `float` and `double`

As in C81 every operation is done in the format.  This is what the C++ code does for `double`.  For `float` it is
a simplification, since the `double` literals in the sources make C++ evaluate parts of the formulas in `double`;
C87 and C88 are about the tables as C++ evaluates them.
-/

namespace Verif.Props

open Verif.Spec Verif.Lemmas

private theorem roundoff_le {F : FloatFormat} (hF : F ∈ [binary32, binary64]) : 1000 * unitRoundoff F ≤ 1 := by
  simp only [List.mem_cons, List.not_mem_nil, or_false] at hF
  rcases hF with rfl | rfl <;> norm_num [unitRoundoff_formats.1, unitRoundoff_formats.2]

/-- What the rounded code computes is what the format computes. -/
private theorem family_entry {F : FloatFormat} (hF : F ∈ [binary32, binary64]) (fam : Family) (order : ℕ)
    (h1 : 1 ≤ order) (hs : fam.Supports order) (i : Fin (order + 1)) {r : ℝ}
    (hr : (fam.spacing (roundedArith (cleanRound F)) ((order + 1 : ℕ) : Int)).coordCT (i : ℕ) = .ok r) :
    (fam.spacing (floatArith F) ((order + 1 : ℕ) : Int)).coordCT (i : ℕ) = .ok (Flt.ofReal r) ∧ Represents F r := by
  cases fam with
  | equal =>
    have hlo : F.minExp ≤ -64 ∧ 64 ≤ F.maxExp := by
      simp only [List.mem_cons, List.not_mem_nil, or_false] at hF
      rcases hF with rfl | rfl <;> constructor <;> norm_num [binary32, binary64]
    obtain ⟨⟨f, hf, y, rfl, hy⟩, -⟩ := equal_entry hlo.1 hlo.2 (n := ((order + 1 : ℕ) : Int)) (i := (i : ℕ))
      (by push_cast; omega) (by have := hs.2; push_cast; omega) (by omega) (by have := i.2; push_cast; omega)
    have hrel := (equalSpacing_rel (float_sim F) ((order + 1 : ℕ) : Int)).ct (i : ℕ)
    rcases hrel r hr with ⟨g, hg, hsim⟩ | ⟨-, hn⟩
    · have e := Res.ok.inj (hf.symm.trans hg)
      subst e
      have e : y = r := Datum.finite.inj (hsim rfl)
      subst e
      exact ⟨hf, hy⟩
    · exact absurd hf (hn _)
  | gaussLegendre =>
    have hm : order + 1 ∈ [2, 3, 4] := by
      have := hs.2
      simp only [List.mem_cons, List.not_mem_nil, or_false]; omega
    exact known_entry (legendre_known F hF _ hm i).1 ((gaussLegendre_rel range_rel.toOpsRel _).ct _) hr
      ((gaussLegendre_rel (float_sim F).toOpsRel _).ct _)
  | gaussLobatto =>
    have hm : order + 1 ∈ [2, 3, 4, 5, 6, 7, 8, 9] := by
      have := hs.2
      simp only [List.mem_cons, List.not_mem_nil, or_false]; omega
    exact known_entry (lobatto_known F hF _ hm i).1 ((gaussLobatto_rel range_rel.toOpsRel _).ct _) hr
      ((gaussLobatto_rel (float_sim F).toOpsRel _).ct _)

/-- **C82, coordinates.** In `float` and in `double` the coordinates of every shipped spacing are computed
without overflow, underflow, division by zero or invalid operations, are within 7 roundings (of magnitude 3) of
the exact ones, and strictly increase, for orders up to `1 / (1000 u)`. -/
theorem C82_coordinates {F : FloatFormat} (hF : F ∈ [binary32, binary64]) (fam : Family) (order : ℕ)
    (h1 : 1 ≤ order) (hs : fam.Supports order) (hu : 1000 * order * unitRoundoff F ≤ 1) :
    ∃ c C : Fin (order + 1) → ℝ,
      (∀ i : Fin (order + 1), (fam.spacing (exactArith ℝ) ((order + 1 : ℕ) : Int)).coordCT (i : ℕ) = .ok (C i)) ∧
      (∀ i : Fin (order + 1),
        (fam.spacing (floatArith F) ((order + 1 : ℕ) : Int)).coordCT (i : ℕ) = .ok (Flt.ofReal (c i))) ∧
      (∀ i, Represents F (c i)) ∧ (∀ i, |c i - C i| ≤ errBound (unitRoundoff F) 7 * 3) ∧ StrictMono c := by
  obtain ⟨c, C, hC, hc, hb, hm⟩ := C63_coordinates (cleanRound_rounds F) fam order h1 hs hu
  exact ⟨c, C, hC, fun i => (family_entry hF fam order h1 hs i (hc i)).1,
    fun i => (family_entry hF fam order h1 hs i (hc i)).2, hb, hm⟩

/-- **C82, elements.** Every element made of shipped bases meets the hypothesis of C81 in `float` and in
`double`. -/
theorem C82_element {F : FloatFormat} (hF : F ∈ [binary32, binary64]) {d : ℕ} (hd : 0 < d) (order : Fin d → ℕ)
    (fam : Fin d → Family) (h1 : ∀ k, 1 ≤ order k) (hs : ∀ k, (fam k).Supports (order k))
    (hu : ∀ k, 1000 * order k * unitRoundoff F ≤ 1) (b : Fin d → Basis Flt)
    (hb : ∀ k, lagrangeBasis (floatArith F) ((fam k).spacing (floatArith F)) (order k) = .ok (b k)) :
    ∃ c : (k : Fin d) → Fin (order k + 1) → ℝ, (∀ k, StrictMono (c k)) ∧
      IsLagrangeFloat F order c ⟨.ok d, List.ofFn b⟩ := by
  choose c C hC hc hr hbd hm using fun k => C82_coordinates hF (fam k) (order k) (h1 k) (hs k) (hu k)
  refine ⟨c, hm, hd, rfl, fun k => (hm k).injective, hr, b, rfl, fun k => ⟨?_, (fam k).spacing (floatArith F), ?_, hb k⟩⟩
  · have h := hs k
    revert h
    cases fam k <;> intro h <;> have := h.2 <;> omega
  · exact fun _ => hc k

/-- **C82, Gauss-Legendre rules.** In `float` and in `double` points and weights are computed without
exceptions, the weights are positive, and the rule integrates as in C64. -/
theorem C82_gaussLegendre {F : FloatFormat} (hF : F ∈ [binary32, binary64]) (N : ℕ) (h : 2 ≤ N) (h' : N ≤ 4) :
    ∃ c w : Fin N → ℝ,
      (∀ i : Fin N, (quadratureGaussLegendre (floatArith F) N).coordCT (i : ℕ) = .ok (Flt.ofReal (c i))) ∧
      (∀ i : Fin N, (quadratureGaussLegendre (floatArith F) N).weightCT (i : ℕ) = .ok (Flt.ofReal (w i))) ∧
      (∀ i, Represents F (c i) ∧ Represents F (w i) ∧ 0 < w i) ∧
      ∀ p : Polynomial ℝ, p.natDegree ≤ 2 * N - 1 →
        |∑ i, w i * p.eval (c i) - ∫ x in (-1 : ℝ)..1, p.eval x|
          ≤ (1 / 10 ^ 33 + 1700 * unitRoundoff F) * ∑ k ∈ Finset.range (2 * N), |p.coeff k| := by
  have hm : N ∈ [2, 3, 4] := by simp only [List.mem_cons, List.not_mem_nil, or_false]; omega
  obtain ⟨c, w, hc, hw, hpos, hq⟩ := C64_gaussLegendre (cleanRound_rounds F) (roundoff_le hF) N h h'
  have kc := fun i => known_entry (legendre_known F hF _ hm i).1 ((gaussLegendre_rel range_rel.toOpsRel _).ct _) (hc i)
      ((gaussLegendre_rel (float_sim F).toOpsRel _).ct _)
  have kw := fun i => known_entry (legendre_known F hF _ hm i).2.2.1 (legendreWeight_rel range_rel.toOpsRel _ _).2 (hw i)
      (legendreWeight_rel (float_sim F).toOpsRel _ _).2
  exact ⟨c, w, fun i => (kc i).1, fun i => (kw i).1, fun i => ⟨(kc i).2, (kw i).2, hpos i⟩, hq⟩

/-- **C82, Gauss-Lobatto rules.** -/
theorem C82_gaussLobatto {F : FloatFormat} (hF : F ∈ [binary32, binary64]) (N : ℕ) (h : 2 ≤ N) (h' : N ≤ 9) :
    ∃ c w : Fin N → ℝ,
      (∀ i : Fin N, (quadratureGaussLobatto (floatArith F) N).coordCT (i : ℕ) = .ok (Flt.ofReal (c i))) ∧
      (∀ i : Fin N, (quadratureGaussLobatto (floatArith F) N).weightCT (i : ℕ) = .ok (Flt.ofReal (w i))) ∧
      (∀ i, Represents F (c i) ∧ Represents F (w i) ∧ 0 < w i) ∧
      ∀ p : Polynomial ℝ, p.natDegree ≤ 2 * N - 3 →
        |∑ i, w i * p.eval (c i) - ∫ x in (-1 : ℝ)..1, p.eval x|
          ≤ ((if N ≤ 5 then 2 / 10 ^ 33 else 2 / 10 ^ 14) + 1700 * unitRoundoff F)
            * ∑ k ∈ Finset.range (2 * N - 2), |p.coeff k| := by
  have hm : N ∈ [2, 3, 4, 5, 6, 7, 8, 9] := by simp only [List.mem_cons, List.not_mem_nil, or_false]; omega
  obtain ⟨c, w, hc, hw, hpos, hq⟩ := C64_gaussLobatto (cleanRound_rounds F) (roundoff_le hF) N h h'
  have kc := fun i => known_entry (lobatto_known F hF _ hm i).1 ((gaussLobatto_rel range_rel.toOpsRel _).ct _) (hc i)
      ((gaussLobatto_rel (float_sim F).toOpsRel _).ct _)
  have kw := fun i => known_entry (lobatto_known F hF _ hm i).2 (lobattoWeight_rel range_rel.toOpsRel _ _).2 (hw i)
      (lobattoWeight_rel (float_sim F).toOpsRel _ _).2
  exact ⟨c, w, fun i => (kc i).1, fun i => (kw i).1, fun i => ⟨(kc i).2, (kw i).2, hpos i⟩, hq⟩

/-! ### the hypotheses can be met -/

/-- Non-vacuity of C81 and C82: equally spaced nodes of order 4 in `float`. -/
example : ∃ b : Fin 3 → Basis Flt, ∃ c : (k : Fin 3) → Fin (4 + 1) → ℝ,
    (∀ k, lagrangeBasis (floatArith binary32) (equalSpacing (floatArith binary32)) (4 : ℕ) = .ok (b k)) ∧
    IsLagrangeFloat binary32 (fun _ : Fin 3 => 4) c ⟨.ok 3, List.ofFn b⟩ := by
  obtain ⟨c, -, hc⟩ := C82_element (F := binary32) (by simp) (d := 3) (by norm_num) (fun _ => 4) (fun _ => .equal)
    (fun _ => by norm_num) (fun _ => by simp [Family.Supports]) (fun _ => by norm_num [unitRoundoff_formats.2])
    _ (fun _ => lagrangeBasis_ok _ _ (by norm_num))
  exact ⟨_, c, fun _ => lagrangeBasis_ok _ _ (by norm_num), hc⟩

end Verif.Props
