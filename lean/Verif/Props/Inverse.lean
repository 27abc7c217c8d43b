import Verif.Lemmas.Inverse

/-! # Properties C44 and C45: the 3x3 inverse -/

namespace Verif.Props

open Verif.Spec Verif.Lemmas Verif.MathUtilities

variable {R K : Type} [Field K]

theorem native_get_matMem (M : Matrix (Fin 3) (Fin 3) R) (i j : Fin 3) :
    native3.get (matMem M) ((i : ℕ) : Int) ((j : ℕ) : Int) = .ok (M i j) := by
  rw [matMem_three]
  fin_cases i <;> fin_cases j <;> rfl

theorem holdsNative_iff {m : List R} {M : Matrix (Fin 3) (Fin 3) R} : HoldsNative m M ↔ m = matMem M := by
  constructor
  · rintro ⟨hl, h⟩
    obtain ⟨N, rfl⟩ := exists_matMem (d := 3) hl
    congr 1
    funext i j
    exact Res.ok.inj ((native_get_matMem N i j).symm.trans (h i j))
  · rintro rfl
    exact ⟨matMem_length M, native_get_matMem M⟩

/-- **C44, built-in arrays.** `inverse( m, det )` leaves the determinant in `det`; if it is not zero it
leaves the two-sided inverse in `m`, and otherwise something not finite. -/
theorem C44_inverse_native (M : Matrix (Fin 3) (Fin 3) K) (m : List K) (hm : HoldsNative m M) :
    ∃ (det : K) (after : Res (List K)), inverseNative (exactArith K) m = .ok (det, after) ∧
      det = M.det ∧ (M.det = 0 → after = .nonfinite) ∧
      (M.det ≠ 0 → ∃ (m' : List K) (N : Matrix (Fin 3) (Fin 3) K), after = .ok m' ∧ HoldsNative m' N ∧
        N * M = 1 ∧ M * N = 1) := by
  rw [holdsNative_iff] at hm
  subst hm
  obtain ⟨r, h1, h2, h3⟩ := inverseNative_exact M
  refine ⟨_, r, h1, rfl, h2, fun h => ?_⟩
  obtain ⟨N, hN, h4⟩ := h3 h
  exact ⟨matMem N, N, hN, holdsNative_iff.2 rfl, h4⟩

/-- **C44, CArrays.** The same for a `CArray< T, 3, 3 >`, in every configuration. -/
theorem C44_inverse_carray (cfg : Config) (M : Matrix (Fin 3) (Fin 3) K) (m : List K)
    (hm : HoldsMatrix m M) :
    ∃ (det : K) (after : Res (List K)),
      inverse (exactArith K) (carray cfg (CArray.whole [3, 3])) m = .ok (det, after) ∧
      det = M.det ∧ (M.det = 0 → after = .nonfinite) ∧
      (M.det ≠ 0 → ∃ (m' : List K) (N : Matrix (Fin 3) (Fin 3) K), after = .ok m' ∧ HoldsMatrix m' N ∧
        N * M = 1 ∧ M * N = 1) := by
  rw [holds_iff (by norm_num) (by norm_num)] at hm
  subst hm
  obtain ⟨r, h1, h2, h3⟩ := inverseNative_exact M
  have e := inverse_carray cfg (exactArith K) [] [] (m := matMem M) (matMem_length M)
  rw [h1] at e
  simp only [List.nil_append, List.append_nil] at e
  refine ⟨_, _, e, rfl, fun h => ?_, fun h => ?_⟩
  · rw [h2 h]; rfl
  · obtain ⟨N, hN, h4⟩ := h3 h
    refine ⟨matMem N, N, ?_, (holds_iff (by norm_num) (by norm_num)).2 rfl, h4⟩
    rw [hN]; rfl

/-- **C45.** In any arithmetic and any configuration, `inverse` applied to a view of nine elements `m`
inside a block of memory succeeds, leaves in `det` what the built-in array overload leaves there for the
same nine numbers, leaves in the nine elements what that overload leaves, and changes nothing before or
after them. -/
theorem C45_overloads_agree (cfg : Config) (A : Arith R) (pre post m : List R) (hm : m.length = 9) :
    ∃ (det : R) (after afterView : Res (List R)),
      inverseNative A m = .ok (det, after) ∧
      inverse A (carray cfg ⟨[3, 3], pre.length⟩) (pre ++ m ++ post) = .ok (det, afterView) ∧
      (after = .nonfinite → afterView = .nonfinite) ∧
      (∀ m', after = .ok m' → m'.length = 9 ∧ afterView = .ok (pre ++ m' ++ post)) ∧
      ((∃ q, A.div (A.lit 1) det = .ok q) → ∃ m', after = .ok m') := by
  have e := inverse_carray cfg A pre post hm
  obtain ⟨a, b, c, d, f, g, h, i, j, rfl⟩ := exists_nine hm
  rw [inverseNative_eq] at e ⊢
  refine ⟨_, _, _, rfl, e, ?_, ?_, ?_⟩
  · intro h0; rw [h0]; rfl
  · intro m' h0
    refine ⟨?_, by rw [h0]; rfl⟩
    rw [Res.bind_eq_ok] at h0
    obtain ⟨q, -, h0⟩ := h0
    cases h0; rfl
  · rintro ⟨q, hq⟩
    rw [hq]
    exact ⟨_, rfl⟩

/-- Non-vacuity of C44 and C45: an invertible and a singular matrix, and a view in the middle of a block. -/
example :
    inverseNative ratArith [2, 0, 0, 0, 4, 0, 1, 0, 1] = .ok (8, .ok [1 / 2, 0, 0, 0, 1 / 4, 0, -1 / 2, 0, 1]) ∧
    inverseNative ratArith [1, 2, 3, 2, 4, 6, 0, 0, 1] = .ok (0, .nonfinite) ∧
    inverse ratArith (carray checkedHost ⟨[3, 3], 2⟩) [7, 7, 2, 0, 0, 0, 4, 0, 1, 0, 1, 9]
      = .ok (8, .ok [7, 7, 1 / 2, 0, 0, 0, 1 / 4, 0, -1 / 2, 0, 1, 9]) := by
  decide +kernel

end Verif.Props
