import Verif.Lemmas.MirrorFloat
import Verif.Lemmas.AxesFloat

/-! The ends of the parent interval, and a face shared by two mirrored cells, evaluated in `float` and `double`. -/

namespace Verif.Lemmas

open Verif.Spec

/-- The first and the last point are -1 and 1, and their functions have the same value there. -/
def endsAgree (T : RealType) (fam : Family) (order : ℕ) : Bool :=
  decide (knownPoint T fam order 0 = some (-1)) && decide (knownPoint T fam order (order : ℕ) = some 1) &&
    (knownValue T fam order 0 (-1)).isSome && decide (knownValue T fam order (order : ℕ) 1 = knownValue T fam order 0 (-1))

theorem ends_equal : ∀ T ∈ types, ∀ order ∈ [1, 2, 3, 4, 5, 6, 7, 8], endsAgree T .equal order = true := by decide +kernel

theorem ends_lobatto : ∀ T ∈ types, ∀ order ∈ [1, 2, 3, 4, 5, 6, 7, 8], endsAgree T .gaussLobatto order = true := by decide +kernel

theorem endsAgree_spec {T : RealType} {fam : Family} {order : ℕ} (h : endsAgree T fam order = true) :
    knownPoint T fam order 0 = some (-1) ∧ knownPoint T fam order (order : ℕ) = some 1 ∧
      ∃ q, knownValue T fam order 0 (-1) = some q ∧ knownValue T fam order (order : ℕ) 1 = some q := by
  unfold endsAgree at h
  simp only [Bool.and_eq_true, decide_eq_true_eq] at h
  obtain ⟨⟨⟨h1, h2⟩, h3⟩, h4⟩ := h
  obtain ⟨q, hq⟩ := Option.isSome_iff_exists.1 h3
  exact ⟨h1, h2, q, hq, h4.trans hq⟩

/-- The first of the Gauss-Legendre points is not -1. -/
theorem legendre_inside : ∀ T ∈ types, ∀ order ∈ [1, 2, 3], ∃ q : ℚ, knownPoint T .gaussLegendre order 0 = some q ∧ q ≠ -1 := by
  have h : ∀ T ∈ types, ∀ order ∈ [1, 2, 3], (knownPoint T .gaussLegendre order 0).isSome = true ∧ knownPoint T .gaussLegendre order 0 ≠ some (-1) := by
    decide +kernel
  intro T hT order ho
  obtain ⟨h1, h2⟩ := h T hT order ho
  obtain ⟨q, hq⟩ := Option.isSome_iff_exists.1 h1
  exact ⟨q, hq, fun e => h2 (e ▸ hq)⟩

/-- Nodal values of a cell of order 1: on its face in direction 0, at index `a`, 1 and half and all of its distance to the next number, in the second
direction in this or the opposite order; other nodes have the value 0. -/
def faceNodes (T : RealType) (a : Int) (opposite : Bool) (l : List Int) : ℚ :=
  let j := fun j : Int => if opposite then 1 - j else j
  if l = [a, j 0, 0] then 1 else if l = [a, j 0, 1] then belowOne T else if l = [a, j 1, 0] then 2 * belowOne T else 0

/-- The values at the centre of the face, the last of one cell and the first of the other, differ. -/
def faceJumps (T : RealType) (fam : Family) : Bool :=
  match knownField T fam 1 3 [1, 0, 0] (faceNodes T 1 false), knownField T fam 1 3 [-1, 0, 0] (faceNodes T 0 true) with
  | .ok (some p), .ok (some q) => decide (p ≠ q)
  | _, _ => false

theorem face_jumps : ∀ T ∈ types, ∀ fam ∈ [Family.equal, .gaussLobatto], faceJumps T fam = true := by decide +kernel

theorem faceNodes_represented : ∀ T ∈ types, ∀ a ∈ [(0 : Int), 1], ∀ o ∈ [false, true], ∀ i j k : Fin 2,
    evalRound T.format (faceNodes T a o [((i : ℕ) : Int), ((j : ℕ) : Int), ((k : ℕ) : Int)])
      = some (faceNodes T a o [((i : ℕ) : Int), ((j : ℕ) : Int), ((k : ℕ) : Int)]) ∧
    |faceNodes T a o [((i : ℕ) : Int), ((j : ℕ) : Int), ((k : ℕ) : Int)]| ≤ 1 := by decide +kernel

theorem faceNodes_shared : ∀ T ∈ types, ∀ j k : Fin 2,
    faceNodes T 1 false [1, ((j : ℕ) : Int), ((k : ℕ) : Int)] = faceNodes T 0 true [0, ((j.rev : ℕ) : Int), ((k : ℕ) : Int)] := by decide +kernel

theorem faceJumps_spec {T : RealType} {fam : Family} (h : faceJumps T fam = true) :
    ∃ p q : ℚ, p ≠ q ∧ knownField T fam 1 3 [1, 0, 0] (faceNodes T 1 false) = .ok (some p) ∧
      knownField T fam 1 3 [-1, 0, 0] (faceNodes T 0 true) = .ok (some q) := by
  unfold faceJumps at h
  split at h
  · next p q e1 e2 => exact ⟨p, q, of_decide_eq_true h, e1, e2⟩
  · cases h

end Verif.Lemmas
