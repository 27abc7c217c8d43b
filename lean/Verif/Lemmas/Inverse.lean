import Verif.Model.MathUtilities
import Verif.Lemmas.MatrixMemory
import Mathlib.LinearAlgebra.Matrix.Determinant.Basic
import Mathlib.LinearAlgebra.Matrix.NonsingularInverse
import Mathlib.Tactic.FieldSimp
import Mathlib.Tactic.LinearCombination

/-! # The 3x3 inverse -/

namespace Verif.Lemmas

open Verif.Spec Verif.MathUtilities

variable {R : Type}

/-- A list of nine elements. -/
theorem exists_nine {m : List R} (h : m.length = 9) :
    ∃ a b c d e f g i j, m = [a, b, c, d, e, f, g, i, j] := by
  match m, h with
  | [a, b, c, d, e, f, g, i, j], _ => exact ⟨a, b, c, d, e, f, g, i, j, rfl⟩

theorem fits_nine (pre post : List R) {m : List R} (hm : m.length = 9) :
    Fits (pre ++ m ++ post).length ⟨[3, 3], pre.length⟩ := by
  refine ⟨by simp, ?_⟩
  simp [hm]

theorem validShape_three : ValidShape [3, 3] := ⟨by simp, by simp, by norm_num⟩

/-- Elements of a view of nine elements of a block are those of the corresponding built-in array. -/
theorem carray_get (cfg : Config) (pre post : List R) {m : List R} (hm : m.length = 9) {i j : Int}
    (hi : 0 ≤ i ∧ i < 3) (hj : 0 ≤ j ∧ j < 3) :
    (carray cfg ⟨[3, 3], pre.length⟩).get (pre ++ m ++ post) i j = native3.get m i j := by
  have e : native3.get m i j = CArray.load m (3 * i + j) := by
    simp only [native3, nativeIndex, if_pos (show 0 ≤ i ∧ i < 3 ∧ 0 ≤ j ∧ j < 3 by omega), Res.ok_bind]
    congr 1; omega
  rw [e]
  show CArray.read cfg (pre ++ m ++ post) ⟨[3, 3], pre.length⟩ [i, j] = _
  rw [read_eq cfg validShape_three (fits_nine pre post hm) (by simp [InBox]; omega)]
  show CArray.load _ ((pre.length : Int) + rowMajor [3, 3] [i, j]) = _
  rw [rowMajor_pair]
  obtain ⟨x, hx, hx'⟩ := load_ok (mem := m) (a := 3 * i + j) (by omega) (by omega)
  rw [hx', load_eq_ok (by omega), ← hx]
  rw [List.append_assoc, List.getElem?_append_right (by omega), List.getElem?_append_left (by omega)]
  congr 1; omega

theorem carray_set (cfg : Config) (pre post : List R) {m : List R} (hm : m.length = 9) {i j : Int}
    (hi : 0 ≤ i ∧ i < 3) (hj : 0 ≤ j ∧ j < 3) (x : R) :
    ∃ m', native3.set m i j x = .ok m' ∧ m'.length = 9 ∧
      (carray cfg ⟨[3, 3], pre.length⟩).set (pre ++ m ++ post) i j x = .ok (pre ++ m' ++ post) := by
  refine ⟨m.set (3 * i + j).toNat x, ?_, by simp [hm], ?_⟩
  · simp only [native3, nativeIndex, if_pos (show 0 ≤ i ∧ i < 3 ∧ 0 ≤ j ∧ j < 3 by omega), Res.ok_bind]
    rw [store_ok (by omega) (by omega), Int.toNat_natCast]
  · show CArray.write cfg (pre ++ m ++ post) ⟨[3, 3], pre.length⟩ [i, j] x = _
    rw [write_eq cfg validShape_three (fits_nine pre post hm) (by simp [InBox]; omega)]
    show Res.ok ((pre ++ m ++ post).set ((pre.length : Int) + rowMajor [3, 3] [i, j]).toNat x) = _
    rw [rowMajor_pair]
    congr 1
    rw [List.append_assoc, List.set_append_right _ _ (by omega), List.set_append_left _ _ (by omega),
      List.append_assoc]
    congr 3
    omega

/-- The generic overload on a view of nine elements of a block does what the built-in overload does on
those nine elements, whatever the arithmetic. -/
theorem inverse_carray (cfg : Config) (A : Arith R) (pre post : List R) {m : List R} (hm : m.length = 9) :
    inverse A (carray cfg ⟨[3, 3], pre.length⟩) (pre ++ m ++ post)
      = (fun r => (r.1, (fun m' => pre ++ m' ++ post) <$> r.2)) <$> inverseNative A m := by
  have hg : ∀ {m : List R} (_ : m.length = 9) (i j : Int), 0 ≤ i ∧ i < 3 → 0 ≤ j ∧ j < 3 →
      ∃ x, native3.get m i j = .ok x ∧
        (carray cfg ⟨[3, 3], pre.length⟩).get (pre ++ m ++ post) i j = .ok x := by
    intro m hm i j hi hj
    rw [carray_get cfg pre post hm hi hj]
    have hlt : (3 * i + j).toNat < m.length := by omega
    refine ⟨m[(3 * i + j).toNat], ?_, ?_⟩ <;>
    · simp only [native3, nativeIndex, if_pos (show 0 ≤ i ∧ i < 3 ∧ 0 ≤ j ∧ j < 3 by omega), Res.ok_bind]
      rw [load_eq_ok (by omega), Int.toNat_natCast]
      exact List.getElem?_eq_getElem hlt
  obtain ⟨s00, n00, c00⟩ := hg hm 0 0 (by omega) (by omega)
  obtain ⟨s01, n01, c01⟩ := hg hm 0 1 (by omega) (by omega)
  obtain ⟨s02, n02, c02⟩ := hg hm 0 2 (by omega) (by omega)
  obtain ⟨s10, n10, c10⟩ := hg hm 1 0 (by omega) (by omega)
  obtain ⟨s11, n11, c11⟩ := hg hm 1 1 (by omega) (by omega)
  obtain ⟨s12, n12, c12⟩ := hg hm 1 2 (by omega) (by omega)
  obtain ⟨s20, n20, c20⟩ := hg hm 2 0 (by omega) (by omega)
  obtain ⟨s21, n21, c21⟩ := hg hm 2 1 (by omega) (by omega)
  obtain ⟨s22, n22, c22⟩ := hg hm 2 2 (by omega) (by omega)
  simp only [inverse, inverseNative, n00, n01, n02, n10, n11, n12, n20, n21, n22,
    c00, c01, c02, c10, c11, c12, c20, c21, c22, Res.ok_bind]
  obtain ⟨m1, a1, l1, b1⟩ := carray_set cfg pre post hm (i := 0) (j := 0) (by omega) (by omega)
    (A.sub (A.mul s11 s22) (A.mul s12 s21))
  simp only [a1, b1, Res.ok_bind]
  obtain ⟨m2, a2, l2, b2⟩ := carray_set cfg pre post l1 (i := 0) (j := 1) (by omega) (by omega)
    (A.sub (A.mul s02 s21) (A.mul s01 s22))
  simp only [a2, b2, Res.ok_bind]
  obtain ⟨m3, a3, l3, b3⟩ := carray_set cfg pre post l2 (i := 0) (j := 2) (by omega) (by omega)
    (A.sub (A.mul s01 s12) (A.mul s02 s11))
  simp only [a3, b3, Res.ok_bind]
  obtain ⟨t00, p00, q00⟩ := hg l3 0 0 (by omega) (by omega)
  obtain ⟨t01, p01, q01⟩ := hg l3 0 1 (by omega) (by omega)
  obtain ⟨t02, p02, q02⟩ := hg l3 0 2 (by omega) (by omega)
  simp only [p00, p01, p02, q00, q01, q02, Res.ok_bind, Res.map_ok]
  congr 2
  cases A.div (A.lit 1) (A.add (A.add (A.mul s00 t00) (A.mul s10 t01)) (A.mul s20 t02)) with
  | ok q =>
    simp only [Res.ok_bind, inverseFinish, inverseFinishNative, MatrixOps.scale, p00, q00]
    obtain ⟨m4, a4, l4, b4⟩ := carray_set cfg pre post l3 (i := 0) (j := 0) (by omega) (by omega)
      (A.mul t00 q)
    simp only [a4, b4, Res.ok_bind]
    obtain ⟨u01, r01, v01⟩ := hg l4 0 1 (by omega) (by omega)
    simp only [r01, v01, Res.ok_bind]
    obtain ⟨m5, a5, l5, b5⟩ := carray_set cfg pre post l4 (i := 0) (j := 1) (by omega) (by omega)
      (A.mul u01 q)
    simp only [a5, b5, Res.ok_bind]
    obtain ⟨u02, r02, v02⟩ := hg l5 0 2 (by omega) (by omega)
    simp only [r02, v02, Res.ok_bind]
    obtain ⟨m6, a6, l6, b6⟩ := carray_set cfg pre post l5 (i := 0) (j := 2) (by omega) (by omega)
      (A.mul u02 q)
    simp only [a6, b6, Res.ok_bind]
    obtain ⟨m7, a7, l7, b7⟩ := carray_set cfg pre post l6 (i := 1) (j := 0) (by omega) (by omega)
      (A.mul (A.sub (A.mul s12 s20) (A.mul s10 s22)) q)
    simp only [a7, b7, Res.ok_bind]
    obtain ⟨m8, a8, l8, b8⟩ := carray_set cfg pre post l7 (i := 1) (j := 1) (by omega) (by omega)
      (A.mul (A.sub (A.mul s00 s22) (A.mul s02 s20)) q)
    simp only [a8, b8, Res.ok_bind]
    obtain ⟨m9, a9, l9, b9⟩ := carray_set cfg pre post l8 (i := 1) (j := 2) (by omega) (by omega)
      (A.mul (A.sub (A.mul s02 s10) (A.mul s00 s12)) q)
    simp only [a9, b9, Res.ok_bind]
    obtain ⟨m10, a10, l10, b10⟩ := carray_set cfg pre post l9 (i := 2) (j := 0) (by omega) (by omega)
      (A.mul (A.sub (A.mul s10 s21) (A.mul s11 s20)) q)
    simp only [a10, b10, Res.ok_bind]
    obtain ⟨m11, a11, l11, b11⟩ := carray_set cfg pre post l10 (i := 2) (j := 1) (by omega) (by omega)
      (A.mul (A.sub (A.mul s01 s20) (A.mul s00 s21)) q)
    simp only [a11, b11, Res.ok_bind]
    obtain ⟨m12, a12, l12, b12⟩ := carray_set cfg pre post l11 (i := 2) (j := 2) (by omega) (by omega)
      (A.mul (A.sub (A.mul s00 s11) (A.mul s01 s10)) q)
    simp only [a12, b12, Res.map_ok]
  | illFormed => rfl
  | ub => rfl
  | abort => rfl
  | nonfinite => rfl

theorem matMem_three (M : Matrix (Fin 3) (Fin 3) R) :
    matMem M = [M 0 0, M 0 1, M 0 2, M 1 0, M 1 1, M 1 2, M 2 0, M 2 1, M 2 2] := rfl

variable {K : Type} [Field K]

/-- `inverse` on nine explicit elements, in any arithmetic. -/
theorem inverseNative_eq (A : Arith R) (a b c d e f g i j : R) :
    inverseNative A [a, b, c, d, e, f, g, i, j]
      = .ok (A.add (A.add (A.mul a (A.sub (A.mul e j) (A.mul f i))) (A.mul d (A.sub (A.mul c i) (A.mul b j))))
            (A.mul g (A.sub (A.mul b f) (A.mul c e))),
          A.div (A.lit 1)
              (A.add (A.add (A.mul a (A.sub (A.mul e j) (A.mul f i))) (A.mul d (A.sub (A.mul c i) (A.mul b j))))
                (A.mul g (A.sub (A.mul b f) (A.mul c e)))) >>= fun q =>
            .ok [A.mul (A.sub (A.mul e j) (A.mul f i)) q, A.mul (A.sub (A.mul c i) (A.mul b j)) q,
              A.mul (A.sub (A.mul b f) (A.mul c e)) q, A.mul (A.sub (A.mul f g) (A.mul d j)) q,
              A.mul (A.sub (A.mul a j) (A.mul c g)) q, A.mul (A.sub (A.mul c d) (A.mul a f)) q,
              A.mul (A.sub (A.mul d i) (A.mul e g)) q, A.mul (A.sub (A.mul b g) (A.mul a i)) q,
              A.mul (A.sub (A.mul a e) (A.mul b d)) q]) := rfl

/-- What `inverse` leaves, in exact arithmetic. -/
theorem inverseNative_exact (M : Matrix (Fin 3) (Fin 3) K) :
    ∃ r, inverseNative (exactArith K) (matMem M) = .ok (M.det, r) ∧
      (M.det = 0 → r = .nonfinite) ∧
      (M.det ≠ 0 → ∃ N, r = .ok (matMem N) ∧ N * M = 1 ∧ M * N = 1) := by
  have hdet : M.det = M 0 0 * (M 1 1 * M 2 2 - M 1 2 * M 2 1) + M 1 0 * (M 0 2 * M 2 1 - M 0 1 * M 2 2)
      + M 2 0 * (M 0 1 * M 1 2 - M 0 2 * M 1 1) := by
    rw [Matrix.det_fin_three]; ring
  rw [matMem_three, inverseNative_eq]
  simp only [exactArith]
  rw [← hdet]
  refine ⟨_, rfl, ?_, ?_⟩
  · intro h; simp [h]
  · intro h
    refine ⟨!![(M 1 1 * M 2 2 - M 1 2 * M 2 1) * (1 / M.det), (M 0 2 * M 2 1 - M 0 1 * M 2 2) * (1 / M.det),
      (M 0 1 * M 1 2 - M 0 2 * M 1 1) * (1 / M.det);
      (M 1 2 * M 2 0 - M 1 0 * M 2 2) * (1 / M.det), (M 0 0 * M 2 2 - M 0 2 * M 2 0) * (1 / M.det),
      (M 0 2 * M 1 0 - M 0 0 * M 1 2) * (1 / M.det);
      (M 1 0 * M 2 1 - M 1 1 * M 2 0) * (1 / M.det), (M 0 1 * M 2 0 - M 0 0 * M 2 1) * (1 / M.det),
      (M 0 0 * M 1 1 - M 0 1 * M 1 0) * (1 / M.det)], ?_, ?_⟩
    · rw [if_neg h, matMem_three]
      simp
    · have key : ∀ N : Matrix (Fin 3) (Fin 3) K, N * M = 1 → N * M = 1 ∧ M * N = 1 :=
        fun N hN => ⟨hN, mul_eq_one_comm.1 hN⟩
      apply key
      obtain ⟨D, hD⟩ : ∃ D, D = M.det := ⟨_, rfl⟩
      rw [← hD] at h hdet ⊢
      ext r s
      fin_cases r <;> fin_cases s <;>
        simp [Matrix.mul_apply, Fin.sum_univ_three] <;> field_simp <;>
        first | ring1 | (rw [hdet]; ring1)

end Verif.Lemmas
