import Verif.Lemmas.Rounding
import Verif.Lemmas.Mapping
import Mathlib.LinearAlgebra.Matrix.Adjugate

/-! # Rounding errors of the 3x3 inverse and of Jacobians -/

namespace Verif.Lemmas

open Verif.Spec Verif.MathUtilities

variable {fl : ℝ → ℝ} {u : ℝ}

theorem Within.neg {k : ℕ} {B x y : ℝ} (h : Within u k B x y) : Within u k B (-x) (-y) := by
  refine ⟨by rw [abs_neg]; exact h.1, ?_⟩
  rw [show -y - -x = -(y - x) by ring, abs_neg]
  exact h.2

theorem Within.sub {k : ℕ} {B B' x x' y y' : ℝ} (h : Within u k B x y)
    (h' : Within u k B' x' y') : Within u k (B + B') (x - x') (y - y') := by
  simpa only [sub_eq_add_neg] using h.add h'.neg

/-- A difference of two products, with roundings. -/
theorem cofactor_within (hr : Rounds fl u) {k : ℕ} {A B C D a b c d a' b' c' d' : ℝ}
    (ha : Within u k A a a') (hb : Within u k B b b') (hc : Within u k C c c') (hd : Within u k D d d') :
    Within u (2 * k + 2) (A * B + C * D) (a * b - c * d) (fl (fl (a' * b') - fl (c' * d'))) := by
  have h1 := Within.round hr (ha.mul hr.nonneg hb)
  have h2 := Within.round hr (hc.mul hr.nonneg hd)
  exact (Within.round hr (h1.sub h2)).mono hr.nonneg (by omega)

theorem detMagnitude_two (M : Matrix (Fin 2) (Fin 2) ℝ) :
    detMagnitude M = |M 0 0| * |M 1 1| + |M 1 0| * |M 0 1| := by
  unfold detMagnitude
  rw [show (Finset.univ : Finset (Equiv.Perm (Fin 2))) = {1, Equiv.swap 0 1} by decide,
    Finset.sum_pair (by decide)]
  simp [Fin.prod_univ_two]

theorem detMagnitude_three (M : Matrix (Fin 3) (Fin 3) ℝ) :
    detMagnitude M = |M 0 0| * |M 1 1| * |M 2 2| + |M 0 0| * |M 1 2| * |M 2 1|
      + |M 0 1| * |M 1 0| * |M 2 2| + |M 0 1| * |M 1 2| * |M 2 0|
      + |M 0 2| * |M 1 0| * |M 2 1| + |M 0 2| * |M 1 1| * |M 2 0| := by
  unfold detMagnitude
  rw [Finset.sum_equiv (s := Finset.univ) (t := Finset.univ) Equiv.Perm.decomposeFin
    (g := fun p => ∏ i, |M (Equiv.Perm.decomposeFin.symm p i) i|) (by simp) (by simp),
    ← Finset.univ_product_univ, Finset.sum_product, Fin.sum_univ_three]
  simp only [show (Finset.univ : Finset (Equiv.Perm (Fin 2))) = {1, Equiv.swap 0 1} by decide]
  repeat rw [Finset.sum_pair (by decide)]
  simp [Fin.prod_univ_three]
  rw [show (Equiv.Perm.decomposeFin.symm ((0 : Fin 3), Equiv.swap (0 : Fin 2) 1)) 2 = 1 by decide,
    show (Equiv.Perm.decomposeFin.symm ((1 : Fin 3), Equiv.swap (0 : Fin 2) 1)) 2 = 0 by decide,
    show (Equiv.Perm.decomposeFin.symm ((2 : Fin 3), Equiv.swap (0 : Fin 2) 1)) 2 = 1 by decide,
    show (Equiv.swap (0 : Fin 3) 1) 2 = 2 by decide, show (Equiv.swap (0 : Fin 3) 2) 1 = 1 by decide]
  ring

/-- The entries of the adjugate, in the order `inverse` writes them. -/
theorem adjugate_entries (M : Matrix (Fin 3) (Fin 3) ℝ) :
    M.adjugate = !![M 1 1 * M 2 2 - M 1 2 * M 2 1, M 0 2 * M 2 1 - M 0 1 * M 2 2, M 0 1 * M 1 2 - M 0 2 * M 1 1;
      M 1 2 * M 2 0 - M 1 0 * M 2 2, M 0 0 * M 2 2 - M 0 2 * M 2 0, M 0 2 * M 1 0 - M 0 0 * M 1 2;
      M 1 0 * M 2 1 - M 1 1 * M 2 0, M 0 1 * M 2 0 - M 0 0 * M 2 1, M 0 0 * M 1 1 - M 0 1 * M 1 0] := by
  rw [Matrix.adjugate_fin_three]
  ext i j
  fin_cases i <;> fin_cases j <;> simp <;> ring

theorem adjMagnitude_entries (M : Matrix (Fin 3) (Fin 3) ℝ) :
    adjMagnitude M = ![![|M 1 1| * |M 2 2| + |M 1 2| * |M 2 1|, |M 0 2| * |M 2 1| + |M 0 1| * |M 2 2|,
        |M 0 1| * |M 1 2| + |M 0 2| * |M 1 1|],
      ![|M 1 2| * |M 2 0| + |M 1 0| * |M 2 2|, |M 0 0| * |M 2 2| + |M 0 2| * |M 2 0|,
        |M 0 2| * |M 1 0| + |M 0 0| * |M 1 2|],
      ![|M 1 0| * |M 2 1| + |M 1 1| * |M 2 0|, |M 0 1| * |M 2 0| + |M 0 0| * |M 2 1|,
        |M 0 0| * |M 1 1| + |M 0 1| * |M 1 0|]] := by
  funext i j
  unfold adjMagnitude
  rw [detMagnitude_two]
  fin_cases i <;> fin_cases j <;> simp [Fin.succAbove] <;> ring

/-- What `inverse` leaves when its argument holds approximations `N` of the entries of `M`. -/
theorem inverse_within (hr : Rounds fl u) {k : ℕ} {B M N : Matrix (Fin 3) (Fin 3) ℝ}
    (h : ∀ i j, Within u k (B i j) (M i j) (N i j)) :
    ∃ det after, inverseNative (roundedArith fl) (matMem N) = .ok (det, after) ∧
      Within u (3 * k + 5) (detMagnitude B) M.det det ∧ (det = 0 → after = .nonfinite) ∧
      (det ≠ 0 → ∃ P : Matrix (Fin 3) (Fin 3) ℝ, after = .ok (matMem P) ∧
        ∀ i j, Within u (2 * k + 5) (adjMagnitude B i j / |det|) (M.adjugate i j / det) (P i j)) := by
  have hB : ∀ i j, |B i j| = B i j := fun i j => abs_of_nonneg ((abs_nonneg _).trans (h i j).1)
  have cof := fun (i j i' j' p q p' q' : Fin 3) => cofactor_within hr (h i j) (h i' j') (h p q) (h p' q')
  obtain ⟨det, hdet⟩ : ∃ det, det = fl (fl (fl (N 0 0 * fl (fl (N 1 1 * N 2 2) - fl (N 1 2 * N 2 1)))
      + fl (N 1 0 * fl (fl (N 0 2 * N 2 1) - fl (N 0 1 * N 2 2))))
      + fl (N 2 0 * fl (fl (N 0 1 * N 1 2) - fl (N 0 2 * N 1 1)))) := ⟨_, rfl⟩
  have e := inverseNative_eq (roundedArith fl) (N 0 0) (N 0 1) (N 0 2) (N 1 0) (N 1 1) (N 1 2) (N 2 0)
    (N 2 1) (N 2 2)
  simp only [roundedArith, Rat.cast_one] at e
  rw [← hdet] at e
  refine ⟨det, _, (congrArg _ (matMem_three N)).trans e, ?_, ?_, ?_⟩
  · have e1 : M.det = M 0 0 * (M 1 1 * M 2 2 - M 1 2 * M 2 1) + M 1 0 * (M 0 2 * M 2 1 - M 0 1 * M 2 2)
        + M 2 0 * (M 0 1 * M 1 2 - M 0 2 * M 1 1) := by
      rw [Matrix.det_fin_three]; ring
    have e2 : detMagnitude B = B 0 0 * (B 1 1 * B 2 2 + B 1 2 * B 2 1)
        + B 1 0 * (B 0 2 * B 2 1 + B 0 1 * B 2 2) + B 2 0 * (B 0 1 * B 1 2 + B 0 2 * B 1 1) := by
      rw [detMagnitude_three]; simp only [hB]; ring
    rw [e1, e2, hdet]
    have h1 := Within.round hr ((h 0 0).mul hr.nonneg (cof 1 1 2 2 1 2 2 1))
    have h2 := Within.round hr ((h 1 0).mul hr.nonneg (cof 0 2 2 1 0 1 2 2))
    have h3 := Within.round hr ((h 2 0).mul hr.nonneg (cof 0 1 1 2 0 2 1 1))
    have h4 := Within.round hr (h1.add h2)
    have h5 := Within.round hr (h4.add (h3.mono hr.nonneg (Nat.le_succ _)))
    exact h5.mono hr.nonneg (by omega)
  · intro h0; simp [h0]
  · intro h0
    have hq : Approx u 2 (1 / det) (fl (fl 1 / det)) := by
      have := Approx.round hr ((approx_fl hr 1).mul hr.nonneg (Approx.refl (u := u) (1 / det)))
      simpa [div_eq_mul_inv] using this
    have key : ∀ {A x y : ℝ}, Within u (2 * k + 2) A x y →
        Within u (2 * k + 5) (A / |det|) (x / det) (fl (y * fl (fl 1 / det))) := by
      intro A x y hx
      have := Within.round hr (hx.mul hr.nonneg hq.within)
      rw [abs_div, abs_one, mul_one_div, mul_one_div] at this
      exact this.mono hr.nonneg (by omega)
    rw [if_neg h0]
    simp only [Res.ok_bind]
    have nine : ∀ {a b c d e f g i j : ℝ}, ∃ P : Matrix (Fin 3) (Fin 3) ℝ,
        [a, b, c, d, e, f, g, i, j] = matMem P := fun {_ _ _ _ _ _ _ _ _} => exists_matMem rfl
    obtain ⟨P, hP⟩ := nine
    refine ⟨P, congrArg Res.ok hP, fun i j => ?_⟩
    rw [matMem_three] at hP
    simp only [List.cons.injEq, and_true] at hP
    obtain ⟨p1, p2, p3, p4, p5, p6, p7, p8, p9⟩ := hP
    rw [adjugate_entries, adjMagnitude_entries]
    simp only [hB]
    fin_cases i <;> fin_cases j
    · exact p1 ▸ key (cof 1 1 2 2 1 2 2 1)
    · exact p2 ▸ key (cof 0 2 2 1 0 1 2 2)
    · exact p3 ▸ key (cof 0 1 1 2 0 2 1 1)
    · exact p4 ▸ key (cof 1 2 2 0 1 0 2 2)
    · exact p5 ▸ key (cof 0 0 2 2 0 2 2 0)
    · exact p6 ▸ key (cof 0 2 1 0 0 0 1 2)
    · exact p7 ▸ key (cof 1 0 2 1 1 1 2 0)
    · exact p8 ▸ key (cof 0 1 2 0 0 0 2 1)
    · exact p9 ▸ key (cof 0 0 1 1 0 1 1 0)

theorem within_runCallsMat (h : Rounds fl u) {ι : Type} {d : ℕ} {L : List ι}
    {B f g : ι → Matrix (Fin d) (Fin d) ℝ} {k : ℕ} {body : ι → List ℝ → Res (List ℝ)}
    (hb : ∀ i M, body i (matMem M) = .ok (matMem fun a b => fl (M a b + g i a b)))
    (hk : ∀ i a b, Within u k (B i a b) (f i a b) (g i a b)) (m : ℕ) (A x r : Matrix (Fin d) (Fin d) ℝ)
    (hr : ∀ a b, Within u (k + m) (A a b) (x a b) (r a b)) :
    ∃ y : Matrix (Fin d) (Fin d) ℝ, runCalls L body (matMem r) = .ok (matMem y) ∧
      ∀ a b, Within u (k + m + L.length) (A a b + (L.map fun i => B i a b).sum)
        (x a b + (L.map fun i => f i a b).sum) (y a b) := by
  induction L generalizing m A x r with
  | nil => exact ⟨r, by simp, fun a b => by simpa using hr a b⟩
  | cons i L ih =>
    have h1 := fun a b => Within.round h ((hr a b).add ((hk i a b).mono h.nonneg (Nat.le_add_right k m)))
    obtain ⟨y, hy, hay⟩ := ih (m + 1) (fun a b => _) (fun a b => _) (fun a b => _) h1
    refine ⟨y, by rw [runCalls_cons, hb, Res.ok_bind]; exact hy, fun a b => ?_⟩
    have hay := hay a b
    simp only [List.map_cons, List.sum_cons, List.length_cons, ← add_assoc] at hay ⊢
    convert hay using 1
    omega

/-- The Jacobian loop in rounded arithmetic. -/
theorem jacobian_within (hr : Rounds fl u) {d : ℕ} {n : Fin d → ℕ} {t : LinearTransform ℝ}
    {b : Fin d → Basis ℝ} {X : ((k : Fin d) → Fin (n k)) → Fin d → ℝ} (hcell : Cell t b n X)
    {f g G : (k : Fin d) → Fin (n k) → ℝ → ℝ} {kv kg : Fin d → ℕ}
    (h : ∀ k, ApproxRealises u (b k) (n k) (f k) (g k) (G k) (kv k) (kg k)) (cfg : Config) (ξ : Fin d → ℝ)
    (extra : List ℝ) :
    ∃ J : Matrix (Fin d) (Fin d) ℝ,
      LinearTransform.jacobian cfg (roundedArith fl) t (List.ofFn ξ ++ extra)
        (matMem (0 : Matrix (Fin d) (Fin d) ℝ)) = .ok (matMem J) ∧
      ∀ i j, Within u ((∑ k, max (kv k) (kg k)) + d + ∏ k, n k)
        (∑ idx, (∏ k, if j = k then G k (idx k) (ξ k) else |f k (idx k) (ξ k)|) * |X idx i|)
        (∑ idx, (∏ k, if j = k then g k (idx k) (ξ k) else f k (idx k) (ξ k)) * X idx i) (J i j) := by
  obtain ⟨L, hL, hnd, hall⟩ := box_list n
  choose v hv hav using fun idx => product_gradient_within hr hcell.dims h idx ξ
  have hd := hcell.dims
  have hbl : t.shape.bases.length = d := by simp [hcell.bases]
  have hterm : ∀ (idx : (k : Fin d) → Fin (n k)) (i j : Fin d), Within u ((∑ k, max (kv k) (kg k)) + d)
      ((∏ k, if j = k then G k (idx k) (ξ k) else |f k (idx k) (ξ k)|) * |X idx i|)
      ((∏ k, if j = k then g k (idx k) (ξ k) else f k (idx k) (ξ k)) * X idx i)
      (fl (v idx j * X idx i)) := by
    intro idx i j
    have := Within.round hr ((hav idx j).mul hr.nonneg (Approx.refl (u := u) (X idx i)).within)
    exact this.mono hr.nonneg (by omega)
  obtain ⟨J, hJ, hw⟩ := within_runCallsMat hr (L := L) (body := fun idx =>
      LinearTransform.jacobianBody cfg (roundedArith fl) t (List.ofFn ξ ++ extra) (tup idx))
    (g := fun idx i j => fl (v idx j * X idx i)) (fun idx M => by
      rw [jacobianBody_ok hcell cfg (roundedArith fl) _ idx (g := v idx) ?_ M]
      · rfl
      · rw [gradient_append _ _ _ _ (by rw [hbl, List.length_ofFn]),
          (basisValue_eq _ hcell.inst (by rw [tup_length, hbl]) _).2.2.2, hcell.bases, hv]) hterm 0 0 0 0
    (fun a b => by simp [Within])
  refine ⟨J, by rw [LinearTransform.jacobian, supportLoop_eq hcell hL, hJ], fun i j => ?_⟩
  have hw := hw i j
  rw [sum_box hnd hall, sum_box hnd hall, box_length hnd hall, add_zero] at hw
  simpa using hw

end Verif.Lemmas
