import Verif.Model.InverseAlias
import Verif.Props.Inverse

/-!
# Property C102: an element of the matrix as `det`
-/

namespace Verif.Props

open Verif.Spec Verif.Lemmas Verif.MathUtilities

variable {R K : Type} [Field K]

/-- What is left if `det` is an element of the matrix, given the inverse `m'`. -/
def aliasResult (A : Arith R) (m' : List R) (p q : Fin 3) (det inv : R) : List R :=
  if p = 0 then m'.set q (A.mul det inv) else m'

private theorem finish_native (A : Arith R) (x y z D a b c d e f g i j : R) (p q : Fin 3) :
    inverseAliasedFinish A native3 [x, y, z, d, e, f, g, i, j] ((p : ℕ) : Int) ((q : ℕ) : Int) D a b c d e f g i j
      = (A.div (A.lit 1) D >>= fun inv => .ok (aliasResult A [A.mul x inv, A.mul y inv, A.mul z inv,
          A.mul (A.sub (A.mul f g) (A.mul d j)) inv, A.mul (A.sub (A.mul a j) (A.mul c g)) inv,
          A.mul (A.sub (A.mul c d) (A.mul a f)) inv, A.mul (A.sub (A.mul d i) (A.mul e g)) inv,
          A.mul (A.sub (A.mul b g) (A.mul a i)) inv, A.mul (A.sub (A.mul a e) (A.mul b d)) inv] p q D inv)) := by
  fin_cases p <;> fin_cases q <;> rfl

private theorem alias_native (A : Arith R) {m : List R} (hm : m.length = 9) (p q : Fin 3) :
    ∃ (det : R) (after : Res (List R)), inverseNative A m = .ok (det, after) ∧
      inverseAliased A native3 m ((p : ℕ) : Int) ((q : ℕ) : Int)
        = (A.div (A.lit 1) det >>= fun inv => after >>= fun m' => .ok (aliasResult A m' p q det inv)) := by
  obtain ⟨a, b, c, d, e, f, g, i, j, rfl⟩ := exists_nine hm
  refine ⟨_, _, inverseNative_eq A a b c d e f g i j, ?_⟩
  refine Eq.trans ?_ ((finish_native A (A.sub (A.mul e j) (A.mul f i)) (A.sub (A.mul c i) (A.mul b j))
    (A.sub (A.mul b f) (A.mul c e)) (A.add (A.add (A.mul a (A.sub (A.mul e j) (A.mul f i)))
      (A.mul d (A.sub (A.mul c i) (A.mul b j)))) (A.mul g (A.sub (A.mul b f) (A.mul c e)))) a b c d e f g i j p q).trans ?_)
  · rfl
  · cases A.div (A.lit 1) (A.add (A.add (A.mul a (A.sub (A.mul e j) (A.mul f i)))
      (A.mul d (A.sub (A.mul c i) (A.mul b j)))) (A.mul g (A.sub (A.mul b f) (A.mul c e)))) <;> rfl

/-! ### the generic overload -/

section carray
variable (cfg : Config) (pre post : List R)

private theorem bind_get {m : List R} (hm : m.length = 9) {i j : Int} (hi : 0 ≤ i ∧ i < 3) (hj : 0 ≤ j ∧ j < 3)
    {f g : R → Res (List R)} (h : ∀ x, f x = (fun m' => pre ++ m' ++ post) <$> g x) :
    ((carray cfg ⟨[3, 3], pre.length⟩).get (pre ++ m ++ post) i j >>= f)
      = (fun m' => pre ++ m' ++ post) <$> (native3.get m i j >>= g) := by
  rw [carray_get cfg pre post hm hi hj]
  cases native3.get m i j with
  | ok x => simp only [Res.ok_bind, h]
  | _ => rfl

private theorem bind_set {m : List R} (hm : m.length = 9) {i j : Int} (hi : 0 ≤ i ∧ i < 3) (hj : 0 ≤ j ∧ j < 3) (x : R)
    {f g : List R → Res (List R)}
    (h : ∀ m : List R, m.length = 9 → f (pre ++ m ++ post) = (fun m' => pre ++ m' ++ post) <$> g m) :
    ((carray cfg ⟨[3, 3], pre.length⟩).set (pre ++ m ++ post) i j x >>= f)
      = (fun m' => pre ++ m' ++ post) <$> (native3.set m i j x >>= g) := by
  obtain ⟨m', h1, h2, h3⟩ := carray_set cfg pre post hm hi hj x
  rw [h1, h3]
  simp only [Res.ok_bind, h m' h2]

private theorem last_set {m : List R} (hm : m.length = 9) {i j : Int} (hi : 0 ≤ i ∧ i < 3) (hj : 0 ≤ j ∧ j < 3) (x : R) :
    (carray cfg ⟨[3, 3], pre.length⟩).set (pre ++ m ++ post) i j x
      = (fun m' => pre ++ m' ++ post) <$> native3.set m i j x := by
  obtain ⟨m', h1, -, h3⟩ := carray_set cfg pre post hm hi hj x
  rw [h1, h3]; rfl

private theorem alias_carray (A : Arith R) {m : List R} (hm : m.length = 9) {p q : Int} (hp : 0 ≤ p ∧ p < 3) (hq : 0 ≤ q ∧ q < 3) :
    inverseAliased A (carray cfg ⟨[3, 3], pre.length⟩) (pre ++ m ++ post) p q
      = (fun m' => pre ++ m' ++ post) <$> inverseAliased A native3 m p q := by
  unfold inverseAliased
  iterate 9 refine bind_get cfg pre post hm (by omega) (by omega) fun _ => ?_
  refine bind_set cfg pre post hm (by omega) (by omega) _ fun m hm => ?_
  refine bind_set cfg pre post hm (by omega) (by omega) _ fun m hm => ?_
  refine bind_set cfg pre post hm (by omega) (by omega) _ fun m hm => ?_
  iterate 3 refine bind_get cfg pre post hm (by omega) (by omega) fun _ => ?_
  unfold inverseAliasedFinish
  refine bind_set cfg pre post hm hp hq _ fun m hm => ?_
  refine bind_get cfg pre post hm hp hq fun det => ?_
  cases A.div (A.lit 1) det with
  | ok inv =>
    simp only [Res.ok_bind, inverseFinish, MatrixOps.scale, bind_assoc]
    refine bind_get cfg pre post hm (by omega) (by omega) fun _ => ?_
    refine bind_set cfg pre post hm (by omega) (by omega) _ fun m hm => ?_
    refine bind_get cfg pre post hm (by omega) (by omega) fun _ => ?_
    refine bind_set cfg pre post hm (by omega) (by omega) _ fun m hm => ?_
    refine bind_get cfg pre post hm (by omega) (by omega) fun _ => ?_
    refine bind_set cfg pre post hm (by omega) (by omega) _ fun m hm => ?_
    refine bind_set cfg pre post hm (by omega) (by omega) _ fun m hm => ?_
    refine bind_set cfg pre post hm (by omega) (by omega) _ fun m hm => ?_
    refine bind_set cfg pre post hm (by omega) (by omega) _ fun m hm => ?_
    refine bind_set cfg pre post hm (by omega) (by omega) _ fun m hm => ?_
    refine bind_set cfg pre post hm (by omega) (by omega) _ fun m hm => ?_
    exact last_set cfg pre post hm (by omega) (by omega) _
  | _ => rfl

end carray

/-! ### C102 -/

/-- What C102 asks for: if `det` is the element `(p,q)` of an invertible matrix, `inverse` leaves the inverse matrix. -/
def InverseInPlace (K : Type) [Field K] (p q : Fin 3) : Prop :=
  ∀ (M : Matrix (Fin 3) (Fin 3) K) (m : List K), HoldsNative m M → M.det ≠ 0 →
    ∃ (m' : List K) (N : Matrix (Fin 3) (Fin 3) K),
      inverseAliased (exactArith K) native3 m ((p : ℕ) : Int) ((q : ℕ) : Int) = .ok m' ∧ HoldsNative m' N ∧
      N * M = 1 ∧ M * N = 1

/-- **C102, second and third row.** In any arithmetic, if `det` is an element of the second or third row, `inverse` leaves the
same matrix as with `det` elsewhere. -/
theorem C102_lower_rows_partial (A : Arith R) (m : List R) (hm : m.length = 9) {p : Fin 3} (hp : p ≠ 0) (q : Fin 3) :
    ∃ (det : R) (after : Res (List R)), inverseNative A m = .ok (det, after) ∧
      ((∃ inv, A.div (A.lit 1) det = .ok inv) →
        inverseAliased A native3 m ((p : ℕ) : Int) ((q : ℕ) : Int) = after ∧ ∃ m', after = .ok m') ∧
      (A.div (A.lit 1) det = .nonfinite →
        inverseAliased A native3 m ((p : ℕ) : Int) ((q : ℕ) : Int) = .nonfinite) := by
  obtain ⟨det, after, h1, h2⟩ := alias_native A hm p q
  refine ⟨det, after, h1, ?_, fun h => by rw [h2, h]; rfl⟩
  rintro ⟨inv, hinv⟩
  obtain ⟨det', after', -, h1', -, -, -, h3⟩ := C45_overloads_agree checkedHost A [] [] m hm
  obtain ⟨rfl, rfl⟩ := Prod.mk.inj (Res.ok.inj (h1.symm.trans h1'))
  obtain ⟨m', hm'⟩ := h3 ⟨inv, hinv⟩
  refine ⟨?_, m', hm'⟩
  rw [h2, hinv, hm']
  simp [aliasResult, hp]

/-- **C102, second and third row, exactly.** There the inverse is right. -/
theorem C102_lower_rows_exact_partial {p : Fin 3} (hp : p ≠ 0) (q : Fin 3) : InverseInPlace K p q := by
  intro M m hm hD
  obtain ⟨det, after, h1, rfl, -, h4⟩ := C44_inverse_native M m hm
  obtain ⟨m', N, rfl, hN, h5⟩ := h4 hD
  obtain ⟨det', after', h6, h7, -⟩ := C102_lower_rows_partial (exactArith K) m hm.1 hp q
  obtain ⟨rfl, rfl⟩ := Prod.mk.inj (Res.ok.inj (h1.symm.trans h6))
  exact ⟨m', N, (h7 ⟨_, by simp [exactArith, hD]; rfl⟩).1, hN, h5⟩

/-- **C102, first row.** In any arithmetic, if `det` is an element of the first row, that element is left as
`det * ( 1 / det )`, and the other eight elements as they should be. -/
theorem C102_first_row_partial (A : Arith R) (m : List R) (hm : m.length = 9) (q : Fin 3) {det inv : R} {m' : List R}
    (h : inverseNative A m = .ok (det, .ok m')) (hinv : A.div (A.lit 1) det = .ok inv) :
    inverseAliased A native3 m 0 ((q : ℕ) : Int) = .ok (m'.set q (A.mul det inv)) := by
  obtain ⟨det', after, h1, h2⟩ := alias_native A hm 0 q
  obtain ⟨rfl, rfl⟩ := Prod.mk.inj (Res.ok.inj (h.symm.trans h1))
  refine h2.trans ?_
  rw [hinv]
  simp [aliasResult]

/-- **C102, CArrays.** The generic overload does the same to a view of nine elements of a block, and changes nothing else. -/
theorem C102_carray_partial (cfg : Config) (A : Arith R) (pre post m : List R) (hm : m.length = 9) (p q : Fin 3) :
    inverseAliased A (carray cfg ⟨[3, 3], pre.length⟩) (pre ++ m ++ post) ((p : ℕ) : Int) ((q : ℕ) : Int)
      = (fun m' => pre ++ m' ++ post) <$> inverseAliased A native3 m ((p : ℕ) : Int) ((q : ℕ) : Int) :=
  alias_carray cfg pre post A hm ⟨by omega, by have := p.2; omega⟩ ⟨by omega, by have := q.2; omega⟩

private theorem first_row_wrong {M : Matrix (Fin 3) (Fin 3) K} (hD : M.det ≠ 0) {q j : Fin 3} (hj : j ≠ 0)
    (hM : ∀ N : Matrix (Fin 3) (Fin 3) K, (N * M) 0 j = N 0 q) : ¬ InverseInPlace K 0 q := by
  intro h
  obtain ⟨det, after, h1, rfl, -, h4⟩ := C44_inverse_native M (matMem M) (holdsNative_iff.2 rfl)
  obtain ⟨m', N0, rfl, hN0, -⟩ := h4 hD
  obtain ⟨m'', N, h5, hN, h6, -⟩ := h M (matMem M) (holdsNative_iff.2 rfl) hD
  have hinv : (exactArith K).div ((exactArith K).lit 1) M.det = .ok (1 / M.det) := by simp [exactArith, hD]
  have h7 := C102_first_row_partial (exactArith K) (matMem M) (matMem_length M) q h1 hinv
  have h8 := Res.ok.inj (h5.symm.trans h7)
  subst h8
  have h9 := hN.2 0 q
  have hl : (q : ℕ) < m'.length := by rw [hN0.1]; omega
  have h10 : native3.get (m'.set q ((exactArith K).mul M.det (1 / M.det))) ((0 : ℕ) : Int) ((q : ℕ) : Int) = .ok 1 := by
    have hq := q.2
    have e : (exactArith K).mul M.det (1 / M.det) = 1 := by simp [exactArith, hD]
    simp only [native3, nativeIndex, if_pos (show 0 ≤ ((0 : ℕ) : Int) ∧ ((0 : ℕ) : Int) < 3 ∧ 0 ≤ ((q : ℕ) : Int) ∧ ((q : ℕ) : Int) < 3 by omega),
      Res.ok_bind, e]
    rw [load_eq_ok (by omega), show ((((3 * ((0 : ℕ) : Int) + ((q : ℕ) : Int)).toNat : ℕ) : Int)).toNat = (q : ℕ) by omega,
      List.getElem?_set_self hl]
  have h11 : N 0 q = 1 := Res.ok.inj (h9.symm.trans h10)
  have h12 := hM N
  rw [h6, h11, Matrix.one_apply_ne hj.symm] at h12
  exact zero_ne_one h12

/-- **C102 is violated.** For every element of the first row, over every field, there is an invertible matrix whose inverse
is not what is left when `det` is that element. -/
theorem C102_violated (q : Fin 3) : ¬ InverseInPlace K 0 q := by
  rcases (show q = 0 ∨ q ≠ 0 from em _) with rfl | hq
  · refine first_row_wrong (M := !![0, 1, 0; 1, 0, 0; 0, 0, 1]) (j := 1) ?_ (by decide) fun N => ?_
    · rw [Matrix.det_fin_three]; simp
    · simp [Matrix.mul_apply, Fin.sum_univ_three]
  · exact first_row_wrong (M := 1) (j := q) (by simp) hq fun N => by rw [Matrix.mul_one]

/-- Non-vacuity: the nine elements of an invertible matrix, and what is left of them with `det` at `(1,2)` and at `(0,0)`. -/
example : HoldsNative [2, 0, 0, 0, 4, 0, 1, 0, 1] (!![2, 0, 0; 0, 4, 0; 1, 0, 1] : Matrix (Fin 3) (Fin 3) ℚ) ∧
    inverseAliased (exactArith ℚ) native3 [2, 0, 0, 0, 4, 0, 1, 0, 1] 1 2 = .ok [1 / 2, 0, 0, 0, 1 / 4, 0, -1 / 2, 0, 1] ∧
    inverseAliased (exactArith ℚ) native3 [2, 0, 0, 0, 4, 0, 1, 0, 1] 0 0 = .ok [1, 0, 0, 0, 1 / 4, 0, -1 / 2, 0, 1] := by
  refine ⟨holdsNative_iff.2 (by rw [matMem_three]; simp), ?_, ?_⟩
  · refine (finish_native (exactArith ℚ) _ _ _ _ 2 0 0 0 4 0 1 0 1 1 2).trans ?_
    simp [exactArith, aliasResult]; norm_num
  · refine (finish_native (exactArith ℚ) _ _ _ _ 2 0 0 0 4 0 1 0 1 0 0).trans ?_
    simp [exactArith, aliasResult]; norm_num

end Verif.Props
