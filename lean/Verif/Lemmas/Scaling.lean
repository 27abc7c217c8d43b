import Verif.Model.Scaling
import Verif.Lemmas.CArrayAccess
import Verif.Lemmas.Tensor

/-! # Scalings -/

namespace Verif.Lemmas

open Verif.Spec

variable {R : Type}

theorem write_vec (cfg : Config) {d : ℕ} (hs : d ≤ 2147483647) (g : Fin d → R) (k : Fin d) (x : R) :
    CArray.write cfg (List.ofFn g) (CArray.whole [(d : Int)]) [((k : ℕ) : Int)] x
      = .ok (List.ofFn (Function.update g k x)) := by
  have hk := k.2
  rw [write_eq cfg ⟨by simp [CArray.whole], by simp [CArray.whole]; omega, by simp [CArray.whole]; omega⟩
    ⟨by simp [CArray.whole], by simp [CArray.whole]⟩ (by simp [InBox, CArray.whole])]
  rw [show (CArray.whole [(d : Int)]).off + rowMajor (CArray.whole [(d : Int)]).dims [((k : ℕ) : Int)]
    = ((k : ℕ) : Int) by simp [CArray.whole, rowMajor]]
  rw [Int.toNat_natCast, set_ofFn]

theorem ofFn_length_eq {d : ℕ} {l : List R} (h : l.length = d) : ∃ g : Fin d → R, l = List.ofFn g :=
  ⟨fun k => l[(k : ℕ)]'(by rw [h]; exact k.2), by
    apply List.ext_getElem
    · simp [h]
    · intro k h1 h2; simp⟩

theorem update_three (g x : Fin 3 → R) :
    Function.update (Function.update (Function.update g 0 (x 0)) 1 (x 1)) 2 (x 2) = x := by
  funext k
  fin_cases k <;> simp [Function.update]

theorem write_three (cfg : Config) (g x : Fin 3 → R) :
    (CArray.write cfg (List.ofFn g) (CArray.whole [3]) [0] (x 0) >>= fun J =>
      CArray.write cfg J (CArray.whole [3]) [1] (x 1) >>= fun J =>
        CArray.write cfg J (CArray.whole [3]) [2] (x 2)) = .ok (List.ofFn x) := by
  have h0 := write_vec cfg (d := 3) (by norm_num) g 0 (x 0)
  have h1 := write_vec cfg (d := 3) (by norm_num) (Function.update g 0 (x 0)) 1 (x 1)
  have h2 := write_vec cfg (d := 3) (by norm_num) (Function.update (Function.update g 0 (x 0)) 1 (x 1)) 2 (x 2)
  rw [update_three] at h2
  change CArray.write cfg (List.ofFn g) (CArray.whole [3]) [0] (x 0) = _ at h0
  change CArray.write cfg (List.ofFn (Function.update g 0 (x 0))) (CArray.whole [3]) [1] (x 1) = _ at h1
  rw [h0, Res.ok_bind, h1, Res.ok_bind]
  exact h2

theorem scaling_jacobian (cfg : Config) (A : Arith R) (s : Scaling R) (h : Fin 3 → R)
    (hs : s.getData = List.ofFn h) {J : List R} (hJ : J.length = 3) :
    s.jacobian cfg A J = .ok (List.ofFn fun k => A.mul (A.lit (1 / 2)) (h k)) := by
  obtain ⟨g, rfl⟩ := ofFn_length_eq hJ
  rw [Scaling.jacobian, hs]
  exact write_three cfg g fun k => A.mul (A.lit (1 / 2)) (h k)

theorem scaling_inverseJacobian (cfg : Config) (A : Arith R) (s : Scaling R) (h : Fin 3 → R)
    (hs : s.getData = List.ofFn h) {J : List R} (hJ : J.length = 3) :
    ∃ r, s.inverseJacobian cfg A J
        = .ok (A.mul (A.mul (A.mul (A.lit (1 / 8)) (h 0)) (h 1)) (h 2), r) ∧
      (∀ q : Fin 3 → R, (∀ k, A.div (A.lit 2) (h k) = .ok (q k)) → r = .ok (List.ofFn q)) ∧
      ((∃ k, A.div (A.lit 2) (h k) = .nonfinite) →
        (∀ k, A.div (A.lit 2) (h k) = .nonfinite ∨ ∃ q, A.div (A.lit 2) (h k) = .ok q) → r = .nonfinite) := by
  obtain ⟨g, rfl⟩ := ofFn_length_eq hJ
  refine ⟨Scaling.inverseEntries cfg A (h 0) (h 1) (h 2) (List.ofFn g), ?_, ?_, ?_⟩
  · rw [Scaling.inverseJacobian, hs]; rfl
  · intro q hq
    have := write_three cfg g q
    simp only [Scaling.inverseEntries, hq, Res.ok_bind]
    exact this
  · rintro ⟨k, hk⟩ hall
    have h0 := fun x => write_vec cfg (d := 3) (by norm_num) g 0 x
    have h1 := fun x y => write_vec cfg (d := 3) (by norm_num) (Function.update g 0 x) 1 y
    change ∀ x, CArray.write cfg (List.ofFn g) (CArray.whole [3]) [0] x = _ at h0
    change ∀ x y, CArray.write cfg (List.ofFn (Function.update g 0 x)) (CArray.whole [3]) [1] y = _ at h1
    unfold Scaling.inverseEntries
    rcases hall 0 with e0 | ⟨q0, e0⟩
    · rw [e0]; rfl
    · rw [e0, Res.ok_bind, h0, Res.ok_bind]
      rcases hall 1 with e1 | ⟨q1, e1⟩
      · rw [e1]; rfl
      · rw [e1, Res.ok_bind, h1, Res.ok_bind]
        rcases hall 2 with e2 | ⟨q2, e2⟩
        · rw [e2]; rfl
        · exfalso
          fin_cases k
          · exact absurd (e0.symm.trans hk) (by simp)
          · exact absurd (e1.symm.trans hk) (by simp)
          · exact absurd (e2.symm.trans hk) (by simp)

theorem uniform_jacobian (cfg : Config) (A : Arith R) (s : UniformScaling R) {J : List R}
    (hJ : J.length = 1) : s.jacobian cfg A J = .ok [A.mul (A.lit (1 / 2)) s.getData] := by
  obtain ⟨g, rfl⟩ := ofFn_length_eq hJ
  have h0 := write_vec cfg (d := 1) (by norm_num) g 0 (A.mul (A.lit (1 / 2)) s.getData)
  rw [UniformScaling.jacobian]
  refine h0.trans ?_
  simp

theorem uniform_inverseEntry (cfg : Config) (A : Arith R) (h : R) {J : List R} (hJ : J.length = 1) :
    UniformScaling.inverseEntry cfg A h J = (A.div (A.lit 2) h >>= fun q => .ok [q]) := by
  obtain ⟨g, rfl⟩ := ofFn_length_eq hJ
  have h0 := fun q => write_vec cfg (d := 1) (by norm_num) g 0 q
  rw [UniformScaling.inverseEntry]
  congr 1
  funext q
  refine (h0 q).trans ?_
  simp

end Verif.Lemmas
