import Verif.Lemmas.MonotoneFloat

/-! Products and sums in which two directions are exchanged. -/

namespace Verif.Lemmas

open Verif.Spec

section
variable {F : FloatFormat}

private theorem fold_cons {R : Type} (op : R → R → R) (a : Res R) {l : List (Res R)} (h : l ≠ []) :
    foldRight op (a :: l) = a >>= fun x => foldRight op l >>= fun y => .ok (op x y) := by
  cases l with
  | nil => exact absurd rfl h
  | cons b l => rfl

/-- The last two factors can be exchanged. -/
theorem fold_last_two {l : List (Res Flt)} {p q : Res Flt} {y : Flt} (h : foldRight (Flt.mul F) (l ++ [p, q]) = .ok y) :
    foldRight (Flt.mul F) (l ++ [q, p]) = .ok y := by
  induction l generalizing y with
  | nil =>
    obtain ⟨a, ha, h1⟩ := Res.bind_eq_ok.1 h
    obtain ⟨b, hb, h2⟩ := Res.bind_eq_ok.1 h1
    have hb : q = .ok b := hb
    subst ha hb
    rw [← h2, mul_flt_comm]
    rfl
  | cons a l ih =>
    rw [List.cons_append, fold_cons _ _ (by simp)] at h ⊢
    obtain ⟨x, hx, h1⟩ := Res.bind_eq_ok.1 h
    obtain ⟨z, hz, h2⟩ := Res.bind_eq_ok.1 h1
    rw [hx, ih hz]
    exact h2

/-- The last two directions exchanged. -/
def lastTwo (d : ℕ) : Equiv.Perm (Fin (d + 2)) := Equiv.swap (Fin.last d).castSucc (Fin.last (d + 1))

theorem lastTwo_lastTwo {d : ℕ} (k : Fin (d + 2)) : lastTwo d (lastTwo d k) = k := Equiv.swap_apply_self _ _ _

theorem ofFn_lastTwo {α : Type} {d : ℕ} (f : Fin (d + 2) → α) :
    List.ofFn f = List.ofFn (fun k : Fin d => f k.castSucc.castSucc) ++ [f (Fin.last d).castSucc, f (Fin.last (d + 1))] ∧
    List.ofFn (fun k => f (lastTwo d k)) = List.ofFn (fun k : Fin d => f k.castSucc.castSucc) ++ [f (Fin.last (d + 1)), f (Fin.last d).castSucc] := by
  constructor
  · rw [List.ofFn_succ_last, List.ofFn_succ_last, List.append_assoc]; rfl
  · rw [List.ofFn_succ_last, List.ofFn_succ_last, List.append_assoc]
    have e : ∀ k : Fin d, lastTwo d k.castSucc.castSucc = k.castSucc.castSucc := fun k =>
      Equiv.swap_apply_of_ne_of_ne (fun h => (Fin.castSucc_lt_last k).ne (Fin.castSucc_injective _ h)) (Fin.castSucc_lt_last _).ne
    have e1 : lastTwo d (Fin.last d).castSucc = Fin.last (d + 1) := Equiv.swap_apply_left _ _
    have e2 : lastTwo d (Fin.last (d + 1)) = (Fin.last d).castSucc := Equiv.swap_apply_right _ _
    simp only [e, e1, e2]
    rfl

theorem fold_exchanged {d : ℕ} {f : Fin (d + 2) → Res Flt} {y : Flt} (h : foldRight (Flt.mul F) (List.ofFn f) = .ok y) :
    foldRight (Flt.mul F) (List.ofFn fun k => f (lastTwo d k)) = .ok y := by
  rw [(ofFn_lastTwo f).1] at h
  rw [(ofFn_lastTwo f).2]
  exact fold_last_two h

section product
variable {d : ℕ} (b : Fin d → Basis Flt) (idx : Fin d → Int) (x : Fin d → Flt)

theorem value_fold : BasisProduct.value (floatArith F) (List.ofFn b) (List.ofFn idx) (List.ofFn x)
    = foldRight (Flt.mul F) (List.ofFn fun k => (b k).value (idx k) (x k)) := by
  unfold BasisProduct.value
  rw [staticAssert_bind_true (by simp), expand_ofFn]
  show foldRight (Flt.mul F) _ = _
  congr 2
  funext k
  rw [tableAt_ofFn, Res.ok_bind]

theorem gradient_fold (hd : 0 < d) : BasisProduct.gradient (floatArith F) (List.ofFn b) (List.ofFn idx) (List.ofFn x)
    = sequenceRes (List.ofFn fun a : Fin d => foldRight (Flt.mul F) (List.ofFn fun k =>
        if a = k then (b k).gradient (idx k) (x k) else (b k).value (idx k) (x k))) := by
  unfold BasisProduct.gradient
  rw [staticAssert_bind_true (by simp), staticAssert_bind_true (by simpa using hd),
    List.length_ofFn, makeIntegerSequence_ok (by omega), Res.ok_bind, mapUpTo]
  congr 2
  funext a
  rw [expand_ofFn]
  show foldRight (Flt.mul F) _ = _
  congr 2
  funext k
  rw [BasisProduct.gradientComponentHelper, tableAt_ofFn, Res.ok_bind]
  by_cases e : a = k
  · subst e; rw [if_pos rfl, if_pos rfl]
  · rw [if_neg (by intro h; exact e (Fin.ext (by exact_mod_cast h))), if_neg e]

end product

section exchanged
variable {d : ℕ} {b : Fin (d + 2) → Basis Flt} {idx : Fin (d + 2) → Int} {x : Fin (d + 2) → Flt}

theorem value_exchanged {v : Flt} (h : BasisProduct.value (floatArith F) (List.ofFn b) (List.ofFn idx) (List.ofFn x) = .ok v) :
    BasisProduct.value (floatArith F) (List.ofFn fun k => b (lastTwo d k)) (List.ofFn fun k => idx (lastTwo d k))
      (List.ofFn fun k => x (lastTwo d k)) = .ok v := by
  rw [value_fold] at h ⊢
  exact fold_exchanged (f := fun k => (b k).value (idx k) (x k)) h

theorem gradient_exchanged {g : Fin (d + 2) → Flt}
    (h : BasisProduct.gradient (floatArith F) (List.ofFn b) (List.ofFn idx) (List.ofFn x) = .ok (List.ofFn g)) :
    BasisProduct.gradient (floatArith F) (List.ofFn fun k => b (lastTwo d k)) (List.ofFn fun k => idx (lastTwo d k))
      (List.ofFn fun k => x (lastTwo d k)) = .ok (List.ofFn fun a => g (lastTwo d a)) := by
  rw [gradient_fold _ _ _ (by omega)] at h ⊢
  have h := sequenceRes_inv h
  rw [List.map_ofFn, List.ofFn_inj] at h
  have hcomp : ∀ a : Fin (d + 2), foldRight (Flt.mul F) (List.ofFn fun k => if a = k then (b (lastTwo d k)).gradient (idx (lastTwo d k)) (x (lastTwo d k))
      else (b (lastTwo d k)).value (idx (lastTwo d k)) (x (lastTwo d k))) = .ok (g (lastTwo d a)) := by
    intro a
    have ha := fold_exchanged (congrFun h (lastTwo d a))
    have e : ∀ k, (lastTwo d a = lastTwo d k) = (a = k) := fun k => propext (lastTwo d).injective.eq_iff
    simp only [e] at ha
    exact ha
  have := sequenceRes_ok (List.finRange (d + 2)) (fun a => g (lastTwo d a))
  rw [← List.ofFn_eq_map, ← List.ofFn_eq_map] at this
  simp only [hcomp]
  exact this

end exchanged
end

/-! ### evaluation -/

/-- A shape function. -/
def knownShape (T : RealType) (fam : Family) (order : ℕ) (d : ℕ) (idx : List Int) (x : List ℚ) : Res (Option ℚ) :=
  ParentElement.basisValue (evalArith T.format) ⟨.ok d, List.replicate d (knownBasis T fam order)⟩ idx (x.map some)

/-- Interpolation. -/
def knownField (T : RealType) (fam : Family) (order : ℕ) (d : ℕ) (x : List ℚ) (y : List Int → ℚ) : Res (Option ℚ) :=
  ParentElement.value (evalArith T.format) ⟨.ok d, List.replicate d (knownBasis T fam order)⟩ (x.map some) fun i => .ok (some (y i))

section sound
variable {T : RealType} {fam : Family} {order d : ℕ} {x : List ℚ} {b : Basis Flt}
  (hb : b = ⟨((order + 1 : ℕ) : Int),
    LagrangeBasis.value (floatArith T.format) (fam.spacingIn T.arith ((order + 1 : ℕ) : Int)) ((order + 1 : ℕ) : Int),
    LagrangeBasis.gradient (floatArith T.format) (fam.spacingIn T.arith ((order + 1 : ℕ) : Int)) ((order + 1 : ℕ) : Int)⟩)

include hb in
private theorem replicate_rel : ∀ d : ℕ, List.Forall₂ (BasisRel False Knows) (List.replicate d (knownBasis T fam order)) (List.replicate d b)
  | 0 => .nil
  | d + 1 => .cons (by rw [hb]; exact knownBasis_rel T fam order) (replicate_rel d)

private theorem coords_rel : ∀ x : List ℚ, List.Forall₂ Knows (x.map some) (x.map fun q : ℚ => Flt.ofReal q)
  | [] => .nil
  | q :: x => .cons (knows_some q) (coords_rel x)

include hb in
theorem knownShape_sound {idx : List Int} {q : ℚ} (h : knownShape T fam order d idx x = .ok (some q)) :
    ParentElement.basisValue (floatArith T.format) ⟨.ok d, List.replicate d b⟩ idx (x.map fun q : ℚ => Flt.ofReal q) = .ok (Flt.ofReal q) := by
  have hrel : ResRel False Knows (knownShape T fam order d idx x)
      (ParentElement.basisValue (floatArith T.format) ⟨.ok d, List.replicate d b⟩ idx (x.map fun q : ℚ => Flt.ofReal q)) :=
    shapeValue_rel (eval_rel T.format).toOpsRel ⟨rfl, replicate_rel hb d⟩ (coords_rel x) idx
  rcases hrel _ h with ⟨m, hm, hk⟩ | ⟨hf, -⟩
  · rw [hm, hk q rfl]
  · exact hf.elim

include hb in
theorem knownField_sound {y : List Int → ℚ} {q : ℚ} (h : knownField T fam order d x y = .ok (some q)) :
    ParentElement.value (floatArith T.format) ⟨.ok d, List.replicate d b⟩ (x.map fun q : ℚ => Flt.ofReal q)
      (fun i => .ok (Flt.ofReal (y i))) = .ok (Flt.ofReal q) := by
  have hrel : ResRel False Knows (knownField T fam order d x y)
      (ParentElement.value (floatArith T.format) ⟨.ok d, List.replicate d b⟩ (x.map fun q : ℚ => Flt.ofReal q)
        fun i => .ok (Flt.ofReal (y i))) :=
    parentValue_rel (eval_rel T.format).toOpsRel ⟨rfl, replicate_rel hb d⟩ (coords_rel x) fun _ => .ok (knows_some _)
  rcases hrel _ h with ⟨m, hm, hk⟩ | ⟨hf, -⟩
  · rw [hm, hk q rfl]
  · exact hf.elim

end sound

/-- Coordinates with as many digits as the type has. -/
def longCoordinate (T : RealType) (n : ℕ) : ℚ :=
  match T with
  | .float => n / 16777216
  | .double => n * 536870911 / 9007199254740992

/-- The first shape function changes when the first two directions are exchanged. -/
def shapeChanged (T : RealType) (fam : Family) (order : ℕ) (n : ℕ) : Bool :=
  let a := longCoordinate T 12345677
  let b := longCoordinate T 7654321
  let c := longCoordinate T n
  match knownShape T fam order 3 [0, 0, 0] [a, b, c], knownShape T fam order 3 [0, 0, 0] [b, a, c] with
  | .ok (some p), .ok (some q) => decide (p ≠ q) && [a, b, c].all fun x => decide (|x| ≤ 1) && decide (evalRound T.format x = some x)
  | _, _ => false

/-- Third coordinates that are tried. -/
def thirdCoordinates : List ℕ := [2718281, 5772157, 8675309, 12345677, 7654321, 1357911, 3141593, 11223345, 4669201]

theorem changed_equal_float : ∀ order ∈ [1, 2, 3, 4, 5, 6, 7, 8], thirdCoordinates.any (shapeChanged .float .equal order) = true := by decide +kernel

theorem changed_equal_double : ∀ order ∈ [1, 2, 3, 4, 5, 6, 7, 8], thirdCoordinates.any (shapeChanged .double .equal order) = true := by decide +kernel

theorem changed_lobatto_float : ∀ order ∈ [1, 2, 3, 4, 5, 6, 7, 8], thirdCoordinates.any (shapeChanged .float .gaussLobatto order) = true := by
  decide +kernel

theorem changed_lobatto_double : ∀ order ∈ [1, 2, 3, 4, 5, 6, 7, 8], thirdCoordinates.any (shapeChanged .double .gaussLobatto order) = true := by
  decide +kernel

theorem changed_legendre : ∀ T ∈ types, ∀ order ∈ [1, 2, 3], thirdCoordinates.any (shapeChanged T .gaussLegendre order) = true := by decide +kernel

theorem shapeChanged_spec {T : RealType} {fam : Family} {order n : ℕ} (h : shapeChanged T fam order n = true) :
    ∃ a b c p q : ℚ, p ≠ q ∧ knownShape T fam order 3 [0, 0, 0] [a, b, c] = .ok (some p) ∧ knownShape T fam order 3 [0, 0, 0] [b, a, c] = .ok (some q) ∧
      ∀ x ∈ [a, b, c], |x| ≤ 1 ∧ Represents T.format (x : ℝ) := by
  unfold shapeChanged at h
  dsimp only at h
  split at h
  · next p q e1 e2 =>
    rw [Bool.and_eq_true, decide_eq_true_eq, List.all_eq_true] at h
    refine ⟨_, _, _, p, q, h.1, e1, e2, fun x hx => ?_⟩
    have := h.2 x hx
    rw [Bool.and_eq_true, decide_eq_true_eq, decide_eq_true_eq] at this
    exact ⟨this.1, round_represents _ (evalRound_sound _ this.2)⟩
  · cases h

/-- Nodal values on a square: 1 and, at two neighbours, half and all of its distance to the next number. -/
def squareNodes (T : RealType) (l : List Int) : ℚ :=
  if l = [0, 0] then 1 else if l = [0, 1] then belowOne T else if l = [1, 0] then 2 * belowOne T else 0

/-- The value at the centre of a square changes when the directions are exchanged. -/
def fieldChanged (T : RealType) (fam : Family) : Bool :=
  match knownField T fam 1 2 [0, 0] (squareNodes T), knownField T fam 1 2 [0, 0] fun l => squareNodes T l.reverse with
  | .ok (some p), .ok (some q) => decide (p ≠ q)
  | _, _ => false

theorem field_changed : ∀ T ∈ types, ∀ fam ∈ [Family.equal, .gaussLegendre, .gaussLobatto], fieldChanged T fam = true := by decide +kernel

theorem squareNodes_represented : ∀ T ∈ types, ∀ l ∈ [[0, 0], [0, 1], [1, 0], [(1 : Int), 1]],
    evalRound T.format (squareNodes T l) = some (squareNodes T l) ∧ |squareNodes T l| ≤ 1 := by decide +kernel

theorem fieldChanged_spec {T : RealType} {fam : Family} (h : fieldChanged T fam = true) :
    ∃ p q : ℚ, p ≠ q ∧ knownField T fam 1 2 [0, 0] (squareNodes T) = .ok (some p) ∧
      knownField T fam 1 2 [0, 0] (fun l => squareNodes T l.reverse) = .ok (some q) := by
  unfold fieldChanged at h
  split at h
  · next p q e1 e2 => exact ⟨p, q, of_decide_eq_true h, e1, e2⟩
  · cases h

end Verif.Lemmas
