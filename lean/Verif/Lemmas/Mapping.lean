import Verif.Lemmas.MatrixMemory
import Verif.Lemmas.Inverse

/-! # The Jacobian loops of `LinearTransform` -/

namespace Verif.Lemmas

open Verif.Spec

variable {R : Type} {d : ℕ} {n : Fin d → ℕ}

/-- A transform over `d` directions with `n k` support points in direction `k`, holding the points `X`. -/
structure Cell (t : LinearTransform R) (b : Fin d → Basis R) (n : Fin d → ℕ)
    (X : ((k : Fin d) → Fin (n k)) → Fin d → R) : Prop where
  dims : 0 < d
  small : d * d ≤ 2147483647
  bases : t.shape.bases = List.ofFn b
  inst : t.shape.instantiate = .ok ()
  count : ∀ k, (b k).numSupportPoints = n k
  points : HoldsPoints t.data X

variable {t : LinearTransform R} {b : Fin d → Basis R} {X : ((k : Fin d) → Fin (n k)) → Fin d → R}

theorem Cell.numDims (h : Cell t b n X) : t.numDims = d := by
  simp [LinearTransform.numDims, h.bases]

theorem Cell.jacobianView (h : Cell t b n X) :
    t.jacobianView = CArray.whole [(d : Int), (d : Int)] := by
  rw [LinearTransform.jacobianView, h.numDims]

theorem Cell.dataView (h : Cell t b n X) :
    t.dataView = CArray.whole ((List.ofFn fun k => ((n k : ℕ) : Int)) ++ [(d : Int)]) := by
  rw [LinearTransform.dataView, h.numDims, h.bases, List.map_ofFn]
  congr 3
  funext k
  exact h.count k

theorem accumulate_ok (h : Cell t b n X) (cfg : Config) (A : Arith R) (g : Fin d → R)
    (idx : (k : Fin d) → Fin (n k)) (i j : Fin d) (M : Matrix (Fin d) (Fin d) R) :
    LinearTransform.accumulate cfg A t (List.ofFn g) (tup idx) (i : ℕ) (j : ℕ) (matMem M)
      = .ok (matMem (setEntry M i j (A.add (M i j) (A.mul (g j) (X idx i))))) := by
  rw [LinearTransform.accumulate, h.jacobianView, h.dataView, read_matMem cfg h.dims h.small,
    Res.ok_bind, tableAt_ofFn, Res.ok_bind, h.points cfg idx i, Res.ok_bind,
    write_matMem cfg h.dims h.small]

/-- One support point's contribution. -/
def contribution (A : Arith R) (g : Fin d → R) (x : Fin d → R) (M : Matrix (Fin d) (Fin d) R) :
    Matrix (Fin d) (Fin d) R :=
  fun i j => A.add (M i j) (A.mul (g j) (x i))

theorem tableAt_pair (i j : Int) : tableAt [i, j] 0 = .ok i ∧ tableAt [i, j] 1 = .ok j := ⟨rfl, rfl⟩

theorem jacobianBody_ok (h : Cell t b n X) (cfg : Config) (A : Arith R) (coord : List R)
    (idx : (k : Fin d) → Fin (n k)) {g : Fin d → R}
    (hg : InterpolatedShape.gradient A t.shape (tup idx) coord = .ok (List.ofFn g))
    (M : Matrix (Fin d) (Fin d) R) :
    LinearTransform.jacobianBody cfg A t coord (tup idx) (matMem M)
      = .ok (matMem (contribution A g (X idx) M)) := by
  obtain ⟨L, hnd, hall, hL⟩ := forNested_pairs (σ := List R) d
  rw [LinearTransform.jacobianBody, hg, Res.ok_bind, h.numDims, hL]
  rw [runCalls_entries hnd (pos := id) Function.injective_id
    (F := fun i j r => A.add r (A.mul (g j) (X idx i)))]
  · congr 2
    funext i j
    simp [hall, contribution]
  · intro p M
    rw [(tableAt_pair _ _).1, (tableAt_pair _ _).2, Res.ok_bind, Res.ok_bind,
      accumulate_ok h cfg A g idx p.1 p.2 M]
    rfl

theorem jacobianQuadratureBody_ok (h : Cell t b n X) (cfg : Config) (A : Arith R) (coord : List R)
    (idx : (k : Fin d) → Fin (n k)) {g : Fin d → R}
    (hg : InterpolatedShape.gradient A t.shape (tup idx) coord = .ok (List.ofFn g))
    (M : Matrix (Fin d) (Fin d) R) :
    LinearTransform.jacobianQuadratureBody cfg A t coord (tup idx) (matMem M)
      = .ok (matMem (contribution A g (X idx) M)) := by
  obtain ⟨L, hnd, hall, hL⟩ := forNested_pairs (σ := List R) d
  rw [LinearTransform.jacobianQuadratureBody, hg, Res.constexpr_ok, Res.ok_bind, h.numDims, hL]
  rw [runCalls_entries hnd (pos := Prod.swap) Prod.swap_injective
    (F := fun i j r => A.add r (A.mul (g j) (X idx i)))]
  · congr 2
    funext i j
    simp only [contribution]
    exact if_pos (List.mem_map.2 ⟨(j, i), hall _, rfl⟩)
  · intro p M
    rw [(tableAt_pair _ _).1, (tableAt_pair _ _).2, Res.ok_bind, Res.ok_bind,
      accumulate_ok h cfg A g idx p.2 p.1 M]
    rfl

theorem supportLoop_eq {σ : Type} (h : Cell t b n X) {L : List ((k : Fin d) → Fin (n k))}
    (hL : boxFrom (List.replicate d 0) (List.ofFn fun k => ((n k : ℕ) : Int)) = L.map tup)
    (body : List Int → σ → Res σ) (s : σ) :
    InterpolatedShape.supportLoop t.shape body s = runCalls L (fun idx => body (tup idx)) s := by
  rw [InterpolatedShape.supportLoop, h.inst, Res.ok_bind, BasisProduct.supportLoop, h.bases]
  have e0 : (List.ofFn b).map Basis.numSupportPoints = List.ofFn fun k => ((n k : ℕ) : Int) := by
    rw [List.map_ofFn]; congr 1; funext k; exact h.count k
  rw [e0]
  have hd := h.dims
  have e1 := staticForNested_eq (ends := List.ofFn fun k => ((n k : ℕ) : Int))
    (by intro h; have := congrArg List.length h; simp at this; omega)
    (by intro e he; rw [List.mem_ofFn] at he; obtain ⟨k, rfl⟩ := he; omega) body [] s
  simp only [List.nil_append, List.length_ofFn] at e1
  rw [Sequence.forNestedSequence, e1, hL, runCalls_map]

/-! ### exact arithmetic -/

theorem runCalls_addMat {K : Type} [Field K] {ι : Type} {L : List ι} {h : ι → Matrix (Fin d) (Fin d) K}
    {body : ι → List K → Res (List K)}
    (hb : ∀ i M, body i (matMem M) = .ok (matMem (M + h i))) (M : Matrix (Fin d) (Fin d) K) :
    runCalls L body (matMem M) = .ok (matMem (M + (L.map h).sum)) := by
  induction L generalizing M with
  | nil => simp
  | cons i L ih => simp [hb, ih, add_assoc]

/-- `jacobian` adds the sum of the contributions to what the output argument held. -/
theorem jacobian_exact {K : Type} [Field K] {t : LinearTransform K} {b : Fin d → Basis K}
    {X : ((k : Fin d) → Fin (n k)) → Fin d → K} (h : Cell t b n X) (cfg : Config) (coord : List K)
    (g : ((k : Fin d) → Fin (n k)) → Fin d → K)
    (hg : ∀ idx, InterpolatedShape.gradient (exactArith K) t.shape (tup idx) coord = .ok (List.ofFn (g idx)))
    (M : Matrix (Fin d) (Fin d) K) :
    LinearTransform.jacobian cfg (exactArith K) t coord (matMem M)
      = .ok (matMem fun i j => M i j + ∑ idx, g idx j * X idx i) := by
  obtain ⟨L, hL, hnd, hall⟩ := box_list n
  rw [LinearTransform.jacobian, supportLoop_eq h hL,
    runCalls_addMat (h := fun idx => Matrix.of fun i j => g idx j * X idx i), sum_box hnd hall]
  · congr 2
    funext i j
    rw [Matrix.add_apply, Matrix.sum_apply]
    rfl
  · intro idx M
    rw [jacobianBody_ok h cfg (exactArith K) coord idx (hg idx)]
    rfl

/-! ### the quadrature overload -/

theorem tableAt_append {l m : List R} {k : Int} (hk : k < l.length) :
    tableAt (l ++ m) k = tableAt l k := by
  by_cases h0 : 0 ≤ k
  · have h1 : 0 ≤ k ∧ k < l.length := ⟨h0, hk⟩
    have h2 : 0 ≤ k ∧ k < (l ++ m).length := by simp; omega
    simp only [tableAt, dif_pos h1, dif_pos h2]
    rw [List.getElem_append_left]
  · simp [tableAt, h0]

theorem expand_congr {bs : List (Basis R)} {idx : List Int} {f g : Basis R → Int → Int → Res R}
    (h : ∀ b i (k : Int), k < bs.length → f b i k = g b i k) :
    BasisProduct.expand bs idx f = BasisProduct.expand bs idx g := by
  apply List.ext_getElem
  · simp [BasisProduct.expand]
  · intro k h1 h2
    simp only [BasisProduct.expand, List.getElem_zipWith, List.getElem_range]
    refine h _ _ _ ?_
    simp only [BasisProduct.expand, List.length_zipWith, List.length_range] at h1
    show ((k : ℕ) : Int) < _
    omega

/-- Only the coordinates of the element's directions matter. -/
theorem gradient_append (A : Arith R) (e : Element R) (sp : List Int) {l : List R} (m : List R)
    (hl : l.length = e.bases.length) :
    InterpolatedShape.gradient A e sp (l ++ m) = InterpolatedShape.gradient A e sp l := by
  have : BasisProduct.gradient A e.bases sp (l ++ m) = BasisProduct.gradient A e.bases sp l := by
    unfold BasisProduct.gradient
    have : ∀ a, (BasisProduct.expand e.bases sp fun b i k =>
        BasisProduct.gradientComponentHelper b a i k (l ++ m))
        = BasisProduct.expand e.bases sp fun b i k => BasisProduct.gradientComponentHelper b a i k l := by
      intro a
      refine expand_congr fun b i k hk => ?_
      rw [BasisProduct.gradientComponentHelper, BasisProduct.gradientComponentHelper,
        tableAt_append (by omega)]
    simp only [this]
  rw [InterpolatedShape.gradient, InterpolatedShape.gradient, this]

theorem sequenceRes_length {α : Type} {l : List (Res α)} {m : List α} (h : sequenceRes l = .ok m) :
    m.length = l.length := by
  induction l generalizing m with
  | nil => simp only [sequenceRes, Res.ok.injEq] at h; simp [← h]
  | cons x l ih =>
    simp only [sequenceRes, Res.bind_eq_ok, Res.ok.injEq] at h
    obtain ⟨a, -, as, has, rfl⟩ := h
    simp [ih has]

theorem staticAssert_bind_eq_ok {p : Prop} [Decidable p] {α : Type} {f : Unit → Res α} {a : α} :
    (Res.staticAssert p >>= f) = .ok a ↔ p ∧ f () = .ok a := by
  unfold Res.staticAssert
  split <;> simp_all

theorem gradient_length {A : Arith R} {e : Element R} {sp : List Int} {l gr : List R}
    (h : InterpolatedShape.gradient A e sp l = .ok gr) : gr.length = e.bases.length := by
  rw [InterpolatedShape.gradient, Res.bind_eq_ok] at h
  obtain ⟨_, -, h⟩ := h
  rw [staticAssert_bind_eq_ok] at h
  have h := h.2
  rw [BasisProduct.gradient, staticAssert_bind_eq_ok, staticAssert_bind_eq_ok,
    makeIntegerSequence_ok (by omega), Res.ok_bind] at h
  rw [sequenceRes_length h.2.2, List.length_map]
  simp [upTo]

theorem ofFn_of_length {l : List R} (h : l.length = d) : ∃ g : Fin d → R, l = List.ofFn g :=
  ⟨fun k => l[(k : ℕ)]'(by rw [h]; exact k.2), by
    apply List.ext_getElem
    · simp [h]
    · intro k h1 h2; simp⟩

/-- Two loops whose bodies finish with the same states from states in `P`, which both preserve. -/
theorem runCalls_iff {σ ι : Type} {L : List ι} {f g : ι → σ → Res σ} {P : σ → Prop}
    (h : ∀ i s, P s → ∀ s', f i s = .ok s' ↔ g i s = .ok s') (hP : ∀ i s s', P s → f i s = .ok s' → P s')
    (s s' : σ) (hs : P s) : runCalls L f s = .ok s' ↔ runCalls L g s = .ok s' := by
  induction L generalizing s with
  | nil => simp
  | cons i L ih =>
    simp only [runCalls_cons, Res.bind_eq_ok]
    constructor
    · rintro ⟨u, h1, h2⟩
      exact ⟨u, (h i s hs u).1 h1, (ih u (hP i s u hs h1)).1 h2⟩
    · rintro ⟨u, h1, h2⟩
      have h1' := (h i s hs u).2 h1
      exact ⟨u, h1', (ih u (hP i s u hs h1')).2 h2⟩

theorem jacobian_quadrature_iff (h : Cell t b n X) (cfg : Config) (A : Arith R) {l : List R}
    (m : List R) (hl : l.length = d) {J : List R} (hJ : J.length = d * d) (J' : List R) :
    InterpolatedShape.supportLoop t.shape (LinearTransform.jacobianQuadratureBody cfg A t (l ++ m)) J
        = .ok J' ↔
      LinearTransform.jacobian cfg A t l J = .ok J' := by
  obtain ⟨L, hL, -, -⟩ := box_list n
  rw [LinearTransform.jacobian, supportLoop_eq h hL, supportLoop_eq h hL]
  have key : ∀ (idx : (k : Fin d) → Fin (n k)) (s : List R), s.length = d * d →
      (∃ s1 : List R, s1.length = d * d ∧
        LinearTransform.jacobianQuadratureBody cfg A t (l ++ m) (tup idx) s = .ok s1 ∧
        LinearTransform.jacobianBody cfg A t l (tup idx) s = .ok s1) ∨
      ((∀ s1, LinearTransform.jacobianQuadratureBody cfg A t (l ++ m) (tup idx) s ≠ .ok s1) ∧
        ∀ s1, LinearTransform.jacobianBody cfg A t l (tup idx) s ≠ .ok s1) := by
    intro idx s hs
    obtain ⟨M, rfl⟩ := exists_matMem hs
    have hlb : l.length = t.shape.bases.length := by rw [hl, h.bases, List.length_ofFn]
    have hga := gradient_append A t.shape (tup idx) m hlb
    by_cases hg : ∃ gr, InterpolatedShape.gradient A t.shape (tup idx) l = .ok gr
    · obtain ⟨gr, hg⟩ := hg
      obtain ⟨g, rfl⟩ := ofFn_of_length (d := d) (l := gr)
        (by rw [gradient_length hg, h.bases, List.length_ofFn])
      exact .inl ⟨_, matMem_length _, jacobianQuadratureBody_ok h cfg A _ idx (hga.trans hg) M,
        jacobianBody_ok h cfg A _ idx hg M⟩
    · refine .inr ⟨fun s1 h1 => ?_, fun s1 h1 => ?_⟩
      · rw [LinearTransform.jacobianQuadratureBody, Res.bind_eq_ok] at h1
        obtain ⟨gr, h1, -⟩ := h1
        rw [constexpr_eq_ok, hga] at h1
        exact hg ⟨gr, h1⟩
      · rw [LinearTransform.jacobianBody, Res.bind_eq_ok] at h1
        obtain ⟨gr, h1, -⟩ := h1
        exact hg ⟨gr, h1⟩
  refine runCalls_iff (P := fun s => s.length = d * d) (fun idx s hs s' => ?_)
    (fun idx s s' hs h1 => ?_) J J' hJ
  · rcases key idx s hs with ⟨s1, -, h1, h2⟩ | ⟨h1, h2⟩
    · rw [h1, h2]
    · exact ⟨fun h => absurd h (h1 _), fun h => absurd h (h2 _)⟩
  · rcases key idx s hs with ⟨s1, hl1, h2, -⟩ | ⟨h2, -⟩
    · rw [h2] at h1; cases h1; exact hl1
    · exact absurd h1 (h2 _)

/-! ### `setData` -/

theorem runHistory_append (cfg : Config) (v : View) (h1 h2 : List (Assign R)) (mem : List R) :
    CArray.runHistory cfg v mem (h1 ++ h2)
      = (CArray.runHistory cfg v mem h1 >>= fun mem' => CArray.runHistory cfg v mem' h2) := by
  induction h1 generalizing mem with
  | nil => rfl
  | cons w ws ih =>
    simp only [List.cons_append, CArray.runHistory]
    cases CArray.assign cfg v mem w <;> simp [ih]

theorem runCalls_history {ι : Type} (cfg : Config) (v : View) (L : List ι) (H : ι → List (Assign R))
    {body : ι → List R → Res (List R)} (hb : ∀ i ∈ L, ∀ mem, body i mem = CArray.runHistory cfg v mem (H i))
    (mem : List R) : runCalls L body mem = CArray.runHistory cfg v mem (L.flatMap H) := by
  induction L generalizing mem with
  | nil => rfl
  | cons i L ih =>
    simp only [runCalls_cons, List.flatMap_cons, runHistory_append, hb i (by simp)]
    congr 1
    funext mem'
    exact ih (fun j hj => hb j (by simp [hj])) mem'

theorem lastAssigned_eq {history : List (Assign R)} {idx : List Int} {x : R} (init : R)
    (h : ∀ w ∈ history, w.idx = idx → w.val = x) (hex : ∃ w ∈ history, w.idx = idx) :
    lastAssigned init history idx = x := by
  unfold lastAssigned
  cases hg : (history.filter fun w => decide (w.idx = idx)).getLast? with
  | none =>
    rw [List.getLast?_eq_none_iff] at hg
    obtain ⟨w, hw, hwi⟩ := hex
    have : w ∈ history.filter fun w => decide (w.idx = idx) := by simp [hw, hwi]
    rw [hg] at this; simp at this
  | some w =>
    have := List.mem_of_getLast? hg
    rw [List.mem_filter] at this
    exact h w this.1 (by simpa using this.2)

end Verif.Lemmas
