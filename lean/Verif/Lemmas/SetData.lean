import Verif.Lemmas.Mapping

/-! # `LinearTransform::setData` -/

namespace Verif.Lemmas

open Verif.Spec

variable {R : Type} {n : Fin 3 → ℕ} {t : LinearTransform R} {b : Fin 3 → Basis R}

/-- The assignments made for one support point. -/
def rowAssigns (V : ((k : Fin 3) → Fin (n k)) → Fin 3 → R) (idx : (k : Fin 3) → Fin (n k)) :
    List (Assign R) :=
  (List.finRange 3).map fun i : Fin 3 => ⟨.paren, tup idx ++ [((i : ℕ) : Int)], V idx i⟩

/-- The row read for a support point. -/
def vertexRow (idx : (k : Fin 3) → Fin (n k)) : Int :=
  ((idx 0 : ℕ) : Int) + 2 * ((idx 1 : ℕ) : Int) + 4 * ((idx 2 : ℕ) : Int)

theorem tup_three (idx : (k : Fin 3) → Fin (n k)) :
    tup idx = [((idx 0 : ℕ) : Int), ((idx 1 : ℕ) : Int), ((idx 2 : ℕ) : Int)] := by
  simp [tup, List.ofFn_succ]

theorem setDataBody_eq (cfg : Config) (hb : t.shape.bases = List.ofFn b) {coords : Int → Int → Res R}
    {V : ((k : Fin 3) → Fin (n k)) → Fin 3 → R} (idx : (k : Fin 3) → Fin (n k))
    (hrow : n 0 + 2 * n 1 + 4 * n 2 ≤ 2147483647)
    (hV : ∀ i : Fin 3, coords (vertexRow idx) ((i : ℕ) : Int) = .ok (V idx i)) (mem : List R) :
    LinearTransform.setDataBody cfg t coords (tup idx) mem
      = CArray.runHistory cfg t.dataView mem (rowAssigns V idx) := by
  have h0 := (idx 0).2
  have h1 := (idx 1).2
  have h2 := (idx 2).2
  have hd : t.numDims = 3 := by simp [LinearTransform.numDims, hb]
  have hl : ∀ i : Fin 3, ∀ mem : List R, (do
      let b2 ← imul 2 ((idx 1 : ℕ) : Int)
      let ab ← iadd ((idx 0 : ℕ) : Int) b2
      let c4 ← imul 4 ((idx 2 : ℕ) : Int)
      let row ← iadd ab c4
      let x ← coords row ((i : ℕ) : Int)
      CArray.write cfg mem t.dataView [((idx 0 : ℕ) : Int), ((idx 1 : ℕ) : Int), ((idx 2 : ℕ) : Int), ((i : ℕ) : Int)] x)
      = CArray.assign cfg t.dataView mem ⟨.paren, tup idx ++ [((i : ℕ) : Int)], V idx i⟩ := by
    intro i mem
    rw [imul_ok ⟨by omega, by omega⟩, Res.ok_bind, iadd_ok ⟨by omega, by omega⟩, Res.ok_bind,
      imul_ok ⟨by omega, by omega⟩, Res.ok_bind, iadd_ok ⟨by omega, by omega⟩, Res.ok_bind]
    have := hV i
    rw [vertexRow] at this
    rw [this, Res.ok_bind, tup_three]
    rfl
  have e : (List.range (Int.toNat 3)).map Int.ofNat
      = (List.finRange 3).map fun i : Fin 3 => ((i : ℕ) : Int) := rfl
  rw [LinearTransform.setDataBody, tup_three]
  show LinearTransform.setDataRow cfg t coords ((idx 0 : ℕ) : Int) ((idx 1 : ℕ) : Int)
    ((idx 2 : ℕ) : Int) mem = _
  rw [LinearTransform.setDataRow, hd, LinearTransform.forInt, commaFold_eq, e, runCalls_map,
    runCalls_history cfg t.dataView (List.finRange 3)
      (fun i => [⟨.paren, tup idx ++ [((i : ℕ) : Int)], V idx i⟩])]
  · rfl
  · intro i _ mem
    refine (hl i mem).trans ?_
    rw [CArray.runHistory]
    cases CArray.assign cfg t.dataView mem ⟨.paren, tup idx ++ [((i : ℕ) : Int)], V idx i⟩ <;> rfl

theorem dataView_three (hb : t.shape.bases = List.ofFn b) (hc : ∀ k, (b k).numSupportPoints = n k) :
    t.dataView = CArray.whole ((List.ofFn fun k => ((n k : ℕ) : Int)) ++ [((3 : ℕ) : Int)]) := by
  have hd : t.numDims = 3 := by simp [LinearTransform.numDims, hb]
  rw [LinearTransform.dataView, hd, hb, List.map_ofFn]
  congr 3
  funext k
  exact hc k

theorem inBox_tup {d : ℕ} {n : Fin d → ℕ} (idx : (k : Fin d) → Fin (n k)) (i : Fin d) :
    InBox ((List.ofFn fun k => ((n k : ℕ) : Int)) ++ [(d : Int)]) (tup idx ++ [((i : ℕ) : Int)]) := by
  refine List.rel_append ?_ (by simp)
  rw [List.forall₂_iff_get]
  refine ⟨by simp [tup], fun k h1 h2 => ?_⟩
  simp only [tup, List.get_ofFn]
  exact ⟨by omega, Int.ofNat_lt.2 (idx ⟨k, by simpa [tup] using h1⟩).2⟩

/-- `setData` makes the assignments `rowAssigns` of all support points, in order. -/
theorem setData_history (cfg : Config) (hb : t.shape.bases = List.ofFn b)
    (hi : t.shape.instantiate = .ok ()) (hc : ∀ k, (b k).numSupportPoints = n k)
    {coords : Int → Int → Res R} {V : ((k : Fin 3) → Fin (n k)) → Fin 3 → R}
    (hrow : n 0 + 2 * n 1 + 4 * n 2 ≤ 2147483647)
    (hV : ∀ idx (i : Fin 3), coords (vertexRow idx) ((i : ℕ) : Int) = .ok (V idx i)) :
    ∃ L : List ((k : Fin 3) → Fin (n k)), L.Nodup ∧ (∀ idx, idx ∈ L) ∧
      LinearTransform.setData cfg t coords
        = (CArray.runHistory cfg t.dataView t.data (L.flatMap (rowAssigns V)) >>= fun data =>
            .ok { t with data := data }) := by
  obtain ⟨L, hL, hnd, hall⟩ := box_list n
  refine ⟨L, hnd, hall, ?_⟩
  have e0 : t.shape.bases.map Basis.numSupportPoints = List.ofFn fun k => ((n k : ℕ) : Int) := by
    rw [hb, List.map_ofFn]; congr 1; funext k; exact hc k
  rw [LinearTransform.setData, hi, Res.ok_bind, staticAssert_bind_true (by simp [hb]), e0,
    forRange_eq _ (by simp) (by simp) (by simp [IsInt]) ?_]
  · have hL' : boxFrom [0, 0, 0] (List.ofFn fun k => ((n k : ℕ) : Int)) = L.map tup := hL
    rw [hL', runCalls_map, runCalls_history cfg t.dataView L (rowAssigns V)
      (fun idx _ mem => setDataBody_eq cfg hb idx hrow (hV idx) mem)]
    cases CArray.runHistory cfg t.dataView t.data (L.flatMap (rowAssigns V)) <;> rfl
  · intro x hx
    rw [List.mem_ofFn] at hx
    obtain ⟨k, rfl⟩ := hx
    fin_cases k <;> exact ⟨by simp, by simp; omega⟩

theorem assigns_nodup {L : List ((k : Fin 3) → Fin (n k))} (hnd : L.Nodup)
    (V : ((k : Fin 3) → Fin (n k)) → Fin 3 → R) :
    ((L.flatMap (rowAssigns V)).map Assign.idx).Nodup := by
  rw [List.map_flatMap, List.nodup_flatMap]
  have inj : ∀ (i j : (k : Fin 3) → Fin (n k)) (x y : Fin 3),
      tup i ++ [((x : ℕ) : Int)] = tup j ++ [((y : ℕ) : Int)] → i = j ∧ x = y := by
    intro i j x y h
    obtain ⟨h4, h5⟩ := List.append_inj h (by simp [tup_length])
    exact ⟨tup_injective h4, Fin.ext (by simpa using h5)⟩
  constructor
  · intro idx _
    rw [rowAssigns, List.map_map]
    exact List.Nodup.map (fun x y h => (inj idx idx x y h).2) (List.nodup_finRange 3)
  · refine List.Pairwise.imp_of_mem ?_ hnd
    intro i j _ _ hij a ha hb
    simp only [rowAssigns, List.map_map] at ha hb
    obtain ⟨x, -, rfl⟩ := List.mem_map.1 ha
    obtain ⟨y, -, h⟩ := List.mem_map.1 hb
    exact hij (inj j i y x h).1.symm

/-- The points `setData` leaves. -/
theorem setData_ok (cfg : Config) (hb : t.shape.bases = List.ofFn b)
    (hi : t.shape.instantiate = .ok ()) (hc : ∀ k, (b k).numSupportPoints = n k)
    {coords : Int → Int → Res R} {V : ((k : Fin 3) → Fin (n k)) → Fin 3 → R}
    (hpos : ∀ k, 0 < n k) (hsize : n 0 * n 1 * n 2 * 3 ≤ 2147483647)
    (hrow : n 0 + 2 * n 1 + 4 * n 2 ≤ 2147483647) (hlen : t.data.length = n 0 * n 1 * n 2 * 3)
    (hV : ∀ idx (i : Fin 3), coords (vertexRow idx) ((i : ℕ) : Int) = .ok (V idx i)) :
    ∃ data, LinearTransform.setData cfg t coords = .ok { t with data := data } ∧
      data.length = t.data.length ∧ HoldsPoints data V := by
  obtain ⟨L, hnd, hall, e⟩ := setData_history cfg hb hi hc hrow hV
  have hprod : ((List.ofFn fun k => ((n k : ℕ) : Int)) ++ [((3 : ℕ) : Int)]).prod
      = ((n 0 * n 1 * n 2 * 3 : ℕ) : Int) := by
    simp [List.ofFn_succ]; ring
  have hvs : ValidShape ((List.ofFn fun k => ((n k : ℕ) : Int)) ++ [((3 : ℕ) : Int)]) := by
    refine ⟨by simp, ?_, ?_⟩
    · intro x hx
      rw [List.mem_append, List.mem_ofFn] at hx
      rcases hx with ⟨k, rfl⟩ | hx
      · have := hpos k; omega
      · simp at hx; omega
    · rw [hprod]; exact_mod_cast hsize
  rw [dataView_three hb hc] at e
  have hf : ∀ data : List R, data.length = t.data.length →
      Fits data.length (CArray.whole ((List.ofFn fun k => ((n k : ℕ) : Int)) ++ [((3 : ℕ) : Int)])) := by
    intro data hd
    refine ⟨le_rfl, ?_⟩
    show 0 + ((List.ofFn fun k => ((n k : ℕ) : Int)) ++ [((3 : ℕ) : Int)]).prod ≤ _
    rw [hprod, hd, hlen, zero_add]
  obtain ⟨data, h1, h2, h3, -⟩ := runHistory_ok cfg (v := CArray.whole _) hvs (L.flatMap (rowAssigns V))
    (hf t.data rfl) (by
      intro w hw
      obtain ⟨idx, -, hw⟩ := List.mem_flatMap.1 hw
      obtain ⟨i, -, rfl⟩ := List.mem_map.1 hw
      exact inBox_tup idx i)
  refine ⟨data, by rw [e, h1]; rfl, h2, fun cfg' idx i => ?_⟩
  have hin := inBox_tup idx i
  rw [read_eq cfg' (v := CArray.whole _) hvs (hf data h2) hin]
  obtain ⟨hr0, hr1⟩ := rowMajor_bounds hin
  obtain ⟨x, -, hl⟩ := load_ok (mem := t.data) (a := 0 + rowMajor
    ((List.ofFn fun k => ((n k : ℕ) : Int)) ++ [((3 : ℕ) : Int)]) (tup idx ++ [((i : ℕ) : Int)]))
    (by omega) (by rw [hprod] at hr1; omega)
  refine (h3 _ hin _ hl).trans ?_
  congr 1
  refine lastAssigned_eq _ (fun w hw hwi => ?_) ⟨⟨.paren, tup idx ++ [((i : ℕ) : Int)], V idx i⟩, ?_, rfl⟩
  · obtain ⟨idx', -, hw⟩ := List.mem_flatMap.1 hw
    obtain ⟨i', -, rfl⟩ := List.mem_map.1 hw
    obtain ⟨h4, h5⟩ := List.append_inj hwi (by simp [tup_length])
    have h6 := tup_injective h4
    have h7 : i' = i := Fin.ext (by simpa using h5)
    rw [h6, h7]
  · exact List.mem_flatMap.2 ⟨idx, hall _, List.mem_map.2 ⟨i, List.mem_finRange _, rfl⟩⟩

/-- A loop in which every call either keeps an invariant or is undefined, and some call is undefined. -/
theorem runCalls_ub {ι σ : Type} {L : List ι} {body : ι → σ → Res σ} (P : σ → Prop) (bad : ι → Prop)
    (hbad : ∀ i ∈ L, bad i → ∀ s, body i s = .ub)
    (hgood : ∀ i ∈ L, ¬ bad i → ∀ s, P s → ∃ s', body i s = .ok s' ∧ P s') (hex : ∃ i ∈ L, bad i) :
    ∀ s, P s → runCalls L body s = .ub := by
  induction L with
  | nil => obtain ⟨i, hi, -⟩ := hex; simp at hi
  | cons i L ih =>
    intro s hs
    rw [runCalls_cons]
    by_cases hb : bad i
    · rw [hbad i (by simp) hb]; rfl
    · obtain ⟨s', e, hs'⟩ := hgood i (by simp) hb s hs
      rw [e, Res.ok_bind]
      refine ih (fun j hj => hbad j (by simp [hj])) (fun j hj => hgood j (by simp [hj])) ?_ s' hs'
      obtain ⟨j, hj, hbj⟩ := hex
      rcases List.mem_cons.1 hj with rfl | hj
      · exact absurd hbj hb
      · exact ⟨j, hj, hbj⟩

/-- `setData` from a built-in array with too few rows. -/
theorem setData_ub (cfg : Config) (hb : t.shape.bases = List.ofFn b)
    (hi : t.shape.instantiate = .ok ()) (hc : ∀ k, (b k).numSupportPoints = n k)
    (hpos : ∀ k, 0 < n k) (hsize : n 0 * n 1 * n 2 * 3 ≤ 2147483647)
    (hrow : n 0 + 2 * n 1 + 4 * n 2 ≤ 2147483647) (hlen : t.data.length = n 0 * n 1 * n 2 * 3)
    {rows : ℕ} (W : ℕ → Fin 3 → R) (hr : rows ≤ (n 0 - 1) + 2 * (n 1 - 1) + 4 * (n 2 - 1)) :
    LinearTransform.setData cfg t (builtinRows rows W) = .ub := by
  obtain ⟨L, hL, -, hall⟩ := box_list n
  have e0 : t.shape.bases.map Basis.numSupportPoints = List.ofFn fun k => ((n k : ℕ) : Int) := by
    rw [hb, List.map_ofFn]; congr 1; funext k; exact hc k
  have hd : t.numDims = 3 := by simp [LinearTransform.numDims, hb]
  have hprod : ((List.ofFn fun k => ((n k : ℕ) : Int)) ++ [((3 : ℕ) : Int)]).prod
      = ((n 0 * n 1 * n 2 * 3 : ℕ) : Int) := by
    simp [List.ofFn_succ]; ring
  have hvs : ValidShape ((List.ofFn fun k => ((n k : ℕ) : Int)) ++ [((3 : ℕ) : Int)]) := by
    refine ⟨by simp, ?_, ?_⟩
    · intro x hx
      rw [List.mem_append, List.mem_ofFn] at hx
      rcases hx with ⟨k, rfl⟩ | hx
      · have := hpos k; omega
      · simp at hx; omega
    · rw [hprod]; exact_mod_cast hsize
  rw [LinearTransform.setData, hi, Res.ok_bind, staticAssert_bind_true (by simp [hb]), e0,
    forRange_eq _ (by simp) (by simp) (by simp [IsInt]) ?_]
  · have hL' : boxFrom [0, 0, 0] (List.ofFn fun k => ((n k : ℕ) : Int)) = L.map tup := hL
    rw [hL', runCalls_map, runCalls_ub (fun mem => mem.length = t.data.length)
      (fun idx => (rows : Int) ≤ vertexRow idx)]
    · rfl
    · intro idx _ hbad mem
      have h0 := (idx 0).2
      have h1 := (idx 1).2
      have h2 := (idx 2).2
      rw [vertexRow] at hbad
      rw [LinearTransform.setDataBody, tup_three]
      show LinearTransform.setDataRow cfg t _ ((idx 0 : ℕ) : Int) ((idx 1 : ℕ) : Int)
        ((idx 2 : ℕ) : Int) mem = _
      rw [LinearTransform.setDataRow, hd, LinearTransform.forInt]
      show Sequence.commaFold _ [0, 1, 2] mem = _
      rw [Sequence.commaFold, imul_ok ⟨by omega, by omega⟩, Res.ok_bind, iadd_ok ⟨by omega, by omega⟩,
        Res.ok_bind, imul_ok ⟨by omega, by omega⟩, Res.ok_bind, iadd_ok ⟨by omega, by omega⟩,
        Res.ok_bind, builtinRows, dif_neg (by omega)]
      rfl
    · intro idx _ hgood mem hm
      have hV : ∀ i : Fin 3, builtinRows rows W (vertexRow idx) ((i : ℕ) : Int)
          = .ok ((fun (idx : (k : Fin 3) → Fin (n k)) i => W (vertexRow idx).toNat i) idx i) := by
        intro i
        have := i.2
        have h0 : 0 ≤ vertexRow idx := by rw [vertexRow]; omega
        rw [builtinRows, dif_pos ⟨h0, by omega, by omega, by omega⟩]
        simp
      rw [setDataBody_eq cfg hb (V := fun (idx : (k : Fin 3) → Fin (n k)) i => W (vertexRow idx).toNat i) idx hrow
        hV mem, dataView_three hb hc]
      obtain ⟨mem', e1, e2, -⟩ := runHistory_ok cfg (v := CArray.whole _) hvs
        (rowAssigns (fun (idx : (k : Fin 3) → Fin (n k)) i => W (vertexRow idx).toNat i) idx)
        (mem := mem) ⟨le_rfl, by
          show 0 + ((List.ofFn fun k => ((n k : ℕ) : Int)) ++ [((3 : ℕ) : Int)]).prod ≤ _
          rw [hprod, hm, hlen, zero_add]⟩ (by
            intro w hw
            obtain ⟨i, -, rfl⟩ := List.mem_map.1 hw
            exact inBox_tup idx i)
      exact ⟨mem', e1, e2.trans hm⟩
    · have p0 := hpos 0
      have p1 := hpos 1
      have p2 := hpos 2
      refine ⟨fun k => match k with
        | 0 => ⟨n 0 - 1, by omega⟩
        | 1 => ⟨n 1 - 1, by omega⟩
        | 2 => ⟨n 2 - 1, by omega⟩, hall _, ?_⟩
      show (rows : Int) ≤ ((n 0 - 1 : ℕ) : Int) + 2 * ((n 1 - 1 : ℕ) : Int) + 4 * ((n 2 - 1 : ℕ) : Int)
      omega
    · rfl
  · intro x hx
    rw [List.mem_ofFn] at hx
    obtain ⟨k, rfl⟩ := hx
    fin_cases k <;> exact ⟨by simp, by simp; omega⟩

end Verif.Lemmas
