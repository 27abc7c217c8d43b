import Verif.Lemmas.CArray
import Verif.Model.IndexTypes
import Verif.Spec.Calls

/-! # Supporting lemmas for the loop properties -/

namespace Verif.Lemmas

open Verif.Spec

section Calls
variable {σ ι κ : Type}

@[simp] theorem runCalls_nil (body : ι → σ → Res σ) (s : σ) : runCalls [] body s = .ok s := rfl

@[simp] theorem runCalls_cons (i : ι) (is : List ι) (body : ι → σ → Res σ) (s : σ) :
    runCalls (i :: is) body s = (body i s >>= fun s' => runCalls is body s') := rfl

theorem runCalls_append (as bs : List ι) (body : ι → σ → Res σ) (s : σ) :
    runCalls (as ++ bs) body s = (runCalls as body s >>= fun s' => runCalls bs body s') := by
  induction as generalizing s with
  | nil => rfl
  | cons a as ih => simp [ih]

theorem runCalls_map (f : κ → ι) (is : List κ) (body : ι → σ → Res σ) (s : σ) :
    runCalls (is.map f) body s = runCalls is (fun k => body (f k)) s := by
  induction is generalizing s with
  | nil => rfl
  | cons a as ih => simp [ih]

theorem runCalls_flatMap (f : κ → List ι) (is : List κ) (body : ι → σ → Res σ) (s : σ) :
    runCalls (is.flatMap f) body s = runCalls is (fun k s => runCalls (f k) body s) s := by
  induction is generalizing s with
  | nil => rfl
  | cons a as ih => simp [runCalls_append, ih]

theorem runCalls_congr {is : List ι} {f g : ι → σ → Res σ} (h : ∀ i ∈ is, ∀ s, f i s = g i s)
    (s : σ) : runCalls is f s = runCalls is g s := by
  induction is generalizing s with
  | nil => rfl
  | cons a as ih =>
    rw [runCalls_cons, runCalls_cons, h a (by simp)]
    congr 1; funext s'
    exact ih (fun i hi => h i (by simp [hi])) s'

theorem commaFold_eq (func : Int → σ → Res σ) (is : List Int) (s : σ) :
    Sequence.commaFold func is s = runCalls is func s := by
  induction is generalizing s with
  | nil => rfl
  | cons a as ih => simp [Sequence.commaFold, ih]

/-- Recording the calls of a run that never fails. -/
theorem runCalls_trace (is acc : List ι) :
    runCalls is (fun i tr => .ok (tr ++ [i])) acc = .ok (acc ++ is) := by
  induction is generalizing acc with
  | nil => simp
  | cons a as ih => simp [ih]

end Calls

/-- The integers `a, a+1, .., b-1`. -/
def upTo (a b : Int) : List Int := (List.range (b - a).toNat).map fun k => a + Int.ofNat k

theorem mem_upTo {a b i : Int} : i ∈ upTo a b ↔ a ≤ i ∧ i < b := by
  simp only [upTo, List.mem_map, List.mem_range, Int.ofNat_eq_natCast]
  constructor
  · rintro ⟨k, hk, rfl⟩; omega
  · rintro ⟨h0, h1⟩; exact ⟨(i - a).toNat, by omega, by omega⟩

theorem upTo_pairwise (a b : Int) : (upTo a b).Pairwise (· < ·) := by
  rw [upTo, List.pairwise_map]
  exact List.pairwise_lt_range.imp (by intro x y h; simp; omega)

theorem upTo_eq_nil {a b : Int} (h : b ≤ a) : upTo a b = [] := by
  simp [upTo, show (b - a).toNat = 0 by omega]

theorem upTo_cons {a b : Int} (h : a < b) : upTo a b = a :: upTo (a + 1) b := by
  rw [upTo, show (b - a).toNat = (b - (a + 1)).toNat + 1 by omega, List.range_succ_eq_map]
  simp only [List.map_cons, List.map_map, upTo, Int.ofNat_eq_natCast]
  congr 1
  · simp
  · apply List.map_congr_left
    intro k _
    simp; omega

theorem makeIntegerSequence_ok {e : Int} (h : 0 ≤ e) :
    Sequence.makeIntegerSequence e = .ok (upTo 0 e) := by
  simp [Sequence.makeIntegerSequence, h, upTo]

theorem forSequence_eq {σ : Type} {e : Int} (h : 0 ≤ e) (func : Int → σ → Res σ) (s : σ) :
    Sequence.forSequence e func s = runCalls (upTo 0 e) func s := by
  simp [Sequence.forSequence, makeIntegerSequence_ok h, commaFold_eq]

/-- The tuples of a box with given starts and ends, last index fastest. -/
def boxFrom : List Int → List Int → List (List Int)
  | s :: ss, r :: rs => (upTo s r).flatMap fun i => (boxFrom ss rs).map (i :: ·)
  | _, _ => [[]]

theorem lexLT_cons {a b : Int} {as bs : List Int} :
    LexLT (a :: as) (b :: bs) ↔ as.length = bs.length ∧ (a < b ∨ (a = b ∧ LexLT as bs)) := by
  constructor
  · rintro ⟨hl, k, hk, ht, hlt⟩
    refine ⟨by simpa using hl, ?_⟩
    cases k with
    | zero => left; simpa using hlt
    | succ k =>
      right
      simp only [List.take_succ_cons, List.cons.injEq, List.getD_cons_succ, List.length_cons] at *
      exact ⟨ht.1, by omega, k, by omega, ht.2, hlt⟩
  · rintro ⟨hl, h | ⟨rfl, -, k, hk, ht, hlt⟩⟩
    · exact ⟨by simpa using hl, 0, by simp, by simp, by simpa using h⟩
    · exact ⟨by simpa using hl, k + 1, by simpa using hk, by simpa using ht, by simpa using hlt⟩

theorem inRange_cons {s r : Int} {ss rs t : List Int} :
    InRange (s :: ss) (r :: rs) t ↔ ∃ i is, t = i :: is ∧ (s ≤ i ∧ i < r) ∧ InRange ss rs is := by
  constructor
  · rintro ⟨hl, h⟩
    cases t with
    | nil => simp at hl
    | cons i is =>
      refine ⟨i, is, rfl, by simpa using h 0 (by simp), by simpa using hl, fun k hk => ?_⟩
      simpa using h (k + 1) (by simpa using hk)
  · rintro ⟨i, is, rfl, h0, hl, h⟩
    refine ⟨by simpa using hl, fun k hk => ?_⟩
    cases k with
    | zero => simpa using h0
    | succ k => simpa using h k (by simpa using hk)

theorem mem_boxFrom {ss rs t : List Int} (hl : ss.length = rs.length) :
    t ∈ boxFrom ss rs ↔ InRange ss rs t := by
  induction rs generalizing ss t with
  | nil =>
    have : ss = [] := by simpa using hl
    subst this
    simp [boxFrom, InRange]
  | cons r rs ih =>
    cases ss with
    | nil => simp at hl
    | cons s ss =>
      rw [inRange_cons]
      simp only [boxFrom, List.mem_flatMap, List.mem_map, mem_upTo]
      constructor
      · rintro ⟨i, hi, is, his, rfl⟩
        exact ⟨i, is, rfl, hi, (ih (by simpa using hl)).1 his⟩
      · rintro ⟨i, is, rfl, hi, his⟩
        exact ⟨i, hi, is, (ih (by simpa using hl)).2 his, rfl⟩

theorem boxFrom_pairwise {ss rs : List Int} (hl : ss.length = rs.length) :
    (boxFrom ss rs).Pairwise LexLT := by
  induction rs generalizing ss with
  | nil => cases ss <;> simp [boxFrom]
  | cons r rs ih =>
    cases ss with
    | nil => simp [boxFrom]
    | cons s ss =>
      have hl' : ss.length = rs.length := by simpa using hl
      have ih := ih hl'
      simp only [boxFrom]
      rw [List.pairwise_flatMap]
      constructor
      · intro i _
        rw [List.pairwise_map]
        refine ih.imp ?_
        intro a b h
        exact lexLT_cons.2 ⟨h.1, .inr ⟨rfl, h⟩⟩
      · refine (upTo_pairwise s r).imp ?_
        intro i j hij x hx y hy
        simp only [List.mem_map] at hx hy
        obtain ⟨x', hx', rfl⟩ := hx
        obtain ⟨y', hy', rfl⟩ := hy
        have h1 := ((mem_boxFrom hl').1 hx').1
        have h2 := ((mem_boxFrom hl').1 hy').1
        exact lexLT_cons.2 ⟨by omega, .inl hij⟩

theorem inBox_iff_inRange {dims t : List Int} :
    InBox dims t ↔ InRange (List.replicate dims.length 0) dims t := by
  induction dims generalizing t with
  | nil => simp [InRange]
  | cons d ds ih =>
    rw [List.length_cons, List.replicate_succ, inRange_cons]
    cases t with
    | nil => simp
    | cons i is => simp [inBox_cons, ih]

theorem staticForNested_eq {σ : Type} {ends : List Int} (hne : ends ≠ []) (h : ∀ e ∈ ends, 0 ≤ e)
    (func : List Int → σ → Res σ) (acc : List Int) (s : σ) :
    Sequence.staticForNested func ends acc s
      = runCalls (boxFrom (List.replicate ends.length 0) ends) (fun t => func (acc ++ t)) s := by
  induction ends generalizing acc s with
  | nil => simp at hne
  | cons e es ih =>
    have he : 0 ≤ e := h e (by simp)
    rw [List.length_cons, List.replicate_succ, boxFrom, runCalls_flatMap]
    cases es with
    | nil =>
      simp only [Sequence.staticForNested, forSequence_eq he]
      apply runCalls_congr
      intro i _ s'
      simp only [List.length_nil, List.replicate_zero, boxFrom, List.map_cons, List.map_nil,
        runCalls_cons, runCalls_nil]
      cases func (acc ++ [i]) s' <;> rfl
    | cons e' es =>
      simp only [Sequence.staticForNested, forSequence_eq he]
      apply runCalls_congr
      intro i _ s'
      rw [ih (by simp) (fun x hx => h x (by simp [hx])), runCalls_map]
      simp

theorem prod_nonneg_of {dims : List Int} (h : ∀ d ∈ dims, 0 ≤ d) : 0 ≤ dims.prod := by
  induction dims with
  | nil => simp
  | cons d ds ih =>
    rw [List.prod_cons]
    exact mul_nonneg (h d (by simp)) (ih fun x hx => h x (by simp [hx]))

/-- The k-th tuple of a box in lexicographic order has row-major number k. -/
theorem boxFrom_getElem {dims : List Int} (h : ∀ e ∈ dims, 0 ≤ e) :
    (boxFrom (List.replicate dims.length 0) dims).map (rowMajor dims) = upTo 0 dims.prod := by
  induction dims with
  | nil => simp [boxFrom, upTo]
  | cons d ds ih =>
    have ih := ih (fun x hx => h x (by simp [hx]))
    have hd : 0 ≤ d := h d (by simp)
    have hp : 0 ≤ ds.prod := prod_nonneg_of fun x hx => h x (by simp [hx])
    rw [List.length_cons, List.replicate_succ, boxFrom, List.map_flatMap, List.prod_cons]
    simp only [List.map_map]
    have e1 : ∀ i : Int, (boxFrom (List.replicate ds.length 0) ds).map
        (rowMajor (d :: ds) ∘ (i :: ·)) = (upTo 0 ds.prod).map (i * ds.prod + ·) := by
      intro i
      rw [← ih, List.map_map]
      apply List.map_congr_left
      intro t _
      simp
    simp only [e1]
    -- concatenating consecutive blocks of length `ds.prod`
    have key : ∀ n : Nat, ((List.range n).map fun k => (0 : Int) + Int.ofNat k).flatMap
        (fun i => (upTo 0 ds.prod).map (i * ds.prod + ·)) = upTo 0 (n * ds.prod) := by
      intro n
      induction n with
      | zero => simp [upTo]
      | succ n ihn =>
        rw [List.range_succ, List.map_append, List.flatMap_append, ihn]
        simp only [List.map_cons, List.map_nil, List.flatMap_cons, List.flatMap_nil,
          List.append_nil]
        have hs : (((n + 1 : Nat) : Int) * ds.prod - 0).toNat
            = ((n : Int) * ds.prod - 0).toNat + (ds.prod - 0).toNat := by
          have h0 : (0 : Int) ≤ n * ds.prod := by positivity
          push_cast
          rw [add_mul]; omega
        rw [upTo, upTo, upTo, hs, List.range_add, List.map_append, List.map_map, List.map_map]
        congr 1
        apply List.map_congr_left
        intro k _
        have h0 : (0 : Int) ≤ n * ds.prod := by positivity
        simp; omega
    have := key d.toNat
    rw [Int.toNat_of_nonneg hd] at this
    rw [← this]
    simp [upTo]

/-! ### `forRange` -/

/-- The index after a (sub-)loop, starting from current contents `cs`. -/
def finalIdx : List Int → List Int → List Int → List Int
  | s :: ss, r :: rs, _ :: cs => if s < r then r :: finalIdx ss rs cs else s :: cs
  | _, _, cs => cs

theorem finalIdx_idem (ss rs cs : List Int) :
    finalIdx ss rs (finalIdx ss rs cs) = finalIdx ss rs cs := by
  induction ss generalizing rs cs with
  | nil => simp [finalIdx]
  | cons s ss ih =>
    cases rs with
    | nil => simp [finalIdx]
    | cons r rs =>
      cases cs with
      | nil => simp [finalIdx]
      | cons c cs =>
        simp only [finalIdx]
        split
        · rename_i h; simp [finalIdx, h, ih]
        · rename_i h; simp [finalIdx, h]

theorem finalIdx_length (ss rs cs : List Int) : (finalIdx ss rs cs).length = cs.length := by
  induction ss generalizing rs cs with
  | nil => simp [finalIdx]
  | cons s ss ih =>
    cases rs with
    | nil => simp [finalIdx]
    | cons r rs =>
      cases cs with
      | nil => simp [finalIdx]
      | cons c cs => simp only [finalIdx]; split <;> simp [ih]

theorem getD_append_self (pre : List Int) (a : Int) (cs : List Int) {dim : Nat}
    (h : pre.length = dim) : (pre ++ a :: cs).getD dim 0 = a := by
  subst h; simp [List.getD]

theorem set_append_self (pre : List Int) (a b : Int) (cs : List Int) {dim : Nat}
    (h : pre.length = dim) : (pre ++ a :: cs).set dim b = pre ++ b :: cs := by
  subst h; simp

theorem forLoop_eq {σ : Type} {dim : Nat} {r : Int} (hr : IsInt r) {pre : List Int}
    (hpre : pre.length = dim) (step : List Int × σ → Res (List Int × σ))
    (G : Int → σ → Res σ) (F : List Int → List Int) (hF : ∀ cs, F (F cs) = F cs) (n : Nat)
    (hlen : ∀ cs, cs.length = n → (F cs).length = n)
    (hstep : ∀ a cs s, cs.length = n →
      step (pre ++ a :: cs, s) = (G a s >>= fun s' => .ok (pre ++ a :: F cs, s')))
    (fuel : Nat) (a : Int) (ha : IsInt a) (hfuel : fuel = (r - a).toNat) (cs : List Int)
    (hcs : cs.length = n) (s : σ) :
    IndexTypes.forLoop dim r step fuel (pre ++ a :: cs, s)
      = (runCalls (upTo a r) G s >>= fun s' =>
          .ok (pre ++ (if a < r then r :: F cs else a :: cs), s')) := by
  induction fuel generalizing a cs s with
  | zero =>
    have : r ≤ a := by omega
    simp [IndexTypes.forLoop, hpre, upTo_eq_nil this, not_lt.2 this]
  | succ fuel ih =>
    have hlt : a < r := by omega
    simp only [IndexTypes.forLoop, getD_append_self _ _ _ hpre, hlt, if_true, upTo_cons hlt,
      runCalls_cons, hstep a cs s hcs]
    cases hG : G a s with
    | ok s' =>
      have hadd : iadd a 1 = .ok (a + 1) := iadd_ok ⟨by have := ha.1; omega, by have := hr.2; omega⟩
      simp only [Res.ok_bind, getD_append_self _ _ _ hpre, hadd, set_append_self _ _ _ _ hpre]
      rw [ih (a + 1) ⟨by have := ha.1; omega, by have := hr.2; omega⟩ (by omega) (F cs)
        (hlen cs hcs) s']
      congr 1; funext s''
      by_cases h2 : a + 1 < r
      · simp [h2, hF]
      · have : a + 1 = r := by omega
        simp [this]
    | _ => rfl

theorem forRangeHelper_eq {σ : Type} (func : List Int → σ → Res σ) (rem : Nat) :
    ∀ (rpre spre pre ss rs cs : List Int) (s : σ),
      rpre.length = spre.length → pre.length = spre.length →
      ss.length = rem + 1 → rs.length = rem + 1 → cs.length = rem + 1 →
      (∀ x ∈ ss, IsInt x) → (∀ x ∈ rs, IsInt x) →
      IndexTypes.forRangeHelper (rpre ++ rs) (spre ++ ss) func rem pre.length (pre ++ cs, s)
        = (runCalls (boxFrom ss rs) (fun t => func (pre ++ t)) s >>= fun s' =>
            .ok (pre ++ finalIdx ss rs cs, s')) := by
  induction rem with
  | zero =>
    intro rpre spre pre ss rs cs s h1 h2 hs hr hc his hir
    obtain ⟨a, rfl⟩ := List.length_eq_one_iff.1 hs
    obtain ⟨r, rfl⟩ := List.length_eq_one_iff.1 hr
    obtain ⟨c, rfl⟩ := List.length_eq_one_iff.1 hc
    have e1 : (rpre ++ [r]).getD pre.length 0 = r := getD_append_self _ _ _ (by omega)
    have e2 : (spre ++ [a]).getD pre.length 0 = a := getD_append_self _ _ _ (by omega)
    simp only [IndexTypes.forRangeHelper, e1, e2, set_append_self _ _ _ _ rfl]
    rw [forLoop_eq (hir r (by simp)) rfl _ (fun i s => func (pre ++ [i]) s) id (by simp) 0
      (by simp) ?_ _ a (his a (by simp)) rfl [] rfl s]
    · have : boxFrom [a] [r] = (upTo a r).map fun i => [i] := by
        simp [boxFrom, List.map_eq_flatMap]
      rw [this, runCalls_map]
      simp [finalIdx]
    · intro a cs s hcs
      have : cs = [] := by simpa using hcs
      subst this; rfl
  | succ rem ih =>
    intro rpre spre pre ss rs cs s h1 h2 hs hr hc his hir
    obtain ⟨a, ss, rfl⟩ := List.exists_cons_of_length_eq_add_one hs
    obtain ⟨r, rs, rfl⟩ := List.exists_cons_of_length_eq_add_one hr
    obtain ⟨c, cs, rfl⟩ := List.exists_cons_of_length_eq_add_one hc
    simp only [List.length_cons, Nat.add_right_cancel_iff] at hs hr hc
    have e1 : (rpre ++ r :: rs).getD pre.length 0 = r := getD_append_self _ _ _ (by omega)
    have e2 : (spre ++ a :: ss).getD pre.length 0 = a := getD_append_self _ _ _ (by omega)
    simp only [IndexTypes.forRangeHelper, e1, e2, set_append_self _ _ _ _ rfl]
    rw [forLoop_eq (hir r (by simp)) rfl _
      (fun i s => runCalls (boxFrom ss rs) (fun t => func (pre ++ i :: t)) s) (finalIdx ss rs)
      (finalIdx_idem ss rs) (rem + 1) (fun cs h => by rw [finalIdx_length, h]) ?_ _ a
      (his a (by simp)) rfl cs hc s]
    · rw [boxFrom, runCalls_flatMap]
      congr 1
      · simp only [runCalls_map]
    · intro i cs s hcs
      have := ih (rpre ++ [r]) (spre ++ [a]) (pre ++ [i]) ss rs cs s (by simp [h1])
        (by simp [h2]) hs hr hcs (fun x hx => his x (by simp [hx])) (fun x hx => hir x (by simp [hx]))
      simpa using this

theorem forRange_eq {σ : Type} (func : List Int → σ → Res σ) {ranges start : List Int}
    (hne : ranges ≠ []) (hl : start.length = ranges.length) (his : ∀ x ∈ start, IsInt x)
    (hir : ∀ x ∈ ranges, IsInt x) (s : σ) :
    IndexTypes.forRange ranges func start s
      = (runCalls (boxFrom start ranges) func s >>= fun s' =>
          .ok (finalIdx start ranges start, s')) := by
  have hpos : 0 < ranges.length := List.length_pos_iff.2 hne
  have := forRangeHelper_eq func (ranges.length - 1) [] [] [] start ranges start s rfl rfl
    (by omega) (by omega) (by omega) his hir
  simpa [IndexTypes.forRange, hne] using this

theorem finalIdx_getD (start ranges : List Int) (hl : start.length = ranges.length) (k : Nat)
    (hk : k < ranges.length) :
    (finalIdx start ranges start).getD k 0
      = if ∀ j ≤ k, start.getD j 0 < ranges.getD j 0 then ranges.getD k 0 else start.getD k 0 := by
  induction ranges generalizing start k with
  | nil => simp at hk
  | cons r rs ih =>
    cases start with
    | nil => simp at hl
    | cons s ss =>
      simp only [finalIdx]
      by_cases h : s < r
      · rw [if_pos h]
        cases k with
        | zero => simp [h]
        | succ k =>
          rw [List.getD_cons_succ, ih ss (by simpa using hl) k (by simpa using hk)]
          congr 1
          apply propext
          constructor
          · intro hj j hjk
            cases j with
            | zero => simpa using h
            | succ j => simpa using hj j (by omega)
          · intro hj j hjk
            simpa using hj (j + 1) (by omega)
      · rw [if_neg h, if_neg]
        intro hj
        exact h (by simpa using hj 0 (by omega))

end Verif.Lemmas
