import Verif.Lemmas.IndexConversion

/-! # Property C69: indices of any integer type -/

namespace Verif.Props

open Verif.Spec Verif.Lemmas Verif.IndexConversion

/-- **C69 fails** for `a[i]`: with bounds checking enabled, the 64-bit index 2^32 into an array of three
elements is out of range but denotes element 0, while `a(i)` terminates the program. -/
theorem C69_bracket_violated :
    ∃ i : Index, i.Valid ∧ ¬ InBox [3] [i.val] ∧
      bracketTyped checkedHost 3 (.sub (CArray.whole [3])) [i] = .ok (.elem 0) ∧
      parenTyped checkedHost 3 (CArray.whole [3]) [i] = .abort :=
  ⟨⟨.i64, 4294967296⟩, by decide, by decide, by decide +kernel, by decide +kernel⟩

/-- **C69, part that holds for `a(i,j,..)`.** Whatever the integer types of the indices: an in-range
tuple denotes the row-major element in every configuration, and with bounds checking at run time on the
host every other tuple of the right length terminates the program. -/
theorem C69_paren_partial (v : View) (len : Nat) (hs : ValidShape v.dims)
    (h0 : 0 ≤ v.off) (h1 : v.off + v.dims.prod ≤ len) (idx : List Index)
    (hv : ∀ i ∈ idx, i.Valid) :
    (InBox v.dims (idx.map Index.val) → ∀ cfg,
      parenTyped cfg len v idx = .ok (v.off + rowMajor v.dims (idx.map Index.val))) ∧
    (idx.length = v.dims.length → ¬ InBox v.dims (idx.map Index.val) →
      parenTyped checkedHost len v idx = .abort) ∧
    (idx.length ≠ v.dims.length → ∀ cfg, parenTyped cfg len v idx = .illFormed) := by
  refine ⟨fun h cfg => ?_, fun hl h => ?_, fun hl cfg => ?_⟩
  · have hl : idx.length = v.dims.length := by simpa using inBox_length h
    have hb := rowMajor_bounds h
    simp only [parenTyped, staticAssert_true hl, Res.ok_bind,
      levelTyped_ok cfg hs.1 hv h hs.2.2]
    exact element_ok (by omega) (by omega)
  · simp only [parenTyped, staticAssert_true hl, Res.ok_bind,
      levelTyped_abort (cfg := checkedHost) rfl rfl rfl hs hv hl h, Res.abort_bind]
  · simp only [parenTyped, staticAssert_false hl, Res.illFormed_bind]

/-- **C69, part that holds for `a[i][j]..`.** If every index value fits in `int`, its type makes no
difference: the chain denotes what it denotes for `int` indices (see C03 and C04).  Missing: indices
whose value does not fit in `int`; by `C69_bracket_wraps` they are reduced modulo 2^32 first. -/
theorem C69_bracket_partial (cfg : Config) (len : Nat) (r : Ref) (idx : List Index)
    (hv : ∀ i ∈ idx, IsInt i.val) :
    bracketTyped cfg len r idx = CArray.bracketChain cfg len r (idx.map Index.val) := by
  rw [bracketTyped]
  congr 1
  exact List.map_congr_left fun i hi => i32_convert (hv i hi)

/-- What happens to the other indices, exactly: a chain `a[i][j]..` with bounds checking denotes an
element if and only if the indices are congruent modulo 2^32 to an in-range tuple, and then that one;
otherwise the program terminates. -/
theorem C69_bracket_wraps (v : View) (len : Nat) (hs : ValidShape v.dims)
    (h0 : 0 ≤ v.off) (h1 : v.off + v.dims.prod ≤ len) (idx : List Index)
    (hl : idx.length = v.dims.length) :
    (∀ a, bracketTyped checkedHost len (.sub v) idx = .ok (.elem a) ↔
      ∃ t : List Int, InBox v.dims t ∧ a = v.off + rowMajor v.dims t ∧
        List.Forall₂ (fun (i : Index) x => (4294967296 : Int) ∣ i.val - x) idx t) ∧
    ((∀ a, bracketTyped checkedHost len (.sub v) idx ≠ .ok (.elem a)) →
      bracketTyped checkedHost len (.sub v) idx = .abort) := by
  obtain ⟨t, ht⟩ : ∃ t, t = idx.map fun i => CType.i32.convert i.val := ⟨_, rfl⟩
  have hconv : ∀ x : Int, (4294967296 : Int) ∣ x - CType.i32.convert x ∧ IsInt (CType.i32.convert x) := by
    intro x
    have e : CType.i32.convert x = (x - -2147483648) % 4294967296 + -2147483648 := rfl
    rw [e]
    refine ⟨?_, ?_, ?_⟩
    · omega
    · omega
    · omega
  have huniq : ∀ x y : Int, IsInt y → (4294967296 : Int) ∣ x - y → CType.i32.convert x = y := by
    rintro x y ⟨hy0, hy1⟩ hxy
    have e : CType.i32.convert x = (x - -2147483648) % 4294967296 + -2147483648 := rfl
    rw [e]
    omega
  have hint : ∀ d ∈ v.dims, d ≤ 2147483647 := by
    intro d hd
    have := hs.2.2
    obtain ⟨l1, l2, e⟩ := List.append_of_mem hd
    have hp := hs.2.1
    rw [e] at this hp
    have p1 := prod_pos_of (dims := l1) fun x hx => hp x (by simp [hx])
    have p2 := prod_pos_of (dims := l2) fun x hx => hp x (by simp [hx])
    have p3 := hp d (by simp)
    rw [List.prod_append, List.prod_cons] at this
    have : 1 ≤ l1.prod * l2.prod := by nlinarith
    nlinarith
  have hfor : ∀ s, InBox v.dims s →
      (List.Forall₂ (fun (i : Index) x => (4294967296 : Int) ∣ i.val - x) idx s ↔ s = t) := by
    intro s hsb
    constructor
    · intro hf
      have hsi : ∀ x ∈ s, IsInt x := by
        intro x hx
        have hall : List.Forall₂ (fun i d => 0 ≤ i ∧ i < d) s v.dims := hsb
        obtain ⟨k, hk, rfl⟩ := List.getElem_of_mem hx
        have hk' : k < v.dims.length := by rw [← inBox_length hsb]; exact hk
        have := hall.get hk hk'
        simp only [List.get_eq_getElem] at this
        have h3 := hint _ (List.getElem_mem hk')
        exact ⟨by omega, by omega⟩
      rw [ht]
      clear ht hsb hl
      induction hf with
      | nil => rfl
      | cons hab _ ih =>
        rw [List.map_cons, huniq _ _ (hsi _ (by simp)) hab,
          ← ih (fun x hx => hsi x (by simp [hx]))]
    · rintro rfl
      rw [ht, List.forall₂_map_right_iff, List.forall₂_same]
      exact fun i _ => (hconv i.val).1
  have htl : t.length = v.dims.length := by rw [ht, List.length_map, hl]
  have hb : bracketTyped checkedHost len (.sub v) idx
      = CArray.bracketChain checkedHost len (.sub v) t := by rw [bracketTyped, ht]
  rw [hb]
  by_cases hin : InBox v.dims t
  · have hok := bracketChain_ok checkedHost (dims := v.dims) (off := v.off) hs ⟨h0, h1⟩ hin
    have hok' : CArray.bracketChain checkedHost len (.sub v) t
        = .ok (.elem (v.off + rowMajor v.dims t)) := hok
    rw [hok']
    refine ⟨fun a => ?_, fun h => absurd rfl (h _)⟩
    constructor
    · intro h
      have : v.off + rowMajor v.dims t = a := by simpa using h
      exact ⟨t, hin, this.symm, (hfor t hin).2 rfl⟩
    · rintro ⟨s, hs1, rfl, hs2⟩
      rw [(hfor s hs1).1 hs2]
  · have hab : CArray.bracketChain checkedHost len (.sub v) t = .abort :=
      bracketChain_abort (dims := v.dims) (off := v.off) rfl rfl rfl hs ⟨h0, h1⟩ htl hin
    rw [hab]
    refine ⟨fun a => ?_, fun _ => rfl⟩
    constructor
    · intro h; cases h
    · rintro ⟨s, hs1, -, hs2⟩
      exact absurd ((hfor s hs1).1 hs2 ▸ hs1) hin

/-- Non-vacuity of C69: indices of three different types, a 64-bit unsigned index that is out of range,
and a negative `long`. -/
example : parenTyped uncheckedHost 24 (CArray.whole [2, 3, 4]) [⟨.u64, 1⟩, ⟨.bool, 1⟩, ⟨.u32, 3⟩]
      = .ok 19 ∧
    parenTyped checkedHost 24 (CArray.whole [2, 3, 4]) [⟨.i32, 1⟩, ⟨.u64, 18446744073709551615⟩, ⟨.i8, 3⟩]
      = .abort ∧
    parenTyped checkedHost 24 (CArray.whole [2, 3, 4]) [⟨.i32, 1⟩, ⟨.i64, -1⟩, ⟨.i8, 3⟩] = .abort ∧
    bracketTyped checkedHost 24 (.sub (CArray.whole [2, 3, 4])) [⟨.u64, 1⟩, ⟨.bool, 1⟩, ⟨.u32, 3⟩]
      = .ok (.elem 19) := by
  refine ⟨by decide +kernel, by decide +kernel, by decide +kernel, by decide +kernel⟩

end Verif.Props
