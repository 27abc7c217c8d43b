import Verif.Spec.Mapping
import Verif.Lemmas.Tensor
import Verif.Lemmas.CArrayAccess
import Mathlib.Data.Fin.Tuple.Basic
import Mathlib.Logic.Equiv.Fin.Basic

/-! # Square matrices held in an owning CArray -/

namespace Verif.Lemmas

open Verif.Spec

variable {R : Type} {d : ℕ}

/-- The row-major contents of a matrix. -/
def matMem (M : Matrix (Fin d) (Fin d) R) : List R :=
  List.ofFn fun k : Fin (d * d) => M k.divNat k.modNat

@[simp] theorem matMem_length (M : Matrix (Fin d) (Fin d) R) : (matMem M).length = d * d := by
  simp [matMem]

theorem pair_lt (i j : Fin d) : (i : ℕ) * d + j < d * d := by
  have h1 : (i : ℕ) + 1 ≤ d := i.2
  have h2 := Nat.mul_le_mul_right d h1
  have := j.2
  nlinarith

theorem rowMajor_pair (a b i j : Int) : rowMajor [a, b] [i, j] = i * b + j := by
  simp [rowMajor, List.range_succ]

theorem inBox_pair (i j : Fin d) :
    InBox [(d : Int), (d : Int)] [((i : ℕ) : Int), ((j : ℕ) : Int)] := by
  simp [InBox]

theorem validShape_square (hd : 0 < d) (hs : d * d ≤ 2147483647) :
    ValidShape [(d : Int), (d : Int)] := by
  refine ⟨by simp, by simp; omega, ?_⟩
  simp only [List.prod_cons, List.prod_nil, mul_one]
  exact_mod_cast hs

theorem fits_square {mem : List R} (hl : mem.length = d * d) :
    Fits mem.length (CArray.whole [(d : Int), (d : Int)]) := by
  refine ⟨le_rfl, ?_⟩
  rw [hl]
  simp [CArray.whole]

theorem read_square (cfg : Config) (hd : 0 < d) (hs : d * d ≤ 2147483647) {mem : List R}
    (hl : mem.length = d * d) (i j : Fin d) :
    CArray.read cfg mem (CArray.whole [(d : Int), (d : Int)]) [((i : ℕ) : Int), ((j : ℕ) : Int)]
      = .ok (mem[(i : ℕ) * d + j]'(by rw [hl]; exact pair_lt i j)) := by
  rw [read_eq cfg (validShape_square hd hs) (fits_square hl) (inBox_pair i j)]
  rw [show (CArray.whole [(d : Int), (d : Int)]).off + rowMajor (CArray.whole [(d : Int), (d : Int)]).dims
    [((i : ℕ) : Int), ((j : ℕ) : Int)] = (((i : ℕ) * d + j : ℕ) : Int) by
      simp [CArray.whole]]
  rw [load_eq_ok (Int.natCast_nonneg _), Int.toNat_natCast]
  exact List.getElem?_eq_getElem _

theorem write_square (cfg : Config) (hd : 0 < d) (hs : d * d ≤ 2147483647) {mem : List R}
    (hl : mem.length = d * d) (i j : Fin d) (x : R) :
    CArray.write cfg mem (CArray.whole [(d : Int), (d : Int)]) [((i : ℕ) : Int), ((j : ℕ) : Int)] x
      = .ok (mem.set ((i : ℕ) * d + j) x) := by
  rw [write_eq cfg (validShape_square hd hs) (fits_square hl) (inBox_pair i j)]
  rw [show (CArray.whole [(d : Int), (d : Int)]).off + rowMajor (CArray.whole [(d : Int), (d : Int)]).dims
    [((i : ℕ) : Int), ((j : ℕ) : Int)] = (((i : ℕ) * d + j : ℕ) : Int) by
      simp [CArray.whole]]
  rw [Int.toNat_natCast]

theorem divNat_pair (i j : Fin d) : (⟨(i : ℕ) * d + j, pair_lt i j⟩ : Fin (d * d)).divNat = i := by
  apply Fin.ext
  have hd : 0 < d := j.pos
  rw [Fin.coe_divNat]
  show ((i : ℕ) * d + j) / d = i
  rw [mul_comm, Nat.mul_add_div hd, Nat.div_eq_of_lt j.2, add_zero]

theorem modNat_pair (i j : Fin d) : (⟨(i : ℕ) * d + j, pair_lt i j⟩ : Fin (d * d)).modNat = j := by
  apply Fin.ext
  rw [Fin.coe_modNat]
  show ((i : ℕ) * d + j) % d = j
  rw [mul_comm, Nat.mul_add_mod, Nat.mod_eq_of_lt j.2]

theorem pair_divMod (k : Fin (d * d)) : ((k.divNat : Fin d) : ℕ) * d + (k.modNat : Fin d) = k := by
  rw [Fin.coe_divNat, Fin.coe_modNat, mul_comm, Nat.div_add_mod]

theorem matMem_getElem (M : Matrix (Fin d) (Fin d) R) (i j : Fin d) :
    (matMem M)[(i : ℕ) * d + j]'(by rw [matMem_length]; exact pair_lt i j) = M i j := by
  simp only [matMem, List.getElem_ofFn]
  rw [divNat_pair, modNat_pair]

theorem read_matMem (cfg : Config) (hd : 0 < d) (hs : d * d ≤ 2147483647)
    (M : Matrix (Fin d) (Fin d) R) (i j : Fin d) :
    CArray.read cfg (matMem M) (CArray.whole [(d : Int), (d : Int)]) [((i : ℕ) : Int), ((j : ℕ) : Int)]
      = .ok (M i j) := by
  rw [read_square cfg hd hs (matMem_length M), matMem_getElem]

/-- A list of the right length is the contents of the matrix it holds. -/
theorem exists_matMem {mem : List R} (hl : mem.length = d * d) :
    ∃ M : Matrix (Fin d) (Fin d) R, mem = matMem M := by
  refine ⟨fun i j => mem[(i : ℕ) * d + j]'(by rw [hl]; exact pair_lt i j), ?_⟩
  apply List.ext_getElem
  · exact hl.trans (matMem_length _).symm
  · intro k h1 h2
    have hk : k < d * d := by rw [← hl]; exact h1
    simp only [matMem, List.getElem_ofFn]
    congr 1
    exact (pair_divMod ⟨k, hk⟩).symm

theorem holds_iff (hd : 0 < d) (hs : d * d ≤ 2147483647) {mem : List R}
    {M : Matrix (Fin d) (Fin d) R} : HoldsMatrix mem M ↔ mem = matMem M := by
  constructor
  · rintro ⟨hl, h⟩
    obtain ⟨N, rfl⟩ := exists_matMem hl
    congr 1
    funext i j
    have := (read_matMem checkedHost hd hs N i j).symm.trans (h checkedHost i j)
    exact Res.ok.inj this
  · rintro rfl
    exact ⟨matMem_length M, fun cfg i j => read_matMem cfg hd hs M i j⟩

/-- Replacing one entry. -/
def setEntry (M : Matrix (Fin d) (Fin d) R) (i j : Fin d) (x : R) : Matrix (Fin d) (Fin d) R :=
  fun a b => if a = i ∧ b = j then x else M a b

theorem set_matMem (M : Matrix (Fin d) (Fin d) R) (i j : Fin d) (x : R) :
    (matMem M).set ((i : ℕ) * d + j) x = matMem (setEntry M i j x) := by
  apply List.ext_getElem
  · simp
  · intro k h1 h2
    have hk : k < d * d := by simpa using h2
    rw [List.getElem_set]
    simp only [matMem, List.getElem_ofFn, setEntry]
    by_cases h : (i : ℕ) * d + j = k
    · subst h
      rw [divNat_pair, modNat_pair]; simp
    · have : ¬ ((⟨k, hk⟩ : Fin (d * d)).divNat = i ∧ (⟨k, hk⟩ : Fin (d * d)).modNat = j) := by
        rintro ⟨rfl, rfl⟩
        exact h (pair_divMod ⟨k, hk⟩)
      rw [if_neg h, if_neg this]

theorem write_matMem (cfg : Config) (hd : 0 < d) (hs : d * d ≤ 2147483647)
    (M : Matrix (Fin d) (Fin d) R) (i j : Fin d) (x : R) :
    CArray.write cfg (matMem M) (CArray.whole [(d : Int), (d : Int)])
      [((i : ℕ) : Int), ((j : ℕ) : Int)] x = .ok (matMem (setEntry M i j x)) := by
  rw [write_square cfg hd hs (matMem_length M), set_matMem]

/-- A loop that updates each entry of a set of entries once, from its old value. -/
theorem runCalls_entries {ι : Type} {L : List ι} (hL : L.Nodup) {pos : ι → Fin d × Fin d}
    (hpos : Function.Injective pos) {F : Fin d → Fin d → R → R} {body : ι → List R → Res (List R)}
    (hb : ∀ p M, body p (matMem M)
      = .ok (matMem (setEntry M (pos p).1 (pos p).2 (F (pos p).1 (pos p).2 (M (pos p).1 (pos p).2)))))
    (M : Matrix (Fin d) (Fin d) R) [DecidableEq ι] :
    runCalls L body (matMem M)
      = .ok (matMem fun i j => if (i, j) ∈ L.map pos then F i j (M i j) else M i j) := by
  induction L generalizing M with
  | nil => simp
  | cons p L ih =>
    obtain ⟨hp, hL'⟩ := List.nodup_cons.1 hL
    simp only [runCalls_cons, hb, Res.ok_bind]
    rw [ih hL']
    congr 2
    funext i j
    have hp' : pos p ∉ L.map pos := fun h => by
      obtain ⟨q, hq, e⟩ := List.mem_map.1 h
      exact hp (hpos e ▸ hq)
    by_cases hij : (i, j) = pos p
    · have h1 : i = (pos p).1 := congrArg Prod.fst hij
      have h2 : j = (pos p).2 := congrArg Prod.snd hij
      rw [if_neg (by rw [hij]; exact hp'), if_pos (by rw [hij]; simp)]
      subst h1 h2
      simp [setEntry]
    · have : setEntry M (pos p).1 (pos p).2 (F (pos p).1 (pos p).2 (M (pos p).1 (pos p).2)) i j
          = M i j := by
        rw [setEntry, if_neg]
        rintro ⟨rfl, rfl⟩; exact hij rfl
      rw [this]
      simp [hij]

/-- The pairs `(i,j)` visited by `forNestedSequence< d, d >`. -/
theorem forNested_pairs {σ : Type} (d : ℕ) :
    ∃ L : List (Fin d × Fin d), L.Nodup ∧ (∀ p, p ∈ L) ∧
      ∀ (body : List Int → σ → Res σ) (s : σ),
        Sequence.forNestedSequence [(d : Int), (d : Int)] body s
          = runCalls L (fun p => body [((p.1 : ℕ) : Int), ((p.2 : ℕ) : Int)]) s := by
  obtain ⟨L, hL, hnd, hall⟩ := box_list (fun _ : Fin 2 => d)
  refine ⟨L.map fun f => (f 0, f 1), ?_, ?_, ?_⟩
  · refine List.Nodup.map ?_ hnd
    intro f g h
    funext k
    have h1 : f 0 = g 0 := congrArg Prod.fst h
    have h2 : f 1 = g 1 := congrArg Prod.snd h
    fin_cases k
    · exact h1
    · exact h2
  · intro p
    exact List.mem_map.2 ⟨fun k : Fin 2 => if k = 0 then p.1 else p.2, hall _, by simp⟩
  · intro body s
    have e1 := staticForNested_eq (ends := [(d : Int), (d : Int)]) (by simp) (by simp) body [] s
    simp only [List.nil_append] at e1
    rw [Sequence.forNestedSequence, e1]
    have e2 : boxFrom (List.replicate [(d : Int), (d : Int)].length 0) [(d : Int), (d : Int)] = L.map tup := by
      rw [← hL]; rfl
    rw [e2, runCalls_map, runCalls_map]
    refine runCalls_congr (fun f _ s => ?_) s
    congr 1

end Verif.Lemmas
