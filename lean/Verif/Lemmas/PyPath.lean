import Mathlib.Data.List.Basic
import Mathlib.Tactic.Cases
import Verif.Spec.Aggregate
import Verif.Model.Aggregate

/-! # Path names and places -/

namespace Verif.Lemmas

open Verif.Spec Verif.PyPath Verif.Aggregate

theorem splitSlash_ne_nil (p : Text) : splitSlash p ≠ [] := by
  cases p with
  | nil => simp [splitSlash]
  | cons c cs =>
    unfold splitSlash
    split
    · simp
    · split <;> simp

theorem splitSlash_slash (p : Text) : splitSlash ('/' :: p) = [] :: splitSlash p := by
  conv_lhs => unfold splitSlash
  simp

theorem splitSlash_append (a b : Text) : splitSlash (a ++ '/' :: b) = splitSlash a ++ splitSlash b := by
  induction a with
  | nil => simp [splitSlash_slash]; rfl
  | cons c cs ih =>
    rw [List.cons_append]
    rw [splitSlash, splitSlash.eq_def (c :: cs)]
    dsimp only
    split
    · rw [ih]; rfl
    · rw [ih]
      cases h : splitSlash cs with
      | nil => exact absurd h (splitSlash_ne_nil cs)
      | cons w ws => rfl

theorem splitSlash_of_notMem {w : Text} (h : '/' ∉ w) : splitSlash w = [w] := by
  induction w with
  | nil => rfl
  | cons c cs ih =>
    unfold splitSlash
    rw [List.mem_cons, not_or] at h
    rw [if_neg (fun e => h.1 e.symm), ih h.2]

theorem splitSlash_noSlash (p : Text) : ∀ w ∈ splitSlash p, '/' ∉ w := by
  induction p with
  | nil => simp [splitSlash]
  | cons c cs ih =>
    unfold splitSlash
    split
    · simpa using ih
    · rename_i hc
      cases h : splitSlash cs with
      | nil => exact absurd h (splitSlash_ne_nil cs)
      | cons w ws =>
        rw [h] at ih
        intro v hv
        rcases List.mem_cons.1 hv with rfl | hv
        · rw [List.mem_cons, not_or]
          exact ⟨fun e => hc e.symm, ih w (by simp)⟩
        · exact ih v (by simp [hv])

theorem splitSlash_joinSlash {l : List Text} (hl : l ≠ []) (h : ∀ w ∈ l, '/' ∉ w) :
    splitSlash (joinSlash l) = l := by
  induction l with
  | nil => exact absurd rfl hl
  | cons w ws ih =>
    cases ws with
    | nil => exact splitSlash_of_notMem (h w (by simp))
    | cons v vs =>
      show splitSlash (w ++ '/' :: joinSlash (v :: vs)) = _
      rw [splitSlash_append, splitSlash_of_notMem (h w (by simp)), ih (by simp) fun x hx => h x (by simp [hx])]
      rfl

theorem walk_empty (d : Loc) : walk d [] = d := by simp [walk]

theorem walk_proper (d : Loc) {w : Text} (h : ProperName w) : walk d w = d ++ [w] := by
  obtain ⟨h1, h2, h3, -⟩ := h
  simp [walk, h1, h2, h3]

theorem foldl_walk_proper (d : Loc) {l : Loc} (h : Proper l) : l.foldl walk d = d ++ l := by
  induction l generalizing d with
  | nil => simp
  | cons w ws ih =>
    rw [List.foldl_cons, walk_proper d (h w (by simp)), ih _ fun x hx => h x (by simp [hx])]
    simp

theorem Proper.noSlash {l : Loc} (h : Proper l) : ∀ w ∈ l, '/' ∉ w := fun w hw => (h w hw).2.2.2.1

/-- The names met on the way along an absolute name. -/
theorem foldl_split_render (d : Loc) {l : Loc} (h : Proper l) : (splitSlash (render l)).foldl walk d = d ++ l := by
  unfold render
  rw [splitSlash_slash, List.foldl_cons, walk_empty]
  cases l with
  | nil => simp [joinSlash, splitSlash, walk_empty]
  | cons w ws => rw [splitSlash_joinSlash (by simp) (Proper.noSlash h), foldl_walk_proper _ h]

theorem isAbs_render (l : Loc) : isAbs (render l) = true := rfl

theorem locate_render (d : Loc) {l : Loc} (h : Proper l) : locate d (render l) = l := by
  unfold locate
  rw [if_pos (isAbs_render l), foldl_split_render _ h]; rfl

theorem render_injective {a b : Loc} (ha : Proper a) (hb : Proper b) (h : render a = render b) : a = b := by
  rw [← locate_render [] ha, h, locate_render [] hb]

theorem isAbs_append {a : Text} (h : a ≠ []) (b : Text) : isAbs (a ++ b) = isAbs a := by
  cases a with
  | nil => exact absurd rfl h
  | cons c cs => rfl

/-- `os.path.join` goes to the first place and from there along the second name. -/
theorem locate_join (d : Loc) (p q : Text) : locate d (join p q) = locate (locate d p) q := by
  unfold join
  split
  · rename_i h
    unfold locate
    rw [if_pos h, if_pos h]
  · rename_i hq
    have hq' : isAbs q = false := by simpa using hq
    have e : ∀ d', locate d' q = (splitSlash q).foldl walk d' := fun d' => by
      unfold locate; rw [if_neg hq]
    rw [e]
    split
    · rename_i h
      rcases h with rfl | h
      · rw [List.nil_append, e]
        simp [locate, splitSlash, walk_empty, isAbs]
      · obtain ⟨p', rfl⟩ : ∃ p', p = p' ++ ['/'] := by
          rcases List.eq_nil_or_concat p with rfl | ⟨p', c, rfl⟩
          · simp at h
          · simp at h; subst h; exact ⟨p', by simp⟩
        unfold locate
        rw [isAbs_append (by simp), List.append_assoc, List.singleton_append, splitSlash_append, List.foldl_append]
        have : splitSlash (p' ++ ['/']) = splitSlash p' ++ [[]] := splitSlash_append p' []
        rw [this, List.foldl_append]
        simp [walk_empty]
    · rename_i h
      rw [not_or] at h
      unfold locate
      rw [isAbs_append h.1, splitSlash_append, List.foldl_append]

/-- The components kept by `normpath` so far. -/
structure Kept (absolute : Bool) (acc : List Text) : Prop where
  names : ∀ w ∈ acc, w ≠ [] ∧ w ≠ ['.'] ∧ '/' ∉ w
  up : absolute = true → ∀ w ∈ acc, w ≠ ['.', '.']

theorem Kept.nil (absolute : Bool) : Kept absolute [] := ⟨by simp, by simp⟩

theorem Kept.step {absolute : Bool} {acc : List Text} (h : Kept absolute acc) {c : Text} (hc : '/' ∉ c) :
    Kept absolute (normStep absolute acc c) := by
  unfold normStep
  split
  · exact h
  · rename_i h1
    rw [not_or] at h1
    split
    · rename_i h2
      refine ⟨fun w hw => ?_, fun ha w hw => ?_⟩
      · rcases List.mem_append.1 hw with hw | hw
        · exact h.names w hw
        · rw [List.mem_singleton.1 hw]; exact ⟨h1.1, h1.2, hc⟩
      · rcases List.mem_append.1 hw with hw | hw
        · exact h.up ha w hw
        · rw [List.mem_singleton.1 hw]
          rcases h2 with h2 | h2 | h2
          · exact h2
          · rw [ha] at h2; simp at h2
          · exact absurd rfl (h.up ha _ (List.mem_of_getLast? h2))
    · exact ⟨fun w hw => h.names w (List.dropLast_subset _ hw), fun ha w hw => h.up ha w (List.dropLast_subset _ hw)⟩

theorem Kept.foldl {absolute : Bool} {acc : List Text} (h : Kept absolute acc) {cs : List Text}
    (hc : ∀ c ∈ cs, '/' ∉ c) : Kept absolute (cs.foldl (normStep absolute) acc) := by
  induction cs generalizing acc with
  | nil => exact h
  | cons c cs ih => exact ih (h.step (hc c (by simp))) fun x hx => hc x (by simp [hx])

/-- Dropping a component together with the `..` after it leads to the same place. -/
theorem foldl_walk_normStep {absolute : Bool} {acc : List Text} (h : Kept absolute acc) (c : Text) {d : Loc}
    (hd : absolute = true → d = []) :
    (normStep absolute acc c).foldl walk d = walk (acc.foldl walk d) c := by
  unfold normStep
  split
  · rename_i h1
    simp [walk, h1]
  · rename_i h1
    split
    · simp
    · rename_i h2
      rw [not_or, not_or, not_not] at h2
      obtain ⟨rfl, h3, h4⟩ := h2
      rcases List.eq_nil_or_concat acc with rfl | ⟨acc', w, rfl⟩
      · have : absolute = true := by
          cases absolute
          · simp at h3
          · rfl
        simp [hd this, walk]
      · rw [List.concat_eq_append] at *
        have hw := h.names w (by simp)
        have hup : w ≠ ['.', '.'] := by simpa using h4
        rw [List.dropLast_concat, List.foldl_append]
        simp [walk, hw.1, hw.2.1, hup]

theorem foldl_walk_norm {absolute : Bool} {acc : List Text} (h : Kept absolute acc) {cs : List Text}
    (hc : ∀ c ∈ cs, '/' ∉ c) {d : Loc} (hd : absolute = true → d = []) :
    (cs.foldl (normStep absolute) acc).foldl walk d = cs.foldl walk (acc.foldl walk d) := by
  induction cs generalizing acc with
  | nil => rfl
  | cons c cs ih =>
    rw [List.foldl_cons, ih (h.step (hc c (by simp))) (fun x hx => hc x (by simp [hx])), foldl_walk_normStep h c hd]
    rfl

/-- For an absolute name, what `normpath` keeps is the place. -/
theorem norm_absolute {cs : List Text} (hc : ∀ c ∈ cs, '/' ∉ c) :
    cs.foldl (normStep true) [] = cs.foldl walk [] := by
  have hk := (Kept.nil true).foldl hc
  have h := foldl_walk_norm (Kept.nil true) hc (d := []) fun _ => rfl
  rw [List.foldl_nil] at h
  rw [← h]
  have : ∀ l : List Text, Kept true l → l.foldl walk [] = l := fun l hl => by
    have : ∀ (l d : List Text), Kept true l → l.foldl walk d = d ++ l := by
      intro l
      induction l with
      | nil => intro d _; simp
      | cons w ws ih =>
        intro d hl
        have hw := hl.names w (by simp)
        have hu := hl.up rfl w (by simp)
        rw [List.foldl_cons, ih _ ⟨fun x hx => hl.names x (by simp [hx]), fun _ x hx => hl.up rfl x (by simp [hx])⟩]
        simp [walk, hw.1, hw.2.1, hu]
    simpa using this l [] hl
  exact (this _ hk).symm

theorem splitSlash_replicate (n : Nat) (p : Text) :
    splitSlash (List.replicate n '/' ++ p) = List.replicate n [] ++ splitSlash p := by
  induction n with
  | zero => rfl
  | succ n ih =>
    rw [List.replicate_succ, List.cons_append, splitSlash_slash, ih]; rfl

theorem foldl_walk_replicate (n : Nat) (d : Loc) : (List.replicate n ([] : Text)).foldl walk d = d := by
  induction n with
  | zero => rfl
  | succ n ih => rw [List.replicate_succ, List.foldl_cons, walk_empty, ih]

theorem initialSlashes_pos (p : Text) : 0 < initialSlashes p ↔ isAbs p = true := by
  unfold initialSlashes
  split
  · simp [isAbs]
  · simp [isAbs]
  · simp [isAbs]
  · rename_i h
    refine ⟨fun h => absurd h (by decide), ?_⟩
    cases p with
    | nil => simp [isAbs]
    | cons c cs =>
      intro hc
      have : c = '/' := by simpa [isAbs] using hc
      exact absurd (by rw [this]) (h cs)

/-- `normpath` does not change the place. -/
theorem locate_normpath (d : Loc) (p : Text) : locate d (normpath p) = locate d p := by
  unfold normpath
  split
  · rename_i h; subst h; simp [locate, splitSlash, walk, isAbs]
  · dsimp only
    set cs := (splitSlash p).foldl (normStep (isAbs p)) [] with hcs
    have hk : Kept (isAbs p) cs := (Kept.nil _).foldl (splitSlash_noSlash p)
    have key : ∀ d, (isAbs p = true → d = []) → cs.foldl walk d = (splitSlash p).foldl walk d := fun d hd =>
      foldl_walk_norm (Kept.nil _) (splitSlash_noSlash p) hd
    have hjoin : ∀ d, (splitSlash (joinSlash cs)).foldl walk d = cs.foldl walk d := by
      intro d
      by_cases h : cs = []
      · rw [h]; simp [joinSlash, splitSlash, walk_empty]
      · rw [splitSlash_joinSlash h fun w hw => (hk.names w hw).2.2]
    split
    · rename_i h0
      have h1 : initialSlashes p = 0 := by
        rcases Nat.eq_zero_or_pos (initialSlashes p) with h | h
        · exact h
        · obtain ⟨n, hn⟩ := Nat.exists_eq_succ_of_ne_zero (Nat.pos_iff_ne_zero.1 h)
          rw [hn, List.replicate_succ] at h0
          simp at h0
      have ha : isAbs p = false := by
        have := initialSlashes_pos p
        rw [h1] at this
        simpa using this
      have h2 : joinSlash cs = [] := by simpa [h1] using h0
      have h3 := key d (by simp [ha])
      rw [← hjoin, h2] at h3
      unfold locate
      rw [ha]
      refine Eq.trans ?_ h3
      simp [splitSlash, walk, isAbs]
    · have habs : isAbs (List.replicate (initialSlashes p) '/' ++ joinSlash cs) = isAbs p := by
        rcases Nat.eq_zero_or_pos (initialSlashes p) with h | h
        · have ha : isAbs p = false := by
            have := initialSlashes_pos p
            rw [h] at this
            simpa using this
          rw [h, ha]
          simp only [List.replicate_zero, List.nil_append]
          cases hc : cs with
          | nil => rfl
          | cons w ws =>
            have hw := hk.names w (by rw [hc]; simp)
            cases w with
            | nil => exact absurd rfl hw.1
            | cons x xs =>
              have hx : x ≠ '/' := fun e => hw.2.2 (by simp [e])
              cases ws <;> simp [joinSlash, isAbs, hx]
        · rw [(initialSlashes_pos p).1 h]
          obtain ⟨n, hn⟩ := Nat.exists_eq_succ_of_ne_zero (Nat.pos_iff_ne_zero.1 h)
          rw [hn, List.replicate_succ]; rfl
      unfold locate
      rw [habs, splitSlash_replicate, List.foldl_append, foldl_walk_replicate, hjoin]
      exact key _ fun h => by rw [if_pos h]

/-- No name starts with two slashes. -/
def Single (p : Text) : Prop := ¬ "//".toList <+: p

theorem single_iff (p : Text) : Single p ↔ ∀ r, p ≠ '/' :: '/' :: r := by
  unfold Single
  constructor
  · rintro h r rfl
    exact h ⟨r, rfl⟩
  · rintro h ⟨r, hr⟩
    exact h r hr.symm

theorem initialSlashes_one {p : Text} (ha : isAbs p = true) (hs : Single p) : initialSlashes p = 1 := by
  rw [single_iff] at hs
  unfold initialSlashes
  split
  · rfl
  · exact absurd rfl (hs _)
  · rfl
  · rename_i h
    cases p with
    | nil => simp [isAbs] at ha
    | cons c cs =>
      have : c = '/' := by simpa [isAbs] using ha
      exact absurd (by rw [this]) (h cs)

theorem normpath_absolute {p : Text} (ha : isAbs p = true) (hs : Single p) (d : Loc) :
    normpath p = render (locate d p) := by
  unfold normpath
  have hp : p ≠ [] := by rintro rfl; simp [isAbs] at ha
  rw [if_neg hp, initialSlashes_one ha hs, ha, norm_absolute (splitSlash_noSlash p)]
  dsimp only
  rw [if_neg (by simp)]
  unfold locate
  rw [if_pos ha]; rfl

theorem single_render {l : Loc} (h : Proper l) : Single (render l) := by
  rw [single_iff]
  intro r hr
  cases l with
  | nil => simp [render, joinSlash] at hr
  | cons w ws =>
    obtain ⟨h1, -, -, h2, -⟩ := h w (by simp)
    cases w with
    | nil => exact h1 rfl
    | cons x xs =>
      have hx : x ≠ '/' := fun e => h2 (by simp [e])
      cases ws <;> · simp [render, joinSlash] at hr; exact hx hr.1

theorem single_join {p q : Text} (hp : Single p) (hq : Single q) : Single (join p q) := by
  unfold join
  split
  · exact hq
  · rename_i h
    rw [single_iff] at hp hq ⊢
    intro r hr
    have hne : ∀ r, q ≠ '/' :: r := by
      rintro r rfl; exact h rfl
    split at hr
    · match p, hp, hr with
      | [], _, hr => exact hne _ hr
      | [a], _, hr => simp at hr; exact hne _ hr.2
      | a :: b :: s, hp, hr => simp at hr; exact hp s (by rw [hr.1, hr.2.1])
    · rename_i h'
      rw [not_or] at h'
      match p, hp, hr, h' with
      | [], _, _, h' => exact h'.1 rfl
      | [a], _, hr, h' => simp at hr; exact h'.2 (by simp [hr.1])
      | a :: b :: s, hp, hr, _ => simp at hr; exact hp s (by rw [hr.1, hr.2.1])

theorem single_normpath {p : Text} (h : Single p) : Single (normpath p) := by
  by_cases ha : isAbs p = true
  · have hk : Kept true ((splitSlash p).foldl (normStep true) []) := (Kept.nil true).foldl (splitSlash_noSlash p)
    rw [single_iff]
    intro r
    unfold normpath
    rw [if_neg (by rintro rfl; simp [isAbs] at ha), initialSlashes_one ha h, ha]
    dsimp only
    rw [if_neg (by simp)]
    cases hc : (splitSlash p).foldl (normStep true) [] with
    | nil => simp [joinSlash]
    | cons w ws =>
      rw [hc] at hk
      obtain ⟨h1, -, h2⟩ := hk.names w (by simp)
      cases w with
      | nil => exact absurd rfl h1
      | cons x xs =>
        have hx : x ≠ '/' := fun e => h2 (by simp [e])
        cases ws <;> simp [joinSlash, hx]
  · have ha' : isAbs p = false := by simpa using ha
    have hz : initialSlashes p = 0 := by
      rcases Nat.eq_zero_or_pos (initialSlashes p) with h | h
      · exact h
      · exact absurd ((initialSlashes_pos p).1 h) ha
    have hk : Kept false ((splitSlash p).foldl (normStep false) []) := (Kept.nil false).foldl (splitSlash_noSlash p)
    rw [single_iff]
    intro r
    unfold normpath
    split
    · simp
    · rw [hz, ha']
      dsimp only
      split
      · simp
      · cases hc : (splitSlash p).foldl (normStep false) [] with
        | nil => simp [joinSlash]
        | cons w ws =>
          rw [hc] at hk
          obtain ⟨h1, -, h2⟩ := hk.names w (by simp)
          cases w with
          | nil => exact absurd rfl h1
          | cons x xs =>
            have hx : x ≠ '/' := fun e => h2 (by simp [e])
            cases ws <;> simp [joinSlash, hx]

theorem isAbs_join {p : Text} (hp : isAbs p = true) (q : Text) : isAbs (join p q) = true := by
  have hne : p ≠ [] := by rintro rfl; simp [isAbs] at hp
  unfold join
  split
  · assumption
  · split <;> rw [isAbs_append hne, hp]

/-- `abspath` gives the absolute name of the place. -/
theorem abspath_eq {cwd : Loc} (hc : Proper cwd) {p : Text} (hs : Single p) :
    abspath (render cwd) p = render (locate cwd p) := by
  unfold abspath
  split
  · rename_i ha; exact normpath_absolute ha hs cwd
  · rw [normpath_absolute (isAbs_join (isAbs_render cwd) p) (single_join (single_render hc) hs) [], locate_join,
      locate_render [] hc]

theorem getLast_joinSlash {l : Loc} (h : Proper l) (hl : l ≠ []) : ∀ c ∈ (joinSlash l).getLast?, c ≠ '/' := by
  induction l with
  | nil => exact absurd rfl hl
  | cons w ws ih =>
    cases ws with
    | nil =>
      intro c hc e
      exact (h w (by simp)).2.2.2.1 (e ▸ List.mem_of_getLast? hc)
    | cons v vs =>
      intro c hc
      have hne : joinSlash (v :: vs) ≠ [] := by
        have := (h v (by simp)).1
        cases vs <;> simp [joinSlash, this]
      refine ih (fun x hx => h x (by simp [hx])) (by simp) c ?_
      have : joinSlash (w :: v :: vs) = w ++ '/' :: joinSlash (v :: vs) := rfl
      rw [this, List.getLast?_append, List.getLast?_cons] at hc
      rw [List.getLast?_eq_some_getLast hne] at hc ⊢
      simpa using hc

theorem joinSlash_concat {l : Loc} (hl : l ≠ []) (w : Text) : joinSlash (l ++ [w]) = joinSlash l ++ '/' :: w := by
  induction l with
  | nil => exact absurd rfl hl
  | cons v vs ih =>
    cases vs with
    | nil => rfl
    | cons u us =>
      show v ++ '/' :: joinSlash ((u :: us) ++ [w]) = _
      rw [ih (by simp)]
      simp [joinSlash]

theorem dropWhile_append_of_all {α : Type} {f : α → Bool} {a b : List α} (h : ∀ x ∈ a, f x = true) :
    (a ++ b).dropWhile f = b.dropWhile f := by
  induction a with
  | nil => rfl
  | cons x xs ih =>
    rw [List.cons_append, List.dropWhile_cons_of_pos (h x (by simp)), ih fun y hy => h y (by simp [hy])]

theorem dirname_render {l : Loc} (h : Proper l) (hl : l ≠ []) : dirname (render l) = render l.dropLast := by
  rcases List.eq_nil_or_concat l with rfl | ⟨l', w, rfl⟩
  · exact absurd rfl hl
  rw [List.concat_eq_append] at *
  rw [List.dropLast_concat]
  have hw : ∀ x ∈ w.reverse, (decide (x ≠ '/')) = true := by
    intro x hx
    have := (h w (by simp)).2.2.2.1
    simp only [ne_eq, decide_not, Bool.not_eq_eq_eq_not, Bool.not_true, decide_eq_false_iff_not]
    rintro rfl
    exact this (List.mem_reverse.1 hx)
  have hl' : Proper l' := fun x hx => h x (by simp [hx])
  by_cases hn : l' = []
  · subst hn
    have e : render ([] ++ [w]) = ['/'] ++ w := rfl
    unfold dirname
    rw [e, List.reverse_append, dropWhile_append_of_all hw]
    simp [render, joinSlash]
  · have e : render (l' ++ [w]) = ('/' :: joinSlash l' ++ ['/']) ++ w := by
      unfold render; rw [joinSlash_concat hn]; simp
    have e2 : (List.dropWhile (fun x => decide (x ≠ '/')) (('/' :: joinSlash l' ++ ['/']) ++ w).reverse).reverse =
        '/' :: joinSlash l' ++ ['/'] := by
      rw [List.reverse_append, dropWhile_append_of_all hw, List.reverse_append]
      simp
    unfold dirname
    dsimp only
    rw [e, e2]
    obtain ⟨y, c, hc⟩ : ∃ y c, joinSlash l' = y ++ [c] := by
      rcases List.eq_nil_or_concat (joinSlash l') with h0 | ⟨y, c, hc⟩
      · exfalso
        cases l' with
        | nil => exact hn rfl
        | cons v vs =>
          have := (hl' v (by simp)).1
          cases vs <;> simp [joinSlash, this] at h0
      · exact ⟨y, c, by rw [hc, List.concat_eq_append]⟩
    have hcs : c ≠ '/' := getLast_joinSlash hl' hn c (by rw [hc]; simp)
    rw [if_neg]
    · rw [hc]
      simp [render, hc, hcs]
    · rw [hc]; simp [hcs]

end Verif.Lemmas
