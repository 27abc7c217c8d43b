import Verif.Lemmas.AggregateRun
import Verif.Model.ConfigBuild

/-! # Configuring a build -/

namespace Verif.Lemmas

open Verif.Spec Verif.PyPath Verif.ConfigBuild

theorem locate_abspath {cwd : Loc} (hc : Proper cwd) (p : Text) : locate cwd (abspath (render cwd) p) = locate cwd p := by
  unfold abspath
  rw [locate_normpath]
  split
  · rfl
  · rw [locate_join, locate_render _ hc]

theorem noSlash_walk {d : Loc} (hd : ∀ w ∈ d, '/' ∉ w) {n : Text} (hn : '/' ∉ n) : ∀ w ∈ walk d n, '/' ∉ w := by
  unfold walk
  split
  · exact hd
  · split
    · exact fun w hw => hd w (List.dropLast_subset _ hw)
    · intro w hw
      rcases List.mem_append.1 hw with hw | hw
      · exact hd w hw
      · rw [List.mem_singleton.1 hw]; exact hn

theorem noSlash_foldl {d : Loc} (hd : ∀ w ∈ d, '/' ∉ w) {ns : List Text} (hn : ∀ n ∈ ns, '/' ∉ n) :
    ∀ w ∈ ns.foldl walk d, '/' ∉ w := by
  induction ns generalizing d with
  | nil => exact hd
  | cons n ns ih => exact ih (noSlash_walk hd (hn n (by simp))) fun m hm => hn m (by simp [hm])

theorem noSlash_locate {cwd : Loc} (hc : Proper cwd) (p : Text) : ∀ w ∈ locate cwd p, '/' ∉ w := by
  unfold locate
  refine noSlash_foldl ?_ (splitSlash_noSlash p)
  split
  · simp
  · exact Proper.noSlash hc

theorem basename_slash (p : Text) {w : Text} (hw : '/' ∉ w) : basename (p ++ '/' :: w) = w := by
  unfold basename
  rw [List.reverse_append, List.reverse_cons, List.append_assoc, List.takeWhile_append_of_pos]
  · simp
  · intro c hc
    have : c ∈ w := by simpa using hc
    simp only [decide_eq_true_eq]
    rintro rfl
    exact hw this

theorem basename_render {l : Loc} (h : ∀ w ∈ l, '/' ∉ w) : basename (render l) = (l.getLast?).getD [] := by
  rcases List.eq_nil_or_concat l with rfl | ⟨l', w, rfl⟩
  · rfl
  · rw [List.concat_eq_append] at *
    have hw := h w (by simp)
    simp only [List.getLast?_concat, Option.getD_some]
    unfold render
    by_cases hl : l' = []
    · subst hl; exact basename_slash [] hw
    · rw [joinSlash_concat hl]; exact basename_slash ('/' :: joinSlash l') hw

theorem platformInfo_eq {cwd : Loc} (hc : Proper cwd) {r : BuildRequest} (hs : Single r.hostconfig) :
    platformInfo (abspath (render cwd) r.hostconfig) = r.platform cwd := by
  unfold platformInfo BuildRequest.platform BuildRequest.hostPlace
  rw [abspath_eq hc hs, basename_render (noSlash_locate hc _)]
  simp only [List.isSuffixOf_iff_suffix]

theorem noSlash_platform {cwd : Loc} (hc : Proper cwd) (r : BuildRequest) : '/' ∉ r.platform cwd := by
  have h : '/' ∉ ((r.hostPlace cwd).getLast?).getD [] := by
    cases hl : (r.hostPlace cwd).getLast? with
    | none => simp
    | some w => exact noSlash_locate hc r.hostconfig w (List.mem_of_getLast? hl)
  unfold BuildRequest.platform
  dsimp only
  split
  · exact fun hm => h (List.mem_of_mem_take hm)
  · exact h

theorem noSlash_small (b : BuildType) : '/' ∉ b.small := by cases b <;> decide

theorem locate_default {cwd : Loc} (hc : Proper cwd) (r : BuildRequest) {kind : Text} (hk : '/' ∉ kind) (h3 : 2 ≤ kind.length) :
    locate cwd (r.defaultName cwd kind) = cwd ++ [r.defaultName cwd kind] := by
  have hn : '/' ∉ r.defaultName cwd kind := by
    unfold BuildRequest.defaultName
    simp only [List.mem_append, not_or]
    exact ⟨⟨⟨⟨hk, by decide⟩, noSlash_platform hc r⟩, by decide⟩, noSlash_small _⟩
  have hl : 3 ≤ (r.defaultName cwd kind).length := by
    unfold BuildRequest.defaultName
    simp only [List.length_append, List.length_cons, List.length_nil]
    omega
  have ha : isAbs (r.defaultName cwd kind) = false := by
    unfold isAbs
    cases hd : r.defaultName cwd kind with
    | nil => rfl
    | cons c s =>
      have : c ≠ '/' := by rintro rfl; rw [hd] at hn; simp at hn
      simpa using this
  unfold locate
  rw [splitSlash_of_notMem hn, ha]
  simp only [List.foldl_cons, List.foldl_nil, Bool.false_eq_true, if_false]
  unfold walk
  rw [if_neg, if_neg]
  · rintro e; rw [e] at hl; simp at hl
  · rintro (e | e) <;> rw [e] at hl <;> simp at hl

theorem locate_build {cwd : Loc} (hc : Proper cwd) {r : BuildRequest} (hs : Single r.hostconfig) :
    locate cwd (pathArgument r.buildpath t!"build" (platformInfo (abspath (render cwd) r.hostconfig)) r.buildtype.small)
      = r.buildPlace cwd := by
  rw [platformInfo_eq hc hs]
  unfold pathArgument BuildRequest.buildPlace
  by_cases h : r.buildpath = []
  · rw [if_neg (by simpa using h), if_pos h]
    exact locate_default hc r (by decide) (by decide)
  · rw [if_pos h, if_neg h]

theorem locate_install {cwd : Loc} (hc : Proper cwd) {r : BuildRequest} (hs : Single r.hostconfig) :
    locate cwd (pathArgument r.installpath t!"install" (platformInfo (abspath (render cwd) r.hostconfig)) r.buildtype.small)
      = r.installPlace cwd := by
  rw [platformInfo_eq hc hs]
  unfold pathArgument BuildRequest.installPlace
  by_cases h : r.installpath = []
  · rw [if_neg (by simpa using h), if_pos h]
    exact locate_default hc r (by decide) (by decide)
  · rw [if_pos h, if_neg h]

/-! ### trees -/

theorem lookup_filter {α β : Type} [BEq α] [LawfulBEq α] (p : α → Bool) (l : List (α × β)) (k : α) :
    (l.filter fun f => p f.1).lookup k = if p k then l.lookup k else none := by
  induction l with
  | nil => simp
  | cons f l ih =>
    by_cases hf : p f.1
    · rw [List.filter_cons_of_pos (p := fun f : α × β => p f.1) hf]
      obtain ⟨a, b⟩ := f
      rw [List.lookup_cons, List.lookup_cons, ih]
      by_cases e : k = a
      · subst e; simp [hf]
      · have e2 : (k == a) = false := beq_false_of_ne e
        simp [e2]
    · rw [List.filter_cons_of_neg (p := fun f : α × β => p f.1) hf, ih]
      obtain ⟨a, b⟩ := f
      rw [List.lookup_cons]
      by_cases e : k = a
      · subst e; simp [hf]
      · have e2 : (k == a) = false := beq_false_of_ne e
        simp [e2]

theorem read_remove (t : Tree) (l k : Loc) : (t.remove l).read k = if l <+: k then none else t.read k := by
  unfold Tree.read Tree.remove
  rw [lookup_filter (fun m => !l.isPrefixOf m)]
  by_cases h : l <+: k
  · rw [if_pos h, if_neg]
    simpa using h
  · rw [if_neg h, if_pos]
    simpa [← List.isPrefixOf_iff_prefix] using h

theorem mem_dirs_remove (t : Tree) (l k : Loc) : k ∈ (t.remove l).dirs ↔ k ∈ t.dirs ∧ ¬ l <+: k := by
  unfold Tree.remove
  rw [List.mem_filter]
  simp [← List.isPrefixOf_iff_prefix]

theorem makedirs_eq {t t' : Tree} {l : Loc} (h : Aggregate.makedirs t l = some t') :
    (∀ k, t'.read k = t.read k) ∧ (∀ k, k ∈ t'.dirs ↔ k <+: l ∨ k ∈ t.dirs) := by
  unfold Aggregate.makedirs at h
  split at h
  · simp at h
  · obtain rfl := Option.some.inj h
    refine ⟨fun _ => rfl, fun k => ?_⟩
    simp only [List.mem_append]
    refine or_congr_left ?_
    unfold Aggregate.upTo
    simp only [List.mem_map, List.mem_range]
    constructor
    · rintro ⟨n, -, rfl⟩; exact List.take_prefix n l
    · intro hk
      exact ⟨k.length, by have := hk.length_le; omega, (List.prefix_iff_eq_take.1 hk).symm⟩

theorem makedirs_ok {t : Tree} {l : Loc} (h : ∀ k, k <+: l → t.read k = none) : ∃ t', Aggregate.makedirs t l = some t' := by
  unfold Aggregate.makedirs
  rw [if_neg]
  · exact ⟨_, rfl⟩
  · simp only [List.any_eq_true, not_exists, not_and]
    intro k hk
    unfold Aggregate.upTo at hk
    obtain ⟨n, -, rfl⟩ := List.mem_map.1 hk
    rw [h _ (List.take_prefix n l)]
    simp

/-- Outside of the directory that is made anew nothing changes. -/
theorem remake_outside (t : Tree) (l : Loc) : (∀ k, ¬ l <+: k → (remake t l).1.read k = t.read k) ∧
    ∀ k ∈ t.dirs, ¬ l <+: k → k ∈ (remake t l).1.dirs := by
  unfold remake
  split
  · split
    · split
      · rename_i h
        subst h
        exact ⟨fun k hk => absurd List.nil_prefix hk, fun k _ hk => absurd List.nil_prefix hk⟩
      · split
        · rename_i t' ht
          obtain ⟨h1, h2⟩ := makedirs_eq ht
          exact ⟨fun k hk => by rw [h1, read_remove, if_neg hk],
            fun k hk hn => (h2 k).2 (.inr ((mem_dirs_remove t l k).2 ⟨hk, hn⟩))⟩
        · exact ⟨fun k hk => by rw [read_remove, if_neg hk], fun k hk hn => (mem_dirs_remove t l k).2 ⟨hk, hn⟩⟩
    · exact ⟨fun _ _ => rfl, fun _ hk _ => hk⟩
  · split
    · rename_i t' ht
      obtain ⟨h1, h2⟩ := makedirs_eq ht
      exact ⟨fun k _ => h1 k, fun k hk _ => (h2 k).2 (.inr hk)⟩
    · exact ⟨fun _ _ => rfl, fun _ hk _ => hk⟩

theorem isThere_iff (t : Tree) (l : Loc) : t.isThere l = true ↔ (t.read l).isSome = true ∨ l ∈ t.dirs := by
  simp [Tree.isThere]

theorem closed_below {t : Tree} (ht : t.Closed) {l k : Loc} (hl : t.isThere l = false) (hk : l <+: k) : t.read k = none := by
  cases hr : t.read k with
  | none => rfl
  | some x =>
    have hm := mem_of_read hr
    have : t.isThere l = true := by
      rw [isThere_iff]
      by_cases e : l = k
      · subst e; exact .inl (by rw [hr]; rfl)
      · exact .inr ((ht.1 _ hm).2 l hk e)
    rw [this] at hl; cases hl

/-- The directory that is made anew is there, and empty. -/
theorem remake_inside {t : Tree} (ht : t.Closed) {l : Loc} (h : (remake t l).2 = true) :
    (∀ k, (remake t l).1.read k = if l <+: k then none else t.read k) ∧
    ∀ k, k ∈ (remake t l).1.dirs ↔ k <+: l ∨ k ∈ t.dirs ∧ ¬ l <+: k := by
  unfold remake at h ⊢
  by_cases h1 : t.isThere l = true
  · rw [if_pos h1] at h ⊢
    by_cases h2 : t.dirs.contains l = true
    · rw [if_pos h2] at h ⊢
      by_cases h3 : l = []
      · rw [if_pos h3] at h; simp at h
      · rw [if_neg h3] at h ⊢
        cases hm : Aggregate.makedirs (t.remove l) l with
        | none => rw [hm] at h; simp at h
        | some t' =>
          obtain ⟨e1, e2⟩ := makedirs_eq hm
          exact ⟨fun k => by simp only [e1, read_remove], fun k => by simp only [e2, mem_dirs_remove]⟩
    · rw [if_neg h2] at h; simp at h
  · rw [if_neg h1] at h ⊢
    cases hm : Aggregate.makedirs t l with
    | none => rw [hm] at h; simp at h
    | some t' =>
      obtain ⟨e1, e2⟩ := makedirs_eq hm
      refine ⟨fun k => ?_, fun k => ?_⟩
      · simp only [e1]
        split
        · rename_i hk; exact closed_below ht (by simpa using h1) hk
        · rfl
      · simp only [e2]
        refine or_congr_right ⟨fun hk => ⟨hk, fun hp => h1 ?_⟩, And.left⟩
        rw [isThere_iff]
        exact .inr (ht.2 k hk l hp)

theorem closed_remake {t : Tree} (ht : t.Closed) {l : Loc} (h : (remake t l).2 = true)
    (hf : ∀ k, k <+: l → t.read k = none) : (remake t l).1.Closed := by
  obtain ⟨h1, h2⟩ := remake_inside ht h
  refine ⟨fun f hf' => ?_, fun d hd k hk => ?_⟩
  · have hr : ((remake t l).1.read f.1).isSome = true := read_of_mem (List.mem_map_of_mem hf')
    rw [h1] at hr
    split at hr
    · simp at hr
    rename_i hp
    obtain ⟨x, hx⟩ := Option.isSome_iff_exists.1 hr
    have hm := mem_of_read hx
    refine ⟨fun hd => ?_, fun k hk hne => (h2 k).2 ?_⟩
    · rcases (h2 _).1 hd with hd | ⟨hd, -⟩
      · rw [hf _ hd] at hx; cases hx
      · exact (ht.1 _ hm).1 hd
    · by_cases hkl : k <+: l
      · exact .inl hkl
      · refine .inr ⟨(ht.1 _ hm).2 k hk hne, fun hlk => hp (hlk.trans hk)⟩
  · rcases (h2 d).1 hd with hd | ⟨hd, hn⟩
    · exact (h2 k).2 (.inl (hk.trans hd))
    · exact (h2 k).2 (.inr ⟨ht.2 d hd k hk, fun hl => hn (hl.trans hk)⟩)

theorem remake_ok {t : Tree} {l : Loc} (hl : l ≠ []) (hf : ∀ k, k <+: l → t.read k = none) :
    (remake t l).2 = true := by
  have hlt := hf l (List.prefix_rfl)
  unfold remake
  by_cases h1 : t.isThere l = true
  · rw [if_pos h1]
    have h2 : t.dirs.contains l = true := by
      rw [isThere_iff, hlt] at h1
      simpa using h1
    rw [if_pos h2, if_neg hl]
    obtain ⟨t', ht'⟩ := makedirs_ok (t := t.remove l) (l := l) fun k hk => by
      rw [read_remove]; split
      · rfl
      · exact hf k hk
    rw [ht']
  · rw [if_neg h1]
    obtain ⟨t', ht'⟩ := makedirs_ok (t := t) hf
    rw [ht']

/-- If a directory could be made anew there was no file in the way. -/
theorem remake_clear {t : Tree} (ht : t.Closed) {l : Loc} (h : (remake t l).2 = true) : ∀ k, k <+: l → t.read k = none := by
  intro k hk
  have key : ∀ {u u' : Tree}, Aggregate.makedirs u l = some u' → u.read k = none := by
    intro u u' hu
    unfold Aggregate.makedirs at hu
    split at hu
    · simp at hu
    · rename_i hn
      simp only [List.any_eq_true, not_exists, not_and] at hn
      have := hn k (List.mem_map.2 ⟨k.length, List.mem_range.2 (by have := hk.length_le; omega),
        (List.prefix_iff_eq_take.1 hk).symm⟩)
      simpa using this
  unfold remake at h
  by_cases h1 : t.isThere l = true
  · rw [if_pos h1] at h
    by_cases h2 : t.dirs.contains l = true
    · rw [if_pos h2] at h
      cases hr : t.read k with
      | none => rfl
      | some x =>
        have hm := mem_of_read hr
        exact absurd (ht.2 l (by simpa using h2) k hk) (ht.1 _ hm).1
    · rw [if_neg h2] at h; simp at h
  · rw [if_neg h1] at h
    cases hm : Aggregate.makedirs t l with
    | none => rw [hm] at h; simp at h
    | some t' => exact key hm

theorem isAbs_ne_nil {p : Text} (h : isAbs p = true) : p ≠ [] := by rintro rfl; cases h

theorem locate_cmd (cwd : Loc) {p : Text} (hp : isAbs p = true) :
    locate cwd (p ++ t!"/cmake_cmd") = locate cwd p ++ [t!"cmake_cmd"] := by
  unfold locate
  rw [isAbs_append (isAbs_ne_nil hp), splitSlash_append, List.foldl_append]
  rfl

theorem isAbs_abspath (cwd : Loc) (p : Text) : isAbs (abspath (render cwd) p) = true := by
  have key : ∀ q : Text, isAbs q = true → isAbs (normpath q) = true := by
    intro q hq
    obtain ⟨n, hn⟩ := Nat.exists_eq_succ_of_ne_zero (Nat.pos_iff_ne_zero.1 ((initialSlashes_pos q).2 hq))
    unfold normpath
    rw [if_neg (isAbs_ne_nil hq), hn, List.replicate_succ]
    rfl
  unfold abspath
  split
  · exact key _ ‹_›
  · exact key _ (isAbs_join (isAbs_render cwd) p)

/-- The script, in terms of the places. -/
theorem run_eq {cwd : Loc} (hc : Proper cwd) {r : BuildRequest} (hs : Single r.hostconfig) (t : Tree) (script : Text) :
    run t cwd script r = if t.isThere (r.hostPlace cwd) then
      (if (remake t (r.buildPlace cwd)).2 then
        runInstall cwd script r (t.isThere (r.buildPlace cwd) && (r.buildPlace cwd).isPrefixOf cwd)
          (remake t (r.buildPlace cwd)).1
      else ((remake t (r.buildPlace cwd)).1, .raised)) else (t, .raised) := by
  unfold run
  simp only [locate_abspath hc, locate_build hc hs]
  rcases hm : remake t (r.buildPlace cwd) with ⟨t', b⟩
  simp only [BuildRequest.hostPlace]
  split
  · cases b <;> rfl
  · rfl

/-- What is printed into `cmake_cmd`. -/
def commandOf (cwd : Loc) (script : Text) (r : BuildRequest) : Text :=
  commandLine r (abspath (render cwd) r.hostconfig) (abspath (render cwd) (pathArgument r.installpath t!"install"
    (platformInfo (abspath (render cwd) r.hostconfig)) r.buildtype.small)) (dirname (abspath (render cwd) script))

theorem runInstall_eq {cwd : Loc} (hc : Proper cwd) {r : BuildRequest} (hs : Single r.hostconfig) (t : Tree) (script : Text)
    (gone : Bool) :
    runInstall cwd script r gone t = if gone && !isAbs (pathArgument r.installpath t!"install"
        (platformInfo (abspath (render cwd) r.hostconfig)) r.buildtype.small) then (t, .raised) else
      (if (remake t (r.installPlace cwd)).2 then
        writeCommand (remake t (r.installPlace cwd)).1 (r.hostPlace cwd) (r.buildPlace cwd ++ [t!"cmake_cmd"])
          (commandOf cwd script r)
      else ((remake t (r.installPlace cwd)).1, .raised)) := by
  unfold runInstall
  simp only [locate_abspath hc, locate_install hc hs, locate_cmd cwd (isAbs_abspath cwd _), locate_build hc hs]
  rcases hm : remake t (r.installPlace cwd) with ⟨t', b⟩
  simp only [BuildRequest.hostPlace]
  split
  · rfl
  · cases b <;> rfl

/-! ### the shell -/

/-- A text of plain characters. -/
def AllPlain (s : Text) : Prop := ∀ c ∈ s, shellPlain c = true

/-- A text of plain characters and spaces. -/
def PlainOrSpace (s : Text) : Prop := ∀ c ∈ s, shellPlain c = true ∨ c = ' '

/-- Before a space, the text is read as these words. -/
def Reads (p : Text) (ws : List Text) : Prop :=
  ∀ s, shellSplit false none (p ++ ' ' :: s) = (shellSplit false none s).map (ws ++ ·)

theorem shellSplit_space (w : Option Text) (s : Text) :
    shellSplit false w (' ' :: s) = (shellSplit false none s).map (w.toList ++ ·) := by
  rw [shellSplit, if_pos rfl]

theorem shellSplit_plain (w : Option Text) {c : Char} (hc : shellPlain c = true) (s : Text) :
    shellSplit false w (c :: s) = shellSplit false (some (w.getD [] ++ [c])) s := by
  rw [shellSplit, if_neg, if_neg, if_pos hc]
  · rintro rfl; revert hc; decide
  · rintro rfl; revert hc; decide

theorem splitSpace_ne_nil (p : Text) : splitSpace p ≠ [] := by
  cases p with
  | nil => simp [splitSpace]
  | cons c p =>
    unfold splitSpace
    split
    · simp
    · split <;> simp

theorem shellSplit_words (x : Text) (hx : PlainOrSpace x) (s : Text) :
    (∀ v : Text, v ≠ [] → shellSplit false (some v) (x ++ ' ' :: s)
      = (shellSplit false none s).map (((v ++ (splitSpace x).headD []) :: (splitSpace x).tail.filter (· ≠ [])) ++ ·)) ∧
    shellSplit false none (x ++ ' ' :: s) = (shellSplit false none s).map (spaceWords x ++ ·) := by
  induction x with
  | nil =>
    refine ⟨fun v _ => ?_, ?_⟩
    · rw [List.nil_append, shellSplit_space]; simp [splitSpace]
    · rw [List.nil_append, shellSplit_space]; simp [splitSpace, spaceWords]
  | cons c x ih =>
    obtain ⟨ih1, ih2⟩ := ih fun d hd => hx d (by simp [hd])
    rcases hx c (by simp) with hc | rfl
    · have hcs : c ≠ ' ' := by rintro rfl; revert hc; decide
      obtain ⟨w, ws, hw⟩ := List.exists_cons_of_ne_nil (splitSpace_ne_nil x)
      have e : splitSpace (c :: x) = (c :: w) :: ws := by
        unfold splitSpace; rw [if_neg hcs, hw]
      refine ⟨fun v hv => ?_, ?_⟩
      · rw [List.cons_append, shellSplit_plain _ hc, Option.getD_some, ih1 _ (by simp), e, hw]
        simp
      · rw [List.cons_append, shellSplit_plain _ hc, Option.getD_none, List.nil_append, ih1 _ (by simp), spaceWords, e, hw]
        simp
    · have e : splitSpace (' ' :: x) = [] :: splitSpace x := by
        rw [splitSpace, if_pos rfl]
      refine ⟨fun v hv => ?_, ?_⟩
      · rw [List.cons_append, shellSplit_space, ih2, e, Option.map_map]
        congr 1
        funext l
        simp [spaceWords]
      · rw [List.cons_append, shellSplit_space, ih2]
        simp [spaceWords, e, Option.map_map, Function.comp_def]

theorem reads_spaces {x : Text} (hx : PlainOrSpace x) : Reads x (spaceWords x) := fun s => (shellSplit_words x hx s).2

theorem spaceWords_plain {x : Text} (hx : AllPlain x) (hn : x ≠ []) : spaceWords x = [x] := by
  have : ∀ y : Text, AllPlain y → splitSpace y = [y] := by
    intro y hy
    induction y with
    | nil => rfl
    | cons c y ih =>
      have hc : c ≠ ' ' := by rintro rfl; have := hy ' ' (by simp); revert this; decide
      rw [splitSpace, if_neg hc, ih fun d hd => hy d (by simp [hd])]
  rw [spaceWords, this x hx]
  simp [hn]

theorem reads_plain {x : Text} (hx : AllPlain x) (hn : x ≠ []) : Reads x [x] := by
  have := reads_spaces (x := x) fun c hc => .inl (hx c hc)
  rwa [spaceWords_plain hx hn] at this

theorem shellSplit_quoted (v x : Text) (hx : PlainOrSpace x) (s : Text) :
    shellSplit true (some v) (x ++ '"' :: s) = shellSplit false (some (v ++ x)) s := by
  induction x generalizing v with
  | nil => rw [List.nil_append, shellSplit, if_pos rfl, List.append_nil]
  | cons c x ih =>
    have hc := hx c (by simp)
    rw [List.cons_append, shellSplit, if_neg, if_pos, ih _ fun d hd => hx d (by simp [hd])]
    · simp
    · simpa using hc
    · rintro rfl; revert hc; decide

theorem reads_quoted {x : Text} (hx : PlainOrSpace x) : Reads ('"' :: (x ++ ['"'])) [x] := by
  intro s
  rw [List.cons_append, List.append_assoc, List.singleton_append, shellSplit, if_neg (by decide), if_pos rfl,
    shellSplit_quoted _ _ hx, shellSplit_space]
  rfl

/-- Pieces with a space after each. -/
theorem shellWords_pieces (ps : List (Text × List Text)) (h : ∀ p ∈ ps, Reads p.1 p.2) :
    shellWords (ps.flatMap fun p => p.1 ++ [' ']) = some (ps.flatMap Prod.snd) := by
  unfold shellWords
  induction ps with
  | nil => rfl
  | cons p ps ih =>
    rw [List.flatMap_cons, List.append_assoc, List.singleton_append, h p (by simp), ih fun q hq => h q (by simp [hq])]
    simp

theorem intercalate_space (l : List Text) :
    (if l.isEmpty then [] else t!" " ++ List.intercalate t!" " l) = l.flatMap fun p => ' ' :: p := by
  induction l with
  | nil => rfl
  | cons a l ih =>
    cases l with
    | nil => simp [List.intercalate]
    | cons b l =>
      simp only [List.isEmpty_cons, Bool.false_eq_true, if_false] at ih ⊢
      rw [List.flatMap_cons, ← ih]
      simp [List.intercalate]

theorem flatMap_spaces (a : Text) (l : List Text) :
    a ++ (l.flatMap fun p => ' ' :: p) ++ [' '] = (a :: l).flatMap fun p => p ++ [' '] := by
  induction l generalizing a with
  | nil => simp
  | cons b l ih =>
    rw [List.flatMap_cons, List.flatMap_cons, ← ih b]
    simp

theorem ite_flatMap (b : Bool) (x : List Text) :
    ((if b then x else []).flatMap fun p => ' ' :: p) = if b then (x.flatMap fun p => ' ' :: p) else [] := by
  cases b <;> rfl

/-- The command is a sequence of pieces with spaces between them. -/
theorem commandLine_pieces (r : BuildRequest) (h i d : Text) : commandLine r h i d =
    ((t!"cmake" :: ([t!"-C", h, t!"-DCMAKE_BUILD_TYPE=" ++ r.buildtype.name, t!"-DCMAKE_INSTALL_PREFIX=" ++ i] ++
  (if r.exportcompilercommands then [t!"-DCMAKE_EXPORT_COMPILE_COMMANDS=on"] else []) ++
  (if r.eclipse then [t!"-G", t!"\"Eclipse CDT4 - Unix Makefiles\""] else []) ++
  (if r.xcode then [t!"-G", t!"Xcode"] else []) ++
  (if r.ninja then [t!"-GNinja"] else []) ++
  (if r.graphviz then [t!"--graphviz=dependency.dot"] else []) ++
  r.others ++ [d ++ t!"/.."])).flatMap fun p => p ++ [' ']) := by
  rw [← flatMap_spaces]
  unfold commandLine
  rw [intercalate_space]
  simp only [List.flatMap_append, ite_flatMap]
  have e1 : ([t!"-C", h, t!"-DCMAKE_BUILD_TYPE=" ++ r.buildtype.name, t!"-DCMAKE_INSTALL_PREFIX=" ++ i].flatMap
      fun p => ' ' :: p) = t!" -C " ++ h ++ (t!" -DCMAKE_BUILD_TYPE=" ++ r.buildtype.name) ++
      (t!" -DCMAKE_INSTALL_PREFIX=" ++ i) := by simp
  have e2 : ([d ++ t!"/.."].flatMap fun p => ' ' :: p) ++ [' '] = t!" " ++ d ++ t!"/.. " := by simp
  rw [e1, ← e2]
  simp only [List.append_assoc]
  rfl

theorem allPlain_append {a b : Text} (ha : AllPlain a) (hb : AllPlain b) : AllPlain (a ++ b) := by
  intro c hc
  rcases List.mem_append.1 hc with hc | hc
  · exact ha c hc
  · exact hb c hc

theorem shellWords_commandLine {r : BuildRequest} {cwd script : Loc}
    (h1 : AllPlain (render (r.hostPlace cwd))) (h2 : AllPlain (render (r.installPlace cwd)))
    (h3 : AllPlain (render script.dropLast)) (h4 : ∀ a ∈ r.others, PlainOrSpace a) :
    shellWords (commandLine r (render (r.hostPlace cwd)) (render (r.installPlace cwd)) (render script.dropLast))
      = some ({ r with others := r.others.flatMap spaceWords }.words cwd script) := by
  let one : Text → Text × List Text := fun x => (x, [x])
  have hone : ∀ x : Text, AllPlain x → x ≠ [] → Reads (one x).1 (one x).2 := fun x hx hn => reads_plain hx hn
  have hname : AllPlain r.buildtype.name := by unfold AllPlain; cases r.buildtype <;> decide
  let ps : List (Text × List Text) :=
    one t!"cmake" :: ([one t!"-C", one (render (r.hostPlace cwd)), one (t!"-DCMAKE_BUILD_TYPE=" ++ r.buildtype.name),
      one (t!"-DCMAKE_INSTALL_PREFIX=" ++ render (r.installPlace cwd))] ++
    (if r.exportcompilercommands then [one t!"-DCMAKE_EXPORT_COMPILE_COMMANDS=on"] else []) ++
    (if r.eclipse then [one t!"-G", (t!"\"Eclipse CDT4 - Unix Makefiles\"", [t!"Eclipse CDT4 - Unix Makefiles"])] else []) ++
    (if r.xcode then [one t!"-G", one t!"Xcode"] else []) ++
    (if r.ninja then [one t!"-GNinja"] else []) ++
    (if r.graphviz then [one t!"--graphviz=dependency.dot"] else []) ++
    (r.others.map fun a => (a, spaceWords a)) ++ [one (render script.dropLast ++ t!"/..")])
  have hr : ∀ p ∈ ps, Reads p.1 p.2 := by
    have hite : ∀ (b : Bool) (l : List (Text × List Text)), (∀ p ∈ l, Reads p.1 p.2) →
        ∀ p ∈ (if b then l else []), Reads p.1 p.2 := by
      intro b l hl p hp
      cases b
      · simp at hp
      · exact hl p hp
    intro p hp
    simp only [ps, List.mem_cons, List.mem_append, List.not_mem_nil, or_false] at hp
    rcases hp with rfl | ((((((hp | hp) | hp) | hp) | hp) | hp) | hp) | rfl
    · exact hone _ (by unfold AllPlain; decide) (by simp)
    · rcases hp with rfl | rfl | rfl | rfl
      · exact hone _ (by unfold AllPlain; decide) (by simp)
      · exact hone _ h1 (by simp [render])
      · exact hone _ (allPlain_append (by unfold AllPlain; decide) hname) (by simp)
      · exact hone _ (allPlain_append (by unfold AllPlain; decide) h2) (by simp)
    · refine hite _ _ (fun q hq => ?_) p hp
      rw [List.mem_singleton.1 hq]
      exact hone _ (by unfold AllPlain; decide) (by simp)
    · refine hite _ _ (fun q hq => ?_) p hp
      simp only [List.mem_cons, List.not_mem_nil, or_false] at hq
      rcases hq with rfl | rfl
      · exact hone _ (by unfold AllPlain; decide) (by simp)
      · exact reads_quoted (x := t!"Eclipse CDT4 - Unix Makefiles") (by unfold PlainOrSpace; decide)
    · refine hite _ _ (fun q hq => ?_) p hp
      simp only [List.mem_cons, List.not_mem_nil, or_false] at hq
      rcases hq with rfl | rfl
      · exact hone _ (by unfold AllPlain; decide) (by simp)
      · exact hone _ (by unfold AllPlain; decide) (by simp)
    · refine hite _ _ (fun q hq => ?_) p hp
      rw [List.mem_singleton.1 hq]
      exact hone _ (by unfold AllPlain; decide) (by simp)
    · refine hite _ _ (fun q hq => ?_) p hp
      rw [List.mem_singleton.1 hq]
      exact hone _ (by unfold AllPlain; decide) (by simp)
    · obtain ⟨a, ha, rfl⟩ := List.mem_map.1 hp
      exact reads_spaces (h4 a ha)
    · exact hone _ (allPlain_append h3 (by unfold AllPlain; decide)) (by simp)
  have hw := shellWords_pieces ps hr
  rw [commandLine_pieces]
  refine Eq.trans ?_ (hw.trans ?_)
  · congr 1
    rw [← List.flatMap_map Prod.fst (fun p : Text => p ++ [' '])]
    congr 1
    simp only [ps, List.map_cons, List.map_append, List.map_nil, List.map_map]
    have e1 : ∀ (b : Bool) (l : List (Text × List Text)), (if b then l else []).map Prod.fst
        = if b then l.map Prod.fst else [] := by intro b l; cases b <;> rfl
    simp only [e1]
    have e2 : r.others.map (Prod.fst ∘ fun a => (a, spaceWords a)) = r.others := by
      simp [Function.comp_def]
    rw [e2]
    rfl
  · congr 1
    simp only [ps, List.flatMap_cons, List.flatMap_append]
    have e1 : ∀ (b : Bool) (l : List (Text × List Text)), (if b then l else []).flatMap Prod.snd
        = if b then l.flatMap Prod.snd else [] := by intro b l; cases b <;> rfl
    simp only [e1]
    have e2 : (r.others.map fun a => (a, spaceWords a)).flatMap Prod.snd = r.others.flatMap spaceWords := by
      rw [List.flatMap_map]
    rw [e2]
    rfl

end Verif.Lemmas
