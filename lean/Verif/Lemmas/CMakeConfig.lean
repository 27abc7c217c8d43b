import Verif.Model.CMakeConfig

/-! # Configuring Shiva with CMake -/

namespace Verif.Lemmas

open Verif.Spec Verif.CMakeConfig

theorem find_set (v : Vars) (n x m : Text) : (v.set n x).find m = if m = n then some x else v.find m := by
  unfold Vars.set Vars.find
  dsimp only
  rw [List.lookup_cons]
  by_cases h : m = n
  · subst h; simp
  · have : (m == n) = false := beq_false_of_ne h
    simp [this, h]

theorem holds_set (v : Vars) (n x m : Text) : (v.set n x).holds m = if m = n then !cmakeOff x else v.holds m := by
  unfold Vars.holds
  rw [find_set]
  by_cases h : m = n <;> simp [h]

theorem find_option (v : Vars) (n m : Text) :
    (v.option n).find m = if m = n then some ((v.find m).getD t!"OFF") else v.find m := by
  unfold Vars.option
  by_cases h : m = n
  · subst h
    cases hf : v.find m with
    | some x => simp [hf]
    | none =>
      rw [if_pos rfl]
      unfold Vars.find at hf ⊢
      cases h1 : v.normal.lookup m with
      | some x => rw [h1] at hf; cases hf
      | none =>
        cases h2 : v.parent m with
        | some x => rw [h1] at hf; simp only [h2] at hf; cases hf
        | none => simp
  · rw [if_neg h]
    cases hf : v.find n with
    | some x => rfl
    | none =>
      have : (m == n) = false := beq_false_of_ne h
      unfold Vars.find
      simp [List.lookup_cons, this]

theorem holds_option (v : Vars) (n m : Text) : (v.option n).holds m = v.holds m := by
  unfold Vars.holds
  rw [find_option]
  by_cases h : m = n
  · rw [if_pos h]
    cases v.find m with
    | some x => rfl
    | none => show (!cmakeOff t!"OFF") = false; decide
  · rw [if_neg h]

theorem holds_options (v : Vars) (ns : List Text) (m : Text) : (ns.foldl Vars.option v).holds m = v.holds m := by
  induction ns generalizing v with
  | nil => rfl
  | cons n ns ih => rw [List.foldl_cons, ih, holds_option]

theorem find_options (v : Vars) (ns : List Text) (m : Text) (h : m ∉ ns) : (ns.foldl Vars.option v).find m = v.find m := by
  induction ns generalizing v with
  | nil => rfl
  | cons n ns ih =>
    rw [List.foldl_cons, ih _ fun hm => h (by simp [hm]), find_option, if_neg fun e => h (by simp [e])]

theorem find_start (s : CMakeSettings) (m : Text) : (Vars.find ⟨[], s.normal, [], s.cache⟩ m) = s.value m := by
  unfold Vars.find CMakeSettings.value
  cases h : s.normal m <;> simp [h]

theorem holds_start (s : CMakeSettings) (m : Text) : (Vars.holds ⟨[], s.normal, [], s.cache⟩ m) = s.on m := by
  unfold Vars.holds CMakeSettings.on
  rw [find_start]
  cases s.value m <;> rfl

/-- A variable after the options: those for a device are switched on by the general ones. -/
theorem holds_afterOptions (s : CMakeSettings) (m : Text) : (afterOptions s).holds m =
    ((m = t!"SHIVA_ENABLE_HIP" && s.on t!"ENABLE_HIP") || (m = t!"SHIVA_ENABLE_CUDA" && s.on t!"ENABLE_CUDA") || s.on m) := by
  unfold afterOptions
  dsimp only
  have key : ∀ m, (if (options.foldl Vars.option ⟨[], s.normal, [], s.cache⟩).holds t!"ENABLE_CUDA" then
      (options.foldl Vars.option ⟨[], s.normal, [], s.cache⟩).set t!"SHIVA_ENABLE_CUDA" t!"ON" else
      options.foldl Vars.option ⟨[], s.normal, [], s.cache⟩).holds m =
      ((m = t!"SHIVA_ENABLE_CUDA" && s.on t!"ENABLE_CUDA") || s.on m) := by
    intro m
    rw [holds_options, holds_start]
    cases hc : s.on t!"ENABLE_CUDA" with
    | false => rw [if_neg (by simp), holds_options, holds_start]; simp
    | true =>
      rw [if_pos rfl, holds_set, holds_options, holds_start]
      by_cases h : m = t!"SHIVA_ENABLE_CUDA"
      · rw [if_pos h, h]; rfl
      · rw [if_neg h]; simp [h]
  have hh := key t!"ENABLE_HIP"
  have : (decide (t!"ENABLE_HIP" = t!"SHIVA_ENABLE_CUDA")) = false := by decide
  rw [this] at hh
  rw [Bool.false_and, Bool.false_or] at hh
  rw [hh]
  cases hc : s.on t!"ENABLE_HIP" with
  | false => rw [if_neg (by simp), key]; simp
  | true =>
    rw [if_pos rfl, holds_set, key]
    by_cases h : m = t!"SHIVA_ENABLE_HIP"
    · rw [if_pos h, h]; rfl
    · rw [if_neg h]; simp [h]

theorem find_afterOptions (s : CMakeSettings) (m : Text) (h : m ∉ options) : (afterOptions s).find m = s.value m := by
  unfold afterOptions
  dsimp only
  have h1 : m ≠ t!"SHIVA_ENABLE_CUDA" := by rintro rfl; exact h (by decide)
  have h2 : m ≠ t!"SHIVA_ENABLE_HIP" := by rintro rfl; exact h (by decide)
  have key : ∀ (b : Bool) (v : Vars) (n x : Text), m ≠ n → (if b then v.set n x else v).find m = v.find m := by
    intro b v n x hn
    cases b
    · rfl
    · rw [if_pos rfl, find_set, if_neg hn]
  rw [key _ _ _ _ h2, key _ _ _ _ h1, find_options _ _ _ h, find_start]

/-- A `#define` line with a text in place of `@…@`. -/
theorem lineDefines_at (x : Text) :
    lineDefines (t!"#define SHIVA_VERSION_MAJOR " ++ x) = some (t!"SHIVA_VERSION_MAJOR", x.dropWhile (· = ' ')) ∧
    lineDefines (t!"#define SHIVA_VERSION_MINOR " ++ x) = some (t!"SHIVA_VERSION_MINOR", x.dropWhile (· = ' ')) ∧
    lineDefines (t!"#define SHIVA_VERSION_PATCHLEVEL " ++ x) = some (t!"SHIVA_VERSION_PATCHLEVEL", x.dropWhile (· = ' ')) ∧
    lineDefines (t!"#define SHIVA_CUDA_MAJOR        " ++ x) = some (t!"SHIVA_CUDA_MAJOR", x.dropWhile (· = ' ')) ∧
    lineDefines (t!"#define SHIVA_CUDA_MINOR        " ++ x) = some (t!"SHIVA_CUDA_MINOR", x.dropWhile (· = ' ')) :=
  ⟨rfl, rfl, rfl, rfl, rfl⟩

/-- Lines that define at most one macro each, all different. -/
theorem macroOf_of_lines (ls : List (Text × Text × Option Text)) (hn : (ls.map fun l => l.2.1).Nodup)
    (hl : ∀ l ∈ ls, lineDefines l.1 = l.2.2.map fun x => (l.2.1, x)) (m : Text) :
    macroOf (ls.map Prod.fst) m = ((ls.map Prod.snd).lookup m).join := by
  have key : (((ls.map Prod.fst).filterMap lineDefines).filter fun d => d.1 = m)
      = (((ls.map Prod.snd).lookup m).join.map fun x => (m, x)).toList := by
    induction ls with
    | nil => rfl
    | cons l ls ih =>
      obtain ⟨a, n, o⟩ := l
      rw [List.map_cons, List.nodup_cons] at hn
      have ih := ih hn.2 fun k hk => hl k (by simp [hk])
      have h1 : lineDefines a = o.map fun x => (n, x) := hl (a, n, o) (by simp)
      rw [List.map_cons, List.map_cons, List.filterMap_cons, h1]
      by_cases e : m = n
      · subst e
        have hz : (ls.map Prod.snd).lookup m = none := by
          rw [List.lookup_eq_none_iff]
          intro p hp
          obtain ⟨q, hq, rfl⟩ := List.mem_map.1 hp
          rw [bne_iff_ne]
          rintro rfl
          exact hn.1 (List.mem_map.2 ⟨q, hq, rfl⟩)
        rw [hz] at ih
        rw [List.lookup_cons]
        cases o with
        | none => simpa using ih
        | some x => simpa using ih
      · have e2 : (m == n) = false := beq_false_of_ne e
        rw [List.lookup_cons]
        simp only [e2]
        cases o with
        | none => exact ih
        | some x =>
          rw [Option.map_some]
          dsimp only
          rw [List.filter_cons_of_neg (by simpa using fun h => e h.symm)]
          exact ih
  unfold macroOf
  simp only [key]
  cases ((ls.map Prod.snd).lookup m).join <;> rfl

/-- The macros of the configured header. -/
theorem macroOf_template (v : Vars) (m : Text) : macroOf (template.map (configureLine v)) m =
    Option.join (List.lookup m (([t!"SHIVA_VERSION_MAJOR", t!"SHIVA_VERSION_MINOR", t!"SHIVA_VERSION_PATCHLEVEL"].map
        fun n => (n, some (((v.find n).getD []).dropWhile (· = ' ')))) ++
      ([t!"SHIVA_ENABLE_CUDA", t!"SHIVA_ENABLE_HIP", t!"SHIVA_ENABLE_CAMP", t!"SHIVA_ENABLE_BOUNDS_CHECK"].map
        fun n => (n, if v.holds n then some [] else none)) ++
      ([t!"SHIVA_CUDA_MAJOR", t!"SHIVA_CUDA_MINOR"].map
        fun n => (n, some (((v.find n).getD []).dropWhile (· = ' ')))))) := by
  have hc : ∀ n ∈ [t!"SHIVA_ENABLE_CUDA", t!"SHIVA_ENABLE_HIP", t!"SHIVA_ENABLE_CAMP", t!"SHIVA_ENABLE_BOUNDS_CHECK"],
      lineDefines (configureLine v (.cmakedefine n)) = (if v.holds n then some [] else none).map fun x => (n, x) := by
    intro n hn
    unfold configureLine
    dsimp only
    simp only [List.mem_cons, List.not_mem_nil, or_false] at hn
    cases v.holds n
    · rcases hn with rfl | rfl | rfl | rfl <;> rfl
    · rcases hn with rfl | rfl | rfl | rfl <;> rfl
  let val : Text → Option Text := fun n => some (((v.find n).getD []).dropWhile (· = ' '))
  let flag : Text → Option Text := fun n => if v.holds n then some [] else none
  have h := macroOf_of_lines
    [(configureLine v (.at t!"#define SHIVA_VERSION_MAJOR " t!"SHIVA_VERSION_MAJOR"), t!"SHIVA_VERSION_MAJOR", val t!"SHIVA_VERSION_MAJOR"),
     (configureLine v (.at t!"#define SHIVA_VERSION_MINOR " t!"SHIVA_VERSION_MINOR"), t!"SHIVA_VERSION_MINOR", val t!"SHIVA_VERSION_MINOR"),
     (configureLine v (.at t!"#define SHIVA_VERSION_PATCHLEVEL " t!"SHIVA_VERSION_PATCHLEVEL"), t!"SHIVA_VERSION_PATCHLEVEL", val t!"SHIVA_VERSION_PATCHLEVEL"),
     (configureLine v (.cmakedefine t!"SHIVA_ENABLE_CUDA"), t!"SHIVA_ENABLE_CUDA", flag t!"SHIVA_ENABLE_CUDA"),
     (configureLine v (.cmakedefine t!"SHIVA_ENABLE_HIP"), t!"SHIVA_ENABLE_HIP", flag t!"SHIVA_ENABLE_HIP"),
     (configureLine v (.cmakedefine t!"SHIVA_ENABLE_CAMP"), t!"SHIVA_ENABLE_CAMP", flag t!"SHIVA_ENABLE_CAMP"),
     (configureLine v (.cmakedefine t!"SHIVA_ENABLE_BOUNDS_CHECK"), t!"SHIVA_ENABLE_BOUNDS_CHECK", flag t!"SHIVA_ENABLE_BOUNDS_CHECK"),
     (configureLine v (.at t!"#define SHIVA_CUDA_MAJOR        " t!"SHIVA_CUDA_MAJOR"), t!"SHIVA_CUDA_MAJOR", val t!"SHIVA_CUDA_MAJOR"),
     (configureLine v (.at t!"#define SHIVA_CUDA_MINOR        " t!"SHIVA_CUDA_MINOR"), t!"SHIVA_CUDA_MINOR", val t!"SHIVA_CUDA_MINOR")]
    (by simp only [List.map_cons, List.map_nil]; decide) (by
      intro l hl
      simp only [List.mem_cons, List.not_mem_nil, or_false] at hl
      rcases hl with rfl | rfl | rfl | rfl | rfl | rfl | rfl | rfl | rfl
      · exact (lineDefines_at _).1
      · exact (lineDefines_at _).2.1
      · exact (lineDefines_at _).2.2.1
      · exact hc _ (by simp)
      · exact hc _ (by simp)
      · exact hc _ (by simp)
      · exact hc _ (by simp)
      · exact (lineDefines_at _).2.2.2.1
      · exact (lineDefines_at _).2.2.2.2) m
  exact h

theorem splitDot_ne_nil (p : Text) : splitDot p ≠ [] := by
  cases p with
  | nil => simp [splitDot]
  | cons c p =>
    unfold splitDot
    split
    · simp
    · split <;> simp

theorem splitDot_append {w : Text} (hw : '.' ∉ w) (s : Text) : splitDot (w ++ '.' :: s) = w :: splitDot s := by
  induction w with
  | nil => rw [List.nil_append, splitDot, if_pos rfl]
  | cons c w ih =>
    have hc : c ≠ '.' := by rintro rfl; simp at hw
    rw [List.cons_append, splitDot, if_neg hc, ih fun h => hw (by simp [h])]

theorem splitDot_of_notMem {w : Text} (hw : '.' ∉ w) : splitDot w = [w] := by
  induction w with
  | nil => rfl
  | cons c w ih =>
    have hc : c ≠ '.' := by rintro rfl; simp at hw
    rw [splitDot, if_neg hc, ih fun h => hw (by simp [h])]

theorem digits_noDot {w : Text} (h : Digits w) : '.' ∉ w := by
  intro hd
  have := h.2 _ hd
  revert this
  decide

theorem splitDot_joinDots {l : List Text} (hl : l ≠ []) (h : ∀ w ∈ l, Digits w) : splitDot (joinDots l) = l := by
  induction l with
  | nil => exact absurd rfl hl
  | cons a l ih =>
    cases l with
    | nil => exact splitDot_of_notMem (digits_noDot (h a (by simp)))
    | cons b l =>
      show splitDot (a ++ '.' :: joinDots (b :: l)) = _
      rw [splitDot_append (digits_noDot (h a (by simp))), ih (by simp) fun w hw => h w (by simp [hw])]

theorem dotParts_joinDots {l : List Text} (hl : l ≠ []) (h : ∀ w ∈ l, Digits w) : dotParts (joinDots l) = l := by
  unfold dotParts
  rw [if_neg, splitDot_joinDots hl h]
  cases l with
  | nil => exact absurd rfl hl
  | cons a l =>
    have ha := (h a (by simp)).1
    cases l with
    | nil => exact ha
    | cons b l => show a ++ '.' :: _ ≠ []; simp

theorem dropSpaces_digits {w : Text} (h : Digits w) : w.dropWhile (· = ' ') = w := by
  obtain ⟨h1, h2⟩ := h
  cases w with
  | nil => rfl
  | cons c w =>
    have hc : c ≠ ' ' := by
      rintro rfl; have := h2 ' ' (by simp); revert this; decide
    simp [List.dropWhile, hc]

theorem find_versions {v w : Vars} (h : versions v = some w) (m : Text)
    (hm : m ∉ [t!"SHIVA_VERSION_MAJOR", t!"SHIVA_VERSION_MINOR", t!"SHIVA_VERSION_PATCHLEVEL", t!"SHIVA_CUDA_MAJOR",
      t!"SHIVA_CUDA_MINOR"]) : w.find m = v.find m := by
  simp only [List.mem_cons, List.not_mem_nil, or_false, not_or] at hm
  obtain ⟨h1, h2, h3, h4, h5⟩ := hm
  unfold versions at h
  dsimp only at h
  split at h
  · split at h
    · cases h
    · obtain rfl := Option.some.inj h
      rw [find_set, if_neg h4, find_set, if_neg h5, find_set, if_neg h4, find_set, if_neg h3, find_set, if_neg h2, find_set,
        if_neg h1]
    · obtain rfl := Option.some.inj h
      rw [find_set, if_neg h5, find_set, if_neg h4, find_set, if_neg h5, find_set, if_neg h4, find_set, if_neg h3, find_set,
        if_neg h2, find_set, if_neg h1]
  · obtain rfl := Option.some.inj h
    rw [find_set, if_neg h5, find_set, if_neg h4, find_set, if_neg h3, find_set, if_neg h2, find_set, if_neg h1]

theorem holds_versions {v w : Vars} (h : versions v = some w) (m : Text)
    (hm : m ∉ [t!"SHIVA_VERSION_MAJOR", t!"SHIVA_VERSION_MINOR", t!"SHIVA_VERSION_PATCHLEVEL", t!"SHIVA_CUDA_MAJOR",
      t!"SHIVA_CUDA_MINOR"]) : w.holds m = v.holds m := by
  unfold Vars.holds
  rw [find_versions h m hm]

theorem project_versions {v w : Vars} (h : versions v = some w) : w.find t!"SHIVA_VERSION_MAJOR" = some t!"0" ∧
    w.find t!"SHIVA_VERSION_MINOR" = some t!"1" ∧ w.find t!"SHIVA_VERSION_PATCHLEVEL" = some t!"0" := by
  unfold versions at h
  dsimp only at h
  split at h
  · split at h
    · cases h
    · obtain rfl := Option.some.inj h; exact ⟨rfl, rfl, rfl⟩
    · obtain rfl := Option.some.inj h; exact ⟨rfl, rfl, rfl⟩
  · obtain rfl := Option.some.inj h; exact ⟨rfl, rfl, rfl⟩

/-- The variables `versions` looks at. -/
theorem versions_eq (v : Vars) (b : Bool) (o : Option Text) (hb : v.holds t!"SHIVA_ENABLE_CUDA" = b)
    (ho : v.find t!"CMAKE_CUDA_COMPILER_VERSION" = o) :
    (versions v = none ↔ b = true ∧ o = some []) ∧
    ∀ w, versions v = some w →
      w.find t!"SHIVA_CUDA_MAJOR" = some ((if b then (o.map dotParts).getD [] else []).headD t!"0") ∧
      w.find t!"SHIVA_CUDA_MINOR" = some (((if b then (o.map dotParts).getD [] else [])[1]?).getD t!"0") := by
  have hd : ∀ x, dotParts x = [] ↔ x = [] := by
    intro x
    unfold dotParts
    split
    · simp [*]
    · simp [*, splitDot_ne_nil]
  unfold versions
  dsimp only
  simp only [holds_set, find_set]
  rw [if_neg (by decide), if_neg (by decide), if_neg (by decide), if_neg (by decide), if_neg (by decide),
    if_neg (by decide), if_neg (by decide), if_neg (by decide), if_neg (by decide), if_neg (by decide), hb, ho]
  cases b with
  | false => exact ⟨by simp, fun w hw => by obtain rfl := Option.some.inj hw; exact ⟨rfl, rfl⟩⟩
  | true =>
    cases o with
    | none => exact ⟨by simp, fun w hw => by obtain rfl := Option.some.inj hw; exact ⟨rfl, rfl⟩⟩
    | some x =>
      dsimp only
      have hx := hd x
      cases hp : dotParts x with
      | nil => rw [hp] at hx; exact ⟨by simpa using hx, fun w hw => by cases hw⟩
      | cons a l =>
        rw [hp] at hx
        have hne : x ≠ [] := fun e => by simpa using hx.2 e
        cases l with
        | nil => exact ⟨by simp [hne], fun w hw => by obtain rfl := Option.some.inj hw; simp [hp, find_set]⟩
        | cons c l => exact ⟨by simp [hne], fun w hw => by obtain rfl := Option.some.inj hw; simp [hp, find_set]⟩

end Verif.Lemmas
