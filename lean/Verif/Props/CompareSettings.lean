import Verif.Lemmas.CompareSettings

/-!
# C113: comparing two settings files

`compare_uncrustify.py` reads two files of `key = value` lines and reports on which settings they agree and on which they
differ.
-/

namespace Verif.Props

open Verif.Spec Verif.Lemmas
open Verif.PyPath (strip)

/-- `compare_config_files`: for two files of settings with plain keys and values, every key has at most one entry in each of
the two dictionaries; the first has the settings on which the files agree, the second, for every other setting, the value in
each file, or `None` for a file that does not set it. -/
theorem C113_compare {ls1 ls2 : List SettingLine} (h1 : ∀ l ∈ ls1, l.Valid) (h2 : ∀ l ∈ ls2, l.Valid) :
    let r := CompareSettings.compare (CompareSettings.readConfig (settingsText ls1))
      (CompareSettings.readConfig (settingsText ls2))
    (r.1.map Prod.fst).Nodup ∧ (r.2.map Prod.fst).Nodup ∧
    (∀ key v, (key, v) ∈ r.1 ↔ settingOf ls1 key = some v ∧ settingOf ls2 key = some v) ∧
    ∀ key v1 v2, (key, v1, v2) ∈ r.2 ↔ settingOf ls1 key = v1 ∧ settingOf ls2 key = v2 ∧ v1 ≠ v2 := by
  obtain ⟨a1, a2⟩ := readConfig_eq h1
  obtain ⟨b1, b2⟩ := readConfig_eq h2
  obtain ⟨c1, c2, c3⟩ := compare_eq a1 b1
  refine ⟨c1, c2, fun key v => ?_, fun key v1 v2 => ?_⟩
  · rw [mem_iff_lookup c1, (c3 key).1, a2, b2]
    constructor
    · intro h
      by_cases he : settingOf ls1 key = settingOf ls2 key
      · rw [if_pos he] at h; exact ⟨h, he ▸ h⟩
      · rw [if_neg he] at h; cases h
    · rintro ⟨h, h'⟩
      rw [if_pos (h.trans h'.symm)]; exact h
  · rw [mem_iff_lookup c2, (c3 key).2, a2, b2]
    constructor
    · intro h
      by_cases he : settingOf ls1 key = settingOf ls2 key
      · rw [if_pos he] at h; cases h
      · rw [if_neg he] at h
        have h := Option.some.inj h
        have e1 := congrArg Prod.fst h
        have e2 := congrArg Prod.snd h
        dsimp only at e1 e2
        exact ⟨e1, e2, by rw [← e1, ← e2]; exact he⟩
    · rintro ⟨h, h', hn⟩
      rw [if_neg (by rw [h, h']; exact hn), h, h']

/-- What the script prints: the settings with the same value in both files, each once, and those with two different values,
each once, with these values. Missing: settings that only one file has are not printed, and values are plain. -/
theorem C113_report_partial {ls1 ls2 : List SettingLine} (h1 : ∀ l ∈ ls1, l.Valid) (h2 : ∀ l ∈ ls2, l.Valid) :
    ∃ (common : List (Text × Text)) (different : List (Text × Text × Text)),
      (common.map Prod.fst).Nodup ∧ (different.map Prod.fst).Nodup ∧
      (∀ key v, (key, v) ∈ common ↔ settingOf ls1 key = some v ∧ settingOf ls2 key = some v) ∧
      (∀ key v1 v2, (key, v1, v2) ∈ different ↔ settingOf ls1 key = some v1 ∧ settingOf ls2 key = some v2 ∧ v1 ≠ v2) ∧
      CompareSettings.main (settingsText ls1) (settingsText ls2)
        = [t!"Common Settings:"] ++ common.map (fun kv => kv.1 ++ t!" = " ++ kv.2) ++ [[], t!"Different Settings:"]
          ++ different.map fun kv => kv.1 ++ t!": " ++ kv.2.1 ++ t!" != " ++ kv.2.2 := by
  obtain ⟨c1, c2, c3, c4⟩ := C113_compare h1 h2
  unfold CompareSettings.main CompareSettings.report
  rcases hr : CompareSettings.compare (CompareSettings.readConfig (settingsText ls1))
      (CompareSettings.readConfig (settingsText ls2)) with ⟨common, different⟩
  rw [hr] at c1 c2 c3 c4
  dsimp only at c1 c2 c3 c4 ⊢
  let f : Text × Option Text × Option Text → Option (Text × Text × Text) := fun kv => match kv.2 with
    | (some v1, some v2) => some (kv.1, v1, v2)
    | _ => none
  have hf : ∀ kv x, f kv = some x ↔ kv = (x.1, some x.2.1, some x.2.2) := by
    rintro ⟨k, a, b⟩ ⟨k', a', b'⟩
    cases a <;> cases b <;> simp [f]
  refine ⟨common, different.filterMap f, c1, ?_, c3, fun key v1 v2 => ?_, ?_⟩
  · have : List.Sublist ((different.filterMap f).map Prod.fst) (different.map Prod.fst) := by
      clear c4 hr c2
      induction different with
      | nil => simp
      | cons kv l ih =>
        rw [List.filterMap_cons]
        cases he : f kv with
        | none => exact ih.trans (List.sublist_cons_self _ _)
        | some x =>
          rw [(hf kv x).1 he]
          exact ih.cons_cons _
    exact c2.sublist this
  · rw [List.mem_filterMap]
    constructor
    · rintro ⟨kv, hm, he⟩
      rw [(hf _ _).1 he] at hm
      obtain ⟨e1, e2, e3⟩ := (c4 _ _ _).1 hm
      exact ⟨e1, e2, fun e => e3 (congrArg some e)⟩
    · rintro ⟨e1, e2, e3⟩
      exact ⟨(key, some v1, some v2), (c4 _ _ _).2 ⟨e1, e2, fun e => e3 (Option.some.inj e)⟩, (hf _ (key, v1, v2)).2 rfl⟩
  · congr 1
    rw [List.map_filterMap]
    refine List.filterMap_congr fun kv _ => ?_
    rcases kv with ⟨k, a, b⟩
    cases a <;> cases b <;> rfl

/-- `indent_columns = 2 # spaces` after a comment line. -/
def twoColumns : List SettingLine :=
  [.remark [] (some t!" style"), .assign [] t!"indent_columns" [' '] [' '] t!"2" [' '] (some t!" spaces = 2"),
    .assign [] t!"nl_max" ['\t'] [' '] t!"3" [] none,
    .assign [] t!"set" [' '] [] t!"x = y" ['\t'] none, .assign [] t!"macro" [] [' '] [] [' '] (some [])]

/-- The same with other values. -/
def fourColumns : List SettingLine :=
  [.assign [] t!"indent_columns" [] [] t!"8" [] none, .assign [] t!"nl_max" [] [] t!"3" [] none,
    .assign [' '] t!"indent_columns" [] [] t!"4" [] none]

theorem valid_twoColumns : ∀ l ∈ twoColumns, l.Valid := by
  intro l hl
  simp only [twoColumns, List.mem_cons, List.not_mem_nil, or_false] at hl
  rcases hl with rfl | rfl | rfl | rfl | rfl <;> unfold SettingLine.Valid PlainWord PlainValue <;> decide

theorem valid_fourColumns : ∀ l ∈ fourColumns, l.Valid := by
  intro l hl
  simp only [fourColumns, List.mem_cons, List.not_mem_nil, or_false] at hl
  rcases hl with rfl | rfl | rfl <;> unfold SettingLine.Valid PlainWord PlainValue <;> decide

/-- Non-vacuity: comments, blanks and a repeated setting. -/
example : settingOf twoColumns t!"indent_columns" = some t!"2" ∧ settingOf fourColumns t!"indent_columns" = some t!"4" ∧
    CompareSettings.main (settingsText twoColumns) (settingsText fourColumns)
      = [t!"Common Settings:", t!"nl_max = 3", [], t!"Different Settings:", t!"indent_columns: 2 != 4"] := by
  decide +kernel

/-- Two files that differ, one without any setting: nothing is reported. -/
theorem C113_violated :
    ∃ ls1 ls2 : List SettingLine, (∀ l ∈ ls1, l.Valid) ∧ (∀ l ∈ ls2, l.Valid) ∧
      (∃ key, settingOf ls1 key ≠ settingOf ls2 key) ∧
      CompareSettings.main (settingsText ls1) (settingsText ls2)
        = [t!"Common Settings:", [], t!"Different Settings:"] ∧
      CompareSettings.main (settingsText ls2) (settingsText ls1)
        = [t!"Common Settings:", [], t!"Different Settings:"] :=
  ⟨twoColumns, [], valid_twoColumns, by simp, ⟨t!"nl_max", by decide⟩, by decide +kernel, by decide +kernel⟩

/-- A `#` inside quotes is taken for a comment: different values are reported as the same. -/
theorem C113_violated_quotes :
    CompareSettings.main (t!"cmt_header = \"#x\"\n") (t!"cmt_header = \"#y\"\n")
      = [t!"Common Settings:", t!"cmt_header = \"", [], t!"Different Settings:"] := by
  decide +kernel

end Verif.Props
