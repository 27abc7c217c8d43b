import Verif.Model.PyPath

/-!
# `scripts/compare_uncrustify.py`

Simplifications: the files are given by their texts, which have no carriage returns; a dictionary is a list of pairs, in the
order of insertion.
-/

namespace Verif.CompareSettings

open Verif.Spec (Text lines)
open Verif.PyPath (strip)

/-- `d[ key ] = value` for a dictionary.  Used for compare_uncrustify.py 13, 16, 31-39. -/
def insert {β : Type} (d : List (Text × β)) (key : Text) (value : β) : List (Text × β) :=
  match d with
  | [] => [(key, value)]
  | (k, v) :: d => if k = key then (key, value) :: d else (k, v) :: insert d key value

/-- `line.split( '=', 1 )`: one or two parts.  Used for compare_uncrustify.py 10. -/
def splitEqual (line : Text) : Text × Option Text :=
  match line.dropWhile (· ≠ '=') with
  | [] => (line, none)
  | _ :: rest => (line.takeWhile (· ≠ '='), some rest)

/-- `value.split( '#' )[0]`.  Used for compare_uncrustify.py 13. -/
def beforeHash (value : Text) : Text := value.takeWhile (· ≠ '#')

/-- compare_uncrustify.py 7-18: what one line does. -/
def readLine (config : List (Text × Text)) (line : Text) : List (Text × Text) :=
  let line := strip line
  if line ≠ [] ∧ line.head? ≠ some '#' then
    match splitEqual line with
    | (key, some value) => insert config (strip key) (strip (beforeHash value))
    | (key, none) => insert config (strip key) []
  else config

/-- compare_uncrustify.py 3-19 `read_uncrustify_config`. -/
def readConfig (text : Text) : List (Text × Text) := (lines text).foldl readLine []

/-- compare_uncrustify.py 25-41 `compare_config_files`, after reading. -/
def compare (config1 config2 : List (Text × Text)) : List (Text × Text) × List (Text × Option Text × Option Text) :=
  let first := config1.foldl (fun (acc : List (Text × Text) × List (Text × Option Text × Option Text)) kv =>
    match config2.lookup kv.1 with
    | some v2 => if v2 = kv.2 then (insert acc.1 kv.1 kv.2, acc.2) else (acc.1, insert acc.2 kv.1 (some kv.2, some v2))
    | none => (acc.1, insert acc.2 kv.1 (some kv.2, none))) ([], [])
  (first.1, config2.foldl (fun acc kv =>
    match config1.lookup kv.1 with
    | some _ => acc
    | none => insert acc kv.1 (none, some kv.2)) first.2)

/-- compare_uncrustify.py 51-64: the lines that are printed. -/
def report (common : List (Text × Text)) (different : List (Text × Option Text × Option Text)) : List Text :=
  [t!"Common Settings:"] ++ common.map (fun kv => kv.1 ++ t!" = " ++ kv.2) ++ [[], t!"Different Settings:"] ++
    different.filterMap fun kv => match kv.2 with
      | (some v1, some v2) => some (kv.1 ++ t!": " ++ v1 ++ t!" != " ++ v2)
      | _ => none

/-- `compare_uncrustify.py file1 file2`: what is printed. -/
def main (text1 text2 : Text) : List Text :=
  let (common, different) := compare (readConfig text1) (readConfig text2)
  report common different

end Verif.CompareSettings
