import Mathlib.Data.List.Forall2
import Mathlib.Logic.Relation
import Verif.Spec.FileTree

/-!
# What an aggregated header should contain

Include directives and the files they name, as a compiler with the same include paths sees them, and the layout of an
aggregated file.
-/

namespace Verif.Spec

/-- White space. -/
def White (c : Char) : Prop :=
  c.toNat ∈ [9, 10, 11, 12, 13, 28, 29, 30, 31, 32, 133, 160, 5760, 8192, 8193, 8194, 8195, 8196, 8197, 8198, 8199,
    8200, 8201, 8202, 8232, 8233, 8239, 8287, 12288]

/-- The line starts with `#include "name"`. -/
def IsInclude (line name : Text) : Prop :=
  ∃ space rest : Text, space ≠ [] ∧ (∀ c ∈ space, White c) ∧ name ≠ [] ∧ '"' ∉ name ∧
    line = "#include".toList ++ space ++ '"' :: name ++ '"' :: rest

/-- The line starts with `#pragma once`, in any case. -/
def IsPragmaOnce (line : Text) : Prop :=
  ∃ word space once rest : Text, word.map Char.toLower = "#pragma".toList ∧ space ≠ [] ∧ (∀ c ∈ space, White c) ∧
    once.map Char.toLower = "once".toList ∧ line = word ++ space ++ once ++ rest

/-- Where an include directive looks: a tree, the current directory and a list of include paths. -/
structure Search where
  tree : Tree
  cwd : Loc
  includePaths : List Text

namespace Search

/-- The places at which a file named in the header `a` may be: first relative to the directory of `a`, then relative to
the include paths. -/
def candidates (s : Search) (a : Loc) (name : Text) : List Loc :=
  locate a.dropLast name :: s.includePaths.map fun p => locate (locate s.cwd p) name

/-- The name, in the header `a`, stands for what is at `b`: the first candidate at which there is something. -/
def Resolves (s : Search) (a : Loc) (name : Text) (b : Loc) : Prop :=
  (s.candidates a name).find? s.tree.isThere = some b

/-- The header `a` has a line that includes the given name. -/
def Names (s : Search) (a : Loc) (name : Text) : Prop :=
  ∃ text, s.tree.read a = some text ∧ ∃ line ∈ lines text, IsInclude line name

/-- The name of the configuration header. -/
def configName : Text := "ShivaConfig.hpp".toList

/-- The header `a` includes the header `b`, under another name than that of the configuration header. -/
def Includes (s : Search) (a b : Loc) : Prop :=
  ∃ name, s.Names a name ∧ name ≠ configName ∧ s.Resolves a name b

/-- The given headers and all that they include, directly or indirectly. -/
def Needed (s : Search) (headers : List Text) (l : Loc) : Prop :=
  ∃ h ∈ headers, Relation.ReflTransGen s.Includes (locate s.cwd h) l

/-- A header includes itself, directly or indirectly. -/
def InCycle (s : Search) (l : Loc) : Prop := Relation.TransGen s.Includes l l

/-- All needed headers exist: the given ones, and whatever is included. -/
def Complete (s : Search) (headers : List Text) : Prop :=
  ∀ l, s.Needed headers l → (s.tree.read l).isSome ∧
    ∀ name, s.Names l name → name ≠ configName → ∃ b, s.Resolves l name b

/-- The names are ordinary: nothing in the tree has a name with a `/` or a line feed, and no path starts with two
slashes. -/
def Ordinary (s : Search) (headers : List Text) : Prop :=
  Proper s.cwd ∧ (∀ f ∈ s.tree.files, Proper f.1) ∧ (∀ d ∈ s.tree.dirs, Proper d) ∧
    (∀ h ∈ headers, ¬ "//".toList <+: h) ∧ (∀ p ∈ s.includePaths, ¬ "//".toList <+: p) ∧
    ∀ l name, s.Names l name → ¬ "//".toList <+: name

/-- What is found once the file at `out` has been emptied, or created. -/
def emptied (s : Search) (out : Loc) : Search := { s with tree := s.tree.write out [] }

end Search

/-- `x` is `line` without white space at its ends. -/
def Stripped (line x : Text) : Prop :=
  ∃ a b : Text, line = a ++ x ++ b ∧ (∀ c ∈ a ++ b, White c) ∧ (∀ c ∈ x.head?, ¬ White c) ∧ ∀ c ∈ x.getLast?, ¬ White c

/-- `y` is `line` as it stands in an aggregated file: quoted includes and `#pragma once` become comments, any other line
is kept. -/
def Commented (line y : Text) : Prop :=
  (((∃ name, IsInclude line name) ∨ IsPragmaOnce line) ∧ ∃ x, Stripped line x ∧ y = "// ".toList ++ x ++ ['\n']) ∨
    (¬ ((∃ name, IsInclude line name) ∨ IsPragmaOnce line) ∧ y = line)

/-- `y` is a text with all its lines treated in this way. -/
def CommentedText (text y : Text) : Prop :=
  ∃ ys : List Text, List.Forall₂ Commented (lines text) ys ∧ y = ys.flatten

/-- The part of an aggregated file for the header at `l`, whose treated text is `y`. -/
def part (l : Loc) (y : Text) : Text :=
  "\n\n// ===== Start of ".toList ++ render l ++ " =====\n".toList ++ y ++
    "// ===== End of ".toList ++ render l ++ " =====\n".toList

/-- A text whose last line ends in a line feed. -/
def EndsLine (text : Text) : Prop := text = [] ∨ text.getLast? = some '\n'

/-- A text with no line that starts like a mark of an aggregated file. -/
def NoMarks (text : Text) : Prop :=
  ∀ line ∈ lines text, ¬ "// ===== Start of ".toList <+: line ∧ ¬ "// ===== End of ".toList <+: line

end Verif.Spec
