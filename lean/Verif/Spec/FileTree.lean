/-!
# Files, paths and lines

The environment of the scripts in `scripts/`: a tree of files and directories, path names, and what Python's file
iteration calls a line.  It says nothing about Shiva.
-/

namespace Verif.Spec

/-- Decoded text.  Files are read with universal newlines, so that a line ends in a line feed only. -/
abbrev Text := List Char

open Lean in
/-- `t!"abc"` is the text `['a', 'b', 'c']`. -/
macro:max "t!" s:str : term => do
  s.getString.toList.foldrM (fun c r => `($(Syntax.mkCharLit c) :: $r)) (← `(([] : List Char)))

/-- A place in the tree: the names on the way from the root. -/
abbrev Loc := List Text

/-- `str.split( '/' )`. -/
def splitSlash : Text → List Text
  | [] => [[]]
  | c :: cs =>
    if c = '/' then [] :: splitSlash cs
    else match splitSlash cs with
      | [] => [[c]]
      | w :: ws => (c :: w) :: ws

/-- One step along a path name: an empty name and `.` stay, `..` goes up (and stays at the root), any other name goes
down. -/
def walk (d : Loc) (name : Text) : Loc :=
  if name = [] ∨ name = ['.'] then d else if name = ['.', '.'] then d.dropLast else d ++ [name]

/-- A path name that starts at the root. -/
def isAbs (p : Text) : Bool := p.head? == some '/'

/-- The place a path name stands for, in a process whose current directory is `d`.  There are no symbolic links. -/
def locate (d : Loc) (p : Text) : Loc :=
  (splitSlash p).foldl walk (if isAbs p then [] else d)

/-- The names of a place, with `/` between them. -/
def joinSlash : List Text → Text
  | [] => []
  | [w] => w
  | w :: v :: ws => w ++ '/' :: joinSlash (v :: ws)

/-- The absolute name of a place. -/
def render (l : Loc) : Text := '/' :: joinSlash l

/-- A name that may occur in a directory: not empty, not `.` or `..`, and without `/` and line feeds. -/
def ProperName (w : Text) : Prop := w ≠ [] ∧ w ≠ ['.'] ∧ w ≠ ['.', '.'] ∧ '/' ∉ w ∧ '\n' ∉ w

/-- A place reached by proper names. -/
def Proper (l : Loc) : Prop := ∀ w ∈ l, ProperName w

/-- Files with their texts, and directories. -/
structure Tree where
  files : List (Loc × Text)
  dirs : List Loc

namespace Tree

/-- The text of a file, if there is one at this place. -/
def read (t : Tree) (l : Loc) : Option Text := t.files.lookup l

/-- There is a file or a directory at this place. -/
def isThere (t : Tree) (l : Loc) : Bool := (t.read l).isSome || t.dirs.contains l

/-- A file can be opened for writing at this place: its directory exists, and it is not itself a directory. -/
def canWrite (t : Tree) (l : Loc) : Bool := l ≠ [] && t.dirs.contains l.dropLast && !t.dirs.contains l

/-- The file at this place gets a new text; it is created if need be. -/
def write (t : Tree) (l : Loc) (x : Text) : Tree :=
  { t with files := (l, x) :: t.files.filter fun f => f.1 ≠ l }

/-- A tree as it is on a disk: whatever is above a file or a directory is a directory, and no file is one. -/
def Closed (t : Tree) : Prop :=
  (∀ f ∈ t.files, f.1 ∉ t.dirs ∧ ∀ l, l <+: f.1 → l ≠ f.1 → l ∈ t.dirs) ∧ ∀ d ∈ t.dirs, ∀ l, l <+: d → l ∈ t.dirs

/-- The tree without what is at this place or below it. -/
def remove (t : Tree) (l : Loc) : Tree :=
  ⟨t.files.filter fun f => !l.isPrefixOf f.1, t.dirs.filter fun d => !l.isPrefixOf d⟩

end Tree

/-- The lines of a text, each with its line feed; only the last one may have none. -/
def lines : Text → List Text
  | [] => []
  | c :: cs =>
    if c = '\n' then ['\n'] :: lines cs
    else match lines cs with
      | [] => [[c]]
      | l :: ls => (c :: l) :: ls

end Verif.Spec
