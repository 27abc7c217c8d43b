import Verif.Spec.FileTree

/-!
# Python's library, as far as `scripts/aggregateOrSplit.py` uses it

`os.path` is `posixpath`.  These definitions follow CPython's `posixpath.py`; the script calls them at the cited lines.
-/

namespace Verif.PyPath

open Verif.Spec (Text splitSlash joinSlash isAbs)

/-- `str.isspace` of one character, and `\s` in a regular expression.
Used for aggregateOrSplit.py 34, 130, 133, compare_uncrustify.py 7. -/
def isSpace (c : Char) : Bool :=
  let n := c.toNat
  (9 ≤ n && n ≤ 13) || (28 ≤ n && n ≤ 32) || n == 133 || n == 160 || n == 5760 || (8192 ≤ n && n ≤ 8202) ||
    n == 8232 || n == 8233 || n == 8239 || n == 8287 || n == 12288

/-- `str.strip()`, called at aggregateOrSplit.py 133 and 136. -/
def strip (s : Text) : Text := ((s.dropWhile isSpace).reverse.dropWhile isSpace).reverse

/-- `os.path.join( a, b )`, called at aggregateOrSplit.py 70, 75, 81 and 174. -/
def join (a b : Text) : Text :=
  if isAbs b then b else if a = [] ∨ a.getLast? = some '/' then a ++ b else a ++ '/' :: b

/-- One component in the loop of `os.path.normpath`.  Used for aggregateOrSplit.py 72, 75, 81. -/
def normStep (absolute : Bool) (acc : List Text) (comp : Text) : List Text :=
  if comp = [] ∨ comp = ['.'] then acc
  else if comp ≠ ['.', '.'] ∨ (absolute = false ∧ acc = []) ∨ acc.getLast? = some ['.', '.'] then acc ++ [comp]
  else acc.dropLast

/-- The number of slashes kept by `os.path.normpath` at the front: POSIX lets a path start with exactly two.
Used for aggregateOrSplit.py 72, 75, 81. -/
def initialSlashes (p : Text) : Nat :=
  match p with
  | '/' :: '/' :: '/' :: _ => 1
  | '/' :: '/' :: _ => 2
  | '/' :: _ => 1
  | _ => 0

/-- `os.path.normpath( p )`, called at aggregateOrSplit.py 72, 75 and 81. -/
def normpath (p : Text) : Text :=
  if p = [] then ['.']
  else
    let q := List.replicate (initialSlashes p) '/' ++ joinSlash ((splitSlash p).foldl (normStep (isAbs p)) [])
    if q = [] then ['.'] else q

/-- `os.path.abspath( p )`, called at aggregateOrSplit.py 23, 42, 98, 121 and 144; `cwd` is the name of the current
directory. -/
def abspath (cwd p : Text) : Text := normpath (if isAbs p then p else join cwd p)

/-- `os.path.dirname( p )`, called at aggregateOrSplit.py 29. -/
def dirname (p : Text) : Text :=
  let head := (p.reverse.dropWhile (· ≠ '/')).reverse
  if head.all (· = '/') then head else (head.reverse.dropWhile (· = '/')).reverse

end Verif.PyPath
