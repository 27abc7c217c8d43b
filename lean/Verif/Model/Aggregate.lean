import Verif.Model.PyPath

/-!
# `scripts/aggregateOrSplit.py`

Simplifications: files are texts without carriage returns, there are no symbolic links, no other process changes the
tree while the script runs, and nothing is said about what is printed.
-/

namespace Verif.Aggregate

open Verif.Spec (Text Loc Tree splitSlash isAbs locate render lines)
open Verif.PyPath

/-- What can be seen of a run: it has finished, it was ended by an exception, or it is still running.
Used for aggregateOrSplit.py 88-111, 204-207. -/
inductive Run (α : Type) where
  | ok (a : α)
  | raised
  | running
  deriving DecidableEq, Repr

/-- What a run depends on: the tree, the current directory and `--include-paths`.
Used for aggregateOrSplit.py 194, 205. -/
structure World where
  tree : Tree
  cwd : Loc
  includePaths : List Text

namespace World

/-- `os.path.exists( p )`, aggregateOrSplit.py 45, 71, 76, 82. -/
def pathExists (w : World) (p : Text) : Bool := w.tree.isThere (locate w.cwd p)

/-- `open( p, 'r' )` and reading to the end, aggregateOrSplit.py 32, 126, 165; `none` is an exception. -/
def openRead (w : World) (p : Text) : Option Text := w.tree.read (locate w.cwd p)

/-- `os.path.abspath( p )`; `os.getcwd()` is the absolute name of the current directory.
Used for aggregateOrSplit.py 23, 42, 98, 121, 144. -/
def abs (w : World) (p : Text) : Text := abspath (render w.cwd) p

end World

/-- The rest of `s` after the prefix `p`.  Used for aggregateOrSplit.py 34, 129-130, 167-168. -/
def afterPrefix : Text → Text → Option Text
  | [], s => some s
  | _ :: _, [] => none
  | a :: p, b :: s => if a = b then afterPrefix p s else none

/-- aggregateOrSplit.py 34-36 and 129 `re.match( r'#include\s+"([^"]+)"', line )` and its group 1.  No character is both
white space and a quotation mark, so that the match never depends on backtracking. -/
def includeMatch (line : Text) : Option Text :=
  match afterPrefix "#include".toList line with
  | none => none
  | some r =>
    if (r.takeWhile isSpace).isEmpty then none
    else match r.dropWhile isSpace with
      | '"' :: s =>
        if (s.takeWhile (· ≠ '"')).isEmpty || (s.dropWhile (· ≠ '"')).isEmpty then none
        else some (s.takeWhile (· ≠ '"'))
      | _ => none

/-- A prefix up to case, for `re.IGNORECASE`.  None of the letters in `pragma` and `once` equals a letter outside ASCII up
to case.  Used for aggregateOrSplit.py 130. -/
def afterPrefixIgnoreCase : Text → Text → Option Text
  | [], s => some s
  | _ :: _, [] => none
  | a :: p, b :: s => if a = b.toLower then afterPrefixIgnoreCase p s else none

/-- aggregateOrSplit.py 130 `re.match( r'#pragma\s+once', line, re.IGNORECASE )`. -/
def pragmaOnceMatch (line : Text) : Bool :=
  match afterPrefixIgnoreCase "#pragma".toList line with
  | none => false
  | some r =>
    !(r.takeWhile isSpace).isEmpty && (afterPrefixIgnoreCase "once".toList (r.dropWhile isSpace)).isSome

/-- aggregateOrSplit.py 11 `self.config_file`. -/
def configFile : Text := "ShivaConfig.hpp".toList

/-- aggregateOrSplit.py 62-85 `resolve_path( included_file, base_path, include_paths )`. -/
def resolvePath (w : World) (includedFile basePath : Text) : Option Text :=
  if w.pathExists (join basePath includedFile) then some (normpath (join basePath includedFile))
  else if w.pathExists (normpath (join basePath includedFile)) then some (normpath (join basePath includedFile))
  else (w.includePaths.map fun p => normpath (join p includedFile)).find? w.pathExists

/-- `self.dependencies`: a dictionary in insertion order; a set is a list without repetitions.
Used for aggregateOrSplit.py 7. -/
abbrev Graph := List (Text × List Text)

/-- `header in self.dependencies`.  Used for aggregateOrSplit.py 25. -/
def Graph.has (g : Graph) (h : Text) : Bool := g.any fun e => e.1 = h

/-- `self.dependencies[header].add( p )`.  Used for aggregateOrSplit.py 43. -/
def Graph.addDep (g : Graph) (h p : Text) : Graph :=
  g.map fun e => if e.1 = h then (e.1, if p ∈ e.2 then e.2 else e.2 ++ [p]) else e

/-- aggregateOrSplit.py 33-54, the loop over the lines of `header`.  An exception ends the loop, and the handler only
prints; so an include that cannot be resolved hides those after it.  `call` is the recursive call; it is `none` when
the interpreter's limit on nested calls is reached, which raises `RecursionError`.  `self.dependents` (56-60) is never
read, and left out. -/
def scan (w : World) (call : Graph → Text → Option Graph) (header basePath : Text) : Graph → List Text → Graph
  | g, [] => g
  | g, line :: rest =>
    match includeMatch line with
    | none => scan w call header basePath g rest
    | some includedFile =>
      if includedFile = configFile then scan w call header basePath g rest
      else match resolvePath w includedFile basePath with
        | none => g
        | some p =>
          if w.pathExists (w.abs p) then
            match call (g.addDep header (w.abs p)) (w.abs p) with
            | none => g.addDep header (w.abs p)
            | some g' => scan w call header basePath g' rest
          else g.addDep header (w.abs p)

/-- aggregateOrSplit.py 13-60 `create_dependency_graph( header, include_paths )`, with `depth` nested calls left. -/
def createGraph (w : World) : Nat → Graph → Text → Option Graph
  | 0, _, _ => none
  | depth + 1, g, header =>
    if g.has (w.abs header) then some g
    else match w.openRead (w.abs header) with
      | none => some (g ++ [(w.abs header, [])])
      | some text =>
        some (scan w (createGraph w depth) (w.abs header) (dirname (w.abs header)) (g ++ [(w.abs header, [])])
          (lines text))

/-- aggregateOrSplit.py 143-145, the loop over the headers.  A `RecursionError` at the first level is not caught. -/
def createGraphs (w : World) (depth : Nat) : Graph → List Text → Option Graph
  | g, [] => some g
  | g, h :: hs => match createGraph w depth g (w.abs h) with
    | none => none
    | some g' => createGraphs w depth g' hs

/-- aggregateOrSplit.py 94-102, the first half of a round: the keys without dependencies. -/
def readyKeys (remaining : Graph) : List Text := (remaining.filter fun e => e.2.isEmpty).map Prod.fst

/-- aggregateOrSplit.py 105-109 for one of these keys. -/
def removeKey (remaining : Graph) (k : Text) : Graph :=
  (remaining.filter fun e => e.1 ≠ k).map fun e => (e.1, e.2.filter (· ≠ k))

/-- aggregateOrSplit.py 99-101: `abs_key` is appended unless it is in the list; `unique_files` has the same elements as
`self.included_list`. -/
def appendUnique (w : World) (included : List Text) (k : Text) : List Text :=
  if w.abs k ∈ included then included else included ++ [w.abs k]

/-- aggregateOrSplit.py 93-111, the loop `while size_of_remaining_dependencies > 0`, watched for `n` rounds. -/
def headerLoop (w : World) : Nat → Graph → List Text → Run (List Text)
  | n, remaining, included =>
    if remaining.isEmpty then .ok included
    else match n with
      | 0 => .running
      | n + 1 => headerLoop w n ((readyKeys remaining).foldl removeKey remaining)
          ((readyKeys remaining).foldl (appendUnique w) included)

/-- aggregateOrSplit.py 128-139: what is written for one line. -/
def outputLine (line : Text) : Text :=
  if (includeMatch line).isSome || pragmaOnceMatch line then "// ".toList ++ strip line ++ ['\n'] else line

/-- aggregateOrSplit.py 127. -/
def startMark (p : Text) : Text := "\n\n// ===== Start of ".toList ++ p ++ " =====\n".toList

/-- aggregateOrSplit.py 140. -/
def endMark (p : Text) : Text := "// ===== End of ".toList ++ p ++ " =====\n".toList

/-- aggregateOrSplit.py 117-140 `process_header`, and the loop over the list in 154-155: what is written for these
headers; `none` is the exception raised for a file that cannot be read.  `self.included` has the headers written so
far. -/
def processHeaders (w : World) : List Text → List Text → Option Text
  | _, [] => some []
  | included, h :: hs =>
    if w.abs h ∈ included then processHeaders w included hs
    else match w.openRead (w.abs h), processHeaders w (w.abs h :: included) hs with
      | some text, some out =>
        some (startMark (w.abs h) ++ (lines text).flatMap outputLine ++ endMark (w.abs h) ++ out)
      | _, _ => none

/-- aggregateOrSplit.py 142-155, the body of the `with` statement: what is written to the output file.  The file was
emptied before. -/
def aggregateText (w : World) (depth n : Nat) (headers : List Text) : Run Text :=
  match createGraphs w depth [] headers with
  | none => .raised
  | some g => match headerLoop w n g [] with
    | .ok list => match processHeaders w [] list with
      | some text => .ok text
      | none => .raised
    | .raised => .raised
    | .running => .running

/-- The world after `open( output_file, 'w' )`, aggregateOrSplit.py 142. -/
def World.opened (w : World) (output : Text) : World :=
  { w with tree := w.tree.write (locate w.cwd output) [] }

/-- aggregateOrSplit.py 113-155 `aggregate_headers( headers, output_file, include_paths )`, watched for `n` rounds of the
loop in 93-111: the tree it leaves.  Simplification: a header that is the output file itself is read as empty. -/
def aggregateHeaders (w : World) (depth n : Nat) (headers : List Text) (output : Text) : Run Tree :=
  if w.tree.canWrite (locate w.cwd output) then
    match aggregateText (w.opened output) depth n headers with
    | .ok text => .ok (w.tree.write (locate w.cwd output) text)
    | .raised => .raised
    | .running => .running
  else .raised

/-- The longest non-empty beginning of `s` that is followed by the given mark: `(.+)` and the mark after it.  A line has
no line feed but its last character, which no mark follows.  Used for aggregateOrSplit.py 167-168. -/
def greedy (mark : Text) : Text → Option Text
  | [] => none
  | c :: s => match greedy mark s with
    | some g => some (c :: g)
    | none => if (afterPrefix mark s).isSome then some [c] else none

/-- aggregateOrSplit.py 167 and 173: group 1 of the mark that starts a header. -/
def startMatch (line : Text) : Option Text :=
  (afterPrefix "// ===== Start of ".toList line).bind (greedy " =====".toList)

/-- aggregateOrSplit.py 168: the mark that ends a header. -/
def endMatch (line : Text) : Bool :=
  ((afterPrefix "// ===== End of ".toList line).bind (greedy " =====".toList)).isSome

/-- aggregateOrSplit.py 166-180, the loop over the lines; `output` is the place of the open file, if there is one, and
the result `none` an exception. -/
def splitLoop (cwd : Loc) (outputDir : Text) : Tree → Option Loc → List Text → Option Tree
  | t, _, [] => some t
  | t, output, line :: rest =>
    match startMatch line with
    | some currentFile =>
      if t.canWrite (locate cwd (join outputDir currentFile)) then
        splitLoop cwd outputDir (t.write (locate cwd (join outputDir currentFile)) [])
          (some (locate cwd (join outputDir currentFile))) rest
      else none
    | none =>
      if endMatch line then splitLoop cwd outputDir t none rest
      else match output with
        | none => splitLoop cwd outputDir t none rest
        | some l => splitLoop cwd outputDir (t.write l (((t.read l).getD []) ++ line)) (some l) rest

/-- A place and the directories above it.  Used for aggregateOrSplit.py 161, config-build.py 109, 129. -/
def upTo (l : Loc) : List Loc := (List.range (l.length + 1)).map fun k => l.take k

/-- `os.makedirs( output_dir, exist_ok=True )`, aggregateOrSplit.py 161; `none` is the exception raised if a file is in
the way. -/
def makedirs (t : Tree) (l : Loc) : Option Tree :=
  if (upTo l).any fun d => (t.read d).isSome then none else some { t with dirs := (upTo l) ++ t.dirs }

/-- aggregateOrSplit.py 157-183 `split_aggregated_file( aggregated_file, output_dir )`: the tree it leaves.
Simplification: the aggregated file is read before anything is written. -/
def splitAggregatedFile (t : Tree) (cwd : Loc) (aggregatedFile outputDir : Text) : Option Tree :=
  match makedirs t (locate cwd outputDir) with
  | none => none
  | some t => match t.read (locate cwd aggregatedFile) with
    | none => none
    | some text => splitLoop cwd outputDir t none (lines text)

end Verif.Aggregate
