import Verif.Model.Aggregate
import Verif.Spec.ConfigBuild

/-!
# `scripts/config-build.py`

Simplifications: the options are given as `argparse` leaves them; there are no symbolic links and nobody is denied
access; what is printed is left out, and so is what CMake does.
-/

namespace Verif.ConfigBuild

open Verif.Spec (Text Loc Tree isAbs locate render BuildRequest)
open Verif.PyPath

/-- How a run ends: with an exception, or after the given command was handed to the shell.
Used for config-build.py 88, 183-189. -/
inductive Ending where
  | raised
  | finished (command : Text)
  deriving DecidableEq, Repr

/-- `os.path.split( p )[1]`, config-build.py 84. -/
def basename (p : Text) : Text := (p.reverse.takeWhile (· ≠ '/')).reverse

/-- config-build.py 84-86. -/
def platformInfo (cachefile : Text) : Text :=
  if (t!".cmake").isSuffixOf (basename cachefile) then (basename cachefile).take ((basename cachefile).length - 6)
  else basename cachefile

/-- config-build.py 94-99, and 115-119 but for the call of `abspath` in 116, which 121 repeats. -/
def pathArgument (given kind platform buildtype : Text) : Text :=
  if given ≠ [] then given else kind ++ t!"-" ++ platform ++ t!"-" ++ buildtype

/-- config-build.py 103-109 and 123-129: an existing directory is deleted, and a new one is made.  The flag is `false` if
there was an exception: `rmtree` of a file, of the root (after deleting all else), or a file in the way of `makedirs`. -/
def remake (t : Tree) (l : Loc) : Tree × Bool :=
  if t.isThere l then
    if t.dirs.contains l then
      if l = [] then (⟨[], [[]]⟩, false)
      else match Aggregate.makedirs (t.remove l) l with
        | some t' => (t', true)
        | none => (t.remove l, false)
    else (t, false)
  else match Aggregate.makedirs t l with
    | some t' => (t', true)
    | none => (t, false)

/-- config-build.py 135-166: the command.  What `extract_cmake_location` returns is overwritten in line 136. -/
def commandLine (r : BuildRequest) (cachefile installpath scriptsdir : Text) : Text :=
  t!"cmake" ++ (t!" -C " ++ cachefile) ++ (t!" -DCMAKE_BUILD_TYPE=" ++ r.buildtype.name) ++
  (t!" -DCMAKE_INSTALL_PREFIX=" ++ installpath) ++
  (if r.exportcompilercommands then t!" -DCMAKE_EXPORT_COMPILE_COMMANDS=on" else []) ++
  (if r.eclipse then t!" -G \"Eclipse CDT4 - Unix Makefiles\"" else []) ++
  (if r.xcode then t!" -G Xcode" else []) ++
  (if r.ninja then t!" -GNinja" else []) ++
  (if r.graphviz then t!" --graphviz=dependency.dot" else []) ++
  (if r.others.isEmpty then [] else t!" " ++ List.intercalate t!" " r.others) ++
  (t!" " ++ scriptsdir ++ t!"/.. ")

/-- config-build.py 135 and 168-174: reading the host configuration, if it is still there, and writing the command.
Reading fails for a directory, writing if the build directory is gone. -/
def writeCommand (t : Tree) (cachefile : Loc) (cmdfile : Loc) (command : Text) : Tree × Ending :=
  if t.dirs.contains cachefile then (t, .raised)
  else if t.canWrite cmdfile then (t.write cmdfile command, .finished command)
  else (t, .raised)

/-- config-build.py 115-189, after the build directory was made.  `cwdGone` says that the current directory was deleted:
then `os.getcwd`, called by `abspath` for a name that is not absolute, raises an exception. -/
def runInstall (cwd : Loc) (script : Text) (r : BuildRequest) (cwdGone : Bool) (t : Tree) : Tree × Ending :=
  let cachefile := abspath (render cwd) r.hostconfig
  let buildpath := abspath (render cwd) (pathArgument r.buildpath t!"build" (platformInfo cachefile) r.buildtype.small)
  let install := pathArgument r.installpath t!"install" (platformInfo cachefile) r.buildtype.small
  if cwdGone && !isAbs install then (t, .raised)
  else
    let installpath := abspath (render cwd) install
    match remake t (locate cwd installpath) with
    | (t', false) => (t', .raised)
    | (t', true) => writeCommand t' (locate cwd cachefile) (locate cwd (buildpath ++ t!"/cmake_cmd"))
        (commandLine r cachefile installpath (dirname (abspath (render cwd) script)))

/-- config-build.py 80-189 `config-build.py`, called by the name `script` in the directory `cwd`: the tree it leaves, and how it ends. -/
def run (t : Tree) (cwd : Loc) (script : Text) (r : BuildRequest) : Tree × Ending :=
  let cachefile := abspath (render cwd) r.hostconfig
  if t.isThere (locate cwd cachefile) then
    let buildpath := abspath (render cwd) (pathArgument r.buildpath t!"build" (platformInfo cachefile) r.buildtype.small)
    match remake t (locate cwd buildpath) with
    | (t', false) => (t', .raised)
    | (t', true) =>
      runInstall cwd script r (t.isThere (locate cwd buildpath) && (locate cwd buildpath).isPrefixOf cwd) t'
  else (t, .raised)

/-- config-build.py 183-189: the exit status.  `subprocess.call` returns the status of the command, which nobody looks
at; it raises nothing when the command fails. -/
def exitStatus (_commandStatus : Nat) : Ending → Nat
  | .raised => 1
  | .finished _ => 0

end Verif.ConfigBuild
