import Verif.Spec.FileTree

/-!
# Configuring a build: the places involved, and the command that should be run

The options of `scripts/config-build.py` as its help text describes them, and how a POSIX shell cuts a line into words.
-/

namespace Verif.Spec

/-- The four choices of `--buildtype`. -/
inductive BuildType where
  | release
  | debug
  | relWithDebInfo
  | minSizeRel
  deriving DecidableEq, Repr

namespace BuildType

/-- What CMake calls it. -/
def name : BuildType → Text
  | release => t!"Release"
  | debug => t!"Debug"
  | relWithDebInfo => t!"RelWithDebInfo"
  | minSizeRel => t!"MinSizeRel"

/-- In small letters. -/
def small : BuildType → Text
  | release => t!"release"
  | debug => t!"debug"
  | relWithDebInfo => t!"relwithdebinfo"
  | minSizeRel => t!"minsizerel"

end BuildType

/-- What the user asks for; a path that is not given is empty. -/
structure BuildRequest where
  buildpath : Text
  installpath : Text
  buildtype : BuildType
  eclipse : Bool
  xcode : Bool
  exportcompilercommands : Bool
  hostconfig : Text
  ninja : Bool
  graphviz : Bool
  /-- Arguments the script does not know; they are meant for CMake. -/
  others : List Text

namespace BuildRequest

/-- The host configuration file. -/
def hostPlace (r : BuildRequest) (cwd : Loc) : Loc := locate cwd r.hostconfig

/-- The name of the host configuration, without `.cmake`. -/
def platform (r : BuildRequest) (cwd : Loc) : Text :=
  let n := ((r.hostPlace cwd).getLast?).getD []
  if t!".cmake" <:+ n then n.take (n.length - 6) else n

/-- The name of a directory that is not given. -/
def defaultName (r : BuildRequest) (cwd : Loc) (kind : Text) : Text :=
  kind ++ t!"-" ++ r.platform cwd ++ t!"-" ++ r.buildtype.small

/-- The build directory. -/
def buildPlace (r : BuildRequest) (cwd : Loc) : Loc :=
  if r.buildpath = [] then cwd ++ [r.defaultName cwd t!"build"] else locate cwd r.buildpath

/-- The installation directory. -/
def installPlace (r : BuildRequest) (cwd : Loc) : Loc :=
  if r.installpath = [] then cwd ++ [r.defaultName cwd t!"install"] else locate cwd r.installpath

/-- The words of the command: CMake with the arguments asked for, for the project above the directory of the script. -/
def words (r : BuildRequest) (cwd : Loc) (script : Loc) : List Text :=
  [t!"cmake", t!"-C", render (r.hostPlace cwd), t!"-DCMAKE_BUILD_TYPE=" ++ r.buildtype.name,
    t!"-DCMAKE_INSTALL_PREFIX=" ++ render (r.installPlace cwd)] ++
  (if r.exportcompilercommands then [t!"-DCMAKE_EXPORT_COMPILE_COMMANDS=on"] else []) ++
  (if r.eclipse then [t!"-G", t!"Eclipse CDT4 - Unix Makefiles"] else []) ++
  (if r.xcode then [t!"-G", t!"Xcode"] else []) ++
  (if r.ninja then [t!"-GNinja"] else []) ++
  (if r.graphviz then [t!"--graphviz=dependency.dot"] else []) ++
  r.others ++ [render script.dropLast ++ t!"/.."]

end BuildRequest

/-- Characters that stand for themselves in a shell command, wherever they are. -/
def shellPlain (c : Char) : Bool := c.isAlphanum || (t!"_@%+=:,./-").contains c

/-- The words of a shell command made of plain characters, spaces, and double quotes around such; `none` for anything
else.  `word` is the word so far, if one has begun, and `quoted` says whether a double quote is open. -/
def shellSplit : (quoted : Bool) → (word : Option Text) → Text → Option (List Text)
  | false, word, [] => some word.toList
  | true, _, [] => none
  | false, word, c :: s =>
    if c = ' ' then (shellSplit false none s).map (word.toList ++ ·)
    else if c = '"' then shellSplit true (some (word.getD [])) s
    else if shellPlain c then shellSplit false (some (word.getD [] ++ [c])) s
    else none
  | true, word, c :: s =>
    if c = '"' then shellSplit false word s
    else if shellPlain c || c = ' ' then shellSplit true (some (word.getD [] ++ [c])) s
    else none

/-- The words of a shell command. -/
def shellWords (s : Text) : Option (List Text) := shellSplit false none s

/-- The parts of a text between spaces. -/
def splitSpace : Text → List Text
  | [] => [[]]
  | c :: s =>
    if c = ' ' then [] :: splitSpace s
    else match splitSpace s with
      | [] => [[c]]
      | w :: ws => (c :: w) :: ws

/-- The words of a text without quotes: the parts between spaces that are not empty. -/
def spaceWords (s : Text) : List Text := (splitSpace s).filter (· ≠ [])

end Verif.Spec
