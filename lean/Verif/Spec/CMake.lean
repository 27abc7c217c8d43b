import Verif.Spec.FileTree

/-!
# CMake and the preprocessor, as far as configuring Shiva needs them

The variables of a CMake run, which values count as off, and which macros a configured header defines.  It says nothing
about what Shiva's CMake files do with them.
-/

namespace Verif.Spec

/-- `v` is this word, in whatever case. -/
def sameWord (v word : Text) : Bool := v.map Char.toUpper == word

/-- The values `if( VARIABLE )` and `#cmakedefine` count as off. -/
def cmakeOff (v : Text) : Bool :=
  v == [] || v == t!"0" || sameWord v t!"N" || sameWord v t!"NO" || sameWord v t!"OFF" || sameWord v t!"FALSE" ||
    sameWord v t!"IGNORE" || v == t!"NOTFOUND" || t!"-NOTFOUND" <:+ v

/-- The variables when CMake comes to Shiva's directory. -/
structure CMakeSettings where
  /-- Variables of the parent project, if there is one. -/
  normal : Text → Option Text
  /-- The cache: what the user set by `-D` or in a host configuration, and what earlier runs left. -/
  cache : Text → Option Text
  /-- Shiva is not part of another project. -/
  topLevel : Bool
  /-- `cmake/blt/SetupBLT.cmake` exists under the source directory, or where the user says BLT is. -/
  bltThere : Bool
  /-- The version of the CUDA compiler, as CMake finds out when the language CUDA is enabled. -/
  cudaCompiler : Text

namespace CMakeSettings

/-- What is found under a name: variables of the project go before the cache. -/
def value (s : CMakeSettings) (name : Text) : Option Text := (s.normal name).orElse fun _ => s.cache name

/-- The setting is given, and not as off. -/
def on (s : CMakeSettings) (name : Text) : Bool := match s.value name with
  | some v => !cmakeOff v
  | none => false

/-- CUDA is asked for, for Shiva or for all of the project. -/
def cuda (s : CMakeSettings) : Bool := s.on t!"SHIVA_ENABLE_CUDA" || s.on t!"ENABLE_CUDA"

/-- HIP is asked for. -/
def hip (s : CMakeSettings) : Bool := s.on t!"SHIVA_ENABLE_HIP" || s.on t!"ENABLE_HIP"

end CMakeSettings

/-- The text up to the first space, and what follows the spaces. -/
def cutWord (s : Text) : Text × Text := (s.takeWhile (· ≠ ' '), (s.dropWhile (· ≠ ' ')).dropWhile (· = ' '))

/-- What a line of a header defines: the macro and its replacement. -/
def lineDefines (line : Text) : Option (Text × Text) :=
  match cutWord line with
  | (d, rest) => if d = t!"#define" then some (cutWord rest) else none

/-- The replacement of a macro after the lines of a header; there are no conditional lines. -/
def macroOf (header : List Text) (name : Text) : Option Text :=
  match (header.filterMap lineDefines).filter fun m => m.1 = name with
  | [] => none
  | m :: ms => some ((m :: ms).getLast (by simp)).2

/-- A number in decimal digits. -/
def Digits (v : Text) : Prop := v ≠ [] ∧ ∀ c ∈ v, c.isDigit

/-- Parts with dots between them. -/
def joinDots : List Text → Text
  | [] => []
  | [w] => w
  | w :: v :: ws => w ++ '.' :: joinDots (v :: ws)

end Verif.Spec
