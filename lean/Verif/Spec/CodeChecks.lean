import Verif.Spec.FileTree

/-!
# Which sources are the project's own, and CMake's regular expressions

Of the regular expressions only what the code checks need: characters that stand for themselves, and `*` after one of them.
It says nothing about what Shiva's CMake files do with them.
-/

namespace Verif.Spec

/-- The file names with which C and C++ sources and headers end. -/
def sourceEndings : List Text := [t!".cpp", t!".hpp", t!".cxx", t!".hxx", t!".cc", t!".c", t!".h", t!".hh"]

/-- A place whose name is that of a C or C++ source or header. -/
def IsSource (l : Loc) : Prop := ∃ w, l.getLast? = some w ∧ ∃ e ∈ sourceEndings, e <:+ w

/-- What is not the project's own, by the way from its directory: build directories, BLT and camp. -/
def Foreign (way : Loc) : Prop := ∃ w ∈ way, t!"build" <+: w ∨ w = t!"blt" ∨ w = t!"camp"

/-- The texts a regular expression stands for.  `c*` is any number of `c`. -/
inductive Denotes : Text → Text → Prop
  | done : Denotes [] []
  | char (c : Char) (p s : Text) : p.head? ≠ some '*' → Denotes p s → Denotes (c :: p) (c :: s)
  | none (c : Char) (p s : Text) : Denotes p s → Denotes (c :: '*' :: p) s
  | more (c : Char) (p s : Text) : Denotes (c :: '*' :: p) s → Denotes (c :: '*' :: p) (c :: s)

/-- `if( s MATCHES p )`: the regular expression stands for some part of the text. -/
def Matches (s p : Text) : Prop := ∃ u, u <:+: s ∧ Denotes p u

end Verif.Spec
