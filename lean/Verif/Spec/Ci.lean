import Verif.Spec.FileTree

/-!
# Running the checks of a commit

What can be asked for, and the commands that do it.
-/

namespace Verif.Spec

/-- The commands that a run may consist of. -/
inductive Command where
  /-- Going to the root of the sources. -/
  | enterSource
  /-- `config-build.py`, with coverage or without. -/
  | configure (coverage : Bool)
  /-- Going to the build directory. -/
  | enterBuild
  /-- `ctest -R`: the tests with one of the texts in their name. -/
  | ctestOnly (texts : List Text)
  /-- `ctest -E`: the tests with none of the texts in their name. -/
  | ctestExcept (texts : List Text)
  /-- `make`. -/
  | make
  /-- `make shiva_coverage`. -/
  | makeCoverage
  /-- Copying the coverage report to where it is uploaded from. -/
  | copyReport
  deriving DecidableEq, Repr

/-- The texts in the names of tests that are not unit tests. -/
def checkNames : List Text := [t!"testUncrustifyCheck", t!"testDoxygenCheck", t!"testCppCheck", t!"testClangTidy"]

/-- What one can ask for. -/
inductive Task where
  | codeStyle
  | doxygen
  | codeChecks
  | coverage
  | build
  | unitTests
  deriving DecidableEq, Repr

namespace Task

/-- The task is among what the arguments ask for.  Unit tests are part of `--build-exe`. -/
def Asked (args : List Text) : Task → Prop
  | codeStyle => t!"--test-code-style" ∈ args
  | doxygen => t!"--test-doxygen" ∈ args
  | codeChecks => t!"--code-checks" ∈ args
  | coverage => t!"--code-coverage" ∈ args
  | build => t!"--build-exe" ∈ args
  | unitTests => t!"--build-exe" ∈ args ∧ t!"--disable-unit-tests" ∉ args

/-- The commands that must have been successful for the task to be. -/
def commands : Task → List Command
  | codeStyle => [.ctestOnly [t!"testUncrustifyCheck"]]
  | doxygen => [.ctestOnly [t!"testDoxygenCheck"]]
  | codeChecks => [.ctestOnly [t!"testCppCheck", t!"testClangTidy"]]
  | coverage => [.make, .makeCoverage, .copyReport]
  | build => [.make]
  | unitTests => [.ctestExcept checkNames]

end Task

/-- The arguments the script knows. -/
def ciFlags : List Text :=
  [t!"--test-code-style", t!"--test-doxygen", t!"--code-checks", t!"--code-coverage", t!"--build-exe",
   t!"--disable-unit-tests"]

/-- No argument has a known one in it without being it. -/
def Plain (args : List Text) : Prop := ∀ a ∈ args, ∀ f ∈ ciFlags, f <:+: a → a = f

/-- At most one kind of job is asked for: style, documentation, code checks, or building with or without coverage. -/
def OneJob (args : List Text) : Prop :=
  (t!"--test-code-style" ∈ args → ∀ f ∈ args, f ∈ [t!"--test-doxygen", t!"--code-checks", t!"--code-coverage", t!"--build-exe"] → False) ∧
  (t!"--test-doxygen" ∈ args → ∀ f ∈ args, f ∈ [t!"--code-checks", t!"--code-coverage", t!"--build-exe"] → False) ∧
  (t!"--code-checks" ∈ args → ∀ f ∈ args, f ∈ [t!"--code-coverage", t!"--build-exe"] → False)

/-- The command was run and successful: `status before c` is the exit status of `c` run after the commands `before`. -/
def Succeeded (status : List Command → Command → Nat) (trace : List Command) (c : Command) : Prop :=
  ∃ before after, trace = before ++ c :: after ∧ status before c = 0

end Verif.Spec
