import Verif.Spec.Ci
import Verif.Model.ConfigBuild

/-!
# `scripts/ci_build_and_test_in_container.sh` and the tests that are registered with CTest

Simplifications: what is printed is left out.  The environment variables `HOST_CONFIG`, `CMAKE_BUILD_TYPE`, and `NPROC` are
without spaces.
-/

namespace Verif.Ci

open Verif.Spec (Text Command)

/-- `"$*"`: the arguments, with a space between them.  Used in ci_build_and_test_in_container.sh 30, 48, 54, 60, 67, 74, 77. -/
def allArguments (args : List Text) : Text := List.intercalate t!" " args

/-- `[[ "$*" == *text* ]]`, ci_build_and_test_in_container.sh 30, 48, 54, 60, 67, 74; negated in 77. -/
def mentions (args : List Text) (text : Text) : Bool := decide (text <:+: allArguments args)

/-- ci_build_and_test_in_container.sh 7-15 `or_die`, followed by `rest`. The arguments of `rest` and the last argument are
the commands run so far; the results are all commands run, and the exit status. -/
def orDie (status : List Command → Command → Nat) (c : Command) (rest : List Command → List Command × Nat)
    (before : List Command) : List Command × Nat :=
  if status before c ≠ 0 then (before ++ [c], status before c) else rest (before ++ [c])

/-- ci_build_and_test_in_container.sh 74-85. -/
def buildStep (status : List Command → Command → Nat) (args : List Text) (before : List Command) :
    List Command × Nat :=
  if mentions args t!"--build-exe" then
    orDie status .make (fun before =>
      if mentions args t!"--disable-unit-tests" then (before, 0)
      else orDie status
        (.ctestExcept [t!"testUncrustifyCheck", t!"testDoxygenCheck", t!"testCppCheck", t!"testClangTidy"])
        (fun before => (before, 0)) before) before
  else (before, 0)

/-- ci_build_and_test_in_container.sh 67-85.  The status of `cp` in line 70 is not looked at. -/
def coverageStep (status : List Command → Command → Nat) (args : List Text) (before : List Command) :
    List Command × Nat :=
  if mentions args t!"--code-coverage" then
    orDie status .make (orDie status .makeCoverage fun before =>
      buildStep status args (before ++ [.copyReport])) before
  else buildStep status args before

/-- ci_build_and_test_in_container.sh 48-85. -/
def checkStep (status : List Command → Command → Nat) (args : List Text) (before : List Command) :
    List Command × Nat :=
  if mentions args t!"--test-code-style" then
    orDie status (.ctestOnly [t!"testUncrustifyCheck"]) (fun before => (before, 0)) before
  else if mentions args t!"--test-doxygen" then
    orDie status (.ctestOnly [t!"testDoxygenCheck"]) (fun before => (before, 0)) before
  else if mentions args t!"--code-checks" then
    orDie status (.ctestOnly [t!"testCppCheck", t!"testClangTidy"]) (fun before => (before, 0)) before
  else coverageStep status args before

/-- ci_build_and_test_in_container.sh 18-85: the commands run, in order, and the exit status. -/
def run (status : List Command → Command → Nat) (hostConfig buildType : Text) (args : List Text) :
    List Command × Nat :=
  orDie status .enterSource (fun before =>
    if hostConfig = [] then (before, 1)
    else if buildType = [] then (before, 1)
    else orDie status (.configure (mentions args t!"--code-coverage"))
      (orDie status .enterBuild (checkStep status args)) before) []

/-! ### the tests -/

/-- The names in tests/CMakeLists.txt 70-87. -/
def unitTestNames : List Text :=
  [t!"shiva_test_carray", t!"shiva_test_index_types", t!"shiva_test_nested_seq_utils", t!"shiva_test_seq_utils",
   t!"shiva_test_err_handling", t!"shiva_test_parent_element", t!"shiva_test_lagrange_basis",
   t!"shiva_test_quadrature", t!"shiva_test_spacing", t!"shiva_test_linear_transform", t!"shiva_test_scaling",
   t!"shiva_test_uniform_scaling", t!"shiva_test_interpolated", t!"shiva_test_ncube", t!"shiva_test_nsimplex"]

/-- How the programs called turn out on a machine: not part of the repository, except that CMakeLists.txt 52, 79 and
cmake/Macros.cmake 54, 61 look at the first four fields. -/
structure Machine where
  /-- `SHIVA_ENABLE_BLT`. -/
  blt : Bool
  /-- `SHIVA_ENABLE_UNIT_TESTS`. -/
  unitTests : Bool
  /-- `CPPCHECK_FOUND`. -/
  cppcheck : Bool
  /-- `CLANGTIDY_FOUND`. -/
  clangTidy : Bool
  /-- Tests that BLT adds. -/
  bltTests : List Text
  /-- How `config-build.py` ends. -/
  ending : ConfigBuild.Ending
  /-- The exit status of `cmake`. -/
  cmake : Nat
  /-- The exit status of `make`, if there is a Makefile. -/
  build : Nat
  /-- The exit status of `make shiva_coverage`, if there is a Makefile. -/
  coverage : Nat
  /-- The exit status of `cp`. -/
  copy : Nat
  /-- A test program passes. -/
  passes : Text → Bool
  /-- The exit status of `make cppcheck_check`, and how many lines are in `cppcheck.err` when they are counted. -/
  cppcheckRun : Nat × Nat
  /-- The same for `make clang_tidy_check` and `tidyCheck.err`. -/
  tidyRun : Nat × Nat

/-- cmake/Macros.cmake 56 and 63: `make` and then `exit $(cat file | wc -l)`.  An exit status has eight bits. -/
def countedStatus (run : Nat × Nat) : Nat := if run.1 ≠ 0 then run.1 else run.2 % 256

/-- The tests that are registered, with whether they pass, if CMake succeeded: CMakeLists.txt 52, 79-97,
tests/CMakeLists.txt 66, 70-87, cmake/Macros.cmake 54-66.  docs/CMakeLists.txt, where `testDoxygenCheck` is added, is in no
`add_subdirectory`. -/
def registered (m : Machine) : List (Text × Bool) :=
  if m.cmake = 0 ∧ m.blt then
    m.bltTests.map (fun n => (n, m.passes n)) ++
    (if m.unitTests then unitTestNames.map (fun n => (n, m.passes n)) else []) ++
    (if m.cppcheck then [(t!"testCppCheck", decide (countedStatus m.cppcheckRun = 0))] else []) ++
    (if m.clangTidy then [(t!"testClangTidy", decide (countedStatus m.tidyRun = 0))] else [])
  else []

/-- `-R "a|b"` in ci_build_and_test_in_container.sh 49, 55, 61, negated by `-E` in 78: the name has one of the texts in it. -/
def selected (texts : List Text) (name : Text) : Bool := texts.any fun x => decide (x <:+: name)

/-- The exit status of the commands in ci_build_and_test_in_container.sh 18-79.  `ctest` returns 8 if a test it selected
fails, and 0 if all pass, also if there are none (called directly it only logs that, see its option `--no-tests`).  A
failing CMake leaves no tests and no Makefile; without one `make` returns 2. -/
def machineStatus (m : Machine) (_ : List Command) : Command → Nat
  | .enterSource => 0
  | .configure _ => ConfigBuild.exitStatus m.cmake m.ending
  | .enterBuild => 0
  | .ctestOnly texts => if (registered m).all fun t => !selected texts t.1 || t.2 then 0 else 8
  | .ctestExcept texts => if (registered m).all fun t => selected texts t.1 || t.2 then 0 else 8
  | .make => if m.cmake ≠ 0 then 2 else m.build
  | .makeCoverage => if m.cmake ≠ 0 then 2 else m.coverage
  | .copyReport => m.copy

end Verif.Ci
