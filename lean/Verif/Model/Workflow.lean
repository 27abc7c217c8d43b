import Verif.Spec.Workflow
import Verif.Model.CiScript

/-!
# `scripts/ci_build_and_test.sh` and `.github/workflows/continuousIntegration.yml`

Simplifications: what is printed is left out.  Values have no wildcards (`*`, `?`, `[`), so that an unquoted variable is cut
into words and nothing else.  The images set none of the variables of the scripts.  The runner hands `ON` in the workflow
file on as text.
-/

namespace Verif.Ci

open Verif.Spec

/-! ### the shell -/

/-- A part of a word of a shell script: text, or an unquoted variable, given by its value.
Used for ci_build_and_test.sh 18-32. -/
inductive Piece where
  | lit (t : Text)
  | var (t : Text)

/-- Field splitting of one value (POSIX shell, used for ci_build_and_test.sh 18-32): `cur` is the field begun before.
Results are the finished fields and the one that goes on. -/
def splitFields : Text → Option Text → List Text × Option Text
  | [], cur => ([], cur)
  | c :: cs, cur =>
    if isBlank c then (cur.toList ++ (splitFields cs none).1, (splitFields cs none).2)
    else splitFields cs (some (cur.getD [] ++ [c]))

/-- The fields that a word becomes (used for ci_build_and_test.sh 18-32). -/
def expandWord : List Piece → Option Text → List Text
  | [], cur => cur.toList
  | .lit t :: ps, cur => expandWord ps (some (cur.getD [] ++ t))
  | .var v :: ps, cur => (splitFields v cur).1 ++ expandWord ps (splitFields v cur).2

/-- The variables of the shell in ci_build_and_test.sh 1-32: those that go on to the programs it calls, and its own. -/
structure Shell where
  exported : Environment
  own : Environment

/-- The value of a variable (ci_build_and_test.sh 4, 8, 19-32). -/
def Shell.get (s : Shell) (name : Text) : Text := (s.exported ++ s.own).get name

/-- An assignment (ci_build_and_test.sh 4, 5, 9): it stays in the shell if the variable is not exported already. -/
def Shell.assign (s : Shell) (name value : Text) : Shell :=
  if (s.exported.lookup name).isSome then { s with exported := (name, value) :: s.exported }
  else { s with own := (name, value) :: s.own }

/-! ### `ci_build_and_test.sh` -/

/-- ci_build_and_test.sh 4-10; `processors` is what `nproc` prints. -/
def prepare (env : Environment) (processors : Text) : Shell :=
  let s : Shell := ⟨env, []⟩
  let s := s.assign t!"BUILD_DIR" (s.get t!"GITHUB_WORKSPACE")
  let s := s.assign t!"BUILD_DIR_MOUNT_POINT" t!"/tmp/Shiva"
  if s.get t!"NPROC" = [] then s.assign t!"NPROC" processors else s

/-- ci_build_and_test.sh 18-32: the arguments of `docker run`. -/
def dockerArguments (s : Shell) : List Text :=
  expandWord [.lit t!"--rm"] none ++
  expandWord [.lit t!"--volume=", .var (s.get t!"BUILD_DIR"), .lit t!":", .var (s.get t!"BUILD_DIR_MOUNT_POINT")] none ++
  expandWord [.lit t!"--cap-add=ALL"] none ++
  expandWord [.var (s.get t!"DOCKER_RUN_ARGS")] none ++
  [t!"-e"] ++ expandWord [.lit t!"HOST_CONFIG=", .var (s.get t!"HOST_CONFIG")] none ++
  [t!"-e"] ++ expandWord [.lit t!"CMAKE_C_COMPILER=", .var (s.get t!"CMAKE_C_COMPILER")] none ++
  [t!"-e"] ++ expandWord [.lit t!"CMAKE_CXX_COMPILER=", .var (s.get t!"CMAKE_CXX_COMPILER")] none ++
  [t!"-e"] ++ expandWord [.lit t!"CC=", .var (s.get t!"CMAKE_C_COMPILER")] none ++
  [t!"-e"] ++ expandWord [.lit t!"CXX=", .var (s.get t!"CMAKE_CXX_COMPILER")] none ++
  [t!"-e"] ++ expandWord [.lit t!"ENABLE_CUDA=", .var (s.get t!"ENABLE_CUDA")] none ++
  [t!"-e"] ++ expandWord [.lit t!"CMAKE_CUDA_ARCHITECTURES=", .var (s.get t!"CMAKE_CUDA_ARCHITECTURES")] none ++
  [t!"-e"] ++ [t!"CMAKE_BUILD_TYPE"] ++
  [t!"-e"] ++ [t!"NPROC"] ++
  expandWord [.var (s.get t!"DOCKER_REPOSITORY")] none ++
  expandWord [.var (s.get t!"BUILD_DIR_MOUNT_POINT"), .lit t!"/scripts/ci_build_and_test_in_container.sh"] none ++
  expandWord [.var (s.get t!"BUILD_AND_TEST_ARGS")] none

/-- How `docker run` is called in ci_build_and_test.sh 17-32, as far as it matters. -/
structure Invocation where
  image : Text
  environment : Environment
  command : List Text
  deriving DecidableEq

/-- How `docker run` reads the arguments in ci_build_and_test.sh 18-32: options, the first argument that is none is the
image, and the rest is the command.  Results are the values of `-e`, the image, and the command.  Of the options with
a value of their own only `-e` and `--gpus` (continuousIntegration.yml 166) are known. -/
def readArguments : List Text → Option (List Text × Text × List Text)
  | [] => none
  | [w] => if w.head? = some '-' then none else some ([], w, [])
  | w :: v :: rest =>
    if w = t!"-e" then (readArguments rest).map fun r => (v :: r.1, r.2)
    else if w = t!"--gpus" then readArguments rest
    else if w.head? = some '-' then readArguments (v :: rest)
    else some ([], w, v :: rest)

/-- What `-e` sets in the container (ci_build_and_test.sh 22-30): `NAME=value`, or `NAME` with the value it has in the
environment of `docker`, if it has one there. -/
def setting (env : Environment) (t : Text) : Option (Text × Text) :=
  if '=' ∈ t then some (t.takeWhile (· ≠ '='), (t.dropWhile (· ≠ '=')).tail)
  else (env.lookup t).map fun v => (t, v)

/-- ci_build_and_test.sh 17-32.  Of several settings of a variable the last counts. -/
def invocation (env : Environment) (processors : Text) : Option Invocation :=
  let s := prepare env processors
  (readArguments (dockerArguments s)).map fun r => ⟨r.2.1, r.1.reverse.filterMap (setting s.exported), r.2.2⟩

/-- The arguments of `make` in ci_build_and_test_in_container.sh 68, 75. -/
def makeArguments (inv : Invocation) : List Text :=
  [t!"-j"] ++ expandWord [.var (inv.environment.get t!"NPROC")] none ++ [t!"VERBOSE=1"]

/-- What ci_build_and_test.sh 9, 17 calls, and is not in the repository. -/
structure Site where
  /-- What `nproc` prints. -/
  processors : Text
  /-- The exit status of `docker`, if it cannot run the container, otherwise 0. -/
  docker : Invocation → Nat
  /-- The machine in the container. -/
  machine : Invocation → Machine

/-- The exit status of ci_build_and_test.sh, which is that of its last command (17-32).  `docker` returns the status of the
command in the container; 125 without an image, 127 without the command. -/
def scriptStatus (site : Site) (env : Environment) : Nat :=
  match invocation env site.processors with
  | none => 125
  | some inv =>
    if site.docker inv ≠ 0 then site.docker inv
    else if inv.command.head? ≠ some t!"/tmp/Shiva/scripts/ci_build_and_test_in_container.sh" then 127
    else (run (machineStatus (site.machine inv)) (inv.environment.get t!"HOST_CONFIG")
      (inv.environment.get t!"CMAKE_BUILD_TYPE") inv.command.tail).2

/-! ### the workflow -/

/-- An entry of the matrix, continuousIntegration.yml 101-221.  What is not given is empty. -/
structure Entry where
  repository : Text
  cxx : Text
  cc : Text
  buildType : Text
  cuda : Text := []
  architectures : Text := []
  nproc : Text := []
  runArgs : Text := []
  deriving DecidableEq

/-- The entries with CUDA have these in common: continuousIntegration.yml 163-166, and the same in 174-177, 185-188,
196-199, 207-210, 218-221. -/
def cudaEntry (repository cxx cc buildType : Text) : Entry :=
  { repository, cxx, cc, buildType, cuda := t!"ON", architectures := t!"86", nproc := t!"1",
    runArgs := t!"--cpus=1 --memory=64g --runtime=nvidia --gpus all" }

/-- continuousIntegration.yml 101-221. -/
def matrix : List Entry :=
  [{ repository := t!"geosx/ubi:8.10", cxx := t!"clang++", cc := t!"clang", buildType := t!"Debug" },
   { repository := t!"geosx/ubi:8.10", cxx := t!"clang++", cc := t!"clang", buildType := t!"Release" },
   { repository := t!"geosx/ubi:8.10", cxx := t!"/opt/rh/gcc-toolset-13/root/bin/g++",
     cc := t!"/opt/rh/gcc-toolset-13/root/bin/gcc", buildType := t!"Debug" },
   { repository := t!"geosx/ubi:8.10", cxx := t!"/opt/rh/gcc-toolset-13/root/bin/g++",
     cc := t!"/opt/rh/gcc-toolset-13/root/bin/gcc", buildType := t!"Release" },
   { repository := t!"geosx/ubuntu:22.04", cxx := t!"/usr/bin/g++", cc := t!"/usr/bin/gcc", buildType := t!"Release" },
   { repository := t!"geosx/ubuntu:22.04", cxx := t!"/usr/bin/clang++", cc := t!"/usr/bin/clang",
     buildType := t!"Release" },
   { repository := t!"geosx/ubuntu:22.04", cxx := t!"/usr/bin/clang++", cc := t!"/usr/bin/clang",
     buildType := t!"Debug" },
   { repository := t!"geosx/ubuntu:22.04", cxx := t!"/usr/bin/g++", cc := t!"/usr/bin/gcc", buildType := t!"Debug" },
   cudaEntry t!"geosx/ubuntu:22.04-cuda11.8" t!"/usr/bin/g++" t!"/usr/bin/gcc" t!"Release",
   cudaEntry t!"geosx/ubuntu:22.04-cuda11.8" t!"/usr/bin/g++" t!"/usr/bin/gcc" t!"Debug",
   cudaEntry t!"geosx/ubuntu:22.04-cuda11.8" t!"/usr/bin/clang++" t!"/usr/bin/clang" t!"Release",
   cudaEntry t!"geosx/ubuntu:22.04-cuda11.8" t!"/usr/bin/clang++" t!"/usr/bin/clang" t!"Debug",
   cudaEntry t!"geosx/ubi:8.10-cuda12.8" t!"clang++" t!"clang" t!"Release",
   cudaEntry t!"geosx/ubi:8.10-cuda12.8" t!"/opt/rh/gcc-toolset-13/root/bin/g++"
     t!"/opt/rh/gcc-toolset-13/root/bin/gcc" t!"Release"]

/-- continuousIntegration.yml 234-244; `hash` is the output of the first job. -/
def buildEnvironment (hash : Text) (e : Entry) : Environment :=
  [(t!"DOCKER_REPOSITORY", e.repository ++ t!"-" ++ hash), (t!"CMAKE_CXX_COMPILER", e.cxx), (t!"CMAKE_C_COMPILER", e.cc),
   (t!"CMAKE_BUILD_TYPE", e.buildType), (t!"ENABLE_CUDA", e.cuda), (t!"CMAKE_CUDA_ARCHITECTURES", e.architectures),
   (t!"NPROC", e.nproc), (t!"BUILD_AND_TEST_ARGS", [] ++ t!" --build-exe"), (t!"DOCKER_RUN_ARGS", e.runArgs),
   (t!"HOST_CONFIG", t!"hostconfigs/environment.cmake")]

/-- continuousIntegration.yml 61-67, 82-88, 258-264. -/
def checkEnvironment (hash cxx cc buildType args : Text) : Environment :=
  [(t!"DOCKER_REPOSITORY", t!"geosx/ubuntu:22.04-" ++ hash), (t!"HOST_CONFIG", t!"hostconfigs/environment.cmake"),
   (t!"CMAKE_CXX_COMPILER", cxx), (t!"CMAKE_C_COMPILER", cc), (t!"CMAKE_BUILD_TYPE", buildType),
   (t!"BUILD_AND_TEST_ARGS", args)]

/-- continuousIntegration.yml 61-67. -/
def doxygenEnvironment (hash : Text) : Environment :=
  checkEnvironment hash t!"/usr/bin/clang++" t!"/usr/bin/clang" t!"Release" t!"--test-doxygen"

/-- continuousIntegration.yml 82-88. -/
def codeChecksEnvironment (hash : Text) : Environment :=
  checkEnvironment hash t!"/usr/bin/clang++" t!"/usr/bin/clang" t!"Release" t!"--code-checks"

/-- continuousIntegration.yml 258-264. -/
def coverageEnvironment (hash : Text) : Environment :=
  checkEnvironment hash t!"/usr/bin/g++" t!"/usr/bin/gcc" t!"Debug" t!"--build-exe --code-coverage"

/-- The jobs, continuousIntegration.yml 15, 50, 71, 91, 247, 275; `linux_builds` is one for each entry of the matrix. -/
inductive JobName where
  | tagHash
  | doxygen
  | codeChecks
  | build (e : Entry)
  | coverage
  | verdict
  deriving DecidableEq

/-- One run of continuousIntegration.yml 13-296: what is not in the repository. -/
structure WorkflowRun where
  /-- The environment of the runner. -/
  base : Environment
  site : Site
  /-- The exit status of the checkout at the start of each job. -/
  checkout : JobName → Nat
  /-- What `jq` prints. -/
  hash : Text
  /-- The exit status of the upload of the coverage report. -/
  upload : Nat
  /-- The job is cancelled while it runs. -/
  cancelled : JobName → Bool

/-- The result of a job with steps of these exit statuses (all jobs of
continuousIntegration.yml 13-296). -/
def stepsResult (r : WorkflowRun) (j : JobName) (statuses : List Nat) : JobResult :=
  if r.cancelled j then .cancelled else if statuses.all (· = 0) then .success else .failure

/-- continuousIntegration.yml 15-32.  The status of the second step is that of `echo`, whether or not `jq` fails. -/
def tagHashResult (r : WorkflowRun) : JobResult := stepsResult r .tagHash [r.checkout .tagHash, 0]

/-- A job that needs the first: continuousIntegration.yml 52, 73, 94, 249. -/
def afterTag (r : WorkflowRun) (j : JobName) (statuses : List Nat) : JobResult :=
  if tagHashResult r = .success then stepsResult r j statuses else .skipped

/-- continuousIntegration.yml 50-68. -/
def doxygenResult (r : WorkflowRun) : JobResult :=
  afterTag r .doxygen [r.checkout .doxygen, scriptStatus r.site (doxygenEnvironment r.hash ++ r.base)]

/-- continuousIntegration.yml 71-89. -/
def codeChecksResult (r : WorkflowRun) : JobResult :=
  afterTag r .codeChecks [r.checkout .codeChecks, scriptStatus r.site (codeChecksEnvironment r.hash ++ r.base)]

/-- continuousIntegration.yml 91-245, for one entry of the matrix; `printenv` succeeds. -/
def buildResult (r : WorkflowRun) (e : Entry) : JobResult :=
  afterTag r (.build e) [r.checkout (.build e), 0, scriptStatus r.site (buildEnvironment r.hash e ++ r.base)]

/-- continuousIntegration.yml 91-245, all entries.  With `fail-fast: false` (98) no entry stops the others. -/
def linuxBuildsResult (r : WorkflowRun) : JobResult :=
  if matrix.all fun e => buildResult r e = .success then .success
  else if matrix.any fun e => buildResult r e = .failure then .failure
  else if matrix.any fun e => buildResult r e = .cancelled then .cancelled
  else .skipped

/-- continuousIntegration.yml 247-272. -/
def coverageResult (r : WorkflowRun) : JobResult :=
  afterTag r .coverage
    [r.checkout .coverage, scriptStatus r.site (coverageEnvironment r.hash ++ r.base), r.upload]

/-- continuousIntegration.yml 284-289. -/
def returnVal (r : WorkflowRun) : Text :=
  if linuxBuildsResult r = .success ∧ doxygenResult r = .success ∧ codeChecksResult r = .success then t!"true\n"
  else t!"false\n"

/-- continuousIntegration.yml 275-296: `always()`, and two steps with a condition. -/
def verdict (r : WorkflowRun) : JobResult :=
  stepsResult r .verdict
    ((if t!"true" <:+: returnVal r then [0] else []) ++ if t!"false" <:+: returnVal r then [1] else [])

end Verif.Ci
