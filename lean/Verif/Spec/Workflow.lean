import Verif.Spec.FileTree

/-!
# Environments, words and job results

What a POSIX shell makes of a variable that is not quoted, and how the jobs of a workflow can end.  It says nothing about
Shiva.
-/

namespace Verif.Spec

/-- Variables with their values; the first of a name counts. -/
abbrev Environment := List (Text × Text)

/-- The value of a variable; empty if it is not set. -/
def Environment.get (env : Environment) (name : Text) : Text := (env.lookup name).getD []

/-- The characters at which a shell cuts what an unquoted variable stands for. -/
def isBlank (c : Char) : Bool := c = ' ' || c = '\t' || c = '\n'

/-- A value that stays in one piece. -/
def NoBlanks (t : Text) : Prop := ∀ c ∈ t, isBlank c = false

/-- The words of a value: its longest parts without blanks. -/
def wordsOf (t : Text) : List Text := (t.splitOnP isBlank).filter (· ≠ [])

/-- Options for `docker run`: words that begin with `-`, but do not set variables; `--gpus` is followed by a word. -/
inductive DockerOptions : List Text → Prop
  | none : DockerOptions []
  | flag (w : Text) (rest : List Text) : w.head? = some '-' → w ≠ t!"-e" → w ≠ t!"--gpus" → DockerOptions rest →
      DockerOptions (w :: rest)
  | gpus (v : Text) (rest : List Text) : DockerOptions rest → DockerOptions (t!"--gpus" :: v :: rest)

/-- The values with which `ci_build_and_test.sh` is meant to be called: one word each, an image, and options for
`docker run`. -/
structure PlainSettings (env : Environment) : Prop where
  workspace : NoBlanks (env.get t!"GITHUB_WORKSPACE")
  hostConfig : NoBlanks (env.get t!"HOST_CONFIG")
  cCompiler : NoBlanks (env.get t!"CMAKE_C_COMPILER")
  cxxCompiler : NoBlanks (env.get t!"CMAKE_CXX_COMPILER")
  cuda : NoBlanks (env.get t!"ENABLE_CUDA")
  architectures : NoBlanks (env.get t!"CMAKE_CUDA_ARCHITECTURES")
  image : NoBlanks (env.get t!"DOCKER_REPOSITORY")
  imageSet : env.get t!"DOCKER_REPOSITORY" ≠ []
  imageName : (env.get t!"DOCKER_REPOSITORY").head? ≠ some '-'
  options : DockerOptions (wordsOf (env.get t!"DOCKER_RUN_ARGS"))

/-- How a job ends. -/
inductive JobResult where
  | success
  | failure
  | cancelled
  | skipped
  deriving DecidableEq, Repr

/-- GNU make: the number of jobs after `-j`; `none` if any number may run at once. -/
def jobLimit : List Text → Option Text
  | a :: b :: rest =>
    if a = t!"-j" then if b ≠ [] ∧ b.all Char.isDigit then some b else none else jobLimit (b :: rest)
  | [a] => if a = t!"-j" then none else some t!"1"
  | [] => some t!"1"

end Verif.Spec
