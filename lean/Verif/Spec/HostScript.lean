import Verif.Spec.CMake
import Verif.Spec.Workflow

/-!
# Host configurations: the part of CMake's language they are written in

`set`, with and without `CACHE` and `FORCE`, and `if( NAME )`, as CMake's manual describes them, and in which order CMake takes
its arguments `-C` and `-D`.  The types and the documentation of cache entries are left out: they have no influence on the
values as long as nothing is given by `-D` before `-C`.  It says nothing about what Shiva's host configurations set.
-/

namespace Verif.Spec

/-- A part of a value: text, `${NAME}`, or `$ENV{NAME}`. -/
inductive ValuePart where
  | lit (t : Text)
  | var (name : Text)
  | env (name : Text)

/-- A command of a host configuration. -/
inductive HostCommand where
  /-- `set( NAME value )`. -/
  | assign (name : Text) (value : List ValuePart)
  /-- `set( NAME value CACHE … )`, with or without `FORCE`. -/
  | cache (name : Text) (value : List ValuePart) (force : Bool)
  /-- `if( NAME )` or `if( NOT NAME )`. -/
  | cond (name : Text) (negated : Bool) (body : List HostCommand)

/-- The variables of a script, and the cache; the first of a name counts. -/
structure Store where
  normal : List (Text × Text)
  cache : List (Text × Text)

/-- `${NAME}`. -/
def Store.find (s : Store) (name : Text) : Option Text := (s.normal.lookup name).orElse fun _ => s.cache.lookup name

/-- `if( NAME )`. -/
def Store.holds (s : Store) (name : Text) : Bool := match s.find name with
  | some x => !cmakeOff x
  | none => false

/-- The text of a value. -/
def valueText (env : Environment) (s : Store) : List ValuePart → Text
  | [] => []
  | .lit t :: ps => t ++ valueText env s ps
  | .var n :: ps => (s.find n).getD [] ++ valueText env s ps
  | .env n :: ps => env.get n ++ valueText env s ps

/-- `set( NAME value CACHE … )`: without `FORCE` only if there is no entry yet. -/
def Store.setCache (s : Store) (name value : Text) (force : Bool) : Store :=
  if force || (s.cache.lookup name).isNone then { s with cache := (name, value) :: s.cache } else s

mutual

/-- What a command does.  The second result is what the cache is told, in this order. -/
def runCommand (env : Environment) : HostCommand → Store → Store × List (Text × Text)
  | .assign name value, s => ({ s with normal := (name, valueText env s value) :: s.normal }, [])
  | .cache name value force, s => (s.setCache name (valueText env s value) force, [(name, valueText env s value)])
  | .cond name negated body, s => if s.holds name = negated then (s, []) else runCommands env body s

/-- What a script does. -/
def runCommands (env : Environment) : List HostCommand → Store → Store × List (Text × Text)
  | [], s => (s, [])
  | c :: cs, s =>
    ((runCommands env cs (runCommand env c s).1).1, (runCommand env c s).2 ++ (runCommands env cs (runCommand env c s).1).2)

end

/-- What a script tells the cache, in this order, beginning with this cache. -/
def told (env : Environment) (script : List HostCommand) (cache : List (Text × Text)) : List (Text × Text) :=
  (runCommands env script ⟨[], cache⟩).2

/-- The cache after a script, which has its variables to itself. -/
def cacheAfter (env : Environment) (script : List HostCommand) (cache : List (Text × Text)) : List (Text × Text) :=
  (runCommands env script ⟨[], cache⟩).1.cache

/-- What was said last about a name. -/
def lastSaid (l : List (Text × Text)) (name : Text) : Option Text := l.reverse.lookup name

/-- `-DNAME=value` or `-DNAME:TYPE=value`. -/
def definition (arg : Text) : Option (Text × Text) :=
  if t!"-D" <+: arg ∧ '=' ∈ arg then
    some (((arg.drop 2).takeWhile (· ≠ '=')).takeWhile (· ≠ ':'), ((arg.drop 2).dropWhile (· ≠ '=')).tail)
  else none

/-- The cache when CMake has taken its arguments, in their order; `scripts` finds a host configuration, and CMake fails if
there is none. -/
def cacheOfArguments (scripts : Text → Option (List HostCommand)) (env : Environment) :
    List Text → List (Text × Text) → Option (List (Text × Text))
  | [], cache => some cache
  | [a], cache => some ((definition a).toList ++ cache)
  | a :: b :: rest, cache =>
    if a = t!"-C" then match scripts b with
      | some script => cacheOfArguments scripts env rest (cacheAfter env script cache)
      | none => none
    else if a = t!"-G" then cacheOfArguments scripts env rest cache
    else cacheOfArguments scripts env (b :: rest) ((definition a).toList ++ cache)

/-- The settings of a project that is configured on its own, with this cache. -/
def ownProject (cache : List (Text × Text)) : CMakeSettings where
  normal := fun _ => none
  cache := fun n => cache.lookup n
  topLevel := true
  bltThere := true
  cudaCompiler := []

end Verif.Spec
