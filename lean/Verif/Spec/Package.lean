import Verif.Spec.FileTree

/-!
# Targets and packages of CMake

What a project gets by naming a library in `target_link_libraries`.  It says nothing about Shiva.

Simplifications: paths are lists of names, from the root of the file system; of a target only what matters for compiling against
it is kept.
-/

namespace Verif.Spec

/-- A library target: the directories to be searched for headers, the C++ standard it asks for, the targets it links. -/
structure Target where
  includes : List (List Text)
  standard : Nat
  links : List Text
  deriving DecidableEq

/-- What becomes of `target_link_libraries( app PRIVATE name )`: an error, a library file of that name, or a target. -/
inductive Linked where
  | error
  | file
  | target (t : Target)
  deriving DecidableEq

/-- A name that is no target is an error if it contains `::`, and otherwise taken for a library file. -/
def link (targets : List (Text × Target)) (name : Text) : Linked := match targets.lookup name with
  | some t => .target t
  | none => if t!"::" <:+: name then .error else .file

/-- Versions are compared number by number; what is missing counts as zero. -/
def versionLess : List Nat → List Nat → Bool
  | [], b => b.any (0 < ·)
  | _ :: _, [] => false
  | x :: a, y :: b => x < y || (x == y && versionLess a b)

/-- A directory given to `install`: relative to the prefix, or absolute. -/
inductive InstallDir where
  | relative (parts : List Text)
  | absolute (parts : List Text)

/-- Where a directory is if the prefix is `root`. -/
def InstallDir.at (root : List Text) : InstallDir → List Text
  | .relative parts => root ++ parts
  | .absolute parts => parts

end Verif.Spec
