import Verif.Spec.Package
import Verif.Model.Headers

/-!
# The target `Shiva`, in the tree of another project and as an installed package

CMakeLists.txt 40-49, 76, 100-125 and cmake/ShivaConfig.cmake.in, with what CMake makes of them: the files ShivaTargets.cmake and
ShivaConfigVersion.cmake are generated.
-/

namespace Verif.Package

open Verif.Spec

/-- CMakeLists.txt 2, 113: the version of the package. -/
def version : List Nat := [0, 1, 0]

/-- CMakeLists.txt 41-49, 76: the targets a project has after `add_subdirectory`; `camp` says that camp is linked. -/
def subdirectory (source binary : List Text) (camp : Bool) : List (Text × Target) :=
  let t : Target := ⟨[source ++ [t!"include"], binary ++ [t!"include"]], 17, if camp then [t!"camp"] else []⟩
  [(t!"Shiva", t), (t!"Shiva::shiva", t)]

/-- How Shiva was installed: the directories `CMAKE_INSTALL_INCLUDEDIR` and `CMAKE_INSTALL_LIBDIR`, the size of a pointer, the
options in the header, and whether camp is linked, and belongs to a set of targets that is exported, too.
Used for CMakeLists.txt 47, 76, 101-125.  Simplification: the directory for libraries is relative, and without `..`. -/
structure Installation where
  includeDir : InstallDir
  libDir : List Text
  pointerSize : Nat
  options : Headers.Options
  camp : Bool
  campExported : Bool

/-- CMakeLists.txt 101, 122-125: `install( EXPORT )` fails for a target that links another which is in no set of exported targets. -/
def Installation.generates (i : Installation) : Bool := !i.camp || i.campExported

/-- CMakeLists.txt 118-125: the directory with the files of the package. -/
def Installation.packageDir (i : Installation) (root : List Text) : List Text := root ++ i.libDir ++ [t!"cmake", t!"Shiva"]

/-- CMakeLists.txt 104-108: the headers, if the prefix is `root`. -/
def Installation.tree (i : Installation) (root path : List Text) : Option Header :=
  if i.includeDir.at root <+: path then
    (Headers.generatedFiles ++ Headers.sourceFiles i.options).lookup (path.drop (i.includeDir.at root).length)
  else none

/-- `get_filename_component( .. PATH )` so many times.  Used for CMakeLists.txt 122-125. -/
def up : Nat → List Text → List Text
  | 0, p => p
  | n + 1, p => up n p.dropLast

/-- The prefix, as the generated files find it from the directory they are in: by going up as many directories as
`CMAKE_INSTALL_LIBDIR/cmake/Shiva` has names.  Used for CMakeLists.txt 116-125, ShivaConfig.cmake.in 2. -/
def Installation.prefixFrom (i : Installation) (dir : List Text) : List Text := up (i.libDir.length + 2) dir

/-- A project that looks for the package: its targets, the version it asks for, and its size of a pointer.
Used for CMakeLists.txt 112-114. -/
structure Consumer where
  targets : List (Text × Target)
  asks : Option (List Nat)
  pointerSize : Nat

/-- CMakeLists.txt 112-114: the generated ShivaConfigVersion.cmake, with `SameMajorVersion` and without `ARCH_INDEPENDENT`. -/
def Installation.accepts (i : Installation) (c : Consumer) : Bool :=
  (match c.asks with
    | none => true
    | some v => !versionLess version v && v.headD 0 == version.headD 0) &&
  i.pointerSize == c.pointerSize

/-- How `find_package( Shiva REQUIRED )` ends: with an error, or with targets and the variable `Shiva_INCLUDE_DIRS`.
Used for ShivaConfig.cmake.in 1-12. -/
inductive Found where
  | error
  | found (targets : List (Text × Target)) (includeDirs : List Text)

/-- CMakeLists.txt 122-125: the generated ShivaTargets.cmake in a directory; `none` if a target that is linked is not there. -/
def Installation.targetsFile (i : Installation) (dir : List Text) (targets : List (Text × Target)) :
    Option (List (Text × Target)) :=
  let t : Target := ⟨[i.includeDir.at (i.prefixFrom dir)], 17, if i.camp then [t!"camp"] else []⟩
  if (targets.lookup t!"Shiva::Shiva").isSome then some targets
  else if t.links.all fun n => (targets.lookup n).isSome then some ((t!"Shiva::Shiva", t) :: targets)
  else none

/-- The text of a path after another, `a/b`, where `b` may be absolute: `a//b` is a path below `a`.
Used for ShivaConfig.cmake.in 12. -/
def below (a : List Text) : InstallDir → List Text
  | .relative parts => a ++ parts
  | .absolute parts => a ++ parts

/-- ShivaConfig.cmake.in 1-12, for a package found in the prefix `root`. -/
def Installation.findPackage (i : Installation) (root : List Text) (c : Consumer) : Found :=
  if i.accepts c then
    let dir := i.packageDir root
    match i.targetsFile dir c.targets with
    | none => .error
    | some targets => .found targets (below (i.prefixFrom dir) i.includeDir)
  else .error

end Verif.Package
