import Verif.Spec.CMake

/-!
# `CMakeLists.txt`, `cmake/Config.cmake`, `ShivaConfig.hpp.in` and what the headers make of them

Simplifications: the variables under other names, generator expressions, installation and the tests are left out; a
header is a list of lines, which is what it is if the version of the CUDA compiler has no line feed.
-/

namespace Verif.CMakeConfig

open Verif.Spec (Text CMakeSettings cmakeOff)

/-- Variables while CMake runs.  Used for CMakeLists.txt 8-22. -/
structure Vars where
  normal : List (Text × Text)
  parent : Text → Option Text
  cache : List (Text × Text)
  user : Text → Option Text

/-- `${NAME}`; nothing if it is not defined.  Used for cmake/Config.cmake 6-8, 16. -/
def Vars.find (v : Vars) (name : Text) : Option Text :=
  match v.normal.lookup name with
  | some x => some x
  | none => match v.parent name with
    | some x => some x
    | none => match v.cache.lookup name with
      | some x => some x
      | none => v.user name

/-- `set( NAME VALUE )`.  Used for CMakeLists.txt 17, 21. -/
def Vars.set (v : Vars) (name value : Text) : Vars := { v with normal := (name, value) :: v.normal }

/-- `option( NAME "…" OFF )`, under policy CMP0077, which CMakeLists.txt 1 sets to `NEW`: nothing happens to a name that has
a value. -/
def Vars.option (v : Vars) (name : Text) : Vars :=
  match v.find name with
  | some _ => v
  | none => { v with cache := (name, t!"OFF") :: v.cache }

/-- `if( NAME )` for the name of a variable.  Used for CMakeLists.txt 16, 20, 24, 52. -/
def Vars.holds (v : Vars) (name : Text) : Bool := match v.find name with
  | some x => !cmakeOff x
  | none => false

/-- CMakeLists.txt 8-14: the options. -/
def options : List Text :=
  [t!"SHIVA_ENABLE_BLT", t!"SHIVA_ENABLE_CUDA", t!"SHIVA_ENABLE_HIP", t!"SHIVA_ENABLE_UNIT_TESTS", t!"SHIVA_ENABLE_CAMP",
    t!"SHIVA_BUILD_OBJ_LIBS", t!"SHIVA_ENABLE_BOUNDS_CHECK"]

/-- CMakeLists.txt 8-22. -/
def afterOptions (s : CMakeSettings) : Vars :=
  let v := options.foldl Vars.option ⟨[], s.normal, [], s.cache⟩
  let v := if v.holds t!"ENABLE_CUDA" then v.set t!"SHIVA_ENABLE_CUDA" t!"ON" else v
  if v.holds t!"ENABLE_HIP" then v.set t!"SHIVA_ENABLE_HIP" t!"ON" else v

/-- The parts between dots.  Used for cmake/Config.cmake 16. -/
def splitDot : Text → List Text
  | [] => [[]]
  | c :: s =>
    if c = '.' then [] :: splitDot s
    else match splitDot s with
      | [] => [[c]]
      | w :: ws => (c :: w) :: ws

/-- `string( REPLACE "." ";" … )`, seen as a list: an empty text is an empty list.  Used for cmake/Config.cmake 16. -/
def dotParts (version : Text) : List Text := if version = [] then [] else splitDot version

/-- cmake/Config.cmake 6-22; `none` if `list( GET … )` fails on an empty list. -/
def versions (v : Vars) : Option Vars :=
  let v := v.set t!"SHIVA_VERSION_MAJOR" t!"0"
  let v := v.set t!"SHIVA_VERSION_MINOR" t!"1"
  let v := v.set t!"SHIVA_VERSION_PATCHLEVEL" t!"0"
  let v := v.set t!"SHIVA_CUDA_MAJOR" t!"0"
  let v := v.set t!"SHIVA_CUDA_MINOR" t!"0"
  match v.holds t!"SHIVA_ENABLE_CUDA", v.find t!"CMAKE_CUDA_COMPILER_VERSION" with
  | true, some version => match dotParts version with
    | [] => none
    | [major] => some (v.set t!"SHIVA_CUDA_MAJOR" major)
    | major :: minor :: _ => some ((v.set t!"SHIVA_CUDA_MAJOR" major).set t!"SHIVA_CUDA_MINOR" minor)
  | _, _ => some v

/-- A line of a file given to `configure_file`.  Used for ShivaConfig.hpp.in 1-18. -/
inductive TemplateLine where
  /-- The text before `@NAME@`, and the name. -/
  | at (before name : Text)
  /-- `#cmakedefine NAME`. -/
  | cmakedefine (name : Text)
  /-- Any other line. -/
  | text (line : Text)

/-- ShivaConfig.hpp.in 1-18; the empty lines are left out. -/
def template : List TemplateLine :=
  [.text t!"#pragma once",
    .at t!"#define SHIVA_VERSION_MAJOR " t!"SHIVA_VERSION_MAJOR",
    .at t!"#define SHIVA_VERSION_MINOR " t!"SHIVA_VERSION_MINOR",
    .at t!"#define SHIVA_VERSION_PATCHLEVEL " t!"SHIVA_VERSION_PATCHLEVEL",
    .cmakedefine t!"SHIVA_ENABLE_CUDA",
    .cmakedefine t!"SHIVA_ENABLE_HIP",
    .cmakedefine t!"SHIVA_ENABLE_CAMP",
    .cmakedefine t!"SHIVA_ENABLE_BOUNDS_CHECK",
    .at t!"#define SHIVA_CUDA_MAJOR        " t!"SHIVA_CUDA_MAJOR",
    .at t!"#define SHIVA_CUDA_MINOR        " t!"SHIVA_CUDA_MINOR"]

/-- One line of `configure_file`, called in cmake/Config.cmake 29-30. -/
def configureLine (v : Vars) : TemplateLine → Text
  | .at before name => before ++ (v.find name).getD []
  | .cmakedefine name => if v.holds name then t!"#define " ++ name else t!"/* #undef " ++ name ++ t!" */"
  | .text line => line

/-- How configuring ends: with an error, or with a header, and whether camp is linked.
Used for CMakeLists.txt 24-77. -/
inductive Configured where
  | fatal
  | done (header : List Text) (linksCamp : Bool)

/-- CMakeLists.txt 52-77: BLT and camp, for the given header. -/
def blt (s : CMakeSettings) (v : Vars) (header : List Text) : Configured :=
  if v.holds t!"SHIVA_ENABLE_BLT" then
    if s.topLevel then (if s.bltThere then .done header (v.holds t!"SHIVA_ENABLE_CAMP") else .fatal)
    else if v.holds t!"BLT_LOADED" then .done header (v.holds t!"SHIVA_ENABLE_CAMP") else .fatal
  else .done header false

/-- CMakeLists.txt 8-77.  Lines 29-34 (directory variables) are not modelled; for lines 40-49 (the interface target)
see `Package.lean`. -/
def configure (s : CMakeSettings) : Configured :=
  let v := afterOptions s
  if v.holds t!"SHIVA_ENABLE_CUDA" && v.holds t!"SHIVA_ENABLE_HIP" then .fatal
  else match versions v with
    | none => .fatal
    | some v => blt s v (template.map (configureLine v))

/-- What decides how the headers are read: whether a macro is defined.
Used for types.hpp 23, ShivaMacros.hpp 33, CArray.hpp 233. -/
abbrev Macros := Text → Bool

/-- The library a tuple is from.  Used for types.hpp 23-33. -/
inductive TupleLibrary where
  | camp
  | cuda
  | std
  deriving DecidableEq, Repr

/-- types.hpp 23-33, 38-105. -/
def tupleLibrary (m : Macros) : TupleLibrary :=
  if m t!"SHIVA_ENABLE_CAMP" then .camp else if m t!"SHIVA_ENABLE_CUDA" then .cuda else .std

/-- ShivaMacros.hpp 33-36: whether device code is compiled. -/
def enableDevice (m : Macros) : Bool := m t!"SHIVA_ENABLE_CUDA" || m t!"SHIVA_ENABLE_HIP"

/-- CArray.hpp 233: whether indices are checked. -/
def boundsCheck (m : Macros) : Bool := m t!"SHIVA_ENABLE_BOUNDS_CHECK"

end Verif.CMakeConfig
