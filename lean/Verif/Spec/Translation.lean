import Verif.Spec.FileTree

/-!
# Including headers in C++

What a compiler makes of a source file that includes headers, as far as names are concerned: an included file has to be
found, a name has to be declared before it is used, and is declared once.  It says nothing about Shiva.

Simplifications: a header is a list of includes, declarations and uses, with the conditions of the preprocessor already
decided; two declarations of the same name are an error.
-/

namespace Verif.Spec

/-- What is in a header, in the order of its lines. -/
inductive HeaderItem where
  /-- `#include "name"` -/
  | quoted (name : Text)
  /-- `#include <name>` of a header that is not one of the project's -/
  | system (name : Text)
  /-- Names declared, or macros defined, here. -/
  | declares (names : List Text)
  /-- Names of the project that are used here. -/
  | uses (names : List Text)
  /-- Names of libraries that are used here. -/
  | usesLibrary (names : List Text)
  /-- `#error` -/
  | stops

/-- A header; `once` if it says `#pragma once`. -/
structure Header where
  once : Bool
  items : List HeaderItem

/-- A place of a file: the number of one of the directories that are searched, and the way from there. -/
abbrev Place := Nat × Loc

/-- The files there are, and the numbers of the directories that are searched, in the order in which they are. -/
structure HeaderFiles where
  file : Place → Option Header
  search : List Nat

/-- Why a source file does not compile. -/
inductive Problem where
  | missing (name : Text)
  | undeclared (name : Text)
  | redeclared (name : Text)
  | stopped
  | tooDeep

/-- What has been read: the files that need not be read again, and the names declared by the project and by libraries. -/
structure Seen where
  once : List Place
  names : List Text
  library : List Text

/-- `#include "name"` in the file at a place: first the directory of the file is searched, then the others. -/
def HeaderFiles.find (fs : HeaderFiles) (p : Place) (name : Text) : Option Place :=
  ((p.1, locate p.2.dropLast name) :: fs.search.map fun r => (r, locate [] name)).find? fun q => (fs.file q).isSome

/-- `#include <name>` or an include in a file that is not one of the project's. -/
def HeaderFiles.findOutside (fs : HeaderFiles) (name : Text) : Option Place :=
  (fs.search.map fun r => (r, locate [] name)).find? fun q => (fs.file q).isSome

/-- Reading the items of a header.  `lib` says what the other libraries' headers declare. -/
def readItems (enter : Seen → Place → Except Problem Seen) (find : Text → Option Place) (lib : Text → List Text) :
    Seen → List HeaderItem → Except Problem Seen
  | s, [] => .ok s
  | s, .quoted name :: rest => match find name with
    | none => .error (.missing name)
    | some q => match enter s q with
      | .error e => .error e
      | .ok s => readItems enter find lib s rest
  | s, .system name :: rest => readItems enter find lib { s with library := lib name ++ s.library } rest
  | s, .declares names :: rest => match names.find? (· ∈ s.names) with
    | some n => .error (.redeclared n)
    | none => readItems enter find lib { s with names := names ++ s.names } rest
  | s, .uses names :: rest => match names.find? (· ∉ s.names) with
    | some n => .error (.undeclared n)
    | none => readItems enter find lib s rest
  | s, .usesLibrary names :: rest => match names.find? (· ∉ s.library) with
    | some n => .error (.undeclared n)
    | none => readItems enter find lib s rest
  | _, .stops :: _ => .error .stopped

/-- Including the file at a place, at most so many levels deep. -/
def HeaderFiles.enter (fs : HeaderFiles) (lib : Text → List Text) : Nat → Seen → Place → Except Problem Seen
  | 0, _, _ => .error .tooDeep
  | depth + 1, s, p => match fs.file p with
    | none => .error (.missing [])
    | some h =>
      if h.once ∧ p ∈ s.once then .ok s
      else readItems (fs.enter lib depth) (fs.find p) lib (if h.once then { s with once := p :: s.once } else s) h.items

/-- A source file that includes the headers of these names, one after the other, the names of libraries in `given` being
declared before.  Compilers allow 200 levels. -/
def HeaderFiles.translate (fs : HeaderFiles) (lib : Text → List Text) (given : List Text) (names : List Text) :
    Except Problem Seen :=
  readItems (fs.enter lib 200) fs.findOutside lib ⟨[], [], given⟩ (names.map .quoted)

/-- The type traits among the names used. -/
def typeTraits : List Text :=
  [t!"std::enable_if", t!"std::enable_if_t", t!"std::is_pointer_v", t!"std::is_reference_v", t!"std::add_const_t",
   t!"std::remove_const_t", t!"std::remove_cv_t", t!"std::remove_reference_t", t!"std::integral_constant",
   t!"std::is_invocable_v"]

/-- Which of the names used the C++17 standard promises for a header of the standard library.  Headers such as `<cstdio>` need
not declare names outside of `std`. -/
def promised (header : Text) : List Text :=
  if header = t!"utility" then
    [t!"std::forward", t!"std::move", t!"std::integer_sequence", t!"std::make_integer_sequence"]
  else if header = t!"type_traits" then typeTraits
  else if header = t!"tuple" then [t!"std::tuple", t!"std::make_tuple"]
  else if header = t!"cstdlib" then [t!"std::abort"]
  else if header = t!"limits" then [t!"std::numeric_limits"]
  else []

/-- What the headers declare in practice: `<utility>` includes `<type_traits>`; `<tuple>`, camp and what `nvcc` includes by
itself include `<utility>`; the headers taken over from C declare their names outside of `std` too. -/
def usual (header : Text) : List Text :=
  promised header ++
  (if header = t!"utility" then typeTraits
   else if header = t!"tuple" then promised t!"utility" ++ typeTraits
   else if header = t!"camp/camp.hpp" then [t!"camp::tuple", t!"camp::make_tuple"] ++ promised t!"utility" ++ typeTraits
   else if header = t!"cuda/std/tuple" then [t!"cuda::std::tuple", t!"cuda::std::make_tuple"]
   else if header = t!"cuda_runtime.h" then [t!"cudaMalloc", t!"cudaMemcpyHostToDevice"] ++ promised t!"utility" ++ typeTraits
   else if header = t!"hip/hip_runtime.h" then [t!"hipMalloc"]
   else if header = t!"cstdio" then [t!"printf", t!"fprintf", t!"vfprintf"]
   else if header = t!"cstdint" ∨ header = t!"cinttypes" then [t!"intmax_t"]
   else if header = t!"cstdarg" then [t!"va_list"]
   else [])

end Verif.Spec
