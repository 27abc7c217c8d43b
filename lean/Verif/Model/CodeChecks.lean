import Verif.Spec.CodeChecks

/-!
# `cmake/Macros.cmake`: the sources given to the code checks

Simplifications: path names have no semicolons, at which CMake would cut them; there are no symbolic links.
-/

namespace Verif.CodeChecks

open Verif.Spec (Text Loc render)

/-- One pattern of `file(GLOB_RECURSE …)`, cmake/Macros.cmake 12-13: `*` and an ending. -/
def globs (ending : Text) (l : Loc) : Bool := match l.getLast? with
  | some w => ending.isSuffixOf w
  | none => false

/-- cmake/Macros.cmake 11-13: all files below the source directory with one of the eight endings, as absolute names. -/
def allSources (files : List Loc) (source : Loc) : List Text :=
  (files.filter fun l => source.isPrefixOf l && decide (l ≠ source) &&
    [t!".cpp", t!".hpp", t!".cxx", t!".hxx", t!".cc", t!".c", t!".h", t!".hh"].any fun e => globs e l).map render

/-- `c*` and what follows, at the start of a text; used for `MATCHES` in cmake/Macros.cmake 23. -/
def star (c : Char) (rest : Text → Bool) : Text → Bool
  | [] => rest []
  | d :: s => rest (d :: s) || (c == d && star c rest s)

/-- A regular expression at the start of a text; used for `MATCHES` in cmake/Macros.cmake 23.  A `*` stands after
a character. -/
def matchHere : Text → Text → Bool
  | [], _ => true
  | c :: '*' :: p, s => star c (matchHere p) s
  | c :: p, d :: s => c == d && matchHere p s
  | _ :: _, [] => false

/-- `if (s MATCHES p)`, cmake/Macros.cmake 23: somewhere in the text. -/
def isMatch (p : Text) : Text → Bool
  | [] => matchHere p []
  | c :: s => matchHere p (c :: s) || isMatch p s

/-- cmake/Macros.cmake 21-27: the loop over the excludes, with `break()`. -/
def toBeExcluded (s : Text) : List Text → Bool
  | [] => false
  | e :: es => if isMatch e s then true else toBeExcluded s es

/-- cmake/Macros.cmake 15-33; `none` if there are no excludes. -/
def selectedSources (excludes : Option (List Text)) (all : List Text) : List Text :=
  match excludes with
  | none => all
  | some es => all.filter fun s => !toBeExcluded s es

/-- CMakeLists.txt 97. -/
def excludes : List Text := [t!"build*", t!"blt/*", t!"camp/*"]

/-- CMakeLists.txt 95-97 and cmake/Macros.cmake 1-33: the sources the code checks get, in a source directory. -/
def checked (files : List Loc) (source : Loc) : List Text := selectedSources (some excludes) (allSources files source)

/-- The files with these endings in the repository: include/, tests/, and docs/doxygen/ShivaConfig.hpp. -/
def repositorySources : List Loc :=
  [[t!"docs", t!"doxygen", t!"ShivaConfig.hpp"],
   [t!"include", t!"shiva", t!"Shiva.hpp"],
   [t!"include", t!"shiva", t!"common", t!"CArray.hpp"],
   [t!"include", t!"shiva", t!"common", t!"CArrayHelper.hpp"],
   [t!"include", t!"shiva", t!"common", t!"IndexTypes.hpp"],
   [t!"include", t!"shiva", t!"common", t!"LinearIndex.hpp"],
   [t!"include", t!"shiva", t!"common", t!"MathUtilities.hpp"],
   [t!"include", t!"shiva", t!"common", t!"MultiIndex.hpp"],
   [t!"include", t!"shiva", t!"common", t!"NestedSequenceUtilities.hpp"],
   [t!"include", t!"shiva", t!"common", t!"SequenceUtilities.hpp"],
   [t!"include", t!"shiva", t!"common", t!"ShivaErrorHandling.hpp"],
   [t!"include", t!"shiva", t!"common", t!"ShivaMacros.hpp"],
   [t!"include", t!"shiva", t!"common", t!"pmpl.hpp"],
   [t!"include", t!"shiva", t!"common", t!"types.hpp"],
   [t!"include", t!"shiva", t!"discretizations", t!"finiteElementMethod", t!"parentElements", t!"ParentElement.hpp"],
   [t!"include", t!"shiva", t!"functions", t!"bases", t!"BasisProduct.hpp"],
   [t!"include", t!"shiva", t!"functions", t!"bases", t!"LagrangeBasis.hpp"],
   [t!"include", t!"shiva", t!"functions", t!"quadrature", t!"Quadrature.hpp"],
   [t!"include", t!"shiva", t!"functions", t!"spacing", t!"Spacing.hpp"],
   [t!"include", t!"shiva", t!"geometry", t!"mapping", t!"JacobianTransforms.hpp"],
   [t!"include", t!"shiva", t!"geometry", t!"mapping", t!"LinearTransform.hpp"],
   [t!"include", t!"shiva", t!"geometry", t!"mapping", t!"Scaling.hpp"],
   [t!"include", t!"shiva", t!"geometry", t!"mapping", t!"UniformScaling.hpp"],
   [t!"include", t!"shiva", t!"geometry", t!"shapes", t!"InterpolatedShape.hpp"],
   [t!"include", t!"shiva", t!"geometry", t!"shapes", t!"NCube.hpp"],
   [t!"include", t!"shiva", t!"geometry", t!"shapes", t!"NSimplex.hpp"],
   [t!"include", t!"shiva", t!"namespaceDocumentation.hpp"],
   [t!"tests", t!"common", t!"testCArray.cpp"],
   [t!"tests", t!"common", t!"testIndexTypes.cpp"],
   [t!"tests", t!"common", t!"testNestedSequenceUtilities.cpp"],
   [t!"tests", t!"common", t!"testSequenceUtilities.cpp"],
   [t!"tests", t!"common", t!"testShivaErrorHandling.cpp"],
   [t!"tests", t!"discretizations", t!"finiteElementMethod", t!"testParentElement.cpp"],
   [t!"tests", t!"functions", t!"testLagrangeBasis.cpp"],
   [t!"tests", t!"functions", t!"testQuadrature.cpp"],
   [t!"tests", t!"functions", t!"testSpacing.cpp"],
   [t!"tests", t!"geometry", t!"mapping", t!"testGeometryHelpers.hpp"],
   [t!"tests", t!"geometry", t!"mapping", t!"testLinearTransform.cpp"],
   [t!"tests", t!"geometry", t!"mapping", t!"testScaling.cpp"],
   [t!"tests", t!"geometry", t!"mapping", t!"testUniformScaling.cpp"],
   [t!"tests", t!"geometry", t!"shapes", t!"testInterpolatedShape.cpp"],
   [t!"tests", t!"geometry", t!"shapes", t!"testInterpolatedShapeSolutions.hpp"],
   [t!"tests", t!"geometry", t!"shapes", t!"testNCube.cpp"],
   [t!"tests", t!"geometry", t!"shapes", t!"testNSimplex.cpp"]]

end Verif.CodeChecks
