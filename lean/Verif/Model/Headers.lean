import Verif.Spec.Translation

/-!
# The headers of Shiva: what they include, declare and use

The names a header declares are its macros and what it puts into namespaces; the members of classes and what is in
namespaces for the implementation are left out.  Overloads that several headers add to the functions `jacobian` and `inverseJacobian`
are left out too, but for the wrappers.
-/

namespace Verif.Headers

open Verif.Spec

/-- The options in ShivaConfig.hpp.in 9-15. -/
structure Options where
  cuda : Bool
  hip : Bool
  camp : Bool
  boundsCheck : Bool

/-- ShivaMacros.hpp 81. -/
def stat : Text := t!"SHIVA_STATIC_CONSTEXPR_HOSTDEVICE_FORCEINLINE"

/-- ShivaMacros.hpp 77. -/
def conx : Text := t!"SHIVA_CONSTEXPR_HOSTDEVICE_FORCEINLINE"

/-- ShivaConfig.hpp.in 1-18.  Testing one of its options counts as using `SHIVA_CONFIG`. -/
def config : Header := ⟨true, [.declares [t!"SHIVA_CONFIG"]]⟩

/-- ShivaMacros.hpp 19-153. -/
def shivaMacros (o : Options) : Header := ⟨true,
  [.quoted t!"shiva/ShivaConfig.hpp", .system t!"cstdio", .system t!"cstdlib", .system t!"cstdint", .system t!"cinttypes",
   .system t!"cstdarg", .uses [t!"SHIVA_CONFIG"]] ++
  (if o.hip then [.system t!"hip/hip_runtime.h"] else []) ++
  [.declares [t!"SHIVA_HOST", t!"SHIVA_DEVICE", t!"SHIVA_HOST_DEVICE", t!"SHIVA_FORCE_INLINE", t!"SHIVA_GLOBAL", conx, stat,
    t!"SHIVA_UNUSED_VAR", t!"SHIVA_IS_CONST_EVAL", t!"SHIVA_ASSERT_MSG"]]⟩

/-- ShivaErrorHandling.hpp 19-58. -/
def shivaErrorHandling : Header := ⟨true,
  [.quoted t!"ShivaMacros.hpp", .uses [t!"SHIVA_HOST_DEVICE"],
   .usesLibrary [t!"fprintf", t!"vfprintf", t!"va_list", t!"std::abort"], .declares [t!"shivaAssertionFailed"]]⟩

/-- types.hpp 18-121. -/
def types (o : Options) : Header := ⟨true,
  [.quoted t!"shiva/common/ShivaMacros.hpp", .uses [t!"SHIVA_CONFIG"]] ++
  (if o.camp then [.system t!"camp/camp.hpp", .usesLibrary [t!"camp::tuple", t!"camp::make_tuple"]]
   else if o.cuda then [.system t!"cuda/std/tuple", .usesLibrary [t!"cuda::std::tuple", t!"cuda::std::make_tuple"]]
   else [.system t!"tuple", .usesLibrary [t!"std::tuple", t!"std::make_tuple"]]) ++
  [.uses [conx], .usesLibrary [t!"std::forward", t!"std::integer_sequence"],
   .declares [t!"tuple", t!"make_tuple", t!"int_sequence", t!"make_int_sequence"]]⟩

/-- The assertions of CArrayHelper.hpp 116-121 and CArray.hpp 233-239: the macro calls `shivaAssertionFailed`
(ShivaMacros.hpp 146-153). -/
def assertion (o : Options) : List HeaderItem :=
  if o.boundsCheck then [.uses [t!"SHIVA_ASSERT_MSG", t!"shivaAssertionFailed"], .usesLibrary [t!"intmax_t"]] else []

/-- CArrayHelper.hpp 20-243. -/
def cArrayHelper (o : Options) : Header := ⟨true,
  [.quoted t!"shiva/common/ShivaErrorHandling.hpp", .quoted t!"shiva/common/types.hpp", .system t!"utility", .system t!"cstdint",
   .system t!"cinttypes", .uses [stat, t!"SHIVA_HOST_DEVICE", t!"SHIVA_FORCE_INLINE", t!"SHIVA_CONFIG"]] ++ assertion o ++
  [.usesLibrary [t!"std::forward", t!"std::integer_sequence"], .uses [t!"tuple"], .declares [t!"CArrayHelper"]]⟩

/-- CArray.hpp 20-286. -/
def cArray (o : Options) : Header := ⟨true,
  [.quoted t!"shiva/common/ShivaMacros.hpp", .quoted t!"CArrayHelper.hpp", .system t!"utility", .system t!"cmath",
   .uses [stat, conx, t!"CArrayHelper", t!"SHIVA_CONFIG"],
   .usesLibrary [t!"std::enable_if_t", t!"std::is_pointer_v", t!"std::add_const_t", t!"std::remove_const_t", t!"std::remove_cv_t",
    t!"std::is_reference_v"]] ++ assertion o ++
  [.declares [t!"CArray", t!"Scalar", t!"CArrayNd", t!"ScalarView", t!"CArrayViewNd"]]⟩

/-- LinearIndex.hpp 15-104. -/
def linearIndex : Header := ⟨true, [.system t!"utility", .declares [t!"LinearIndex"]]⟩

/-- SequenceUtilities.hpp 19-230. -/
def sequenceUtilities : Header := ⟨true,
  [.quoted t!"shiva/common/ShivaMacros.hpp", .system t!"type_traits", .system t!"utility", .uses [stat],
   .usesLibrary [t!"std::forward", t!"std::integer_sequence", t!"std::make_integer_sequence", t!"std::integral_constant",
    t!"std::is_invocable_v"],
   .declares [t!"SequenceAlias", t!"IntPackPeeler", t!"executeSequence", t!"forSequence"]]⟩

/-- MultiIndex.hpp 19-87. -/
def multiIndex : Header := ⟨true,
  [.quoted t!"shiva/common/ShivaMacros.hpp", .quoted t!"SequenceUtilities.hpp", .system t!"utility", .uses [stat],
   .declares [t!"MultiIndex", t!"MultiIndexRange", t!"MultiIndexRangeI"]]⟩

/-- IndexTypes.hpp 19-175. -/
def indexTypes : Header := ⟨true,
  [.quoted t!"LinearIndex.hpp", .quoted t!"MultiIndex.hpp", .system t!"utility",
   .uses [conx, t!"LinearIndex", t!"MultiIndexRange"],
   .usesLibrary [t!"std::forward", t!"std::integer_sequence", t!"std::make_integer_sequence"],
   .declares [t!"linearIndex", t!"forRange"]]⟩

/-- MathUtilities.hpp 18-182. -/
def mathUtilities : Header := ⟨true,
  [.quoted t!"shiva/common/ShivaMacros.hpp", .system t!"utility", .uses [conx],
   .usesLibrary [t!"std::integer_sequence", t!"std::make_integer_sequence"], .declares [t!"mathUtilities"]]⟩

/-- NestedSequenceUtilities.hpp 14-106. -/
def nestedSequenceUtilities : Header := ⟨true,
  [.quoted t!"shiva/common/ShivaMacros.hpp", .system t!"type_traits", .system t!"utility", .quoted t!"SequenceUtilities.hpp",
   .uses [t!"forSequence"], .usesLibrary [t!"std::forward", t!"std::integer_sequence"], .declares [t!"forNestedSequence"]]⟩

/-- pmpl.hpp 22-203.  The name `cudaMemcpyHostToDevice` in line 162 does not depend on a template parameter, so that it is looked up when
the header is read. -/
def pmpl (o : Options) : Header := ⟨true,
  [.quoted t!"ShivaMacros.hpp", .system t!"utility", .uses [t!"SHIVA_CONFIG"]] ++
  (if o.cuda then [.usesLibrary [t!"cudaMalloc", t!"cudaMemcpyHostToDevice", t!"printf", t!"std::abort"]]
   else if o.hip then [.usesLibrary [t!"hipMalloc", t!"cudaMemcpyHostToDevice", t!"printf", t!"std::abort"]] else []) ++
  [.uses [t!"SHIVA_GLOBAL", conx, t!"SHIVA_UNUSED_VAR"], .usesLibrary [t!"std::forward"],
   .declares [t!"genericKernelWrapper", t!"check", t!"deallocateData"]]⟩

/-- Spacing.hpp 19-270. -/
def spacing : Header := ⟨true,
  [.quoted t!"shiva/common/ShivaMacros.hpp", .uses [stat],
   .declares [t!"EqualSpacing", t!"GaussLegendreSpacing", t!"GaussLobattoSpacing"]]⟩

/-- Quadrature.hpp 20-245. -/
def quadrature : Header := ⟨true,
  [.quoted t!"../spacing/Spacing.hpp", .system t!"cassert", .system t!"limits",
   .uses [stat, t!"GaussLegendreSpacing", t!"GaussLobattoSpacing"], .usesLibrary [t!"std::numeric_limits"],
   .declares [t!"QuadratureGaussLegendre", t!"QuadratureGaussLobatto"]]⟩

/-- LagrangeBasis.hpp 19-233. -/
def lagrangeBasis : Header := ⟨true,
  [.quoted t!"shiva/common/SequenceUtilities.hpp", .quoted t!"shiva/common/ShivaMacros.hpp", .system t!"utility",
   .uses [stat, t!"executeSequence"], .usesLibrary [t!"std::integral_constant"], .declares [t!"LagrangeBasis"]]⟩

/-- BasisProduct.hpp 14-207. -/
def basisProduct : Header := ⟨true,
  [.quoted t!"shiva/common/NestedSequenceUtilities.hpp", .quoted t!"shiva/common/MultiIndex.hpp",
   .quoted t!"shiva/common/CArray.hpp",
   .uses [stat, t!"CArrayNd", t!"MultiIndexRangeI", t!"SequenceAlias", t!"forNestedSequence", t!"executeSequence"],
   .usesLibrary [t!"std::forward", t!"std::integer_sequence", t!"std::integral_constant"], .declares [t!"BasisProduct"]]⟩

/-- ParentElement.hpp 14-151. -/
def parentElement : Header := ⟨true,
  [.quoted t!"shiva/common/NestedSequenceUtilities.hpp", .quoted t!"shiva/common/ShivaMacros.hpp",
   .quoted t!"shiva/common/types.hpp", .quoted t!"shiva/functions/bases/BasisProduct.hpp",
   .uses [stat, t!"CArrayNd", t!"forNestedSequence", t!"forSequence", t!"BasisProduct"], .declares [t!"ParentElement"]]⟩

/-- InterpolatedShape.hpp 14-109. -/
def interpolatedShape : Header := ⟨true,
  [.quoted t!"shiva/common/SequenceUtilities.hpp", .quoted t!"shiva/common/ShivaMacros.hpp",
   .quoted t!"shiva/common/types.hpp", .quoted t!"shiva/functions/bases/BasisProduct.hpp", .system t!"utility",
   .uses [stat, t!"CArrayNd", t!"BasisProduct"], .usesLibrary [t!"std::forward", t!"std::integer_sequence"],
   .declares [t!"InterpolatedShape"]]⟩

/-- NCube.hpp 18-230. -/
def nCube : Header := ⟨true,
  [.quoted t!"shiva/common/ShivaMacros.hpp", .quoted t!"shiva/common/IndexTypes.hpp", .quoted t!"shiva/common/types.hpp",
   .quoted t!"shiva/common/MathUtilities.hpp", .uses [stat, t!"mathUtilities"], .usesLibrary [t!"std::enable_if"],
   .declares [t!"NCube", t!"Square", t!"Cube"]]⟩

/-- NSimplex.hpp 18-227. -/
def nSimplex : Header := ⟨true,
  [.quoted t!"shiva/common/ShivaMacros.hpp", .quoted t!"shiva/common/IndexTypes.hpp", .quoted t!"shiva/common/types.hpp",
   .quoted t!"shiva/common/MathUtilities.hpp", .uses [stat, t!"mathUtilities"], .usesLibrary [t!"std::enable_if"],
   .declares [t!"NSimplex", t!"Triangle", t!"Tetrahedron"]]⟩

/-- LinearTransform.hpp 19-270. -/
def linearTransform : Header := ⟨true,
  [.quoted t!"shiva/common/MathUtilities.hpp", .quoted t!"shiva/common/ShivaMacros.hpp", .quoted t!"shiva/common/types.hpp",
   .quoted t!"shiva/common/IndexTypes.hpp", .quoted t!"shiva/common/NestedSequenceUtilities.hpp",
   .quoted t!"shiva/common/CArray.hpp",
   .uses [stat, t!"SHIVA_HOST_DEVICE", t!"SHIVA_FORCE_INLINE", t!"CArrayNd", t!"SequenceAlias", t!"forRange",
    t!"forNestedSequence", t!"mathUtilities"],
   .usesLibrary [t!"std::remove_reference_t"], .declares [t!"LinearTransform"]]⟩

/-- Scaling.hpp 18-139. -/
def scaling : Header := ⟨true,
  [.quoted t!"shiva/common/ShivaMacros.hpp", .quoted t!"shiva/common/types.hpp", .quoted t!"shiva/common/CArray.hpp",
   .uses [stat, t!"SHIVA_HOST_DEVICE", t!"SHIVA_FORCE_INLINE", t!"CArrayNd"], .declares [t!"Scaling"]]⟩

/-- UniformScaling.hpp 18-120. -/
def uniformScaling : Header := ⟨true,
  [.quoted t!"shiva/common/ShivaMacros.hpp", .quoted t!"shiva/common/IndexTypes.hpp", .quoted t!"shiva/common/types.hpp",
   .quoted t!"shiva/common/CArray.hpp",
   .uses [stat, t!"SHIVA_HOST_DEVICE", t!"SHIVA_FORCE_INLINE", t!"Scalar"], .declares [t!"UniformScaling"]]⟩

/-- JacobianTransforms.hpp 14-71. -/
def jacobianTransforms : Header := ⟨true,
  [.quoted t!"LinearTransform.hpp", .quoted t!"Scaling.hpp", .quoted t!"UniformScaling.hpp", .uses [stat, t!"make_tuple"],
   .declares [t!"jacobian( cell )", t!"inverseJacobian( cell )"]]⟩

/-- namespaceDocumentation.hpp 14-16, without `__CPPCHECK__`; what follows are namespaces without anything in them. -/
def namespaceDocumentation : Header := ⟨false, [.stops]⟩

/-- Shiva.hpp 14-16. -/
def shiva : Header := ⟨false,
  [.quoted t!"geometry/Cube.hpp", .quoted t!"geometry/Cuboid.hpp", .quoted t!"geometry/RectangularCuboid.hpp"]⟩

/-- The files in include/, without Shiva.hpp and namespaceDocumentation.hpp. -/
def headers (o : Options) : List (Loc × Header) :=
  [([t!"shiva", t!"common", t!"ShivaMacros.hpp"], shivaMacros o),
   ([t!"shiva", t!"common", t!"ShivaErrorHandling.hpp"], shivaErrorHandling),
   ([t!"shiva", t!"common", t!"types.hpp"], types o),
   ([t!"shiva", t!"common", t!"CArrayHelper.hpp"], cArrayHelper o),
   ([t!"shiva", t!"common", t!"CArray.hpp"], cArray o),
   ([t!"shiva", t!"common", t!"LinearIndex.hpp"], linearIndex),
   ([t!"shiva", t!"common", t!"SequenceUtilities.hpp"], sequenceUtilities),
   ([t!"shiva", t!"common", t!"MultiIndex.hpp"], multiIndex),
   ([t!"shiva", t!"common", t!"IndexTypes.hpp"], indexTypes),
   ([t!"shiva", t!"common", t!"MathUtilities.hpp"], mathUtilities),
   ([t!"shiva", t!"common", t!"NestedSequenceUtilities.hpp"], nestedSequenceUtilities),
   ([t!"shiva", t!"common", t!"pmpl.hpp"], pmpl o),
   ([t!"shiva", t!"functions", t!"spacing", t!"Spacing.hpp"], spacing),
   ([t!"shiva", t!"functions", t!"quadrature", t!"Quadrature.hpp"], quadrature),
   ([t!"shiva", t!"functions", t!"bases", t!"LagrangeBasis.hpp"], lagrangeBasis),
   ([t!"shiva", t!"functions", t!"bases", t!"BasisProduct.hpp"], basisProduct),
   ([t!"shiva", t!"discretizations", t!"finiteElementMethod", t!"parentElements", t!"ParentElement.hpp"], parentElement),
   ([t!"shiva", t!"geometry", t!"shapes", t!"InterpolatedShape.hpp"], interpolatedShape),
   ([t!"shiva", t!"geometry", t!"shapes", t!"NCube.hpp"], nCube),
   ([t!"shiva", t!"geometry", t!"shapes", t!"NSimplex.hpp"], nSimplex),
   ([t!"shiva", t!"geometry", t!"mapping", t!"LinearTransform.hpp"], linearTransform),
   ([t!"shiva", t!"geometry", t!"mapping", t!"Scaling.hpp"], scaling),
   ([t!"shiva", t!"geometry", t!"mapping", t!"UniformScaling.hpp"], uniformScaling),
   ([t!"shiva", t!"geometry", t!"mapping", t!"JacobianTransforms.hpp"], jacobianTransforms)]

/-- The directory include/ of the source: the headers, Shiva.hpp and namespaceDocumentation.hpp. -/
def sourceFiles (o : Options) : List (Loc × Header) :=
  headers o ++ [([t!"shiva", t!"Shiva.hpp"], shiva), ([t!"shiva", t!"namespaceDocumentation.hpp"], namespaceDocumentation)]

/-- The directory include/ of the build, cmake/Config.cmake 24-28. -/
def generatedFiles : List (Loc × Header) := [([t!"shiva", t!"ShivaConfig.hpp"], config)]

/-- Using the build tree, CMakeLists.txt 44-46: the directory of the source is searched, then that of the build. -/
def buildTree (o : Options) : HeaderFiles where
  file p := if p.1 = 0 then (sourceFiles o).lookup p.2 else if p.1 = 1 then generatedFiles.lookup p.2 else none
  search := [0, 1]

/-- Using an installation, CMakeLists.txt 47, 106-110: both directories are copied into one, the second over the first. -/
def installed (o : Options) : HeaderFiles where
  file p := if p.1 = 0 then (generatedFiles ++ sourceFiles o).lookup p.2 else none
  search := [0]

end Verif.Headers
