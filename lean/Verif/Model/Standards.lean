import Verif.Model.BasisProduct
import Verif.Model.Headers

/-!
# What depends on the language standard

`Shiva` asks for C++17 or later (CMakeLists.txt 49), and the code tests `__cplusplus`, here `cpp`: 201703 for C++17, 202002 for
C++20, 202302 for C++23.  The other models are those of C++17.
-/

namespace Verif.Standards

open Verif.Spec Verif.Sequence

variable {R : Type}

/-- The lambda `[&]( auto const ... a )`: it takes any number of arguments and has no `operator()< is... >`.
Used for LagrangeBasis.hpp 92, 131, BasisProduct.hpp 100, 153. -/
def argumentLambda : Callable := ⟨fun _ => true, fun _ _ => false⟩

/-- The lambda `[&]< int ... a > ()`: it takes no argument; without any, the pack is empty.
Used for LagrangeBasis.hpp 85, 120, BasisProduct.hpp 95, 136. -/
def templateLambda : Callable := ⟨fun args => args.isEmpty, fun _ args => args.isEmpty⟩

/-- The lambda `[&coord]< int ... b > ( auto aa )` takes one argument.  Used for LagrangeBasis.hpp 122. -/
def factorLambda : Callable := ⟨fun args => args.length == 1, fun _ args => args.length == 1⟩

/-- The lambda `[&values] ( auto aa, auto ... b )`, also `[&] ( auto const iGrad, auto const ... )`, takes one argument or more.
Used for LagrangeBasis.hpp 134, BasisProduct.hpp 138, 157. -/
def leadingLambda : Callable := ⟨fun args => !args.isEmpty, fun _ _ => false⟩

/-- `decltype( a )::value...` for the arguments of a call; an argument that is no integral constant has no `value`.
Used for LagrangeBasis.hpp 94, 124, 133, 136, 137. -/
def constants : List Arg → Res (List Int)
  | [] => .ok []
  | .ic i :: rest => do
    let is ← constants rest
    .ok (i :: is)
  | .user _ :: _ => .illFormed

/-- The pack `a` in the call `executeSequence` makes of one of the lambdas without leading argument.
Used for LagrangeBasis.hpp 85, 92, 120, 131, BasisProduct.hpp 95, 100, 136, 153. -/
def packOf : Call → Res (List Int)
  | .plain args => constants args
  | .templ is _ => .ok is

/-- LagrangeBasis.hpp 82-97 `value< BF_INDEX >( coord )`. -/
def lagrangeValue (cpp : Nat) (A : Arith R) (S : Spacing R) (n bf : Int) (coord : R) : Res R := do
  let call ← executeSequence n (if 202002 ≤ cpp then templateLambda else argumentLambda) []
  let a ← packOf call
  foldRight A.mul (a.map fun a => LagrangeBasis.valueProductTerm A S bf a coord)

/-- LagrangeBasis.hpp 190-192: calling `valueProductFactor< targs... >( arg )`, where `arg` is an array of values or a coordinate.
The template has two parameters, the second with a default, and takes an array. -/
def callValueProductFactor (A : Arith R) : List Int → List R ⊕ R → Res R
  | [term], .inl values => LagrangeBasis.valueProductFactor A values term (-1)
  | [term, deriv], .inl values => LagrangeBasis.valueProductFactor A values term deriv
  | _, _ => .illFormed

/-- LagrangeBasis.hpp 122-126, 134-138: the value of the lambda `func` for `aVal` and the pack `b`; `factor b` is the call of
`valueProductFactor`. -/
def factorValue (A : Arith R) (S : Spacing R) (bf aVal : Int) (b : List Int) (factor : Int → Res R) : Res R := do
  let g ← LagrangeBasis.gradientOfValueTerm A S bf aVal
  let p ← foldRight A.mul (b.map factor)
  .ok (A.mul g p)

/-- LagrangeBasis.hpp 122-128, C++20: `executeSequence< numSupportPoints >( func, std::integral_constant< int, a >{} )`. -/
def term20 (A : Arith R) (S : Spacing R) (n bf : Int) (coord : R) (a : Int) : Res R := do
  let call ← executeSequence n factorLambda [.ic a]
  match call with
  | .templ b [.ic aVal] => factorValue A S bf aVal b fun b => callValueProductFactor A [bf, b, aVal] (.inr coord)
  | .plain [.ic aVal] => factorValue A S bf aVal [] fun b => callValueProductFactor A [bf, b, aVal] (.inr coord)
  | _ => .illFormed

/-- LagrangeBasis.hpp 134-140, C++17: `executeSequence< numSupportPoints >( func, a )`. -/
def term17 (A : Arith R) (S : Spacing R) (n bf : Int) (values : List R) (a : Int) : Res R := do
  let call ← executeSequence n leadingLambda [.ic a]
  match call with
  | .plain (.ic aVal :: rest) => do
    let b ← constants rest
    factorValue A S bf aVal b fun b => callValueProductFactor A [b, aVal] (.inl values)
  | _ => .illFormed

/-- LagrangeBasis.hpp 116-143 `gradient< BF_INDEX >( coord )`. -/
def lagrangeGradient (cpp : Nat) (A : Arith R) (S : Spacing R) (n bf : Int) (coord : R) : Res R := do
  let call ← executeSequence n (if 202002 ≤ cpp then templateLambda else argumentLambda) []
  let a ← packOf call
  if 202002 ≤ cpp then foldRight A.add (a.map fun a => term20 A S n bf coord a)
  else do
    let values ← sequenceRes (a.map fun a => LagrangeBasis.valueProductTerm A S bf a coord)
    foldRight A.add (a.map fun a => term17 A S n bf values a)

/-- The names of types and packs of types that can be named in the members of `BasisProduct`: its template parameters and its own, and
those of the member `value`.  Used for BasisProduct.hpp 33-47, 86. -/
def typesInScope : List Text :=
  [t!"REAL_TYPE", t!"BASIS_TYPES", t!"RealType", t!"CoordType", t!"IndexType", t!"numSupportPoints", t!"COORD_TYPE", t!"BasisProduct"]

/-- The pack expansion of BasisProduct.hpp 97, 105, 142-145, 160-163 over the bases, the indices and `terms`, the indices of the factors. -/
def expandOver (bases : List (Basis R)) (idx terms : List Int) (f : Basis R → Int → Int → Res R) : List (Res R) :=
  terms.zipWith (fun k (p : Basis R × Int) => f p.1 p.2 k) (bases.zip idx)

/-- BasisProduct.hpp 88-109 `value< BASIS_FUNCTION_INDICES... >( parentCoord )`. -/
def productValue (cpp : Nat) (A : Arith R) (bases : List (Basis R)) (idx : List Int) (coord : List R) : Res R := do
  let _ ← Res.staticAssert (idx.length = bases.length)
  let call ← executeSequence bases.length (if 202002 ≤ cpp then templateLambda else argumentLambda) []
  let terms ← packOf call
  let _ ← Res.staticAssert ((if 202002 ≤ cpp then t!"BASIS_TYPE" else t!"BASIS_TYPES") ∈ typesInScope)
  foldRight A.mul (expandOver bases idx terms fun b i k => do
    let x ← tableAt coord k
    b.value i x)

/-- BasisProduct.hpp 138-148, 157-169: `executeSequence< numDims >( gradientComponent, a )`.  In C++20 the factors' indices are the
arguments, converted to `int`, in C++17 their `decltype( .. )::value`; both are the constants. -/
def productComponent (A : Arith R) (bases : List (Basis R)) (idx : List Int) (coord : List R) (a : Int) : Res R := do
  let call ← executeSequence bases.length leadingLambda [.ic a]
  match call with
  | .plain (.ic component :: rest) => do
    let terms ← constants rest
    foldRight A.mul (expandOver bases idx terms fun b i k =>
      BasisProduct.gradientComponentHelper b component i k coord)
  | _ => .illFormed

/-- BasisProduct.hpp 131-171 `gradient< BASIS_FUNCTION_INDICES... >( parentCoord )`. -/
def productGradient (cpp : Nat) (A : Arith R) (bases : List (Basis R)) (idx : List Int) (coord : List R) : Res (List R) := do
  let _ ← Res.staticAssert (idx.length = bases.length)
  let _ ← Res.staticAssert (0 < bases.length)
  let call ← executeSequence bases.length (if 202002 ≤ cpp then templateLambda else argumentLambda) []
  let a ← packOf call
  sequenceRes (a.map fun a => productComponent A bases idx coord a)

/-- BasisProduct.hpp 14-207 from C++20 on: line 97 names `BASIS_TYPE`.  The name does not depend on a template parameter, so that it is looked up when
the header is read. -/
def basisProduct20 : Header := ⟨true,
  [.quoted t!"shiva/common/NestedSequenceUtilities.hpp", .quoted t!"shiva/common/MultiIndex.hpp",
   .quoted t!"shiva/common/CArray.hpp",
   .uses [Headers.stat, t!"CArrayNd", t!"MultiIndexRangeI", t!"SequenceAlias", t!"forNestedSequence", t!"executeSequence"],
   .uses [t!"BASIS_TYPE"],
   .usesLibrary [t!"std::forward", t!"std::integer_sequence", t!"std::integral_constant"], .declares [t!"BasisProduct"]]⟩

/-- The headers, in the build tree or installed, read with a language standard: BasisProduct.hpp 93-98 is the only place where
the standard changes what is used or declared.  The macro of ShivaMacros.hpp 82-86 is defined in either case, and not modelled because
nothing uses it. -/
def withStandard (cpp : Nat) (fs : HeaderFiles) : HeaderFiles where
  file p := if 202002 ≤ cpp ∧ p.2 = [t!"shiva", t!"functions", t!"bases", t!"BasisProduct.hpp"] then
      (fs.file p).map fun _ => basisProduct20
    else fs.file p
  search := fs.search

end Verif.Standards
