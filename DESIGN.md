# Shiva: formal model and proof design

Everything proved is about the Lean model in `lean/Verif/Model`.
It was transcribed by hand from the headers in `/repo/include/shiva` and from the Python scripts in `/repo/scripts`, and the options of the build from `/repo/CMakeLists.txt` and `/repo/cmake`.
The code was read as text; it was never built or run.

## 1. Trusted base

* Lean 4.33.0's kernel, and the axioms `propext`, `Classical.choice`, `Quot.sound` only.
  No added axioms, no `sorry`, no `native_decide`, no `bv_decide`.
* Mathlib definitions that appear in statements: `HasDerivAt`, `HasFDerivAt`, `Polynomial`, `MvPolynomial`,
  `MeasureTheory.volume`, interval integrals, `Matrix.det`, `Equiv.Perm.sign`, `Finset.card`, `List.Pairwise`.
* The transcription: that each `Model` definition says what the cited C++ or Python lines do.
  Each definition cites file and lines and states its simplifications.

## 2. What the model is

| Module | Models |
| --- | --- |
| `Model/Outcome` | result of a C++ evaluation: `ok`, `illFormed` (does not compile), `ub`, `abort`, `nonfinite` |
| `Model/Arith` | checked `int` arithmetic (overflow is `ub`); floating arithmetic as a record of operations |
| `Model/CArrayHelper`, `Model/CArray` | `CArrayHelper.hpp`, `CArray.hpp`: views into a memory block |
| `Model/IndexConversion`, `Model/CArrayTypes` | array accesses with any integer type; types and constness of access expressions |
| `Model/Copies` | programs with several arrays and views: copy construction, assignment, slices |
| `Model/Threads` | interleavings of threads that read and write elements of these arrays and views |
| `Model/Sequence`, `Model/IndexTypes` | `SequenceUtilities`, `NestedSequenceUtilities`, `MultiIndex`, `IndexTypes` |
| `Model/TypedIndex` | multi-indices with any integer type |
| `Model/TypedMath` | `pow`, `factorial`, `binomialCoefficient` with any integer type other than `bool` |
| `Model/ForRangeBody` | `forRange` with a body that changes the index |
| `Model/MathUtilities` | `pow`, `factorial`, `binomialCoefficient`, both `inverse` overloads |
| `Model/InverseAlias` | `inverse` with an element of the matrix as `det` |
| `Model/Spacing`, `Model/Quadrature` | the point and weight tables and run-time formulas |
| `Model/LagrangeBasis`, `Model/BasisProduct` | bases; tensor products, `InterpolatedShape`, `ParentElement` |
| `Model/NCube` | face counts and volumes of `NCube` and `NSimplex` |
| `Model/Scaling`, `Model/LinearTransform` | both scalings and `LinearTransform`, each with its `JacobianTransforms` wrappers |
| `Model/Pmpl`, `Model/ErrorHandling` | kernel wrapper, assertions |
| `Model/Float` | IEEE 754 `float` and `double`: rounding to nearest even, gradual underflow, infinities, NaN, exceptions |
| `Model/Mixed` | the tables and bases once more, with each operation in the type C++ gives it (`REAL_TYPE` or `double`) |
| `Model/SignedZero` | IEEE 754 arithmetic with signed zeros and division by zero |
| `Model/PyPath`, `Model/Aggregate` | `scripts/aggregateOrSplit.py`, and the functions of `os.path` it uses |
| `Model/ConfigBuild` | `scripts/config-build.py` after its options are parsed, without what CMake does |
| `Model/CMakeConfig` | `CMakeLists.txt`, `cmake/Config.cmake`, `ShivaConfig.hpp.in`: the options, the generated header, and the macros tested by the headers |
| `Model/CompareSettings` | `scripts/compare_uncrustify.py` after the files are read |
| `Model/CiScript` | `scripts/ci_build_and_test_in_container.sh`; which tests `CMakeLists.txt`, `tests/CMakeLists.txt` and `cmake/Macros.cmake` register |
| `Model/Workflow` | `scripts/ci_build_and_test.sh` (field splitting, exported variables, the arguments of `docker run`); the jobs of `.github/workflows/continuousIntegration.yml` and their verdict |
| `Model/CodeChecks` | `cmake/Macros.cmake` up to line 33 (the sources given to the code checks), with the call in `CMakeLists.txt` |
| `Model/HostConfigs` | all files in `hostconfigs/`; how the CI container calls `config-build.py` |
| `Model/CheckTests` | the command of the tests `testCppCheck` and `testClangTidy`, `cmake/Macros.cmake` lines 54-66, as processes |
| `Spec/Translation` | how a compiler reads included files, as far as names are concerned; which names the standard promises for its headers and which they declare in practice |
| `Model/Headers` | what every header in `include/shiva` includes, declares and uses, by option; the directories of the build tree and of an installation |
| `Model/Standards` | what depends on `__cplusplus`: both branches of `value` and `gradient` in `LagrangeBasis` and `BasisProduct`, and BasisProduct.hpp as a header |
| `Model/Package` | the target of CMakeLists.txt as a subdirectory, its installation, and the package files of ShivaConfig.cmake.in as CMake generates them |

Modelling decisions:

* **Outcomes.** A failed `static_assert` and a non-constant value in a `constexpr` context are `illFormed`.
  Signed overflow, out-of-buffer access and integer division by zero are `ub`.
  A real division by zero is `nonfinite`: the C++ result is an infinity or NaN and no property claims a number for it.
  No outcome other than `ok` carries a value, so totalised division can never make a theorem true.
* **Integers.** `int` is a Lean `Int` with an explicit range check after every operation.
* **Reals.** Arithmetic is a record `Arith R` passed to every floating-point function.
  `exactArith ℝ` gives the exact-arithmetic reading used for the algebraic and calculus properties.
  `roundedArith fl` rounds after every operation and is used for the rounding properties (C57, C60–C64, C73–C75).
  Theorems about exact arithmetic say nothing about rounding.
  `floatArith F` is IEEE 754 arithmetic in the format `F` and is used for C81–C84, C100, C101 and C125.
  It rounds with a formula, which C91 proves to be rounding to nearest with ties to even as the standard defines it.
  In it all operations are in `REAL_TYPE`, also where an expression mixes it with `double` literals.
  `Model/Mixed` evaluates such expressions in `double`, as C++ does, and is used for C85–C90.
  C88 proves that both readings of a basis agree.  The other kernels of C81 have no such literals.
  In `roundedArith` and `floatArith` no operation is fused and no intermediate result is wider than its type.
  `termArith` builds expressions instead, and C97 bounds every evaluation of them, with fused operations, wider
  intermediate results and any rounding modes; C146 says which exact facts survive fusing.  Overflow and underflow are left out there.
  The sign of zero is dropped; it can only be seen by dividing by zero, which is `nonfinite`.  `Model/SignedZero` has both, and
  C143 proves that results agree up to the signs of zeros.
  Overflow in constant evaluation is not treated as `illFormed`.
* **The scripts.** A run of `aggregateOrSplit.py` maps a tree of files to a tree of files, or raises, or is still running after a given number of
  rounds of its loop.  Text has no carriage returns, there are no symbolic links and no other processes, and what is
  printed is left out.  Python's limit on nested calls is a parameter.  `os.path` and `re.match` are transcribed by
  hand for the arguments the script gives them; they are part of the trusted transcription.
  A run of `config-build.py` maps a tree of files to a tree and an exception or a shell command; `argparse` is left out.
* **Folds** are evaluated in C++ association order.
  This matters for overflow and rounding.
* **Memory.** A CArray is a view (dimensions and offset) into a block of cells.
  Accesses outside the block are `ub`, as is forming a pointer outside `[begin,end]`.
* **Threads.** The accesses of threads take place one after the other in the order of a schedule, unless two of them race,
  which is `ub`.  This is what C++17 promises for programs without locks and atomics.
* **Configuration.** Bounds checking on or off and run-time or constant evaluation are parameters.

Not modelled: the CUDA/HIP launch itself (replaced by an abstract device with failure outcomes), overload resolution beyond
`is_invocable`, `printf` output text; fused multiply-add and rounding modes other than to nearest
only in C97 and, for fused operations, C146 (and, for a fixed rounding function, C60–C64 and C73–C75).

Specifications are in `lean/Verif/Spec`; they use no model helper.
Property theorems are in `lean/Verif/Props`, each with a non-vacuity example.
`lean/Verif/Tests/UnitTests.lean` gives the model the inputs of the repository's unit tests and compares the outcomes
with the reference values there.  These are tests of the transcription and are claimed as nothing more.

## 3. Plan per property

| Id | Model and proof |
| --- | --- |
| C01 | run-time `level` on the dims list; induction on dims; row-major number as a separate `Spec.rowMajor`; bijection by division with remainder |
| C02 | sequence of writes folded over memory, compared with `Function.update` on tuples; induction on the history |
| C03 | slice recursion; induction on the prefix length |
| C04 | checked `level` on arbitrary `int` tuples; result is `ok` iff in range, else `abort` |
| C05 | compile-time `level`; equality with the run-time result and iff for well-formedness |
| C06 | checked arithmetic returns `ok` at every step |
| C07 | negation with witness; exact characterisation of what is accepted instead |
| C08 | `listInit`; element-wise characterisation |
| C09 | direct, by induction on the dims list |
| C10–C12 | state-passing loop equals a fold over a list characterised by membership and strict lexicographic order |
| C13–C14 | same for `forRange` with start; the final index state is computed |
| C15 | negation with witness; exact iff characterisation (`_partial` name for the positive part) |
| C16 | abstract callable signature; negation with witness, positive part under the probe's condition |
| C17 | loop invariants over arbitrary integer widths |
| C18, C19 | face sets defined as finite sets of sign patterns / vertex subsets; cardinality by induction |
| C20 | negation with witness; exact boundary |
| C21 | Lebesgue measure of `Icc` in `Fin n → ℝ` |
| C22 | Lebesgue measure of the corner simplex by induction on dimension (Fubini) |
| C23–C25, C27, C28, C31 | whole tables are finite: proof by case analysis; `EqualSpacing` for all N by algebra |
| C26 | intermediate value theorem on rational enclosures of the Legendre polynomials |
| C29, C30 | moments computed exactly in ℚ, extended to all polynomials by linearity |
| C32–C37 | model value shown equal to Mathlib's Lagrange basis polynomial, plus derivative |
| C38–C43 | tensor products over `Fin n`; `HasFDerivAt`; reproduction by induction on dimensions |
| C44, C45 | ring identities on the cofactor formula; both overloads |
| C46, C47 | record update semantics, matrix determinant |
| C48, C56 | loop over the eight support points / collision witness for order ≥ 2 |
| C49–C54 | loop of accumulations turned into sums, then calculus from C39 |
| C51, C55 | negation with witness plus partial positive statement |
| C57 | real algebra; also with rounding, where monotone rounding is enough, and an underflow witness |
| C58 | an environment says what each device call did; the final host data, live device blocks and outcome are compared across builds |
| C59 | case analysis on configuration |
| C60–C62 | standard `(1+δ)` product analysis over an arbitrary rounding function |
| C63, C64 | the tables are evaluated in an arithmetic that counts roundings; perturbation of moments |
| C65 | products of the moments of C29, C30, C64; Fubini for monomials on the cube |
| C66 | the isoparametric map as a polynomial map; degree of its Jacobian determinant; change of variables |
| C67 | recursive peeling as list access; induction on the pack |
| C68 | body with an argument form and a template form, each possibly missing, returning a value; the fold keeps the last value |
| C69 | nine integer types with the usual arithmetic conversions, wrapping and overflow; induction on the dimensions |
| C70 | types of access expressions as a transition system (constness, buffer kind, rank); invariants over all access paths |
| C71 | choice among the three constructors for a built-in array of any length; exact set of defined accesses |
| C72 | buffer kinds of the four aliases; only arrays and pointers can be indexed |
| C73–C75 | every computed entry tracked with its error and magnitude through the cofactor formula; perturbation of the quotient |
| C76 | on a layer of nodes the basis function of that direction is 0 or 1 (C33), so the tensor sum collapses to the layer; Gauss-Legendre by a concrete witness |
| C77 | reindexing the tensor sum by the symmetry; the one-dimensional basis of a symmetric node set is symmetric |
| C78 | order-one basis values are non-negative on the cube and sum to 1; order two by a concrete witness |
| C79 | C49 for both cells and uniqueness of derivatives; determinants by C52 |
| C80 | as C65–C66, for `f ∘ x * detJ` as a polynomial of bounded degree in each direction |
| C81 | a relation between a run in IEEE arithmetic and one in rounded arithmetic, carried through every kernel; then C60–C62 and C73–C75 |
| C82 | exponent ranges of every table entry computed by interval evaluation in the kernel; equal spacing by hand |
| C83 | every intermediate value is a multiple of a known power of two and bounded, so it neither underflows nor overflows |
| C84 | false: the determinant of `2^400` times the identity overflows; C83 gives the part that holds |
| C85 | every table entry evaluated by a verified rounding function in the kernel; equal spacing by hand; false for 4 Lobatto points in `double` |
| C86 | the same; powers of two by exactness of every operation; false for equal spacing and 8 Lobatto points |
| C87 | moments of the evaluated tables, distance to the roots of C26 |
| C88 | a theorem on double rounding: a `float` quotient of a power of two is never close enough to a tie to be rounded differently; then the kernels agree operation by operation |
| C89 | halving is exact on the grid of a number; `2.0 / h` by the theorem of C88; for `float` factors only the last product of the determinant is rounded in `double` |
| C90 | points enclosed to 1e-44 by sign changes decided in the kernel; orthogonality of the node polynomial decided on coefficient lists; weights of the exact rule by a perturbation bound on integrals of Lagrange polynomials; partial: false in `double` for six points or more |
| C91 | `Spec/IEEE` states the numbers of a format as m·2^e and rounding as nearest with ties to even, without the model's rounding formula; the formula is proved to satisfy it, by comparing with numbers on the same grid and on finer grids |
| C92 | `Model/TypedIndex`: the templates with explicit conversions and promotions; induction on the positions as for C15; partial: `forRange` compiles for `int` only, and strides are formed in `int` |
| C93 | `Spec/Copies` gives programs a meaning without memory; `Model/Copies` runs them on buffers and pointers; simulation by induction on the program |
| C94 | The basis values are those of `ParentElement`, the points and weights those of the rules; the matrix itself is the user's and is written in the statement. The quadratic form is a weighted sum of squares of a tensor-product polynomial at the points (`Lemmas/TensorPoly`), which is determined by its values on a grid with more points than its degree; with fewer, the product of `x - x_q` is a counterexample. |
| C95 | As C94 for gradients. If the gradient vanishes on the grid then it vanishes everywhere, also when one direction has one point less (that derivative has one degree less, and the function then does not depend on that coordinate). Counterexamples: an antiderivative of the vanishing polynomial of one direction; the product of those of two directions. |
| C96 | `Model/ForRangeBody` runs the loops with the index as part of the state and may run out of fuel; `Spec/Odometer` advances a reading. Each loop around an inner odometer is the odometer with one more wheel, by induction on the wheels and the rounds; termination by counting the tuples that are left. |
| C97 | The model runs in an arithmetic that builds expressions; `Spec/Evaluation` says which real numbers an expression may evaluate to. The error analysis of C60–C62 and C73–C75 is repeated for any arithmetic whose elements have a set of values. Fused operations are evaluations with one exact operation; plain rounding is related by the lemmas on running code in two arithmetics. |
| C98 | `Model/TypedMath` repeats the three functions with promotion to `int` and conversion back to the type. Congruence modulo 2^bits by induction; the exact part by showing that no intermediate result leaves the type. |
| C99 | The Lagrange basis with an index that is no node is computed for any spacing: a product over all nodes. The shipped families are then split into those whose coordinate formula continues past the ends and those that return 0. |
| C100 | `Lemmas/Near*` repeat the error analysis with one more term: the number of roundings times the smallest positive number times a bound of the sizes of all intermediate results. The bounds for shipped points are checked on the whole table of points. |
| C101 | The same analysis for the cofactors and the quotient; the determinant is bounded below by the hypothesis, so the quotient cannot overflow. |
| C102 | `Model/InverseAlias` repeats `inverse` with `det` read and written through the matrix. The nine positions are compared with the result for a separate `det`, for any arithmetic; the generic overload by following the reads and writes one by one. |
| C103 | The model of the basis and of ParentElement in exact arithmetic. Rolle's theorem repeated gives f = f^(n)(t)/n! times the product of the distances to n zeros; applied to f minus the interpolating polynomial, and to its derivative between the support points. Tensor products: one direction taken out at a time. |
| C104 | Taylor's theorem at 0 with C29/C30 (exactness), C28 (positive weights) and C24 (points inside the cell). Several directions: Fubini and one direction taken out at a time. |
| C105 | The script as a function from a tree of files to a tree of files (`Model/Aggregate`). `resolve_path` finds the first candidate: by the laws of `join` and `normpath` (`Lemmas/PyPath`). The recursive search is a depth-first search that adds exactly the reachable headers: induction on the nested calls with the number of unvisited headers as measure. The loop emits a topological order: invariant on the emitted list and the remaining graph. |
| C106 | Each round of the loop removes a header unless all remaining ones depend on remaining ones; in a finite graph that means a cycle. Conversely the headers of a cycle are never removed. Violated by two headers that include each other. |
| C107 | The lines of the output are computed from C105. Violated by the configuration header and by includes that cannot be resolved. |
| C108 | The marks are recognised (greedy matching), other lines copied; the place is that of the absolute name in the mark. Violated: the marks have absolute names, so that `os.path.join` drops the output directory. |
| C109 | `gradient` (C42) and `inverseJacobian` (C52) as modelled; the inverse function theorem of Mathlib gives the local inverse of the map, and the chain rule the derivative. The affine field and the polynomial field are then instances, as their derivative is unique. |
| C110 | The script as a function from a tree of files to a tree and an ending (`Model/ConfigBuild`). `remake` (delete and create) changes nothing outside its directory, and leaves it empty (`Lemmas/ConfigBuild`). The two places are computed from the options by a separate specification. Violations: `-bp .`, a host configuration inside the build directory, `-ip` of a shared directory. |
| C111 | A POSIX shell's word splitting for plain characters, spaces and double quotes is in `Spec/ConfigBuild`. The command is a list of pieces with a space after each (`commandLine_pieces`), and each piece is read as the words meant. Violations: spaces in arguments and directories, the CMake named in the host configuration, the exit status. |
| C112 | CMake's variables (normal before cache), `option`, the version numbers and `configure_file` on the template are functions (`Model/CMakeConfig`); `Spec/CMake` says which texts are false to CMake, and how a header defines a macro. The theorems run the model on arbitrary settings; `macroOf_template` reads the macros back from the text of the header. Violations: camp without BLT, the CUDA version in a top-level build. |
| C113 | The format is given by the lines one can write (`Spec/Settings`), with the text of each and what it sets. `readLine_valid` shows that a line does what it means, `readConfig_eq` that the dictionary holds the last assignments, `compare_eq` what the two dictionaries hold. Violations: settings in only one file are not printed; a `#` in a quoted value is taken for a comment. |
| C114 | `Spec/DistortedBox.NearBox` says how far the vertices are from those of a box. The map is the multilinear interpolant (`multi`), affine in each coordinate, and the interpolated displacement is Lipschitz with the bound of the displacements; the Jacobian is strictly diagonally dominant, hence has a positive determinant (`det_pos_of_dominant`). With this C66 holds without its provisos. A witness shows that the bound is sharp. |
| C115 | The script as a function (`Model/CiScript`) from the exit status of each command, given those run before, to the commands run and the exit status; `or_die` is followed step by step. The flags are searched in the joined arguments: `mentions_iff` shows that a flag is found exactly if it is part of one argument. For machines, the tests registered by the CMake files are listed. Violations: several kinds of jobs in one run; copying the report; no style or documentation test exists; CMake failing; 256 findings. |
| C116 | `Spec/Threads` gives a thread a meaning of its own; `Model/Threads` interleaves threads on the memory of `Model/Copies`, and a data race is `ub`; invariant over the schedule: every thread is as if it had run alone |
| C117 | along every line in direction `a` the product of the two variables is a polynomial of degree at most 2*order, its derivative is integrated by C29/C30 and the fundamental theorem of calculus; sums over lines by `sum_insertNth`. The collocation operator: the whole table of entries over ℚ, in the kernel |
| C118 | The jobs of the workflow with their conditions (`Model/Workflow`), on top of the container script of C115. The result of each job follows from the exit statuses of its steps; the verdict from the text of `RETURN_VAL`. End to end with C119 and C115. Violation: the coverage job. |
| C119 | Field splitting of unquoted variables and the way `docker run` reads its arguments are functions (`Model/Workflow`); `splitFields_words` shows that a variable becomes its words. Violation: `NPROC` is assigned, but exported only if it was in the environment before. |
| C120 | detJ times the inverse is the adjugate of the Jacobian of the polynomial map (C52, C66); Piola's identity says that its columns have no divergence, so detJ times the physical gradient is the divergence of u times a column; each direction is integrated along lines as in C117, the rules being exact on the derivative |
| C121 | `file(GLOB_RECURSE)`, the loop over the excludes, and `MATCHES` as a matcher for the regular expressions used (`Model/CodeChecks`); the matcher is shown to decide `Spec.Denotes`; `build*`, `blt/*`, `camp/*` match exactly the texts with `buil`, `blt`, `camp` in them. Violation: also in the path of the checkout. |
| C122 | The part of CMake's language in which host configurations are written (`Spec/HostScript`), and the nine scripts as data (`Model/HostConfigs`). A setting without `FORCE` counts unless the name was set before; so the last word counts if it is forced or the only one, which is checked for each script. `environment.cmake` is run symbolically; the header comes from C112 and the environment in the container from C119. Violation: Tioga. |
| C123 | The command `make … 2> >(tee file) && exit $(cat file \| wc -l)` as a transition system with three processes and a file (`Model/CheckTests`); invariants over all schedules. Violations: schedules in which `cat` is faster than `tee`, files left by earlier runs, reports without the end of a line, multiples of 256 lines. |
| C124 | The headers as lists of includes, declarations and uses (`Model/Headers`), read by a small preprocessor (`Spec/Translation`). A check of each file alone, for every combination of options, is proved to suffice for any order: induction on the rank of the files and on the list of includes. Violations: `Shiva.hpp` includes files that do not exist; with HIP alone `pmpl.hpp` names a constant of CUDA; several headers need more than the standard promises. |
| C125 | C101 bounds the error of each determinant, C87 the errors of points and weights, and the tensor-product rule of C65 and the change of variables of C66 give the volume. For hexahedra the magnitudes are bounded by the coordinates, since the linear functions on -1 and 1 are not negative and sum to one. |
| C126 | Both branches of `value` and `gradient` of `LagrangeBasis` and `BasisProduct` (`Model/Standards`), with the lambdas and the choice `executeSequence` makes for them; the headers of C124 with what BasisProduct.hpp names in addition. Case by case for the functions; for the headers, files that do not lead to BasisProduct.hpp are read the same (induction on the depth), and no file that leads there is ever read successfully (invariant: it is not among the files read). Violated from C++20 on. |
| C127 | Targets of the source tree, the installed files and the generated package files as functions of the directories (`Model/Package`); `target_link_libraries` as a small specification (`Spec/Package`). The prefix that the package computes from its own place is the prefix it is in (induction on the number of directories it goes up). Violations: the target names differ; camp is not looked for; an absolute directory for headers. |
| C128 | A product of floating-point numbers that is finite and has a zero factor is zero, so that finiteness (C100) gives exact zeros; then only one term of the interpolation loop is not zero. The functions at their own points are evaluated by the kernel, number by number (a finite table). Violation: Gauss-Lobatto bases of higher order. |
| C129 | Rounding commutes with the sign, so the factors of a mirrored function are those of the function in opposite order. A product of at most three factors one of which is exactly 1 does not depend on the order. For higher orders the kernel evaluates both products at a witness (a finite table over types, families and orders). Violation: orders 3 to 8. |
| C130 | The loop of `ParentElement::gradient` runs over the last index innermost. For a linear basis the two derivatives are exactly opposite, so each pair of terms with the same other indices adds x and then -x to an accumulator; by induction over the pairs the accumulator is zero before each pair. For the other directions and orders the kernel evaluates the gradient of a constant at witnesses. Violation: any other direction, any higher order. |
| C131 | Rounding is monotone, and shape functions of order one are nonnegative products of rounded factors; so each step of the loop in `ParentElement::value` is monotone in the nodal values (induction over the runs of the loop). Signs follow by comparing with zero. On a line, the two shape functions of a representable point are (1-x)/2 and (1+x)/2 with one rounding, and their sum times a power of two rounds to that power; monotonicity then gives the bounds. For other bounds the kernel evaluates constants at witnesses. Violation: lines with bound 3, squares and cubes with bound 1. The excess is bounded with C100. |
| C132 | Rounding to nearest commutes with multiplication by plus or minus a power of two unless one of the numbers is subnormal and inexact. Each floating-point operation then preserves the relation 'exactly c times, unless an exception was raised' with the factors that units have: sums keep c, products multiply, quotients divide. The relation is carried through the loops of `value`, `gradient` and `jacobian` (the combinators of `Lemmas/Relational.lean`) and through the closed form of `inverse`. |
| C133 | The fold over the directions is right associated, so its innermost product is that of the last two directions, and rounded multiplication is commutative: exchanging the last two directions is exact for values and gradients in any dimension, for any bases and any data (special values included). On squares that is every permutation. Violation: kernel evaluation of the first shape function in a cube with the first two coordinates exchanged, for every family, order from 1 to 8 and both types; and of a field at the centre of a square, where the nested loop adds in another order. The difference is bounded by reindexing the exact sums in C100. |
| C134 | The factors are tabulated in `Spec/Stability.lean`. On a line, the interval is covered by 1000 cells; in each the sum of the absolute values of the basis functions, and of the terms of their derivatives, is bounded from the distances to the points, in integer arithmetic the kernel evaluates. The points need to be known to a millionth only, so one table serves exact arithmetic, `float` and `double`. Tensor products multiply the bounds, and C100 gives the rounding errors. Lower bounds: rational evaluation at a point, and nodal values of the signs of the basis functions. For equal spacing of any order: induction on the order for the product of the distances, and the sum of the binomial coefficients. |
| C135 | The truncation terms are defined in `Spec/TotalError.lean`. The error is split at the exact interpolant of the nodal values on the computed points and at the exact interpolant of the function on them. The three parts are bounded by C100, by the factors of C134 and by the estimates behind C103, whose one-dimensional sums are replaced by the tabulated factors. For boxes the chain rule carries the derivatives to the parent cell. |
| C136 | Each row of the derivative is within the displacement of half the edge on the diagonal and zero elsewhere, so each factor of a diagonally dominant determinant keeps its sign; the smallest and largest magnitudes are products over the directions (`det_near_diagonal`). In float and double C101 bounds the error of the determinant by 2509 u B^3 for coordinates up to B, which decides the sign if the margin is larger; twice that gives finite inverses close to the inverse derivative. Violation: kernel evaluation of the determinant of cubes with edges of 1/4 (float) and 2^-31 (double) at coordinates between 2^20 and 2^21. |
| C137 | The derivative of a trilinear map in a direction does not depend on the coordinate in that direction, so the determinant is of degree two in each variable. It therefore lies between the smallest and the largest of its 27 Bernstein coefficients, which are computed from the determinants at the points with coordinates -1, 0 and 1; in float and double C101 bounds the error of these. Violation, for an arbitrary finite set of points: a twisted cell whose determinant is a parabola in one coordinate, slightly negative in an interval that contains none of the points. |
| C138 | The gradient of C100 and the inverse Jacobian of C136 are within explicit bounds of the exact ones; the entries of the exact gradient are at most Y and those of the exact inverse at most 2 B^2 / Delta (adjugate over determinant), which bounds the sum of products. For a linear field the exact physical gradient is the constant one because the exact gradient of the nodal values is the coefficient vector times the exact derivative of the map (C109). The sum of products itself is user code and taken exactly. |
| C139 | The error of a rule with nonnegative weights that is exact up to tau for polynomials (C104, C87) for one direction, the sum over the directions by Fubini (tensor_quadrature_error), and the sum of the weights times the error of the values. Values: C135. Cells: the change of variables formula for the polynomial map of the cell (C66) and the error of the determinants of C101. The sum over the points is user code and taken exactly. |
| C140 | Run the model on tags instead of numbers: a tag says that a number is a known rational, or a whole number of units 2^(s w - e) of at most m units, and is dropped if the number might not fit the significand or the exponent range. The tag arithmetic is related to float and exact arithmetic at once (Lemmas/Dyadic), so that a run on tags that keeps all tags shows that the float run equals the exact run; the runs on tags are finite and evaluated by the kernel for each number of binary places (Lemmas/DyadicCell), for all data at once. Then the exact theorems (C41, C42, C51, C44) give the values. |
| C141 | The far box of C136 with the exact scaling determinant gives the violation. Few digits: C140 for LinearTransform, and the products of Scaling are numbers of the type. All boxes: C101 and C100 with the derivative of the map of a box, C89 for Scaling. |
| C142 | A property of floating-point numbers is called sticky if sums, differences and products keep it from either operand. Being NaN and being infinite or NaN are sticky. Folds over support points keep a sticky property of any term (Lemmas/NonFinite), so it reaches the sums of values, gradients and Jacobians. For the inverse the determinant is not finite, so its reciprocal is zero or NaN, and every cofactor that contains the bad entry becomes NaN when multiplied by it. |
| C143 | Model/SignedZero is IEEE arithmetic with a sign on zeros and total division. Forgetting the signs is a relation between Model/Float and Model/SignedZero preserved by all operations, so by the simulation lemmas (Lemmas/Relational, Lemmas/Mixed) every run of the model without signs that has a result is matched by a run with signs with the same result up to signs of zeros. C142 shows that these runs have results for all inputs. If the determinant is zero, its reciprocal is an infinity, and any number times an infinity is an infinity or NaN. |
| C144 | Products commute and differences change sign when their terms are exchanged, so the nine 2x2 minors of an exchanged matrix are those of the matrix up to sign and order; the sum of three products is the same if its first two terms are exchanged. Composition of the two generating exchanges gives all that are respected. For the others one matrix of whole numbers per type, evaluated by kernel-checked exact rational rounding (Lemmas/FloatEval); the cell is its image of the cube, whose Jacobian is exact by C140. Jacobians: the entries of row i only read component i of the vertices. |
| C145 | Being zero if finite is kept by sums and by products with anything; differences of equal numbers and a product followed by its opposite cancel exactly. Opposite rows and columns reduce to equal ones by the signs of C144. The loops for Jacobian and gradient are the same folds; faces that coincide in the last direction give a zero column by C130. The violations are evaluated by kernel-checked exact rational rounding (Lemmas/FloatEval). |
| C146 | Code runs on expressions (C97); the evaluations are those of `Contracted`. Expressions without sums of products have one evaluation; products with zero vanish before and after rounding, and so do their sums. Exact evaluations by induction on the evaluation. The violations use an arithmetic of known rationals that carries the exact product along and fuses whatever it can; a relational lemma shows that its results are among the evaluations. |
| C147 | Terms of nodes off the layer are zero (C128), and adding zero to a number of the type changes nothing, so sums over all nodes are sums over the layer. Two layers are visited in the same order: the list of nodes is sorted lexicographically, replacing the index across by another constant keeps it sorted, and sorted lists with the same members are equal. The functions of the first and last node have the same value at their nodes (evaluated for all shipped families, orders and types). The exact values on a face are the same for a mirrored neighbour, so the difference is bounded by the rounding errors of C100. The violation is evaluated. |
| C148 | The determinant of a bilinear map is affine in the parent coordinates, with the four turns at the vertices, so it is the weighted mean of these. One-to-one: the difference of two images is a matrix times the difference of the points, with a determinant that is again a mean of turns. Onto the convex hull: a point of the hull lies to the left of every edge; the two conditions for its first parent coordinate are solved by the intermediate value theorem. Neighbours: each cell lies on its own side of the line through the shared edge. Vertical edges: the horizontal coordinates are a bilinear map of the first two parent coordinates, and the height is increasing in the third, so everything reduces to two dimensions. |
| C149 | The residual is the error of the computed inverse (C101) times the matrix; its entries are bounded by the sums of the products of the bounds. Spec/Residual names these sums. |
| C150 | Exact: the change along an axis is a sum over pairs of nodes of nonnegative weights times nodal differences (an involution exchanges the nodes of a pair). Float and double: the two functions of one direction are monotone because rounding is, products of monotone nonnegative factors are monotone, and so are sums of monotone terms; this settles shape functions, and fields that are not positive on the lower and not negative on the upper face. In general the fall is at most twice the rounding error of C100. The violation is evaluated. |
| C151 | Exact: the derivative is half the difference of the interpolated values on the two faces, which C150 bounds. Float and double, last direction: the nested loop visits the two nodes of an edge one after the other; their shape functions have opposite derivatives, so the second product is at least the opposite of the first one, and a sum that was not negative is not negative after both; this is an invariant of the loop. The Jacobian follows with C145_rows. Other directions: the rounding error of C100. The violation is evaluated. |
| C152 | Code runs on expressions (C97, C146). Spec/SameWay relates the results of one compiled expression for two sets of data: the same products are fused. The expression of an order-one value is a sum of products of factors of known sign; monotone rounding keeps each step in order, fused or not. |
| C153 | A Lagrange polynomial composed with an affine map has no higher degree, so interpolating it at the new nodes gives it back; products of such sums give the theorem in any dimension. Gradients and Jacobians follow by the chain rule and the uniqueness of derivatives, volumes from the image of the plane having measure zero. Spec/Refinement names the parts. |
| C154 | At a node of direction k the basis functions of that direction are 1 or 0, so the sum over multi-indices is a sum over those of the layer and the product loses the factor of direction k; what is left is the sum of the smaller element. Neighbours are compared through a bijection of the multi-indices of the layer. The rounded statement combines C61 for both elements. |
| C155 | By C154 for float and double, applied once per direction across the edge, the derivative along the edge is that of an element of one dimension. There it is a sum of two products with -1/2 and 1/2, which are exact, so that only the sum is rounded. In exact arithmetic only the two terms of the ends of the edge are not zero. Jacobians follow from C145_rows. |
| C156 | Exact: the derivative of the trilinear map at a vertex is the matrix of half edges; the determinant is continuous along the diagonal into the cell. Floating point: by C155 every entry of the Jacobian is a correctly rounded half edge, that is, an approximation with one rounding; the error analysis of the 3x3 inverse behind C101 then gives the bounds. That positive determinants at the vertices are not sufficient is C137_violated. |
| C157 | Exact: linearity (C41) and the zero gradient of constants; for cells the map of C79 with the identity. Float and double: on edges and at vertices C155 gives each derivative as the nearest number to half of a difference, in which the constant cancels; the determinant and the inverse are computed from equal numbers, and the arithmetic does not look at the exceptions that were raised before (`data_rel`), so the results are equal. The violation is C130's, compared with the zero field, whose gradient is a sum of zeros. |
| C158 | A relation between the outcomes of two runs, same or stopped, that sequencing, comma folds, nested loops and `forRange` preserve (induction on the index lists, packs and fuel); the assertion itself either does nothing or stops. Programs by induction on their length. Cells: C145's rows determine the Jacobian in every configuration. |
| C159 | By Piola's identity the determinant is a divergence, so its integral is a sum over the six faces (fundamental theorem of calculus on monomials of polynomials). The flux through a face depends only on the map restricted to the face, so only on the nodes of the face. Inner faces cancel by a bijection between the upper faces of cells and the lower faces of their neighbours; faces of the block are the same in both meshes. Quadrature: C65 and the coefficient bound of C66. `C159_lobatto`: the exception is needed; at the vertices the determinant is an eighth of that of the edges, which for two meshes with whole coordinates is summed in the kernel. |
| C160 | Component i of the gradient times the determinant is the determinant of the Jacobian matrix with row i replaced by the gradient of the variable (cofactors do not see the row), so it is the determinant of the map with component i replaced by the variable, to which the cancellation of C159 applies. `C160_defined`: all quantities are defined at every point. `C160_lobatto`: the exception is needed; the variables are the first coordinates of the nodes of the two meshes of `C159_lobatto`. |
| C161 | The integral of the determinant is the sum of six fluxes through the faces (C159). Renumbering a cell by a rotation composes its map with the rotation of the parent cube, and the flux through a face of the composed map is the flux through the corresponding face of the map, up to the sign of the end (`faceFlux_turned`, by change of variables with determinant 1). So the two fluxes of a glued face cancel, by an involution on faces; gradients as in C160. The example is a tetrahedron cut into four hexahedra that meet in the middle, which is not a block mesh. `C161_lobatto`: the exception is needed; at the vertices the determinant is an eighth of that of the edges, which for two meshes with whole coordinates is summed in the kernel. |
| C162 | C159 for the mesh and the mesh of boxes, whose maps are affine (C43 reproduces polynomials), so the integrals are products of edges; summed over the block they telescope in each direction. Quadrature as in C159. |
| C163 | C160 and C161 for the variable and the affine function on the same mesh; for the latter the determinant with row i replaced is b i times the determinant, because the matrix times its adjugate is diagonal. |

## 4. Places where the code does not do what the property says

Each is proved as a negation with a concrete witness, alongside a `_partial` theorem for what does hold.

1. C07: bounds checks are skipped in constant evaluation; a tuple out of range in one dimension may be accepted.
2. C15: `linearIndex` builds strides from leading ranges; `(0,2)` and `(1,0)` collide for ranges `<2,3>`.
3. C16: `executeSequence` probes `f(indices...,args...)` but calls `f(args...,indices...)`.
4. C20: intermediate products overflow although the face count fits in `int`.
5. C25: run-time `GaussLobattoSpacing::coordinate` is 0 for 6 to 9 points.
6. C28: the 8-point Lobatto weights are not exactly symmetric.
7. C31: coordinates of unsupported Gauss point counts are silently 0.
8. C51: `jacobian` accumulates into its output parameter.
9. C55: the 2-D `inverseJacobian` runs the 3x3 inverse on a 2x2 array.
10. C56: `setData` uses `a+2b+4c` for every order.
11. C59: the device assertion formats a message with conversions but no arguments.
12. C58: the data overload of `genericKernelWrapper` does not compile in a HIP build, and a kernel that was never
    started goes unnoticed because the launch error is never queried.
13. C69: `operator[]` converts its index to `int` before checking it, so the 64-bit index 2^32 passes as 0.
14. C71: a view of a built-in array of the wrong length compiles, because the array decays to a pointer and
    matches the list-initialisation constructor.
15. C72: `ScalarView` stores a plain value, and its access operators do not compile.
16. C84: `inverse` divides by the determinant, which overflows long before the entries do.
    The inverse of `2^400` times the identity in `double` comes out as the zero matrix.
17. C85: in `double` the run-time and compile-time values of an inner point and weight of the 4-point Lobatto rule
    differ in the last bit.
18. C86: the last of 42 (`float`) or 50 (`double`) equally spaced points is not 1, so that elements of such order do
    not share their end nodes exactly.  Inner equally spaced points are not mirror images.
    Two 8-point Lobatto weights differ from their mirror images in `double`.
19. C90: in `double` the Gauss-Lobatto rules with six to nine points have points and weights given with 13 to 16 digits, some of them wrong in the last digit
    (for example 0.2852315164806455 where the point is 0.28523151648064509...). `C90_violated` shows that each of the four rules has a point and a weight off by more than 2^-53 relative to the exact value; `C90_literals` bounds the error by 1.5e-14 and 1e-14.
20. C92: `forRange` binds `int &` to the index data and compiles for `int` only.  `linearIndex` forms strides in `int`, so a
    `long` multi-index with ranges 65536, 65536, 65536 has undefined behaviour; small types wrap silently.
21. C96: a body that changes an entry of the index other than the last sees tuples outside the box; one that moves the last entry back never ends.
22. C98: `factorial` and `binomialCoefficient` wrap silently in unsigned types and types narrower than `int`: `binomialCoefficient< unsigned, 13, 6 >` is 532 instead of 1716.  `pow< unsigned short, 2 >( 65535 )` is undefined behaviour.
23. C99: no index is checked.  Points past the ends are extrapolated or 0, weights are the largest `double`, `coordinate( i )` of five Lobatto points reads past its table, and most Lagrange bases have a `value< j >` for every `j`.
24. C102: with `det` in the first row, `inverse` leaves `det * ( 1 / det )`, that is 1, in that element instead of the entry of the inverse.
25. C106: `generate_header_list` never ends when two headers include each other (or one includes itself), which compilers accept with `#pragma once`. `C106_violated`; `C106_partial` shows that this is the only case.
26. C107: the include of `ShivaConfig.hpp` becomes a comment, and the text of that header is not in the aggregated file (`C107_violated_config`). An include that cannot be resolved raises an exception that is caught and printed; the rest of the header is not searched, so that later includes are lost while all of them become comments (`C107_violated_unresolved`). `Shiva.hpp` itself includes `geometry/Cube.hpp`, `geometry/Cuboid.hpp` and `geometry/RectangularCuboid.hpp`, none of which exists. `C107_partial` holds when all includes can be resolved.
27. C108: the marks hold absolute names, and `os.path.join( output_dir, name )` is then `name`. So splitting overwrites the original headers, with their includes and `#pragma once` turned into comments, and leaves the output directory empty (`C108_violated`, and for every tree `C108_overwrites`). `C108_partial` is what holds.
28. C110: config-build.py deletes the build and the installation directory without asking, whatever they are. With `-bp .` in the source directory all sources are deleted and the script then fails, since its current directory is gone. A host configuration inside the build directory is deleted and then passed to CMake. With `-ip /usr/local` other software is deleted.
29. C111: config-build.py joins its arguments without quoting. `"-DCMAKE_CXX_FLAGS=-O2 -g"` becomes two arguments, and nothing works in a directory with a space in its name. The CMake path it reads from the host configuration is overwritten in the next line. It exits with status 0 when CMake fails.
30. C112: with `SHIVA_ENABLE_CAMP` and without `SHIVA_ENABLE_BLT` the headers include `camp/camp.hpp`, and camp is not linked. `SHIVA_CUDA_MAJOR` is computed from `CMAKE_CUDA_COMPILER_VERSION` before the language CUDA is enabled, so in a top-level build the header says CUDA 0 (the unit tests take other branches for `SHIVA_CUDA_MAJOR < 12`).
31. C113: compare_uncrustify.py prints no setting that only one file has (the lines that would are commented out), so two different files can give an empty report. A `#` inside quotes ends the value: `"#x"` and `"#y"` are reported as common.
32. C115: the CI jobs for style and documentation check nothing: `testUncrustifyCheck` is added nowhere, `testDoxygenCheck` only in docs/CMakeLists.txt, which no `add_subdirectory` mentions, and `ctest -R` without a matching test returns 0 (`C115_violated_no_test`). When CMake fails, config-build.py returns 0 and the job `--code-checks` succeeds (`C115_violated_configure`). The findings of cppcheck and clang-tidy are counted in an exit status of eight bits, so that 256 lines pass (`C115_violated_count`). Flags of several jobs together do only the first (`C115_violated_combined`), and a failing copy of the coverage report goes unnoticed (`C115_violated_copy`).
33. C118: the job `check_that_all_jobs_succeeded` does not need `code_coverage`, so the verdict is good although the coverage job, which also runs the unit tests, failed (`C118_violated`).
34. C119: ci_build_and_test.sh sets `NPROC` to the number of processors without exporting it. If `NPROC` is not in the environment, as in the coverage job, `docker run -e NPROC` hands on nothing, and the container runs `make -j VERBOSE=1`, without a limit (`C119_violated`).
35. C121: the excludes `build* blt/* camp/*` of the code checks (CMakeLists.txt 97) are written as globs, but cmake/Macros.cmake 23 takes them as regular expressions and looks for them anywhere in the absolute path: they stand for `buil`, `blt` and `camp`. In a checkout below a directory with one of these in its name (`/home/campbell/Shiva`, `/home/me/builds/Shiva`), cppcheck and clang-tidy are given no file at all, and their tests pass (`C121_violated`, `C121_nothing`).
36. C122: hostconfigs/LLNL/tioga-base.cmake sets `ENABLE_FIND_MPI` to `ON` by `FORCE` in line 2, and to `FALSE` without it in line 22, with the comment that looking for MPI fails there. The second has no effect (`C122_violated`).
37. C123: `testCppCheck` and `testClangTidy` (cmake/Macros.cmake 56, 63) count the lines of a file which `tee` writes in a process substitution, for which the shell does not wait. For any findings there is a schedule in which the test passes (`C123_violated_schedule`); a test can fail because of what an earlier run has left (`C123_violated_left`). A finding without the end of a line is never counted (`C123_violated_unfinished`), and 256 lines count as none (`C123_violated_count`).
38. C124: no source file that includes `Shiva.hpp` compiles, since it includes `geometry/Cube.hpp`, which does not exist (`C124_violated_umbrella`); with HIP alone `pmpl.hpp` does not compile, since line 162 names `cudaMemcpyHostToDevice` (`C124_violated_hip`). `ShivaErrorHandling.hpp` and all that include it rely on `<cstdio>` declaring `fprintf` outside of `std` (`C124_violated_standard`), and `types.hpp` on `<tuple>` declaring `std::forward` (`C124_violated_forward`), which the standard does not promise.
39. C126: from C++20 on BasisProduct.hpp line 97 names `BASIS_TYPE`, which is declared nowhere (`BASIS_TYPES` is meant), so that no source file that includes BasisProduct.hpp, ParentElement.hpp or InterpolatedShape.hpp compiles (`C126_violated_headers`, `C126_violated_value`). `LagrangeBasis::gradient` calls `valueProductFactor` with three template arguments and a coordinate, but it has two template parameters and takes an array (`C126_violated_gradient`). All other headers, and the other two branches, are as with C++17 (`C126_headers_partial`, `C126_partial`).
40. C127: the target is `Shiva::shiva` (or `Shiva`) after `add_subdirectory`, and `Shiva::Shiva` after `find_package`, since `install( EXPORT .. NAMESPACE Shiva:: )` (CMakeLists.txt 122-125) puts the namespace before the name of the target and not of its alias; no name works for both (`C127_violated_name`). With camp linked, either `install( EXPORT )` fails or the package is an error for every project that has not found camp itself, since `find_dependency( camp )` is a comment (`C127_violated_camp`). With an absolute `CMAKE_INSTALL_INCLUDEDIR` the variable `Shiva_INCLUDE_DIRS` is the prefix followed by it, where there are no headers (`C127_violated_directory`).
41. C128: in `float` with Gauss-Lobatto points of orders 4, 6, 7, 8, and in `double` of orders 5 to 8, a basis function is not exactly 1 at its own point, since `( coord - c ) * ( 1 / ( c_j - c ) )` (LagrangeBasis.hpp 172-173) multiplies by a rounded reciprocal instead of dividing. Interpolating the constant 1 at the first support point does not give 1 (`C128_violated`). Dividing would give exactly 1.
42. C129: for every family, in `float` and in `double`, and every order from 3 to 8, there are a function and a representable point in the parent interval where mirroring changes the last bits of the value: the fold of LagrangeBasis.hpp 84-96 multiplies the factors in the order of the support points, which is opposite for the mirrored function, and rounded products depend on the order (`C129_violated`). Results on a symmetric mesh are therefore not exactly symmetric.
43. C130: the derivative of a constant is not exactly zero, in `float` and in `double` and with every family: the first derivative on a square of order 1, and the derivative on a line of order 2, 3 or 4, are nonzero at some representable points of the parent element (`C130_violated`). Only the last direction of order 1 is safe, because ParentElement.hpp 127-141 runs over the last index innermost and so adds opposite terms in succession; rigid translations cause spurious strains of the size of the rounding error.
44. C131: interpolation of order one can leave the range of the nodal values, in `float` and in `double`, with EqualSpacing and with GaussLobattoSpacing: on a line the constant 3, on a square and in a cube the constant 1, are interpolated to more than 3 or 1 at some representable points of the parent element (`C131_violated`). Code that takes a root or logarithm of 1 minus an interpolated fraction must allow for it. The excess is no more than the rounding error (`C131_excess_partial`); signs are kept, and on lines so are bounds that are powers of two.
45. C133: shape functions and interpolated values depend on how the axes are numbered, in `float` and in `double`. In cubes of every family and every order from 1 to 8 exchanging the first two directions changes the last bits of the first shape function at some points; on squares of order 1 exchanging the directions changes interpolated values although the shape functions agree, because the nodes are added in another order (`C133_violated`). Exchanging the last two directions does not change shape functions or their gradients (`C133_partial`, `C133_gradient_partial`), and interpolated values differ by no more than twice the rounding error (`C133_difference_partial`).
46. C136: in `float` and `double` the determinant of a valid cell can be negative. For a cube with edges of 1/4 in `float` (2^-31 in `double`) whose coordinates lie between 2^20 and 2^21 and are exact, `inverseJacobian` returns a negative determinant at a point of the cell: the Jacobian is summed from products of the coordinates, not of their differences (`C136_violated`). The sign is right when the product of (edge/2 - 3 displacement) is more than 2509 u B^3 (`C136_partial`), and the inverse is finite and close when it is at least twice that (`C136_inverse_partial`).
47. C137: no finite set of points suffices to accept a cell. For every finite set of points, for example those of any quadrature rule and the vertices, there are eight vertices for which `inverseJacobian` returns a positive determinant at all these points and a negative one elsewhere in the cell (`C137_violated`). A check that suffices: positive control values of the determinants at the 27 points with coordinates -1, 0 and 1 (`C137_partial`, in `float` and `double` `C137_float_partial`). For quadrilaterals the four vertices are enough (`C137_square_partial`).
48. C141: for a cube with edges of 1/4 (float) or 2^-31 (double) and coordinates between 2^20 and 2^21 `LinearTransform` computes a negative determinant, `Scaling` the exact positive one (`C141_violated`). Proved instead: equality for boxes with few binary digits (`C141_exact`), and bounds of the differences relative to the cube of the coordinates (`C141_partial`, `C141_jacobian_partial`).
49. C144: for one matrix of whole numbers (entries below 2^9 in float, below 2^22 in double) every exchange of rows and columns that moves the last row or the first column, and every exchange of rows for columns, changes the magnitude of the determinant `inverse` computes (`C144_violated`); so does, for the cell with this matrix as Jacobian, every renumbering of the axes of space that moves the last axis (`C144_inverseJacobian_violated`). Proved instead: the other exchanges are exact for all matrices and cells (`C144_inverse_partial`, `C144_inverse_carray_partial`, `C144_inverseJacobian_partial`; `C144_exchanges` says that these are all), Jacobians respect every renumbering (`C144_jacobian`), and differences are bounded (`C144_difference_partial`, `C144_transposed_partial`).
50. C145: there are matrices of whole numbers whose first column equals the second or the third, with a finite determinant other than zero (`C145_violated`), and a plate without thickness, the square (±1, ±1, 2^24-1) in float and (±1, ±1, 2^53-1) in double taken twice, has a finite determinant other than zero at its centre (`C145_plate_violated`). Proved instead: exact zeros for dependent rows, for the last two columns and for zeros (`C145_inverse_partial`, `C145_inverse_carray_partial`, `C145_moderate_partial`), for flat cells in planes through the origin (`C145_flat_partial`) and for cells collapsed in the last direction (`C145_collapsed_partial`).
51. C146: with fused operations, matrices with two equal rows may get a determinant other than zero and a finite inverse (`C146_violated`; with plain rounding C145 excludes this), and a constant field may get a derivative other than zero in the last direction of a trilinear element (`C146_constant_violated`; plain rounding gives zero, C130). Proved instead: values of basis and shape functions (`C146_basis`, `C146_shape`), exact results (`C146_exact`), support points (`C146_nodal`) and rows or columns of zeros (`C146_inverse_partial`) do not depend on what is fused.
52. C147: two cells of order 1 in three dimensions with the same nodal values on a shared face, one mirrored along the face, can interpolate different values at the centre of the face, in `float` and in `double` (`C147_violated`): the nodal terms are added in another order. Proved instead: cells that number the nodes of the face in the same order agree to the last bit (`C147_neighbours_partial`, `C147_tangents_partial`), values on a layer depend on the layer only (`C147_trace`), and the values of mirrored neighbours differ by no more than twice the rounding error of C100 (`C147_difference_partial`).
53. C150: with the nodal value 3 at the lower and 4 at the upper nodes of a direction, on a line, square or cube of order one, the interpolated value at some floating-point number is greater than at the next one, in `float` and in `double` (`C150_violated`): the two rounded terms of the sum do not grow and fall in step. Proved instead: shape functions are monotone along axes (`C150_shape_partial`), so are fields whose sign changes between the faces or that vanish on one of them (`C150_sign_partial`), and any fall is at most twice the rounding error of C100 (`C150_error_partial`).
54. C151: on a square of order one with the nodal values 3 and 1 on the lower face of the first direction and the next greater numbers of the type on the upper face, the first derivative is negative at some point, in `float` and in `double` (`C151_violated`): the two terms of an edge in the first direction are not added one after the other. Proved instead: the sign is right in the last direction, in any dimension and at all points (`C151_last_partial`), and so is the last column of the Jacobian (`C151_jacobian_partial`); in all directions the derivative is within the bounds up to the rounding error of C100 (`C151_error_partial`).
55. C157: on the square of order one there are a constant and a point, for each of the spacings and for `float` and `double`, so that the first derivative is zero for nodal values zero and not zero after the constant was added to all of them (`C157_violated`). Proved instead: nothing changes, to the last bit, on edges for the derivative along the edge (`C157_edge_partial`), and at the vertices of a hexahedron for the Jacobian, its determinant and its inverse (`C157_vertex_partial`).

Observed by reading, not modelled: with C++20 `tests/common/testSequenceUtilities.cpp` defines
`testSequenceExpansionTemplateLambdaHelper` twice (lines 117 and 138).

## 5. Seeded bugs

`seeded/LOG.jsonl` has one line per edit of the model made in a scratch copy.  How to read it:

* `first_failures` are the declarations whose own proofs stopped compiling.
* `theorems_failed` are the property theorems among these and those that use one of them.
  The build stops once the expected theorems have failed, so the list may be incomplete.
* A theorem that fails this way is not thereby shown to be false of the edited program.  Its proof broke, and it might
  have another.  Lines with a `refuted` entry are stronger: there the negation of the theorem's statement was proved about the edited model.
* Lines noted `missed` are edits that the theorems of the time accepted; `theorems_tightened` names what was added or
  strengthened because of them.
