{"id": "C01", "title": "CArray parenthesis access is row-major and one-to-one", "statement": "For a CArray with dimensions d_0..d_{r-1}, the element addressed by a(i_0,...,i_{r-1}) with 0<=i_k<d_k is element number sum_k i_k*prod_{m>k} d_m of data(); distinct in-range index tuples address distinct elements and every element of data() is addressed by some in-range tuple.", "quantifier": "every rank, every list of positive dimensions whose product fits in int, every in-range index tuple", "why_tests_cant": "Tests use 2x3x4 and a handful of shapes; the claim is about all ranks and extents.", "anchors": ["include/shiva/common/CArray.hpp: CArray::operator()", "include/shiva/common/CArrayHelper.hpp: linearIndexHelper, strideHelper"]}
{"id": "C02", "title": "A CArray behaves as a map from index tuples to values under any history of writes", "statement": "After any sequence of element assignments a(idx)=v (through operator() or operator[] chains), reading a(idx) returns the value of the last assignment to that idx, or the initial value if there was none; assigning one element never changes another.", "quantifier": "every shape, every initial contents, every finite sequence of in-range writes, every in-range read", "why_tests_cant": "The number of write histories is unbounded; tests fill arrays once in order.", "anchors": ["include/shiva/common/CArray.hpp: CArray::operator(), CArray::operator[]"]}
{"id": "C03", "title": "operator[] chains denote the same element as operator()", "statement": "a[i_0][i_1]...[i_{r-1}] refers to the same storage element as a(i_0,...,i_{r-1}); every intermediate a[i_0]..[i_k] is a view of dimensions d_{k+1}.. onto the original storage, so that writes through it are visible in the array and vice versa. An array has exactly as many brackets as dimensions: a further [] after a complete index tuple of an array of scalars does not compile.", "quantifier": "every rank >= 1, every shape, every in-range index tuple, every split of the tuple into slice prefix and remaining indices", "why_tests_cant": "Tests slice one 2-D array; deeper ranks and slices of slices are never exercised.", "anchors": ["include/shiva/common/CArray.hpp: CArray::operator[], CArray::squareBracketOperatorHelper"]}
{"id": "C04", "title": "With bounds checking enabled every out-of-range run-time access on the host aborts before memory is touched", "statement": "When SHIVA_ENABLE_BOUNDS_CHECK is defined and the access is evaluated at run time on the host (for devices see C59), a(idx) and a[i][j].. either address an element whose every index is in range, or abort; no out-of-range index (in any position) yields an element, an out-of-buffer access or integer overflow, and no in-range access aborts.", "quantifier": "every shape whose size fits in int, every tuple of int indices (in or out of range)", "why_tests_cant": "Out-of-range tuples are infinitely many and the interesting ones are those that land back inside the buffer.", "anchors": ["include/shiva/common/CArrayHelper.hpp: linearIndexHelper::level", "include/shiva/common/CArray.hpp: squareBracketOperatorHelper", "include/shiva/common/ShivaMacros.hpp: SHIVA_ASSERT_MSG", "include/shiva/common/ShivaErrorHandling.hpp: shivaAssertionFailed"]}
{"id": "C05", "title": "The compile-time accessor agrees with the run-time accessor and rejects exactly the out-of-range tuples", "statement": "a.operator()<i_0,...>() compiles exactly when the number of indices equals the rank and every index is in range, and then denotes the same element as a(i_0,...).", "quantifier": "every shape whose size fits in int, every tuple of int indices", "why_tests_cant": "Each instantiation is a separate compilation; tests static_assert only 24 of them.", "anchors": ["include/shiva/common/CArrayHelper.hpp: linearIndexHelper::level<INDEX,INDICES...>", "include/shiva/common/CArray.hpp: CArray::operator()<INDICES...>"]}
{"id": "C06", "title": "Index arithmetic never overflows int for arrays whose size fits in int", "statement": "If size() of a CArray fits in int, then for every in-range tuple no intermediate stride, product or partial sum computed by the element accessors overflows int.", "quantifier": "every rank, every list of positive dimensions with product <= INT_MAX, every in-range tuple", "why_tests_cant": "Overflow only shows at extents near 2^31 which no test allocates.", "anchors": ["include/shiva/common/CArrayHelper.hpp: strideHelper, stride, linearIndexHelper, size"]}
{"id": "C07", "title": "Bounds checking also rejects out-of-range indices during constant evaluation", "statement": "With bounds checking enabled, an out-of-range index tuple passed to operator() inside a constant expression is rejected. (The code violates this: the assertion is skipped during constant evaluation, so a tuple that is out of range in one dimension but lands inside the buffer is silently accepted.)", "quantifier": "every shape, every index tuple, constant-evaluated accesses", "why_tests_cant": "Tests never use an out-of-range index in a constant expression, and an exhaustive characterisation of which tuples are silently accepted needs a proof.", "anchors": ["include/shiva/common/ShivaMacros.hpp: SHIVA_ASSERT_MSG, SHIVA_IS_CONST_EVAL", "include/shiva/common/CArrayHelper.hpp: linearIndexHelper::level"]}
{"id": "C08", "title": "List initialisation fills in row-major order and zero-fills the rest", "statement": "CArrayNd<T,DIMS...>{v_0,...,v_{m-1}} compiles exactly when m <= size(); its element at row-major offset k is v_k for k<m and 0 otherwise (so {c} sets only the first element).", "quantifier": "every shape, every initialiser list length and values", "why_tests_cant": "Tests only use full-length lists and the single value 0.0, for which 'fill with c' and 'first element c' cannot be told apart.", "anchors": ["include/shiva/common/CArray.hpp: CArray::CArray(U...)"]}
{"id": "C09", "title": "rank, extent and size are consistent", "statement": "rank() is the number of dimensions, extent<k>() is the k-th dimension for 0<=k<rank() and does not compile otherwise, and size() is the product of all extents.", "quantifier": "every shape, every k", "why_tests_cant": "A statement over all shapes and all k including the ones that must not compile.", "anchors": ["include/shiva/common/CArray.hpp: rank, extent, size", "include/shiva/common/CArrayHelper.hpp: get, size"]}
{"id": "C10", "title": "forSequence calls the body once per index, ascending", "statement": "forSequence<END>(f) calls f with 0,1,...,END-1, each exactly once and in ascending order, for every stateful f; END=0 calls nothing and a negative END does not compile.", "quantifier": "every END, every body with arbitrary state", "why_tests_cant": "Tests sum commutative values, which cannot reveal order or duplication with omission.", "anchors": ["include/shiva/common/SequenceUtilities.hpp: forSequence, SequenceExpansion::staticFor"]}
{"id": "C11", "title": "forNestedSequence visits the whole index box exactly once in lexicographic order", "statement": "forNestedSequence<E_0,...,E_{r-1}>(f) calls f(i_0,...,i_{r-1}) exactly once for each tuple with 0<=i_k<E_k, and never for any other, in lexicographic order (last index fastest).", "quantifier": "every rank >= 1, all non-negative ends, every stateful body", "why_tests_cant": "Tests check order-insensitive sums for three fixed shapes.", "anchors": ["include/shiva/common/NestedSequenceUtilities.hpp: forNestedSequence, NestedSequenceExpansion::staticForNested"]}
{"id": "C12", "title": "forNestedSequence walks CArray storage contiguously", "statement": "The k-th call made by forNestedSequence<DIMS...> has exactly the index tuple whose element in a CArray of dimensions DIMS is storage element k.", "quantifier": "every shape, every step number k", "why_tests_cant": "Relates two independently written recursions for all shapes.", "anchors": ["include/shiva/common/NestedSequenceUtilities.hpp: forNestedSequence", "include/shiva/common/CArrayHelper.hpp: linearIndexHelper"]}
{"id": "C13", "title": "forRange visits the box [start,range) exactly once in lexicographic order", "statement": "forRange(index,f) with index initially holding start calls f exactly once for each tuple with start_k<=i_k<range_k, in lexicographic order, and for no other tuple; each call sees the index object holding that tuple. Starting from zero it makes the same calls in the same order as forNestedSequence over the same ranges.", "quantifier": "every number of dimensions >= 1, every ranges, every start tuple, every stateful body that does not modify the index", "why_tests_cant": "Tests only iterate 2x2x2 from zero.", "anchors": ["include/shiva/common/IndexTypes.hpp: forRange, detail::forRangeHelper", "include/shiva/common/MultiIndex.hpp: MultiIndexRange"]}
{"id": "C14", "title": "forRange leaves the index exhausted", "statement": "After forRange(index,f) that visited at least one tuple, the index object holds the ranges in every dimension, so a second forRange with the same object makes no calls.", "quantifier": "every number of dimensions, ranges and start tuple", "why_tests_cant": "A history property (second call on the same object) never exercised by tests.", "anchors": ["include/shiva/common/IndexTypes.hpp: forRange, detail::forRangeHelper"]}
{"id": "C15", "title": "linearIndex of a MultiIndexRange numbers the box one-to-one", "statement": "linearIndex maps the in-range multi-indices of MultiIndexRange<int,R_0,...> one-to-one onto 0..prod R-1, in the order forRange visits them. (The code violates this for ranges that are not a palindrome: strides are built from the leading instead of the trailing ranges.)", "quantifier": "every number of dimensions, every ranges, every in-range multi-index", "why_tests_cant": "Tests only use 2x2x2, where the wrong strides coincide with the right ones.", "anchors": ["include/shiva/common/IndexTypes.hpp: linearIndex, detail::linearIndexHelper, detail::stride, detail::strideHelper"]}
{"id": "C16", "title": "executeSequence passes the caller's arguments followed by 0..END-1", "statement": "executeSequence<END>(f,args...) makes exactly one call, f(args...,0,1,...,END-1), whenever f accepts that argument list. (The code probes f with the arguments in the opposite order, so a callable that accepts only (args...,indices...) is not called this way.)", "quantifier": "every END, every argument list, every callable signature", "why_tests_cant": "Ranges over all signatures; tests use fully generic lambdas only.", "anchors": ["include/shiva/common/SequenceUtilities.hpp: executeSequence, SequenceExpansion::execute"]}
{"id": "C17", "title": "pow, factorial and binomialCoefficient compute the mathematical function whenever they have a defined value", "statement": "pow<T,E>(b) = b^E, factorial<T,N>::value = N! and binomialCoefficient<T,N,K>::value = C(N,K) whenever evaluation does not overflow T; factorial compiles exactly when N! fits in T, binomialCoefficient exactly when 0<=K<=N and N! fits.", "quantifier": "every signed integer type at least as wide as int (C98 covers the others), every base, exponent, N and K; for pow also exact real arithmetic", "why_tests_cant": "Unbounded arguments; the overflow boundary depends on T.", "anchors": ["include/shiva/common/MathUtilities.hpp: pow, factorial, binomialCoefficient"]}
{"id": "C18", "title": "NCube face counts are the number of faces of an n-cube", "statement": "Whenever NCube::numMCubes<M>() has a defined value it equals the number of M-dimensional faces of the N-cube (sign patterns over {-,+,*}^N with M stars); numVertices, numEdges, numFaces, numCells and numHyperFaces are the M=0,1,2,3,N-1 counts (0 when M>N).", "quantifier": "every N and M", "why_tests_cant": "Tests tabulate N<=4.", "anchors": ["include/shiva/geometry/shapes/NCube.hpp: numMCubes, numVertices, numEdges, numFaces, numCells, numHyperFaces"]}
{"id": "C19", "title": "NSimplex face counts are the number of faces of an n-simplex", "statement": "Whenever NSimplex::numMSimplexes<M>() has a defined value it equals the number of (M+1)-subsets of the N+1 vertices; numVertices, numEdges, numFaces, numCells and numHyperFaces are the M=0,1,2,3,N-1 counts (0 when M>N).", "quantifier": "every N and M, negative ones included", "why_tests_cant": "Tests tabulate N<=4.", "anchors": ["include/shiva/geometry/shapes/NSimplex.hpp: numMSimplexes, numVertices, numEdges, numFaces, numCells, numHyperFaces"]}
{"id": "C20", "title": "Face counts are available whenever the count fits in int", "statement": "numMCubes<M>() and numMSimplexes<M>() have a defined value for every N, M whose true count fits in int. (The code violates this: intermediate products overflow, e.g. the 1024 vertices of the 10-cube and the 13 vertices of the 12-simplex.)", "quantifier": "every N and M", "why_tests_cant": "The failing region starts beyond every tabulated case; the exact boundary needs a proof over all N, M.", "anchors": ["include/shiva/geometry/shapes/NCube.hpp: numMCubes", "include/shiva/geometry/shapes/NSimplex.hpp: numMSimplexes", "include/shiva/common/MathUtilities.hpp: factorial, pow"]}
{"id": "C21", "title": "NCube coordinates, length and volume describe the same box", "statement": "For MIN<MAX, DIVISOR>0 and MAX-MIN representable in int, minCoord()<maxCoord(), length()=maxCoord()-minCoord()>0 and volume() is the N-dimensional Lebesgue measure of [minCoord(),maxCoord()]^N, where N is what numDims() reports. If MAX-MIN is not representable, length() and volume() are undefined although the class is accepted.", "quantifier": "every N>=1, MIN, MAX, DIVISOR accepted by the static assertions", "why_tests_cant": "Unbounded template arguments and a measure-theoretic meaning.", "anchors": ["include/shiva/geometry/shapes/NCube.hpp: numDims, minCoord, maxCoord, length, volume, volumeHelper"]}
{"id": "C22", "title": "NSimplex volume is the Lebesgue measure of the simplex", "statement": "For MIN<MAX, DIVISOR>0 and MAX-MIN representable in int, length()=maxCoord()-minCoord()>0 and volume() is the N-dimensional Lebesgue measure of {x : x_i>=minCoord(), sum_i (x_i-minCoord())<=length()}.", "quantifier": "every N>=1, MIN, MAX, DIVISOR accepted by the static assertions", "why_tests_cant": "Unbounded dimension and a measure-theoretic meaning.", "anchors": ["include/shiva/geometry/shapes/NSimplex.hpp: length, volume, volumeHelper"]}
{"id": "C23", "title": "EqualSpacing divides [-1,1] into equal intervals", "statement": "For N>=2 points, coordinate(0)=-1, coordinate(N-1)=1, consecutive coordinates differ by interval()=2/(N-1), coordinates are strictly increasing and symmetric about 0, the last point is the one with index numPoints-1, and the compile-time and run-time accessors agree for every index.", "quantifier": "every N>=2, every index", "why_tests_cant": "All N; tests use N<=5.", "anchors": ["include/shiva/functions/spacing/Spacing.hpp: EqualSpacing"]}
{"id": "C24", "title": "Gauss-Legendre and Gauss-Lobatto coordinates are ordered, symmetric and correctly placed", "statement": "For the supported point counts the coordinates are strictly increasing, symmetric about 0 and inside [-1,1]; Gauss-Lobatto includes both endpoints exactly and Gauss-Legendre none; the last point is the one with index numPoints-1.", "quantifier": "every supported number of points (Legendre 2..4, Lobatto 2..9), every index", "why_tests_cant": "Lobatto 6..9 have no tests at all; the statement covers the whole table.", "anchors": ["include/shiva/functions/spacing/Spacing.hpp: GaussLegendreSpacing, GaussLobattoSpacing"]}
{"id": "C25", "title": "Run-time and compile-time coordinates agree", "statement": "coordinate(i) and coordinate<i>() return the same value for every spacing, supported number of points and in-range i. (The code violates this for GaussLobattoSpacing with 6..9 points, where the run-time accessor returns 0 for every index.)", "quantifier": "every spacing, number of points and in-range index", "why_tests_cant": "Tests compare each accessor separately to references and never call the run-time accessor with N>5.", "anchors": ["include/shiva/functions/spacing/Spacing.hpp: EqualSpacing::coordinate, GaussLegendreSpacing::coordinate, GaussLobattoSpacing::coordinate"]}
{"id": "C26", "title": "Gauss coordinates approximate the true nodes", "statement": "Each Gauss-Legendre coordinate of an N-point rule is within 1e-36 of a root of the Legendre polynomial P_N, and each interior Gauss-Lobatto coordinate is within a stated bound (1e-36 for N<=5, 2e-14 for N=6..9) of a root of P'_{N-1}; distinct indices belong to distinct roots, so together they are all the roots.", "quantifier": "every supported number of points, every index", "why_tests_cant": "The true nodes are irrational; a test can only compare decimals to decimals.", "anchors": ["include/shiva/functions/spacing/Spacing.hpp: GaussLegendreSpacing::coordinate, GaussLobattoSpacing::coordinate"]}
{"id": "C27", "title": "Run-time and compile-time weights agree", "statement": "weight(i) and weight<i>() denote the same weight (as exact decimals, within 1e-33) for every number of points for which weight(i) compiles and every in-range i.", "quantifier": "every rule and number of points where both exist (Legendre 2..4, Lobatto 2..5), every in-range index", "why_tests_cant": "Bit-trick formula versus table: agreement must hold for every index of every rule.", "anchors": ["include/shiva/functions/quadrature/Quadrature.hpp: QuadratureGaussLegendre::weight, QuadratureGaussLobatto::weight"]}
{"id": "C28", "title": "Quadrature weights are positive, symmetric and sum to the length of [-1,1]", "statement": "For every supported rule all weights are positive, weight(i)=weight(N-1-i) and the weights sum to 2 within 2e-14. (Exact symmetry is violated by the 8-point Lobatto table in the 14th decimal.)", "quantifier": "every rule, every supported number of points, every index", "why_tests_cant": "Lobatto 6..9 are untested; the claim is about the exact table.", "anchors": ["include/shiva/functions/quadrature/Quadrature.hpp: weight"]}
{"id": "C29", "title": "Gauss-Legendre quadrature integrates every polynomial of degree <= 2N-1", "statement": "For the N-point Gauss-Legendre rule, |sum_i weight<i>()*p(coordinate<i>()) - integral_{-1}^{1} p| <= eps*sum_k |p_k| for every polynomial p of degree <= 2N-1, with an explicit eps (<= 1e-33) from the decimal literals.", "quantifier": "every supported N, every real polynomial of degree <= 2N-1", "why_tests_cant": "Infinitely many polynomials.", "anchors": ["include/shiva/functions/quadrature/Quadrature.hpp: QuadratureGaussLegendre", "include/shiva/functions/spacing/Spacing.hpp: GaussLegendreSpacing"]}
{"id": "C30", "title": "Gauss-Lobatto quadrature integrates every polynomial of degree <= 2N-3", "statement": "For the N-point Gauss-Lobatto rule, |sum_i weight<i>()*p(coordinate<i>()) - integral_{-1}^{1} p| <= eps*sum_k |p_k| for every polynomial p of degree <= 2N-3, with explicit eps (<= 2e-33 for N<=5, <= 2e-14 for N=6..9).", "quantifier": "every supported N (2..9), every real polynomial of degree <= 2N-3", "why_tests_cant": "Infinitely many polynomials; N=6..9 have no tests.", "anchors": ["include/shiva/functions/quadrature/Quadrature.hpp: QuadratureGaussLobatto", "include/shiva/functions/spacing/Spacing.hpp: GaussLobattoSpacing"]}
{"id": "C31", "title": "Unsupported point counts are rejected", "statement": "A quadrature rule or Gauss spacing with an unsupported number of points does not compile. (Weights obey this; Gauss coordinates do not: for an unsupported N every coordinate is silently 0.)", "quantifier": "every number of points, every index", "why_tests_cant": "All N outside the table.", "anchors": ["include/shiva/functions/quadrature/Quadrature.hpp: weight static_assert", "include/shiva/functions/spacing/Spacing.hpp: GaussLegendreSpacing::coordinate, GaussLobattoSpacing::coordinate"]}
{"id": "C32", "title": "Lagrange basis functions are nodal (Kronecker delta)", "statement": "value<j>(x_i)=1 if i=j and 0 otherwise, where x_i are the support points of the basis.", "quantifier": "every supported spacing and order, and every user supplied spacing with distinct coordinates; all i, j", "why_tests_cant": "All orders (EqualSpacing has unbounded order) and arbitrary user spacings.", "anchors": ["include/shiva/functions/bases/LagrangeBasis.hpp: LagrangeBasis::value"]}
{"id": "C33", "title": "Lagrange basis functions form a partition of unity with zero total gradient", "statement": "sum_j value<j>(x)=1 and sum_j gradient<j>(x)=0 at every x.", "quantifier": "every supported spacing and order, every real x", "why_tests_cant": "All real x and all orders.", "anchors": ["include/shiva/functions/bases/LagrangeBasis.hpp: value, gradient"]}
{"id": "C34", "title": "gradient is the derivative of value", "statement": "gradient<j>(x) is the derivative at x of the function t -> value<j>(t).", "quantifier": "every supported spacing and order, every j, every real x", "why_tests_cant": "A derivative is a limit; tests compare decimals at one point.", "anchors": ["include/shiva/functions/bases/LagrangeBasis.hpp: value, gradient"]}
{"id": "C35", "title": "Lagrange interpolation reproduces polynomials of degree <= order, in value and gradient", "statement": "For every polynomial p of degree <= ORDER: sum_j p(x_j)*value<j>(x)=p(x) and sum_j p(x_j)*gradient<j>(x)=p'(x); value<j> is itself a polynomial of degree <= ORDER and is the only such with the nodal property.", "quantifier": "every supported spacing and order, every polynomial of degree <= ORDER, every real x", "why_tests_cant": "All polynomials and all points.", "anchors": ["include/shiva/functions/bases/LagrangeBasis.hpp: value, gradient"]}
{"id": "C36", "title": "A Lagrange basis compiles exactly for the supported orders", "statement": "value<j>/gradient<j> of LagrangeBasis compile and return a finite value for every order with EqualSpacing, for order <= 8 with GaussLobattoSpacing and order <= 3 with GaussLegendreSpacing (order 0 included); for larger orders they are rejected by the compiler rather than returning garbage.", "quantifier": "every spacing, every order, every basis function index from 0 to the order (C99 covers the others), every x", "why_tests_cant": "All orders, including the rejected ones.", "anchors": ["include/shiva/functions/bases/LagrangeBasis.hpp: valueProductTerm, gradientOfValueTerm", "include/shiva/functions/spacing/Spacing.hpp: coordinate"]}
{"id": "C37", "title": "Lagrange basis is mirror symmetric", "statement": "value<j>(-x)=value<ORDER-j>(x) and gradient<j>(-x)=-gradient<ORDER-j>(x).", "quantifier": "every supported spacing and order, every j, every real x", "why_tests_cant": "All x.", "anchors": ["include/shiva/functions/bases/LagrangeBasis.hpp: value, gradient", "include/shiva/functions/spacing/Spacing.hpp"]}
{"id": "C38", "title": "Tensor-product basis is nodal and a partition of unity", "statement": "BasisProduct/InterpolatedShape/ParentElement value<i_0..>(xi)= prod_k phi_{i_k}(xi_k); at the support point (x_{j_0},..) it is 1 if all i_k=j_k and 0 otherwise; summed over all index tuples it is 1 at every xi and the gradients sum to 0.", "quantifier": "every number of dimensions, every choice of supported basis per dimension, every index tuple, every real xi", "why_tests_cant": "All dimensions, mixed orders and points.", "anchors": ["include/shiva/functions/bases/BasisProduct.hpp: value, gradient, supportLoop", "include/shiva/geometry/shapes/InterpolatedShape.hpp: value", "include/shiva/discretizations/finiteElementMethod/parentElements/ParentElement.hpp: value"]}
{"id": "C39", "title": "Tensor-product gradient is the gradient of the value", "statement": "gradient<i_0..>(xi) is the vector of partial derivatives (the total derivative) of value<i_0..> at xi, component k belonging to direction k.", "quantifier": "every number of dimensions, every choice of supported basis per dimension, every index tuple, every real xi", "why_tests_cant": "A derivative statement in all dimensions.", "anchors": ["include/shiva/functions/bases/BasisProduct.hpp: gradient, gradientComponentHelper", "include/shiva/geometry/shapes/InterpolatedShape.hpp: gradient"]}
{"id": "C40", "title": "Interpolation reproduces nodal values", "statement": "ParentElement::value(xi,var) evaluated at the support point with indices (j_0,..) is var(j_0,..).", "quantifier": "every element (dimension, bases), every variable, every support point", "why_tests_cant": "All variables and elements.", "anchors": ["include/shiva/discretizations/finiteElementMethod/parentElements/ParentElement.hpp: value(CoordType,VAR_TYPE)"]}
{"id": "C41", "title": "Interpolation is linear in the variable and preserves constants", "statement": "value(xi, a*u+b*v)=a*value(xi,u)+b*value(xi,v), likewise gradient; for var constant c, value=c and gradient=0.", "quantifier": "every element, all variables u,v, scalars a,b, every xi", "why_tests_cant": "All variables.", "anchors": ["include/shiva/discretizations/finiteElementMethod/parentElements/ParentElement.hpp: value, gradient"]}
{"id": "C42", "title": "The gradient of an interpolated variable is the derivative of its interpolation", "statement": "ParentElement::gradient(xi,var) is the total derivative at xi of xi -> ParentElement::value(xi,var).", "quantifier": "every element, every variable, every real xi", "why_tests_cant": "A derivative statement.", "anchors": ["include/shiva/discretizations/finiteElementMethod/parentElements/ParentElement.hpp: value, gradient"]}
{"id": "C43", "title": "Interpolation reproduces tensor-product polynomials", "statement": "If var holds the nodal values of a multivariate polynomial P of degree <= ORDER_k in direction k then value(xi,var)=P(xi) and gradient(xi,var)=grad P(xi).", "quantifier": "every element, every such polynomial, every real xi", "why_tests_cant": "All polynomials.", "anchors": ["include/shiva/discretizations/finiteElementMethod/parentElements/ParentElement.hpp: value, gradient"]}
{"id": "C44", "title": "inverse computes the matrix inverse and determinant", "statement": "inverse(M,det) leaves det = det(M) and, when det(M)!=0, M replaced by its two-sided inverse; when det(M)=0 no finite inverse is produced but det is still det(M).", "quantifier": "every real 3x3 matrix", "why_tests_cant": "All matrices.", "anchors": ["include/shiva/common/MathUtilities.hpp: inverse"]}
{"id": "C45", "title": "Both inverse overloads agree", "statement": "inverse on a built-in T[3][3] and on a CArray<T,3,3> (or any view of it) compute the same matrix and determinant, and the CArray overload touches only the nine elements of its argument.", "quantifier": "every real 3x3 matrix, every bounds-check configuration", "why_tests_cant": "All matrices and memory contents around the view.", "anchors": ["include/shiva/common/MathUtilities.hpp: inverse (both overloads)", "include/shiva/common/CArray.hpp: operator()"]}
{"id": "C46", "title": "Scaling Jacobian, inverse and determinant are consistent", "statement": "For lengths h, jacobian is the diagonal derivative h_k/2 of the map xi -> h*xi/2, inverseJacobian returns its entrywise inverse when all h_k!=0, detJ is the determinant of that diagonal matrix for all h, and getData returns what was last set through setData(h) or the setData() reference (initially 1).", "quantifier": "every h, every history of setData calls", "why_tests_cant": "All h and histories.", "anchors": ["include/shiva/geometry/mapping/Scaling.hpp: setData, getData, jacobian, inverseJacobian", "include/shiva/geometry/mapping/JacobianTransforms.hpp: jacobian, inverseJacobian"]}
{"id": "C47", "title": "UniformScaling Jacobian, inverse and determinant are consistent", "statement": "For length h, jacobian is h/2, inverseJacobian is its inverse when h!=0 and detJ=det((h/2)*I_3); UniformScaling(h) agrees with Scaling(h,h,h); getData returns what was last set.", "quantifier": "every h, every history of setData calls", "why_tests_cant": "All h and histories.", "anchors": ["include/shiva/geometry/mapping/UniformScaling.hpp: setData, getData, jacobian, inverseJacobian"]}
{"id": "C48", "title": "setData stores vertex a+2b+4c at support point (a,b,c)", "statement": "For a LinearTransform over bases with two support points per direction, after setData(X) getData()(a,b,c,i)=X[a+2b+4c][i] for all a,b,c in {0,1}, i in 0..2; every vertex is stored exactly once and nothing else is written.", "quantifier": "every vertex coordinate array", "why_tests_cant": "All coordinates; requires the loop to visit each support point exactly once.", "anchors": ["include/shiva/geometry/mapping/LinearTransform.hpp: setData, getData", "include/shiva/common/IndexTypes.hpp: forRange"]}
{"id": "C49", "title": "jacobian is the derivative of the isoparametric map", "statement": "jacobian(transform,xi,J), starting from J=0, yields J(i,j)=d x_i/d xi_j at xi of the map x(xi)=sum_a N_a(xi) X_a, for every interpolated shape.", "quantifier": "every 3-D (and general n-D) interpolated shape over supported bases, every nodal coordinates, every real xi", "why_tests_cant": "A derivative statement over all cells and points.", "anchors": ["include/shiva/geometry/mapping/LinearTransform.hpp: jacobian", "include/shiva/geometry/mapping/JacobianTransforms.hpp: jacobian"]}
{"id": "C50", "title": "The quadrature-point overload of jacobian agrees with the coordinate overload", "statement": "jacobian<QUADRATURE,QA...>(transform,J) computes the same J as jacobian(transform,xi,J) with xi_k=QUADRATURE::coordinate<QA_k>().", "quantifier": "every transform, quadrature rule and quadrature indices, every initial J", "why_tests_cant": "All cells.", "anchors": ["include/shiva/geometry/mapping/LinearTransform.hpp: jacobian (both overloads)"]}
{"id": "C51", "title": "jacobian and inverseJacobian determine their output arguments", "statement": "The value left in the [out] parameter J (invJ, detJ) depends only on the transform and the point. (The code violates this for LinearTransform: jacobian accumulates into J, so a caller-supplied non-zero J is added to the result; the value-returning wrappers pass J=0 and obey it.)", "quantifier": "every transform, point and initial contents of the output argument", "why_tests_cant": "Tests always zero-initialise the output.", "anchors": ["include/shiva/geometry/mapping/LinearTransform.hpp: jacobian, inverseJacobian", "include/shiva/geometry/mapping/JacobianTransforms.hpp"]}
{"id": "C52", "title": "inverseJacobian inverts the Jacobian", "statement": "inverseJacobian(transform,xi) returns (detJ,invJ) with detJ=det J(xi) and, when detJ!=0, invJ*J=J*invJ=I, where J=jacobian(transform,xi).", "quantifier": "every trilinear (and higher-order 3-D) cell, every real xi", "why_tests_cant": "All cells and points.", "anchors": ["include/shiva/geometry/mapping/LinearTransform.hpp: inverseJacobian", "include/shiva/geometry/mapping/JacobianTransforms.hpp: inverseJacobian", "include/shiva/common/MathUtilities.hpp: inverse"]}
{"id": "C53", "title": "Affine cells have a constant Jacobian equal to the affine matrix", "statement": "If the vertex coordinates are the image of the parent cube vertices under x=A xi+b, jacobian=A, detJ=det A and (for det A != 0) invJ=A^{-1} at every xi.", "quantifier": "every 3x3 A, every b, every real xi, every supported basis order", "why_tests_cant": "All affine maps.", "anchors": ["include/shiva/geometry/mapping/LinearTransform.hpp: setData, jacobian, inverseJacobian"]}
{"id": "C54", "title": "Scaling, UniformScaling and LinearTransform agree on boxes", "statement": "On an axis-aligned box with side lengths h the LinearTransform Jacobian is the diagonal matrix with Scaling's jacobian on its diagonal, its detJ and invJ agree with Scaling's, and for equal sides with UniformScaling's.", "quantifier": "every h and box origin, every real xi", "why_tests_cant": "All boxes.", "anchors": ["include/shiva/geometry/mapping/Scaling.hpp: jacobian", "include/shiva/geometry/mapping/UniformScaling.hpp: jacobian", "include/shiva/geometry/mapping/LinearTransform.hpp: jacobian, inverseJacobian"]}
{"id": "C55", "title": "inverseJacobian of a 2-D transform stays within its matrix", "statement": "For a 2-D LinearTransform inverseJacobian reads and writes only the 2x2 matrix. (The code violates this: the 3x3 inverse is applied to a 2x2 CArray and accesses element (2,2) outside the buffer; with bounds checking it aborts.)", "quantifier": "every 2-D transform, every contents", "why_tests_cant": "No test instantiates a 2-D transform; undefined behaviour is not observable reliably.", "anchors": ["include/shiva/geometry/mapping/LinearTransform.hpp: inverseJacobian", "include/shiva/common/MathUtilities.hpp: inverse (CArray overload)"]}
{"id": "C56", "title": "setData is meaningful for higher-order shapes", "statement": "For a LinearTransform over bases with more than two support points in some direction, setData assigns distinct input rows to distinct support points. (The code violates this: the row a+2b+4c is hard-wired for two points per direction.)", "quantifier": "every number of support points per direction", "why_tests_cant": "Tests use order 1 only.", "anchors": ["include/shiva/geometry/mapping/LinearTransform.hpp: setData"]}
{"id": "C57", "title": "pmpl::check is a strict tolerance comparison", "statement": "check(a,b,tol) is true exactly when |a-b|<|tol|; in particular it is symmetric, false for tol=0 and insensitive to the sign of tol.", "quantifier": "all real a,b,tol", "why_tests_cant": "All inputs.", "anchors": ["include/shiva/common/pmpl.hpp: check"]}
{"id": "C58", "title": "genericKernelWrapper has the same effect on host and device builds", "statement": "For a kernel touching only its N data elements, the host data after genericKernelWrapper is what running the kernel directly on it would leave, in every build, provided device calls succeed; device memory allocated is freed on every path that returns or aborts; on a device, abort happens exactly when the kernel fails and abortOnError is set. (The HIP build violates the first part: the overload with data names a CUDA constant and does not compile. A kernel that is never started is not noticed.)", "quantifier": "every kernel, data, N, and device outcome", "why_tests_cant": "Device failures cannot be provoked in unit tests; builds differ.", "anchors": ["include/shiva/common/pmpl.hpp: genericKernelWrapper, genericKernel"]}
{"id": "C59", "title": "Assertions terminate exactly when violated at run time", "statement": "SHIVA_ASSERT_MSG(cond,...) has no effect when cond holds or during constant evaluation, and otherwise terminates the program; shivaAssertionFailed returns only on the host with callAbort=false; the number of format conversions equals the number of arguments formatted for every built-in check. (The device branch violates the last part: it formats with no arguments.)", "quantifier": "every condition, evaluation context and configuration", "why_tests_cant": "Terminating paths and device paths are not observable in unit tests.", "anchors": ["include/shiva/common/ShivaMacros.hpp: SHIVA_ASSERT_MSG", "include/shiva/common/ShivaErrorHandling.hpp: shivaAssertionFailed"]}
{"id": "C60", "title": "Lagrange values are computed with small relative rounding error", "statement": "In floating-point arithmetic with unit roundoff u (no overflow/underflow) the computed value<j>(x) at representable nodes differs from the exact Lagrange value by a relative error bounded by an explicit function of u and the order, uniformly in x.", "quantifier": "every order, every set of distinct representable nodes, every representable x, every rounding function with relative error <= u", "why_tests_cant": "All floating point inputs.", "anchors": ["include/shiva/functions/bases/LagrangeBasis.hpp: value, valueProductTerm"]}
{"id": "C61", "title": "Interpolation is computed with small rounding error", "statement": "In floating-point arithmetic with unit roundoff u the computed ParentElement::value(xi,var) differs from the exact interpolation by at most an explicit factor of u times sum_a |N_a(xi)||var_a|.", "quantifier": "every element, variable, point and rounding function with relative error <= u", "why_tests_cant": "All floating point inputs.", "anchors": ["include/shiva/discretizations/finiteElementMethod/parentElements/ParentElement.hpp: value", "include/shiva/functions/bases/BasisProduct.hpp: value"]}
{"id": "C62", "title": "Gradients are computed with small rounding error", "statement": "In floating-point arithmetic with unit roundoff u the computed Lagrange gradient<j>(x), and each component of ParentElement::gradient(xi,var), differ from the exact derivative by at most an explicit factor of u times the sum of the absolute values of the terms of that derivative.", "quantifier": "every order, set of distinct nodes, element, variable, point and rounding function with relative error <= u", "why_tests_cant": "All floating point inputs.", "anchors": ["include/shiva/functions/bases/LagrangeBasis.hpp: gradient", "include/shiva/discretizations/finiteElementMethod/parentElements/ParentElement.hpp: gradient", "include/shiva/functions/bases/BasisProduct.hpp: gradient"]}
{"id": "C63", "title": "Shipped nodes survive floating point", "statement": "In floating-point arithmetic with unit roundoff u and 1000*ORDER*u <= 1 (no overflow/underflow), every coordinate<i>() of EqualSpacing, GaussLegendreSpacing and GaussLobattoSpacing is within 3*((1+u)^7-1) of its exact value and the coordinates are strictly increasing, so no Lagrange denominator is zero.", "quantifier": "every rounding function with relative error u, every shipped spacing, every supported order >= 1, every index", "why_tests_cant": "All rounding functions (types, rounding modes) and all orders of equal spacing.", "anchors": ["include/shiva/functions/spacing/Spacing.hpp: EqualSpacing, GaussLegendreSpacing, GaussLobattoSpacing"]}
{"id": "C64", "title": "Quadrature rules stay exact up to rounding in floating point", "statement": "In floating-point arithmetic with unit roundoff u <= 1/1000, the computed weights are positive and sum_i weight<i>()*p(coordinate<i>()) (summed exactly) is within (eps + 1700*u)*sum_k |p_k| of the integral of p over [-1,1], for every polynomial p of degree <= 2N-1 (Legendre) or 2N-3 (Lobatto), eps as in C29 and C30.", "quantifier": "every rounding function with relative error u <= 1/1000, every supported rule and N, every polynomial of the stated degree", "why_tests_cant": "All polynomials and rounding functions.", "anchors": ["include/shiva/functions/quadrature/Quadrature.hpp: QuadratureGaussLegendre, QuadratureGaussLobatto"]}
{"id": "C65", "title": "Products of quadrature rules integrate polynomials over the parent cube", "statement": "With a supported quadrature rule in each of d directions (families and point counts may differ), sum over all point tuples of prod_k weight<i_k>() * P(coordinate<i_0>(),..,coordinate<i_{d-1}>()) equals the integral of P over [-1,1]^d for every polynomial P whose degree in variable k is at most 2N_k-1 (Legendre) or 2N_k-3 (Lobatto), up to ((2+eps)^d - 2^d)*sum|coefficients|, eps being the accuracy of the decimals (1e-33, 2e-33 or 2e-14), increased by 1700*u when coordinates and weights are computed in floating point with unit roundoff u.", "quantifier": "every dimension, every choice of supported rules, every polynomial within the degrees, every rounding function", "why_tests_cant": "Infinitely many polynomials, dimensions and rule combinations.", "anchors": ["include/shiva/functions/quadrature/Quadrature.hpp: QuadratureGaussLegendre, QuadratureGaussLobatto", "include/shiva/functions/spacing/Spacing.hpp"]}
{"id": "C66", "title": "Quadrature of detJ is the volume of the cell", "statement": "For a 3-D Lagrange cell of any orders and nodal coordinates, detJ from inverseJacobian is a polynomial in the parent coordinates, and summing prod of weights * detJ over the quadrature points gives the integral of detJ over the parent cube whenever the rule in direction k is exact to degree 3*order_k-1. If the isoparametric map is one-to-one on the parent cube and detJ is nowhere negative there, that integral is the Lebesgue measure of the cell. For trilinear cells set by setData with components bounded by B the error is at most ((2+eps)^3-8)*3072*B^3.", "quantifier": "every Lagrange cell, nodal coordinates, admissible combination of rules", "why_tests_cant": "A continuum of cells; tests compare a handful of Jacobians with tabulated numbers.", "anchors": ["include/shiva/geometry/mapping/LinearTransform.hpp: setData, jacobian, inverseJacobian", "include/shiva/geometry/mapping/JacobianTransforms.hpp: inverseJacobian", "include/shiva/functions/quadrature/Quadrature.hpp"]}
{"id": "C67", "title": "Elements of integer packs", "statement": "IntPackPeeler<I,PACK...>::value() is the element of the pack at position I counted from zero, and does not compile for a negative I or an I not below the length of the pack. Peeling the first element off a pack leaves the others in order.", "quantifier": "every pack of every length, every position", "why_tests_cant": "Unboundedly many packs and positions, and tests cannot check that something does not compile.", "anchors": ["include/shiva/common/SequenceUtilities.hpp: IntPackPeeler", "include/shiva/common/CArrayHelper.hpp: IntPeeler, get"]}
{"id": "C68", "title": "How forSequence calls its body and what it returns", "statement": "forSequence<END>(f) passes each index as a function argument if f accepts index 0 so, else as a template argument, in ascending order. It returns the value of the last call, and nothing for END 0. If f does not accept some index in the chosen form, or END is negative, the program does not compile.", "quantifier": "every END, every callable, state and result", "why_tests_cant": "All callables and loop lengths; ill-formed programs cannot be run.", "anchors": ["include/shiva/common/SequenceUtilities.hpp: staticFor, forSequence"]}
{"id": "C69", "title": "Indices of any integer type", "statement": "An element access with in-range indices denotes the same element whatever the integer types of the indices are, and with bounds checking enabled an access with an out-of-range index of any integer type terminates the program. (The code violates this for operator[]: the index is converted to int before it is checked.)", "quantifier": "every shape, every combination of integer types, every index values", "why_tests_cant": "Tests index with int only; 64-bit values cannot be enumerated.", "anchors": ["include/shiva/common/CArray.hpp: operator(), operator[]", "include/shiva/common/CArrayHelper.hpp: linearIndexHelper::level"]}
{"id": "C70", "title": "Const arrays cannot be modified through their accessors", "statement": "No sequence of element accesses, slices, const bindings, copies of slices and data() that starts at a const CArrayNd, or at an array or view of const elements, yields an assignable element. A const view of non-const elements yields none through operator() and operator[]. Elements of non-const arrays and views are assignable through both operators.", "quantifier": "every rank and every sequence of accesses", "why_tests_cant": "Tests cannot show that an assignment does not compile, and access paths are unbounded.", "anchors": ["include/shiva/common/CArray.hpp: operator(), operator[], data, SubArrayHelper"]}
{"id": "C71", "title": "A view refers to the built-in array it was made from, of the right length", "statement": "Constructing a CArrayViewNd<T,DIMS...> from a built-in array compiles only if the array has exactly prod(DIMS) elements and no const is dropped, and element idx of the view is then element number rowMajor(idx) of the array. (The code violates the length requirement: an array of another length decays to a pointer and is accepted.)", "quantifier": "every shape, every array length and contents, every index", "why_tests_cant": "Tests use matching lengths; whether a mismatch is rejected is a property of programs that should not compile.", "anchors": ["include/shiva/common/CArray.hpp: CArray constructors, CArrayViewNd"]}
{"id": "C72", "title": "Every array alias gives access to its elements", "statement": "For Scalar, ScalarView, CArrayNd and CArrayViewNd of any element type and rank, operator() and repeated operator[] compile and yield an element. (The code violates this for ScalarView, whose buffer is not indexable.)", "quantifier": "every alias, constness and rank", "why_tests_cant": "Tests never instantiate ScalarView; ranks are unbounded.", "anchors": ["include/shiva/common/CArray.hpp: Scalar, ScalarView, CArrayNd, CArrayViewNd"]}
{"id": "C73", "title": "The 3x3 inverse is computed with small rounding error", "statement": "In floating point with unit roundoff u and no overflow or underflow, inverse leaves a determinant whose error is at most ((1+u)^5-1) times the sum of the absolute values of the determinant's terms. Its sign is right when the true determinant exceeds that bound. When the true determinant is at least twice the bound, the matrix left behind approximates the true inverse with an explicit bound. Both overloads satisfy this; if the computed determinant is zero nothing finite is left.", "quantifier": "every rounding function with relative error u <= 1/2, every 3x3 matrix, both overloads", "why_tests_cant": "Tests compare a few matrices with a tolerance; a bound for every matrix, including nearly singular ones, is a statement about all of them.", "anchors": ["include/shiva/common/MathUtilities.hpp: inverse"]}
{"id": "C74", "title": "The Jacobian of a cell is computed with small rounding error", "statement": "In floating point, each entry of the matrix returned by jacobian(t, xi) differs from the exact derivative of the cell map (through the computed nodes) by at most an explicit number of roundings times the sum of the absolute values of the terms that make it up.", "quantifier": "every rounding function, every dimension up to 3, every order, every set of vertex positions, every point", "why_tests_cant": "The accumulated error depends on order, dimension and data; tests use a handful of cells and a tolerance.", "anchors": ["include/shiva/geometry/mapping/LinearTransform.hpp: jacobian", "include/shiva/geometry/mapping/JacobianTransforms.hpp"]}
{"id": "C75", "title": "inverseJacobian of a cell is computed with small rounding error", "statement": "In floating point, the determinant returned by inverseJacobian differs from the determinant of the derivative of the cell map by at most an explicit bound, has the right sign when the true determinant exceeds that bound, and when it is at least twice as large the returned matrix approximates the inverse of the derivative with an explicit bound.", "quantifier": "every rounding function, every order, every set of vertex positions, every point (3-D)", "why_tests_cant": "An inverted or degenerate cell is detected by the sign of the determinant; whether rounding can flip the sign is a question about every cell.", "anchors": ["include/shiva/geometry/mapping/LinearTransform.hpp: inverseJacobian, jacobian", "include/shiva/common/MathUtilities.hpp: inverse"]}
{"id": "C76", "title": "Interpolation is continuous across shared faces", "statement": "If every node of a direction's end is a node of the basis (equal spacing and Gauss-Lobatto), the interpolated value and its tangential derivatives on a face depend only on the nodal values of that face. So two cells that carry the same nodal values on a shared face interpolate the same function there, whatever the orientation of the two cells and whichever faces are matched. For Gauss-Legendre nodes this is false.", "quantifier": "every dimension, every order, every face, every nodal field, every way of matching the faces", "why_tests_cant": "Continuity of the discrete field is a statement about all fields and all points of a face; tests sample points inside one cell.", "anchors": ["include/shiva/discretizations/finiteElementMethod/parentElements/ParentElement.hpp: value, gradient", "include/shiva/functions/spacing/Spacing.hpp"]}
{"id": "C77", "title": "Interpolation respects the symmetries of the cube", "statement": "Reflecting and permuting the axes of the cube, and moving the nodal values along with it, moves the interpolated field along with it: the value at the moved point is the old value.", "quantifier": "every dimension, every order, every node set symmetric about 0, every signed axis permutation, every field and point", "why_tests_cant": "A wrong axis order or reflected node order is invisible at symmetric sample points and for the symmetric fields used in tests.", "anchors": ["include/shiva/discretizations/finiteElementMethod/parentElements/ParentElement.hpp: value", "include/shiva/functions/bases/BasisProduct.hpp: value"]}
{"id": "C78", "title": "Order-one interpolation stays within the nodal values", "statement": "With order-one bases the interpolated value at any point of the cube lies between the least and greatest nodal value, so a linear cell stays inside the convex hull of its vertices. For order two this is false.", "quantifier": "every dimension, every nodal field, every point of the cube", "why_tests_cant": "Bounds must hold at every point of the cube and for every nodal field.", "anchors": ["include/shiva/discretizations/finiteElementMethod/parentElements/ParentElement.hpp: value", "include/shiva/functions/bases/LagrangeBasis.hpp"]}
{"id": "C79", "title": "Affine changes of a cell multiply its Jacobian", "statement": "Moving all nodes of a cell by x -> A x + b multiplies the matrix returned by jacobian by A at every point, and the determinant returned by inverseJacobian by det A. Translations and rotations do not change the determinant, a reflection changes its sign, scaling by s multiplies it by s^3.", "quantifier": "every order, every set of vertex positions, every matrix A and vector b, every point", "why_tests_cant": "Frame invariance is a relation between infinitely many pairs of cells.", "anchors": ["include/shiva/geometry/mapping/LinearTransform.hpp: jacobian, inverseJacobian", "include/shiva/common/MathUtilities.hpp: inverse"]}
{"id": "C80", "title": "Quadrature over a cell integrates polynomials over the physical cell", "statement": "For a polynomial f in the physical coordinates of total degree D, and rules exact to degree D*order + 3*order - 1 in each direction, the sum of the weights times f at the mapped quadrature points times the determinant returned by inverseJacobian is the integral of f over the physical cell, up to the accuracy of the stored decimals.", "quantifier": "every 3-D Lagrange cell with a one-to-one map and non-negative determinant, every polynomial, every family of rules of enough points", "why_tests_cant": "It combines shape functions, Jacobians and quadrature tables for all cells and all polynomials; tests sum a few integrands on one cell.", "anchors": ["include/shiva/geometry/mapping/LinearTransform.hpp: inverseJacobian", "include/shiva/discretizations/finiteElementMethod/parentElements/ParentElement.hpp: value", "include/shiva/functions/quadrature/Quadrature.hpp"]}
{"id": "C81", "title": "Results in IEEE 754 arithmetic are accurate unless an exception is raised", "statement": "In IEEE 754 arithmetic, with infinities, NaN, overflow and gradual underflow, the values and gradients of bases and shape functions, interpolation, the 3x3 inverse, Jacobians and inverse Jacobians either raise an exception other than inexact or are finite numbers within the rounding error bounds of C60-C62 and C73-C75. No result is silently wrong. Every operation is done in one format; C88 shows that the double literals in the float instantiation make no difference.", "quantifier": "every binary format, every order and nodes represented in it, every finite input", "why_tests_cant": "Overflow and underflow occur at a few inputs out of 2^64; tests compare ordinary numbers.", "anchors": ["include/shiva/functions/bases/LagrangeBasis.hpp: value, gradient", "include/shiva/common/MathUtilities.hpp: inverse", "include/shiva/geometry/mapping/LinearTransform.hpp: jacobian, inverseJacobian"]}
{"id": "C82", "title": "The shipped points and weights are computed without exceptions", "statement": "In double, and in float if every operation is done in float (C87 and C88 treat the float instantiation as C++ evaluates it), the coordinates of all shipped spacings and the weights of all shipped rules are computed without overflow, underflow, division by zero or invalid operations. Coordinates strictly increase, weights are positive, and the rules integrate polynomials with the error of C64. So every element made of shipped bases meets the assumptions of C81.", "quantifier": "every family and supported number of points, both formats", "why_tests_cant": "It is a claim about status flags and about all polynomials.", "anchors": ["include/shiva/functions/spacing/Spacing.hpp", "include/shiva/functions/quadrature/Quadrature.hpp"]}
{"id": "C83", "title": "The 3x3 inverse raises no exceptions for entries of moderate size", "statement": "If every entry of a 3x3 matrix is zero or of magnitude between 2^-173 and 2^173 in double, 2^-11 and 2^11 in float, inverse raises no exception other than inexact unless the computed determinant is zero, and determinant and inverse obey the error bounds of C73.", "quantifier": "every 3x3 matrix with such entries", "why_tests_cant": "The intermediate products range over all combinations of exponents.", "anchors": ["include/shiva/common/MathUtilities.hpp: inverse"]}
{"id": "C84", "title": "The 3x3 inverse is accurate at every scale", "statement": "inverse computes an accurate inverse of every matrix of double (float) entries that is not close to a singular one and whose inverse has double (float) entries, however large or small the entries are.", "quantifier": "every 3x3 matrix with representable entries and inverse", "why_tests_cant": "Only extreme scales break it.", "anchors": ["include/shiva/common/MathUtilities.hpp: inverse"]}
{"id": "C85", "title": "Run-time and compile-time tables hold the same float and double numbers", "statement": "In the float and double instantiations, for every number of points both accessors support, coordinate(i) and coordinate<i>() are the same number, and so are weight(i) and weight<i>(). Operations mixing REAL_TYPE with double literals are done in double, as C++ does.", "quantifier": "every family and supported number of points, every index, both types", "why_tests_cant": "Tests compare with a tolerance, and equal spacing has up to 2^31 points.", "anchors": ["include/shiva/functions/spacing/Spacing.hpp: coordinate", "include/shiva/functions/quadrature/Quadrature.hpp: weight"]}
{"id": "C86", "title": "Tables in float and double are mirror symmetric and end at -1 and 1", "statement": "In the float and double instantiations, coordinates of mirrored points are exact negatives, weights of mirrored points are equal, and equal and Gauss-Lobatto spacings begin at exactly -1 and end at exactly 1.", "quantifier": "every family and supported number of points, both types", "why_tests_cant": "Tests compare with a tolerance and for few sizes; elements sharing a face rely on exact end points.", "anchors": ["include/shiva/functions/spacing/Spacing.hpp: coordinate", "include/shiva/functions/quadrature/Quadrature.hpp: weight"]}
{"id": "C87", "title": "The float and double rules integrate polynomials to rounding error", "statement": "In the float and double instantiations as C++ evaluates them, points and weights of every Gauss rule are computed without exceptions, points increase and are within a unit roundoff of the true Gauss points, weights are positive, and every polynomial up to the degree of the rule is integrated with an error of at most two unit roundoffs times the sum of the absolute values of its coefficients (plus 2e-14 for rules of six or more points).", "quantifier": "every rule and size, both types, every polynomial of admissible degree", "why_tests_cant": "It quantifies over all polynomials.", "anchors": ["include/shiva/functions/quadrature/Quadrature.hpp: QuadratureGaussLegendre, QuadratureGaussLobatto", "include/shiva/functions/spacing/Spacing.hpp"]}
{"id": "C88", "title": "Double literals do not change the results of a float basis", "statement": "In the float instantiation, the operations that C++ does in double because of a double literal give, after conversion to float, the same results and exceptions as if they were done in float. This holds for every Lagrange basis whatever its points. So bases, interpolation and Jacobians of float elements obey C81, and the points of shipped float and double spacings are computed without exceptions, increase, and are close to the exact ones.", "quantifier": "every order, index, point set and coordinate, infinities and NaN included; both types", "why_tests_cant": "Rounding twice differs from rounding once only at rare inputs.", "anchors": ["include/shiva/functions/bases/LagrangeBasis.hpp: value, gradient", "include/shiva/functions/spacing/Spacing.hpp"]}
{"id": "C89", "title": "Scalings in float and double", "statement": "In the float and double instantiations, with double literals evaluated in double as C++ does, the Jacobian of a scaling has the entries nearest to h/2 (exact above twice the smallest normal number), the inverse Jacobian those nearest to 2/h, and the determinant either raises an exception or is accurate to three roundings in double and to 2^-24+2^-52 in float; no exception is raised for lengths in a stated range. UniformScaling and Scaling with three equal lengths give the same numbers, although one writes 2/h and the other 2.0/h.", "quantifier": "every representable length in each direction, both types; for the last claim infinities and NaN too", "why_tests_cant": "Tests use one box with round lengths; rounding twice matters only at rare inputs.", "anchors": ["include/shiva/geometry/mapping/Scaling.hpp: jacobian, inverseJacobian", "include/shiva/geometry/mapping/UniformScaling.hpp: jacobian, inverseJacobian"]}
{"id": "C90", "title": "Tables agree with the exact Gauss rules to the accuracy of the type", "statement": "For every number of points there is exactly one rule whose points are the roots of the defining polynomial and that integrates every polynomial up to its degree without error. The points and weights that the library returns in float and in double differ from those of this rule by at most one unit roundoff of the type relative to the exact value (one and a half for the points computed at run time).", "quantifier": "both rules, every number of points of the tables, every index, float and double, run-time and compile-time accessors", "why_tests_cant": "Tests compare the tables with copies of the same literals, or with a tolerance; the exact points and weights are irrational.", "anchors": ["include/shiva/functions/spacing/Spacing.hpp: GaussLegendreSpacing, GaussLobattoSpacing", "include/shiva/functions/quadrature/Quadrature.hpp: weight"]}
{"id": "C91", "title": "Results in float and double are those of IEEE 754", "statement": "Every operation that the library performs on finite numbers in float or double gives the exact result rounded to the nearest number of the type, with ties going to the even significand, and the rounded result is unique. Overflow gives an infinity of the right sign, tiny inexact results raise an exception, exceptions are never lost, literals and conversions are rounded in the same way, and every float is also a double.", "quantifier": "all operands, all operations, every binary format with at least one fraction bit, and the formats of float and double in particular", "why_tests_cant": "There are 2^64 pairs of operands in float and 2^128 in double; the claim ties the arithmetic behind C81 to C90 to the definition in the standard, for all of them.", "anchors": ["include/shiva/functions/spacing/Spacing.hpp", "include/shiva/functions/quadrature/Quadrature.hpp", "include/shiva/geometry/mapping/LinearTransform.hpp", "include/shiva/geometry/mapping/Scaling.hpp"]}
{"id": "C92", "title": "Multi-indices of any integer type", "statement": "MultiIndexRange takes its index type as a template argument. For every integer type, linearIndex of an index in the box gives the number it gives for int whenever the type can hold that number, and forRange visits the box as for int.", "quantifier": "all integer types, all numbers of ranges, all ranges, all indices in the box", "why_tests_cant": "The tests only use int. Overflow of strides and wrap-around depend on the product of all ranges and show up only for particular sizes.", "anchors": ["include/shiva/common/MultiIndex.hpp: MultiIndexRange", "include/shiva/common/IndexTypes.hpp: linearIndex, forRange, detail::stride", "include/shiva/common/LinearIndex.hpp"]}
{"id": "C93", "title": "Arrays are values, views are references", "statement": "In a program with any number of arrays and views, copying or assigning an array copies its elements, so that later writes to one do not show in the other, while slices, views and their copies are further names for elements of the array they were made from: a write through any of them shows in all of them and nowhere else. Views cannot be assigned to each other.", "quantifier": "all sequences of declarations, copies, slices, views, assignments and element writes over any number of variables, all shapes, all index tuples, both access styles", "why_tests_cant": "Aliasing errors show only for particular combinations of names and orders of operations, and there are infinitely many programs.", "anchors": ["include/shiva/common/CArray.hpp: CArray, operator[], operator(), data", "include/shiva/common/CArray.hpp: CArrayNd, CArrayViewNd"]}
{"id": "C94", "title": "Mass matrices formed with the library's rules", "statement": "For a tensor-product Lagrange element, the mass matrix formed from the basis values at the points of the library's quadrature rules, its weights and positive coefficients is positive semidefinite; it is positive definite exactly when every direction has more quadrature points than the order of its basis; and it is diagonal with positive entries when the quadrature points are the nodes of the basis.", "quantifier": "all dimensions, all orders and node sets of the element, all combinations of supported rules, all positive coefficients at the points, all coefficient vectors", "why_tests_cant": "Definiteness is a statement about all vectors; the coefficients and combinations of orders and rules are unlimited.", "anchors": ["include/shiva/discretizations/finiteElementMethod/parentElements/ParentElement.hpp: ParentElement", "include/shiva/functions/quadrature/Quadrature.hpp: QuadratureGaussLegendre, QuadratureGaussLobatto", "include/shiva/functions/bases/LagrangeBasis.hpp: LagrangeBasis"]}
{"id": "C95", "title": "Stiffness matrices and hourglass modes", "statement": "The stiffness matrix formed from the basis gradients at the points of the library's quadrature rules, positive coefficients and any invertible matrices (such as the inverse transposed Jacobians of a valid cell) is positive semidefinite and vanishes on constants. It vanishes on nothing else, so that there are no hourglass modes, exactly when no direction has fewer quadrature points than the order of its basis and at most one direction has equally many.", "quantifier": "all dimensions, all orders and node sets of the element, all combinations of supported rules, all positive coefficients and invertible matrices at the points, all coefficient vectors", "why_tests_cant": "The kernel of the matrix is a statement about all vectors, for unlimited cells and combinations of orders and rules.", "anchors": ["include/shiva/discretizations/finiteElementMethod/parentElements/ParentElement.hpp: ParentElement", "include/shiva/functions/quadrature/Quadrature.hpp: QuadratureGaussLegendre, QuadratureGaussLobatto", "include/shiva/functions/bases/LagrangeBasis.hpp: LagrangeBasis"]}
{"id": "C96", "title": "forRange with a body that changes the index", "statement": "forRange hands its own index to the body by reference. Whatever the body does to it, every tuple the body is called with lies in the box and the iteration ends. (The code violates this: changing an entry other than the last leads to calls outside the box, and moving the last entry back can go on for ever. What it does is advance like an odometer from wherever the body left the index; a body that only moves the last entry forward, or that puts all entries past their ranges to leave the loop, behaves as expected.)", "quantifier": "all numbers of ranges, all ranges, all starting indices below the ranges, all bodies, all changes to the index", "why_tests_cant": "The tests only use bodies that read the index; what other bodies see depends on the history of their changes, and termination is a statement about all histories.", "anchors": ["include/shiva/common/IndexTypes.hpp: forRange, detail::forRangeHelper", "include/shiva/common/MultiIndex.hpp: MultiIndexRange"]}
{"id": "C97", "title": "Accuracy under fused operations and wider intermediates", "statement": "The error bounds for basis functions, interpolated values and gradients, Jacobians, the 3x3 inverse and inverse Jacobians do not depend on how the compiler evaluates floating-point expressions: they hold for every evaluation in which each operation is accurate to the unit roundoff, whichever products it fuses with additions, whichever intermediate results it keeps in a wider format, whichever rounding mode each operation uses, and also if the same expression is evaluated differently in different places. No such evaluation divides by zero where the bounds promise a result, and the sign of the determinant is right whenever it exceeds its bound.", "quantifier": "all orders, dimensions, distinct nodes, points, data and cells, all unit roundoffs up to 1/2, all evaluations of the resulting expressions", "why_tests_cant": "A test sees what one compiler does with one set of flags; the evaluations a compiler may choose are unlimited.", "anchors": ["include/shiva/functions/bases/LagrangeBasis.hpp: LagrangeBasis", "include/shiva/discretizations/finiteElementMethod/parentElements/ParentElement.hpp: ParentElement", "include/shiva/geometry/mapping/LinearTransform.hpp: jacobian, inverseJacobian", "include/shiva/common/MathUtilities.hpp: inverse"]}
{"id": "C98", "title": "pow, factorial and binomialCoefficient are right in every integer type", "statement": "In every integer type, pow<T,E>(b), factorial<T,N>::value and binomialCoefficient<T,N,K>::value equal b^E, N! and C(N,K) if the type can hold the result; a result that the type cannot hold is rejected by the compiler in a constant expression.", "quantifier": "every standard integer type other than bool, every base, exponent, N and K", "why_tests_cant": "Promotion to int and wrap-around differ between types and show only past a size that depends on the type.", "anchors": ["include/shiva/common/MathUtilities.hpp: pow, factorial, binomialCoefficient"]}
{"id": "C99", "title": "Indices of points and basis functions that are out of range are rejected", "statement": "coordinate and weight of the spacings and quadrature rules, and value<j> and gradient<j> of a Lagrange basis, are rejected by the compiler or stopped at run time when the index is not the index of a point.", "quantifier": "every spacing family, every number of points, every order, every int index outside the range, every x", "why_tests_cant": "There are infinitely many indices out of range, and a wrong value that looks plausible goes unnoticed.", "anchors": ["include/shiva/functions/spacing/Spacing.hpp: EqualSpacing, GaussLegendreSpacing, GaussLobattoSpacing", "include/shiva/functions/quadrature/Quadrature.hpp: QuadratureGaussLegendre, QuadratureGaussLobatto", "include/shiva/functions/bases/LagrangeBasis.hpp: value, gradient"]}
{"id": "C100", "title": "Shipped elements give finite, accurate results in float and double even where something underflows", "statement": "In float and in double, with the Lagrange bases of order 1 to 8 on any shipped points, the values and gradients of basis and shape functions at points of the parent element, interpolated values and gradients for nodal values of magnitude up to 2^56, and Jacobians of cells with vertex coordinates of magnitude up to 2^56 are finite numbers. They differ from the exact ones by at most the rounding error bounds of C60-C62 and C74 plus an explicit multiple of the smallest positive number of the type. No assumption is made about underflow.", "quantifier": "both types, every mix of shipped families and orders from 1 to 8, one to three dimensions, every point of the parent element, all nodal values and vertices up to that size", "why_tests_cant": "Underflow happens at inputs no test picks, and the claim is about all coordinates and nodal values at once.", "anchors": ["include/shiva/functions/bases/LagrangeBasis.hpp: value, gradient", "include/shiva/functions/bases/BasisProduct.hpp: value, gradient", "include/shiva/geometry/mapping/LinearTransform.hpp: jacobian"]}
{"id": "C101", "title": "Inverses in float and double are finite and accurate even where something underflows", "statement": "In float and in double, the 3x3 inverse of a matrix with entries of magnitude at most C, and inverseJacobian of a cell with a shipped shape function, leave a finite determinant within an explicit bound of the exact one, of the same sign if the exact one is larger than that bound. If the exact determinant is at least twice that bound and not below 2/Q, the entries left behind are finite and close to those of the inverse. C^3 and C^2 Q must be at most 2^120. No assumption is made about underflow, and entries may be arbitrarily small.", "quantifier": "both types, all matrices and cells within these sizes, both overloads", "why_tests_cant": "C83 excludes small entries, since the products in which they occur may underflow; which products do depends on the matrix.", "anchors": ["include/shiva/common/MathUtilities.hpp: inverse", "include/shiva/geometry/mapping/LinearTransform.hpp: inverseJacobian"]}
{"id": "C102", "title": "An element of the matrix may be passed as det", "statement": "inverse(matrix, det) leaves the inverse in the matrix even if det refers to an element of that matrix; nothing in the interface forbids it.", "quantifier": "every invertible matrix, every element, both overloads, every arithmetic", "why_tests_cant": "Which element is overwritten and whether its value is used again depends on the position and on the order of the statements; tests pass a separate variable.", "anchors": ["include/shiva/common/MathUtilities.hpp: inverse"]}
{"id": "C103", "title": "Interpolating a smooth function is accurate to the order of the basis", "statement": "For a function f with a derivative of order n+1 bounded by M on [-1,1], interpolating its values at the support points of a Lagrange basis of order n differs from f(x) by at most M/(n+1)! * prod_i |x - x_i|, and interpolating with the gradients differs from f'(x) by at most M/n! * 2^n. On a tensor-product element the value is off by at most the sum over the directions of this bound, each multiplied by the sums of the absolute values of the basis functions of the previous directions; the gradient likewise. For multilinear elements the bound is sum_k M_k/2 * (1 - xi_k^2).", "quantifier": "every dimension, order per direction, spacing with distinct support points in [-1,1] (all shipped ones), every smooth function, every point of the parent cell", "why_tests_cant": "the bound is over all smooth functions and all points; a test checks a few functions at a few points", "anchors": ["include/shiva/functions/bases/LagrangeBasis.hpp: value, gradient", "include/shiva/functions/bases/BasisProduct.hpp: value, gradient", "include/shiva/discretizations/finiteElementMethod/parentElements/ParentElement.hpp: value, gradient"]}
{"id": "C104", "title": "The quadrature rules are accurate for smooth integrands", "statement": "Let m be the degree of exactness of a rule (2N-1 for Gauss-Legendre, 2N-3 for Gauss-Lobatto). For every f whose derivative of order m+1 is bounded by M on [-1,1], |sum_i w_i f(x_i) - int f| <= (4+t) M/(m+1)! + t A, where t is the accuracy of the decimals and A the sum of the absolute values of the coefficients of the Taylor polynomial of f of degree m. For the product of rules in d directions and f continuous on the cube, the errors of the directions add up, times (2+t)^(d-1).", "quantifier": "both families, every supported number of points (per direction), every dimension, every smooth integrand", "why_tests_cant": "the bound is over all smooth functions; exactness for the polynomials used in the tests does not give it (it also needs positive weights and points inside the cell)", "anchors": ["include/shiva/functions/quadrature/Quadrature.hpp: weight, coordinate", "include/shiva/functions/spacing/Spacing.hpp: coordinate"]}
{"id": "C105", "title": "Aggregation puts every header after those it includes", "statement": "If the given headers, and all that they include directly or indirectly, exist, have ordinary names, and no header includes itself directly or indirectly, then the aggregated file consists of exactly one part per needed header. The part of a header comes after the parts of all headers it includes. A part is the text of the header between two marks, with quoted includes and #pragma once turned into comments. Quoted includes are resolved as by a compiler: relative to the including header first, then along the include paths. No other file changes.", "quantifier": "every tree of files, every current directory, every list of include paths and headers (relative or absolute), every include graph without cycles", "why_tests_cant": "the number of include graphs, spellings of paths and search orders is unbounded; the order of the parts depends on all of them", "anchors": ["scripts/aggregateOrSplit.py: create_dependency_graph", "scripts/aggregateOrSplit.py: resolve_path", "scripts/aggregateOrSplit.py: generate_header_list", "scripts/aggregateOrSplit.py: aggregate_headers"]}
{"id": "C106", "title": "Aggregation terminates", "statement": "For every tree of files and every list of headers aggregation ends, either with the aggregated file or with an error.", "quantifier": "every tree of files, every list of headers, every include graph", "why_tests_cant": "non-termination cannot be observed by a test, and the include graphs are unboundedly many", "anchors": ["scripts/aggregateOrSplit.py: generate_header_list", "scripts/aggregateOrSplit.py: aggregate_headers"]}
{"id": "C107", "title": "An aggregated file can replace the headers", "statement": "Every line of every header that a compiler would read through the quoted includes is in the aggregated file, or the aggregation reports an error; the aggregated file has no quoted include left.", "quantifier": "every tree of files, every list of headers, every text of the headers", "why_tests_cant": "the texts and include graphs are unboundedly many, and the script reports no error when something is left out", "anchors": ["scripts/aggregateOrSplit.py: process_header", "scripts/aggregateOrSplit.py: create_dependency_graph", "scripts/aggregateOrSplit.py: aggregate_headers", "include/shiva/Shiva.hpp: includes"]}
{"id": "C108", "title": "Splitting an aggregated file gives back the headers", "statement": "Splitting an aggregated file into a directory puts the headers from which it was made into that directory, with their texts, and changes no other file.", "quantifier": "every aggregated file, every output directory, every current directory", "why_tests_cant": "it is a round trip over all texts and places; a test in an empty scratch directory does not see which files outside it change", "anchors": ["scripts/aggregateOrSplit.py: split_aggregated_file", "scripts/aggregateOrSplit.py: aggregate_headers"]}
{"id": "C109", "title": "Gradients in physical coordinates; patch test", "statement": "On a three-dimensional Lagrange cell, wherever inverseJacobian returns a nonzero determinant, the gradient returned by ParentElement times the matrix left by inverseJacobian is the gradient of the interpolated field with respect to the physical coordinates. An affine field of the physical coordinates is reproduced exactly on a cell of any shape, with its exact gradient. On an affine cell the same holds for every polynomial of total degree at most the orders.", "quantifier": "every order in each direction, all nodal coordinates, all nodal values, every parent point with nonzero determinant; exact arithmetic", "why_tests_cant": "the cells, fields and points form a continuum, and a transposed factor goes unnoticed on symmetric cells", "anchors": ["include/shiva/geometry/mapping/LinearTransform.hpp: inverseJacobian", "include/shiva/geometry/mapping/LinearTransform.hpp: jacobian", "include/shiva/discretizations/finiteElementMethod/parentElements/ParentElement.hpp: gradient", "include/shiva/discretizations/finiteElementMethod/parentElements/ParentElement.hpp: value"]}
{"id": "C110", "title": "Configuring a build deletes nothing of the user's", "statement": "config-build.py changes nothing outside the build directory and the installation directory, and when it succeeds the first holds just the recorded command and the second is empty. It never deletes the sources, the host configuration file, or other people's files.", "quantifier": "all file trees, current directories, script names, and all combinations of options (paths given or not, relative or absolute)", "why_tests_cant": "The script deletes two directories computed from texts the user gives. Which files are lost depends on how these paths, the current directory and the tree lie to each other, and there are unboundedly many layouts; the repository has no test of the script.", "anchors": ["scripts/config-build.py: buildpath", "scripts/config-build.py: installpath", "scripts/config-build.py: shutil.rmtree"]}
{"id": "C111", "title": "CMake is run with the arguments asked for", "statement": "The command config-build.py hands to the shell is cut by the shell into: cmake, the host configuration, the build type, the installation prefix, the generator and other options that were asked for, the unknown arguments unchanged, and the source directory. The same command is recorded in cmake_cmd, and the script fails if CMake fails.", "quantifier": "all host configuration paths, installation paths, script paths, options, and lists of unknown arguments", "why_tests_cant": "The command is built by joining texts and is cut again by the shell, so whether it arrives as meant depends on every character of every argument.", "anchors": ["scripts/config-build.py: cmakeline", "scripts/config-build.py: extract_cmake_location", "scripts/config-build.py: subprocess.call"]}
{"id": "C112", "title": "The build options reach the compiled headers", "statement": "After a successful configuration, the generated header defines the macro of each option exactly if the option (or, for CUDA and HIP, the option of the surrounding project) is on, and gives the version of Shiva and of the CUDA compiler. So indices are checked exactly if asked for, device code is compiled exactly if CUDA or HIP was asked for and never for both, and the tuple library that is included is the one that is linked. Configuring fails exactly for CUDA with HIP, an empty CUDA version, or BLT asked for and missing.", "quantifier": "all settings of cache and normal variables (any texts), as a top-level project or inside another, with or without BLT", "why_tests_cant": "The options are texts in a cache that persists between runs, each with many spellings of true and false, and the macros are made from them by text substitution. Tests run in one configuration and see only its macros.", "anchors": ["CMakeLists.txt: option", "CMakeLists.txt: SHIVA_ENABLE_CUDA", "cmake/Config.cmake: configure_file", "include/shiva/ShivaConfig.hpp.in: cmakedefine", "include/shiva/common/ShivaMacros.hpp: ENABLE_DEVICE"]}
{"id": "C113", "title": "The comparison of settings files finds every difference", "statement": "compare_uncrustify.py reads the same settings from a file as the format means: comments and blanks do not count, and the last assignment of a key does. It reports every setting with the same value in both files as common and every other setting as different, each once, with its values.", "quantifier": "all pairs of files made of any number of comment lines and assignments, with any plain keys and values, blanks and comments, keys repeated or not", "why_tests_cant": "Whether a difference is reported depends on both whole files: on every character around it, on other lines with the same key, and on which of the files has the key at all. There is no test of the script.", "anchors": ["scripts/compare_uncrustify.py: read_uncrustify_config", "scripts/compare_uncrustify.py: compare_config_files"]}
{"id": "C114", "title": "Slightly distorted boxes are valid cells", "statement": "For elements of order one with nodes at -1 and 1: if every coordinate of every vertex is within less than 1/(2d) of the edge of a box, in its direction, from that of the box, the map from the parent element to the cell is one-to-one. In three dimensions (a sixth of the edge), after setData inverseJacobian gives a positive detJ and the inverse Jacobian at every point of the parent element, and the quadrature of detJ is the volume of the cell. The bound cannot be improved: with exactly a sixth the Jacobian can be singular.", "quantifier": "all dimensions (one-to-one), all boxes, all displacements of the vertices below the bound, all points of the parent element, all quadrature rules but the two-point Gauss-Lobatto rule, checked or not", "why_tests_cant": "Whether a cell is valid depends on all its vertices and must hold at all points of the parent element, of which tests try a few.", "anchors": ["include/shiva/geometry/mapping/LinearTransform.hpp: setData", "include/shiva/geometry/mapping/LinearTransform.hpp: inverseJacobian", "include/shiva/geometry/mapping/LinearTransform.hpp: jacobian", "include/shiva/functions/bases/BasisProduct.hpp: value", "include/shiva/discretizations/finiteElementMethod/parentElements/ParentElement.hpp: value"]}
{"id": "C115", "title": "The CI run fails if a check fails", "statement": "ci_build_and_test_in_container.sh ends with status 0 only if the build was configured and every check it was asked for (style, documentation, static analysis, coverage, build, unit tests) was run and passed; otherwise it ends with the status of the first command that failed, and runs nothing after it.", "quantifier": "all arguments, all exit statuses of all commands (depending on what was run before), all settings of the two environment variables; all machines, with or without the tools and with any outcome of CMake, make and each test", "why_tests_cant": "The script has no tests, and a check that is silently skipped looks like one that passed.", "anchors": ["scripts/ci_build_and_test_in_container.sh: or_die", "scripts/ci_build_and_test_in_container.sh: --build-exe", "scripts/ci_build_and_test_in_container.sh: --test-doxygen", "cmake/Macros.cmake: testCppCheck", "tests/CMakeLists.txt: shiva_add_gtest", "docs/CMakeLists.txt: testDoxygenCheck"]}
{"id": "C116", "title": "Threads that work on different elements do not interfere", "statement": "Threads read and write elements of CArrays, directly or through views and slices, in either notation. If no element that one thread writes is used by another, then in every interleaving no data race occurs, no access is outside an array, nothing aborts, every thread ends after as many turns as it has accesses, the elements of a thread that has ended read through every name as if it had run alone, and elements that no thread writes keep their values. Conversely, if two threads are about to use the same element, under whatever names, and one of them is about to write it, the program has a data race in every interleaving.", "quantifier": "all programs that set up arrays, views and slices; all numbers of threads; all threads, whose accesses may depend on what they read; all schedules, fair or not; with and without bounds checking", "why_tests_cant": "Schedules are endless and not under a test's control, and a race may go unnoticed in every run of a test.", "anchors": ["include/shiva/common/CArray.hpp: operator()", "include/shiva/common/CArray.hpp: operator[]", "include/shiva/common/CArray.hpp: squareBracketOperatorHelper"]}
{"id": "C117", "title": "Integration by parts holds for the quadrature rules", "statement": "For two interpolated variables u and v and a direction in which the rule has order+1 Gauss-Lobatto or order Gauss-Legendre points at least, the weighted sum over the quadrature points of du/dxi*v + u*dv/dxi equals the weighted sum of u*v over the quadrature points of the two faces across that direction, one minus the other, up to the accuracy of the decimals of the rule. On the Gauss-Lobatto points, the nodes of the basis, the matrix of gradients D and the weights W satisfy W D + (W D)^T = diag(-1, 0, ..., 0, 1) within 1e-33 up to order 4 and 3e-13 up to order 8.", "quantifier": "all dimensions, all orders, all variables, all supported rules in every direction; the collocation operator for every order from 1 to 8 and every pair of nodes", "why_tests_cant": "Integration by parts is an identity between sums over the cell and over its faces for all pairs of functions; conservation and energy stability of a scheme rest on it exactly, and a test sees a few functions of one order.", "anchors": ["include/shiva/functions/quadrature/Quadrature.hpp: QuadratureGaussLegendre, QuadratureGaussLobatto", "include/shiva/functions/bases/LagrangeBasis.hpp: gradient", "include/shiva/discretizations/finiteElementMethod/parentElements/ParentElement.hpp: gradient"]}
{"id": "C118", "title": "A good CI verdict means that all jobs succeeded", "statement": "The workflow job check_that_all_jobs_succeeded succeeds exactly if all other jobs of the workflow succeeded. A good verdict means that for every entry of the build matrix the container was started from the entry's image with its compilers, CUDA settings and build type, that CMake and the build succeeded there, and that all unit tests passed. The matrix has both systems with both compilers and both build types without CUDA, and CUDA builds on both systems with both compilers.", "quantifier": "all runs of the workflow: all outcomes of checkouts, containers, CMake, builds, tests and uploads in each job, cancelled jobs included; all image tags and runner environments", "why_tests_cant": "The workflow is what runs the tests; a job that the verdict leaves out fails unnoticed.", "anchors": [".github/workflows/continuousIntegration.yml: check_that_all_jobs_succeeded", ".github/workflows/continuousIntegration.yml: linux_builds", ".github/workflows/continuousIntegration.yml: code_coverage", "scripts/ci_build_and_test.sh: docker run"]}
{"id": "C119", "title": "The CI container gets the settings of the job", "statement": "ci_build_and_test.sh runs the image of its environment with the arguments of its environment, and the container gets the host-config, the compilers, the CUDA settings and the build type of the environment. The build in the container runs NPROC jobs at once, or as many as there are processors if NPROC is empty or not set. In the workflow, builds with CUDA run one job at a time, and the others as many as the runner has processors.", "quantifier": "all environments whose values are one word each, all docker options, all lists of arguments, all numbers of processors", "why_tests_cant": "The script has no tests; a setting that does not arrive changes what is built without an error.", "anchors": ["scripts/ci_build_and_test.sh: NPROC", "scripts/ci_build_and_test.sh: docker run", "scripts/ci_build_and_test_in_container.sh: make -j", ".github/workflows/continuousIntegration.yml: code_coverage"]}
{"id": "C120", "title": "The gradient theorem holds on curved cells", "statement": "On a three-dimensional Lagrange cell of any shape with nonzero determinants, for an interpolated variable u and quadrature rules exact in each direction to the order of u plus twice the order of the cell minus one: the weighted sum over the quadrature points of detJ times the physical gradient of u (gradient times the inverse Jacobian) equals the weighted sum of u times the area vectors over the quadrature points of the six faces, up to the accuracy of the decimals. The area vector, detJ times a row of the inverse Jacobian, is the cross product of two columns of the Jacobian. In particular the area vectors of a cell add up to zero, and the volume of the cell is the sum of position times area vector over its faces.", "quantifier": "all cells (orders, nodal coordinates), all nodal values, all supported rules per direction; all hexahedra with an explicit bound", "why_tests_cant": "Conservation on curved meshes needs an identity between the products of gradient, inverseJacobian and the weights over the cell and over its faces for every shape of the cell and every variable; tests use affine cells or a few shapes.", "anchors": ["include/shiva/geometry/mapping/LinearTransform.hpp: jacobian, inverseJacobian", "include/shiva/common/MathUtilities.hpp: inverse", "include/shiva/discretizations/finiteElementMethod/parentElements/ParentElement.hpp: gradient", "include/shiva/functions/quadrature/Quadrature.hpp: QuadratureGaussLegendre, QuadratureGaussLobatto"]}
{"id": "C121", "title": "The code checks look at all sources of the project", "statement": "Wherever the project is checked out and built, cppcheck and clang-tidy are given every C and C++ source and header below the source directory that is not in a build directory, in BLT or in camp, and no others.", "quantifier": "all sets of files, all source directories", "why_tests_cant": "A check that is given no files passes; whether files are left out depends on the path of the checkout, and there is one in CI.", "anchors": ["cmake/Macros.cmake: shiva_add_code_checks", "CMakeLists.txt: EXCLUDES build* blt/* camp/*"]}
{"id": "C122", "title": "What a host configuration sets reaches the build, and the command line wins", "statement": "For every host configuration in the repository and every environment, CMake gets for each variable the value the host configuration says last, unless the user's arguments to config-build.py say something about it, which then counts. With environment.cmake the compilers are those of CC and CXX, the unit tests are built with checked indices, and device code is compiled exactly if ENABLE_CUDA is on. So each build of the CI matrix compiles with the compilers, the build type and the device of its entry.", "quantifier": "all nine host configurations, all environments, all variables, all requests to config-build.py, all entries of the CI matrix", "why_tests_cant": "No test reads the host configurations; a setting that is dropped changes what is compiled and tested without an error.", "anchors": ["hostconfigs/environment.cmake: ENABLE_CUDA, SHIVA_ENABLE_BOUNDS_CHECK", "hostconfigs/LLNL/tioga-base.cmake: ENABLE_FIND_MPI", "scripts/config-build.py: cmake_line", "scripts/ci_build_and_test_in_container.sh: config-build.py", ".github/workflows/continuousIntegration.yml: linux_builds"]}
{"id": "C123", "title": "A finding of cppcheck or clang-tidy fails its test", "statement": "The tests testCppCheck and testClangTidy pass exactly if the checker could be run and reported nothing, however the processes of their command (make, tee, cat) are scheduled and whatever an earlier run has left in the build directory.", "quantifier": "all schedules of the processes, all exit statuses of make, all texts reported, all contents left by earlier runs", "why_tests_cant": "It is about the tests themselves, and the outcome depends on which of two processes is faster.", "anchors": ["cmake/Macros.cmake: testCppCheck, testClangTidy"]}
{"id": "C124", "title": "Every header can be included on its own and in any order", "statement": "With any combination of the options CUDA, HIP, CAMP and bounds check, from the build tree as from an installation, a source file that includes any headers of the library, in any order and any number of times, compiles as far as names are concerned: every included file is found, every name is declared before it is used and declared once, and all names the headers declare are available afterwards.", "quantifier": "all lists of headers in any order and with repetitions, all combinations of options, both layouts of directories, all standard libraries that declare at least what those in use do", "why_tests_cant": "There are infinitely many lists of headers; the unit tests include a few, with the options of the machine they run on.", "anchors": ["include/shiva/Shiva.hpp", "include/shiva/common/ShivaMacros.hpp", "include/shiva/common/types.hpp: tuple", "include/shiva/common/pmpl.hpp: genericKernelWrapper", "include/shiva/common/CArray.hpp", "CMakeLists.txt: target_include_directories"]}
{"id": "C125", "title": "Volumes computed in float and double", "statement": "In float and in double, for a 3-D cell with shipped shape functions of any orders, one-to-one and with a Jacobian determinant that is nowhere negative on the parent cube: at every point of a shipped quadrature rule inverseJacobian returns a finite determinant, and the sum of the computed weights times these determinants is the volume of the cell up to an explicit bound in terms of the unit roundoff, the smallest positive number and the size of the coordinates. For hexahedra with coordinates of magnitude at most B the error is at most 100000*u*B^3, with u = 2^-24 or 2^-53 (2e-14 is added to u for rules with six points or more). The sum itself is taken exactly.", "quantifier": "both floating-point types, all cells, all orders 1 to 8, all combinations of rules of sufficient degree, all configurations", "why_tests_cant": "The cells form a continuum and rounding depends on every coordinate; tests compare a few Jacobians of one cell with tabulated numbers.", "anchors": ["include/shiva/geometry/mapping/LinearTransform.hpp: jacobian, inverseJacobian", "include/shiva/geometry/mapping/JacobianTransforms.hpp: inverseJacobian", "include/shiva/functions/quadrature/Quadrature.hpp: QuadratureGaussLegendre, QuadratureGaussLobatto", "include/shiva/common/MathUtilities.hpp: inverse"]}
{"id": "C126", "title": "Later language standards", "statement": "Shiva asks its users for C++17 or a later standard. With every such standard each header compiles that compiles with C++17, and values and gradients of basis functions are the same as with C++17.", "quantifier": "all values of __cplusplus from C++17 on, all combinations of headers in any order, all options, build tree and installation, all orders, spacings, numbers of dimensions, indices, coordinates and arithmetics", "why_tests_cant": "The test-suite is built with C++17 only, so the branches for later standards are never compiled; the combinations of headers and template arguments are unbounded.", "anchors": ["CMakeLists.txt: target_compile_features", "include/shiva/functions/bases/LagrangeBasis.hpp: value, gradient, valueProductFactor", "include/shiva/functions/bases/BasisProduct.hpp: value, gradient", "include/shiva/common/SequenceUtilities.hpp: executeSequence"]}
{"id": "C127", "title": "An installed Shiva can be used like its source tree", "statement": "A project that finds an installed Shiva with find_package gets what a project gets that takes in the source with add_subdirectory: under the same target name, a library that asks for C++17 and in whose include directories all headers are found, the generated one included. This holds wherever the installation is, also after it has been moved, and for every choice of the installation directories; Shiva_INCLUDE_DIRS names the same directory. Other targets of the project are not touched. The package is refused exactly if a later version, or one with another major number, is asked for, or pointers have another size.", "quantifier": "all prefixes, installation directories, option values, targets the project already has, and versions asked for", "why_tests_cant": "No test installs Shiva or uses the installation; directories, versions and the targets of other projects are unbounded.", "anchors": ["CMakeLists.txt: install, write_basic_package_version_file, configure_package_config_file, add_library", "cmake/ShivaConfig.cmake.in: Shiva_INCLUDE_DIRS"]}
{"id": "C128", "title": "In float and double, interpolating at a support point returns the nodal value", "statement": "Evaluated at one of its support points, an element of any dimension whose bases are Lagrange bases of orders 1 to 8 on the library's points returns the nodal value of that point, to the last bit, in float and in double. It does not depend on the nodal values of the other points: every basis function is exactly zero at the support points of the others.", "quantifier": "float and double, the three spacings, orders 1 to 8, all dimensions, all support points, all finite nodal values", "why_tests_cant": "Tests compare with a tolerance, for few nodal values; whether rounding errors cancel at a point cannot be seen that way for all nodal values.", "anchors": ["include/shiva/functions/bases/LagrangeBasis.hpp: value", "include/shiva/functions/bases/BasisProduct.hpp: value", "include/shiva/discretizations/finiteElementMethod/parentElements/ParentElement.hpp: value"]}
{"id": "C129", "title": "In float and double, mirrored points give the same shape functions", "statement": "In float and in double the basis function of a support point, evaluated at x, has the same value as the basis function of the mirrored support point, evaluated at -x, to the last bit. Mirroring any of the coordinates of an element (and the support points with them) therefore leaves the shape functions as they are, and changes only the sign of the gradient components in the mirrored directions.", "quantifier": "float and double, the three spacings, orders 1 to 8, all basis functions, all coordinates; for elements all dimensions and all sets of mirrored directions", "why_tests_cant": "Tests compare with a tolerance at few points; a symmetric mesh giving exactly symmetric results depends on all points and on the order in which a product is formed.", "anchors": ["include/shiva/functions/bases/LagrangeBasis.hpp: value", "include/shiva/functions/bases/LagrangeBasis.hpp: gradient", "include/shiva/functions/bases/BasisProduct.hpp: value", "include/shiva/functions/bases/BasisProduct.hpp: gradient"]}
{"id": "C130", "title": "In float and double, the derivative in a direction in which the nodal values do not change is exactly zero", "statement": "If the nodal values of an interpolated field are the same along a direction of the parent element, then the derivative of the field in that direction is exactly zero at every point, also in float and double. In particular a rigid translation causes no strain at all.", "quantifier": "float and double, elements with the three spacings and orders 1 to 8 in any mixture, all directions, all nodal values up to 2^56 that are the same along the direction, all points of the parent element", "why_tests_cant": "The derivative is a sum of rounded terms of opposite sign; whether they cancel exactly depends on the order of the summation, on the point and on the nodal values.", "anchors": ["include/shiva/discretizations/finiteElementMethod/parentElements/ParentElement.hpp: gradient", "include/shiva/functions/bases/BasisProduct.hpp: gradient", "include/shiva/functions/bases/LagrangeBasis.hpp: gradient"]}
{"id": "C131", "title": "In float and double, interpolation of order one stays within the nodal values", "statement": "At every point of the parent element, the value interpolated on a line, square or cube of order one lies between the smallest and the largest nodal value, also in float and double: a saturation interpolated from values between 0 and 1 is between 0 and 1, and a constant is reproduced.", "quantifier": "float and double, elements of order one with EqualSpacing or GaussLobattoSpacing, all nodal values up to 2^56, all points of the parent element", "why_tests_cant": "The value is a sum of rounded products of rounded shape functions; whether it leaves the bounds depends on the last bit at each point and for each set of nodal values.", "anchors": ["include/shiva/discretizations/finiteElementMethod/parentElements/ParentElement.hpp: value", "include/shiva/functions/bases/BasisProduct.hpp: value", "include/shiva/functions/bases/LagrangeBasis.hpp: value"]}
{"id": "C132", "title": "Changing units by a power of two changes results in float and double by exactly that power", "statement": "If all nodal values are multiplied by the same power of two, positive or negative, then the interpolated value and its derivatives are multiplied by it, exactly and not only up to rounding. If the coordinates of the vertices of a cell are multiplied by c = plus or minus a power of two, then the Jacobian is multiplied by c, its determinant by c cubed and its inverse by 1/c; likewise for the lengths of Scaling (each length with its own factor) and UniformScaling, and for the rows and columns of a matrix given to the inverse. The only exceptions are computations in which an operation overflows, underflows, divides by zero or is invalid.", "quantifier": "all floating-point formats, in particular float and double, all factors plus or minus a power of two, all elements, points, nodal values, cells and matrices, infinities and NaN included", "why_tests_cant": "A test can compare two runs for some inputs; that all roundings commute with the factor must hold for every input, every order of operations and all intermediate results, including subnormal ones.", "anchors": ["include/shiva/discretizations/finiteElementMethod/parentElements/ParentElement.hpp: value, gradient", "include/shiva/geometry/mapping/LinearTransform.hpp: jacobian, inverseJacobian", "include/shiva/geometry/mapping/Scaling.hpp: jacobian, inverseJacobian", "include/shiva/geometry/mapping/UniformScaling.hpp: jacobian, inverseJacobian", "include/shiva/common/MathUtilities.hpp: inverse"]}
{"id": "C133", "title": "In float and double, results do not depend on how the axes are numbered", "statement": "Number the directions of an element in another order, and the indices, coordinates and nodal values with them: the values of the shape functions and the interpolated values are the same in float and double, and gradients are the same with their components in the new order. Two codes that only name their axes differently, or two elements that share a face but are oriented differently, then agree exactly.", "quantifier": "float and double, elements in up to three dimensions with any of the spacings and orders, all permutations of the directions, all shape functions, all points of the parent element and nodal values", "why_tests_cant": "Products and sums are rounded at each step in an order that the template parameter packs fix; whether the results agree is decided by the last bit at each point.", "anchors": ["include/shiva/functions/bases/BasisProduct.hpp: value", "include/shiva/functions/bases/BasisProduct.hpp: gradient", "include/shiva/discretizations/finiteElementMethod/parentElements/ParentElement.hpp: value"]}
{"id": "C134", "title": "Interpolation amplifies nodal values, and errors in them, only by known factors", "statement": "For each spacing and order there are known factors such that an interpolated value is at most its factor times the largest nodal value, and a component of a gradient at most its factor times the largest nodal value, anywhere in the parent cell. If the nodal values are changed by at most some amount, interpolated values and gradients change by at most the factors times that amount. In float and double the results are finite and the same holds up to the rounding error. The factors cannot be lowered by more than a few percent. With Gauss-Lobatto points the factor for values stays below 2.1 in each direction up to order 8; with equally spaced points it grows like a power of two with the order.", "quantifier": "all three families, all orders they support up to 8 (for equal spacing growth: every order), elements of any dimension in exact arithmetic and up to three in float and double, all nodal values, all changes of them and all points of the parent cell", "why_tests_cant": "The largest amplification is taken over all nodal values and all points of a continuum; a test evaluates a few.", "anchors": ["include/shiva/functions/bases/LagrangeBasis.hpp: value", "include/shiva/functions/bases/LagrangeBasis.hpp: gradient", "include/shiva/functions/spacing/Spacing.hpp: coordinate", "include/shiva/discretizations/finiteElementMethod/parentElements/ParentElement.hpp: value", "include/shiva/discretizations/finiteElementMethod/parentElements/ParentElement.hpp: gradient"]}
{"id": "C135", "title": "The whole error of interpolating a smooth function is bounded explicitly in float and double", "statement": "Let the nodal values be those of a smooth function at the support points, up to an error. Then the computed value at any point of the parent cell is finite and differs from the function by at most the sum of three explicit terms: the truncation error, given by the derivatives of order (order + 1) of the function and the distances to the points; the error of the nodal values times the amplification factor of C134; and a rounding error proportional to the unit roundoff. The same holds for each component of the gradient and the partial derivative of the function. On a box, direction k of the truncation error carries the factor (edge/2)^(order + 1), so halving the cells divides it by 2^(order + 1), until the other two terms dominate.", "quantifier": "all three families, all orders from 1 to 8 they support, mixed between directions, float and double, one to three dimensions, all functions with bounded derivatives of the required order, all errors of the nodal values, all nodal values up to 2^56 and all points of the parent cell; all boxes", "why_tests_cant": "The bound must hold for every smooth function and every point, and combines a truncation error with the rounding errors of every operation; a convergence test observes one function on a few meshes.", "anchors": ["include/shiva/functions/bases/LagrangeBasis.hpp: value", "include/shiva/functions/bases/LagrangeBasis.hpp: gradient", "include/shiva/functions/spacing/Spacing.hpp: coordinate", "include/shiva/discretizations/finiteElementMethod/parentElements/ParentElement.hpp: value", "include/shiva/discretizations/finiteElementMethod/parentElements/ParentElement.hpp: gradient"]}
{"id": "C136", "title": "In float and double, the sign of the determinant tells valid cells from inverted ones", "statement": "Take a box and displace each vertex by less than a sixth of the edges. Wherever in the cell it is evaluated, the determinant returned by inverseJacobian is finite and has the sign of the product of the signed edges: positive for a valid cell, negative for one with an odd number of inverted directions. A mesh check that looks at this sign accepts and rejects the right cells.", "quantifier": "all boxes with vertices displaced by less than a sixth of the edges, of either orientation, all points of the parent cell, all linear elements in 3D with nodes at -1 and 1, exact reals, float and double", "why_tests_cant": "The determinant is a sum of products that cancel; its sign must be right at every point of every displaced box, and where cancellation loses it depends on the last bits of the coordinates.", "anchors": ["include/shiva/geometry/mapping/LinearTransform.hpp: jacobian", "include/shiva/geometry/mapping/JacobianTransforms.hpp: inverseJacobian", "include/shiva/common/MathUtilities.hpp: inverse"]}
{"id": "C137", "title": "Checking the determinant at the quadrature points is enough to accept a cell", "statement": "If inverseJacobian returns a positive determinant at every point of a quadrature rule (or any other finite set of points of the parent cell), the determinant is positive at every point of the cell. In two dimensions it is enough to look at the four vertices.", "quantifier": "all hexahedra and quadrilaterals with linear shape functions, all finite sets of points, all points of the parent cell; exact reals, and float and double for the check that suffices", "why_tests_cant": "A test looks at finitely many points of finitely many cells; the claim is about the points that nobody looks at.", "anchors": ["include/shiva/geometry/mapping/LinearTransform.hpp: jacobian", "include/shiva/geometry/mapping/JacobianTransforms.hpp: inverseJacobian", "include/shiva/geometry/mapping/LinearTransform.hpp: setData"]}
{"id": "C138", "title": "Physical gradients in float and double pass the patch test up to an explicit rounding error", "statement": "For a hexahedron with linear shape functions whose determinant is not too close to zero at a point, the gradient in physical coordinates, obtained by multiplying the result of gradient with the inverse Jacobian, both computed in float or double, is the exact physical gradient of the interpolated field up to an explicit bound in the size of the coordinates, the size of the nodal values and the determinant. In particular nodal values of a linear field give its constant gradient up to this bound and the error of the nodal values (the patch test).", "quantifier": "all hexahedra with coordinates up to B and |det| at least Delta >= 5018 u B^3 at the point, all nodal values up to Y, all points of the parent cell, all linear fields, float and double, all build configurations", "why_tests_cant": "A test runs the patch test on a few meshes; the rounding error depends on the cell, the point and the field in ways samples do not bound.", "anchors": ["include/shiva/discretizations/finiteElementMethod/parentElements/ParentElement.hpp: gradient", "include/shiva/geometry/mapping/JacobianTransforms.hpp: inverseJacobian", "include/shiva/geometry/mapping/LinearTransform.hpp: jacobian"]}
{"id": "C139", "title": "The whole error of integrating a smooth function is bounded explicitly in float and double", "statement": "With the points and weights of the shipped rules in float or double, the weighted sum of values that are off by at most eta differs from the integral of a smooth function over the parent cell by at most the sum of explicit terms: the truncation error of the rules, given by the derivatives of order (degree + 1); the accuracy of points and weights times the Taylor coefficients of the function; and eta times (2 + tau)^d. If the values are interpolated by the library from nodal values, eta is the bound of C135. On a three-dimensional cell with a one-to-one map and a non-negative determinant, the weighted sum of values times the determinants returned by inverseJacobian differs from the integral over the cell by the same terms and the rounding error of the determinants.", "quantifier": "both families of rules and all numbers of points they support, mixed between directions, float and double, any dimension (one to three for interpolated values, three for cells), all functions with bounded derivatives of the required order, all errors of the values, all cells with coordinates and derivative terms up to C, all build configurations", "why_tests_cant": "A test compares a few integrals with a tolerance chosen by hand; that the tolerance suffices for every smooth function and every cell needs a proof.", "anchors": ["include/shiva/functions/quadrature/Quadrature.hpp: QuadratureGaussLegendre", "include/shiva/functions/quadrature/Quadrature.hpp: QuadratureGaussLobatto", "include/shiva/discretizations/finiteElementMethod/parentElements/ParentElement.hpp: value", "include/shiva/geometry/mapping/JacobianTransforms.hpp: inverseJacobian"]}
{"id": "C140", "title": "In float and double, results for data with few binary digits are exact", "statement": "For a trilinear element in float or double, if the numbers put in are whole multiples of a power of two and have few enough binary digits, nothing is rounded: with nodal values of at most m units and a point of the parent cube with at most p binary places, interpolated values are exact if m 8^p is below 2^18 (float) or 2^47 (double), and gradients and Jacobians if m 4^p is below 2^19 or 2^48 (p at most 15). The determinant returned by inverseJacobian is exact if the entries of the Jacobian are at most 140 (114500) units. For cells with vertices on a lattice in a cube of 34 (28600) units the determinants at the vertices, centres of edges and faces and the centre are exact, so that positive control values of these 27 determinants prove a cell valid without any margin; for boxes with edges of at most 140 (114500) units the determinant is exactly the product of the halves of the edges.", "quantifier": "float and double, all trilinear elements of the shipped spacings with end points -1 and 1, all nodal values, vertices and points with the stated digits, units 2^s with |s| up to 30 (float) or 300 (double), all build configurations", "why_tests_cant": "The unit tests compare results for such data with a tolerance or with the exact value for a few cells; that no operation rounds for any data of this form is a statement about all of them.", "anchors": ["include/shiva/discretizations/finiteElementMethod/parentElements/ParentElement.hpp: value", "include/shiva/discretizations/finiteElementMethod/parentElements/ParentElement.hpp: gradient", "include/shiva/geometry/mapping/LinearTransform.hpp: jacobian", "include/shiva/geometry/mapping/JacobianTransforms.hpp: inverseJacobian", "include/shiva/common/MathUtilities.hpp: inverse"]}
{"id": "C141", "title": "In float and double, a box gives the same results as LinearTransform and as Scaling", "statement": "For a box with edges len, given by its vertices to LinearTransform and by its edges to Scaling, both in float or both in double, the Jacobians and determinants of the two agree up to a few roundings of the results, at every point and wherever the box lies. (The code violates this for boxes that are small compared with their distance from the origin: LinearTransform can give a negative determinant where Scaling gives the exact, positive one. The two agree exactly if the coordinates have few binary digits, and in general the determinants up to 2513 u B^3 and the entries of the Jacobians up to 137 u B, for coordinates up to B.)", "quantifier": "float and double, all boxes with coordinates up to B with B^3 at most 2^120 and edges of at least 2^-40, all points of the parent cube, all build configurations; for exact agreement all boxes with few binary digits as in C140", "why_tests_cant": "Tests compare the two for a few boxes near the origin; how far they can differ for any box, and that they can have different signs, needs an argument over all boxes or a constructed one.", "anchors": ["include/shiva/geometry/mapping/LinearTransform.hpp: inverseJacobian", "include/shiva/geometry/mapping/Scaling.hpp: inverseJacobian", "include/shiva/geometry/mapping/Scaling.hpp: jacobian"]}
{"id": "C142", "title": "Infinities and NaN in the data are not hidden by finite results", "statement": "In float and double, if the value at a support point or a coordinate of the point is an infinity or NaN, ParentElement::value returns an infinity or NaN, also where the shape function of that support point vanishes; if a value at a support point is not finite, no component of ParentElement::gradient is. If component i of a vertex of a LinearTransform is not finite, no entry of row i of the Jacobian is finite, the determinant of inverseJacobian is not finite, and every column of the returned inverse except column i is NaN. The same holds for inverse of a 3x3 matrix with an entry that is not finite: det is not finite, and the entries away from its row and column are NaN. If the bad number is NaN, all these results are NaN. A length of a Scaling that is not finite gives a Jacobian entry and a determinant that are not finite. So a user who checks the determinant sees every damaged input.", "quantifier": "float and double, all elements of the shipped spacings and orders with up to three dimensions, all coordinates, values, vertices and matrices, finite or not, all build configurations", "why_tests_cant": "No unit test feeds an infinity or NaN; that one is never lost needs all positions and all values of the other numbers, including zeros and opposite infinities.", "anchors": ["include/shiva/discretizations/finiteElementMethod/parentElements/ParentElement.hpp: value", "include/shiva/discretizations/finiteElementMethod/parentElements/ParentElement.hpp: gradient", "include/shiva/geometry/mapping/LinearTransform.hpp: jacobian", "include/shiva/geometry/mapping/JacobianTransforms.hpp: inverseJacobian", "include/shiva/common/MathUtilities.hpp: inverse", "include/shiva/geometry/mapping/Scaling.hpp: jacobian", "include/shiva/geometry/mapping/Scaling.hpp: inverseJacobian"]}
{"id": "C143", "title": "Signs of zeros never change other results, and dividing by a zero determinant never gives finite entries", "statement": "With IEEE 754 signed zeros and division by zero, ParentElement::value and gradient, the points of the spacings, LinearTransform jacobians, and Scaling Jacobians and determinants have the same results, infinities, NaN and exceptions whatever the signs of the zeros among their inputs: only the sign of a result that is itself zero may differ. The same holds for inverse and inverseJacobian if the determinant is not zero. If the computed determinant is zero, of either sign, then every entry of the inverse left behind by inverse and inverseJacobian is an infinity or NaN and an exception was raised on the way to it. If a length of a Scaling or UniformScaling is zero, the inverse entry of that direction is an infinity, and the determinant is not a finite number other than zero.", "quantifier": "float and double, all elements of the shipped spacings and orders with up to three dimensions, all coordinates, values, vertices, matrices and lengths with signed zeros, infinities and NaN, all build configurations", "why_tests_cant": "No test uses negative zeros or degenerate cells; that the sign of a zero cannot change any other result is a statement about every intermediate operation.", "anchors": ["include/shiva/discretizations/finiteElementMethod/parentElements/ParentElement.hpp: value", "include/shiva/discretizations/finiteElementMethod/parentElements/ParentElement.hpp: gradient", "include/shiva/geometry/mapping/LinearTransform.hpp: jacobian", "include/shiva/geometry/mapping/JacobianTransforms.hpp: inverseJacobian", "include/shiva/common/MathUtilities.hpp: inverse", "include/shiva/geometry/mapping/Scaling.hpp: inverseJacobian", "include/shiva/geometry/mapping/UniformScaling.hpp: inverseJacobian", "include/shiva/functions/spacing/Spacing.hpp: coordinate"]}
{"id": "C144", "title": "In float and double, the order of rows, columns and axes of space does not change results", "statement": "In float and in double, exchanging rows or columns of a 3x3 matrix changes nothing in what inverse leaves in its arguments but the sign of the determinant and the order of the columns and rows of the inverse; and renumbering the axes of space of a cell exchanges the rows of its Jacobian, changes nothing in the determinant but its sign, and exchanges the columns of the inverse Jacobian. (The Jacobian respects every renumbering exactly. The code violates the rest: the determinant is summed along the first column from the first row to the last, so that exactly those exchanges are respected that keep the last row and the first column in place; all others change some determinants by more than the sign, by at most twice the error bound of C101.)", "quantifier": "float and double; all exchanges of rows and columns, and of rows for columns; all matrices and vertices, infinities and NaN included; all shipped shape functions, dimensions up to 3, points and build configurations; for the size of the differences all matrices with entries up to C, C^3 at most 2^120", "why_tests_cant": "A test compares a few matrices, for which sums in different orders usually agree; which of the 36 exchanges are exact for every matrix and which are not needs a proof for the former and a constructed matrix for the latter.", "anchors": ["include/shiva/common/MathUtilities.hpp: inverse", "include/shiva/geometry/mapping/LinearTransform.hpp: jacobian", "include/shiva/geometry/mapping/JacobianTransforms.hpp: inverseJacobian"]}
{"id": "C145", "title": "In float and double, matrices and cells without volume are recognised", "statement": "In float and in double, a 3x3 matrix with two equal or opposite rows or columns or with a row or column of zeros has computed determinant exactly zero and no finite inverse; and so has, at every point, a cell without volume: one that is flat, or one with two opposite faces that coincide. (This holds for rows, for the last two columns and for zeros; for flat cells in which two coordinates are equal or opposite or one is zero at all vertices; and for cells whose faces coincide in the last direction, if it has order 1. The code violates the rest: matrices whose first column is repeated, and a plate (±1,±1,z) without thickness, have finite determinants other than zero. Rows of Jacobians are bit for bit the gradients of the coordinates.)", "quantifier": "float and double; all matrices and vertices, with infinities and NaN (then the determinant may be infinite or NaN); all shipped shape functions, all points and build configurations; with entries up to C, C^3 at most 2^120, nothing infinite occurs", "why_tests_cant": "That a difference of rounded products cancels exactly for every matrix of a kind is a statement about all roundings; tests with small integers see exact arithmetic only and find zero in the violated cases as well.", "anchors": ["include/shiva/common/MathUtilities.hpp: inverse", "include/shiva/geometry/mapping/LinearTransform.hpp: jacobian", "include/shiva/geometry/mapping/JacobianTransforms.hpp: inverseJacobian", "include/shiva/discretizations/finiteElementMethod/parentElements/ParentElement.hpp: gradient"]}
{"id": "C146", "title": "Fusing multiplications and additions does not change results that are exact without it", "statement": "A compiler may fuse a product with the sum or difference that uses it (GCC and nvcc do so by default where the processor can), so that one rounding disappears. Whatever it fuses: the values of basis and shape functions are the same to the last bit; where nothing is rounded without fusing, nothing changes; interpolating at a support point gives the rounded product of its shape function and its nodal value, whatever the other nodal values; 3x3 matrices with a row or column of zeros or with two equal rows have determinant zero; and a field whose nodal values are all the same has derivative zero in the last direction of a trilinear element. (The code violates the last two for equal rows and for constants: both rely on the difference of two equal rounded products, which is not zero if one of them is fused.)", "quantifier": "every choice of fused operations, the same or different in different places; every rounding function (for zeros: that keeps zero; at support points: that keeps its results); all dimensions, orders, nodes, points, nodal values, matrices", "why_tests_cant": "Tests are built with one compiler and one set of flags, which fuse in one way or not at all; the ways in which another build may fuse are unlimited.", "anchors": ["include/shiva/functions/bases/LagrangeBasis.hpp: value", "include/shiva/discretizations/finiteElementMethod/parentElements/ParentElement.hpp: value, gradient", "include/shiva/common/MathUtilities.hpp: inverse"]}
{"id": "C147", "title": "Interpolated fields are continuous across faces to the last bit in float and double", "statement": "In float and double, interpolated values and derivatives along a layer of nodes depend only on the nodal values of that layer. So two cells of the same class (equal spacing or Gauss-Lobatto in the direction across) that carry the same finite nodal values on a shared face interpolate the same value at every point of the face, and the same derivatives along it, to the last bit, and if they have the same vertices on the face their Jacobians have the same columns along it; although the shape functions of some Gauss-Lobatto orders are not exactly 1 at their own nodes. (The code violates this if one of the cells is mirrored along the face: then the terms are added in another order, and the values can differ, though by no more than twice the rounding error of an interpolated value.)", "quantifier": "both number types, equal spacing and Gauss-Lobatto points of orders 1 to 8 in the direction across the face (all families along it), up to three dimensions, all finite nodal values, all points of the face", "why_tests_cant": "There are as many points and nodal values as pairs of floating-point numbers; a jump of one unit in the last place shows at few of them, and existing tests use one cell.", "anchors": ["include/shiva/discretizations/finiteElementMethod/parentElements/ParentElement.hpp: value, gradient", "include/shiva/geometry/mapping/LinearTransform.hpp: jacobian", "include/shiva/functions/bases/BasisProduct.hpp: value, gradient", "include/shiva/functions/bases/LagrangeBasis.hpp: value", "include/shiva/common/NestedSequenceUtilities.hpp: forNestedSequence"]}
{"id": "C148", "title": "Convex quadrilaterals and hexahedra with vertical edges are valid cells that do not overlap", "statement": "For first-order elements with nodes at -1 and 1. Two dimensions: the determinants of the Jacobian of LinearTransform at the four vertices are all positive if and only if going round the quadrilateral one turns left at every corner (it is strictly convex and numbered counter-clockwise). Then the determinant is positive at every point of the parent element, the map onto the cell is one-to-one onto the convex hull of the four vertices, the area of the cell is the one given by the corners, and the sum of the weights times the determinants of any supported quadrature rules is this area up to a relative error of the accuracy of the decimals of the rules. Two such quadrilaterals sharing an edge have no other point in common. Three dimensions: a cell with vertical edges, whose upper vertices lie above the lower ones and whose base is such a quadrilateral, however steep and twisted its top and bottom, has a positive detJ and an inverse of the Jacobian at every point after setData, is mapped one-to-one, and its quadrature volume is its volume. Two such cells that share a face, one above the other or side by side, have no other point in common.", "quantifier": "all positions of the vertices, all points of the parent element, all supported quadrature rules and numbers of points per direction, all build configurations", "why_tests_cant": "Tests use a few fixed cells and points. That no point of a cell is degenerate, that the cell is the whole convex hull and that neighbours do not overlap are statements about all points of all cells.", "anchors": ["include/shiva/geometry/mapping/LinearTransform.hpp: jacobian", "include/shiva/geometry/mapping/LinearTransform.hpp: setData", "include/shiva/geometry/mapping/JacobianTransforms.hpp: inverseJacobian", "include/shiva/geometry/shapes/InterpolatedShape.hpp: value", "include/shiva/discretizations/finiteElementMethod/parentElements/ParentElement.hpp: value", "include/shiva/functions/quadrature/Quadrature.hpp: weight"]}
{"id": "C149", "title": "In float and double, a matrix times its computed inverse is close to the identity", "statement": "In float and in double, for a 3x3 matrix whose determinant is at least twice its error bound and not too small for its entries (the conditions of C101), the product of the matrix with the finite numbers left behind by inverse (both overloads), from either side, differs from the identity in every entry by at most 2(eps + E/|det|)/|det| times the sum of the magnitudes of the terms of that entry, plus an explicit allowance for underflow; eps is five roundings' worth and E the error bound of the determinant. On the diagonal the sum of the magnitudes is that of the determinant's terms. The same holds for what inverseJacobian returns for a cell and the matrix of partial derivatives of the map from the parent element to the cell, with the roundings of the Jacobian included.", "quantifier": "float and double, all matrices with entries of magnitude at most C and determinant at least 2/Q and twice its error bound, C^3 and C^2 Q at most 2^120; all cells of shipped shape functions under these conditions, all parent points, all build configurations", "why_tests_cant": "Tests compare a few inverses with tolerances; the error of a product with the inverse over all matrices, near-singular ones included, is not a finite check.", "anchors": ["include/shiva/common/MathUtilities.hpp: inverse", "include/shiva/geometry/mapping/JacobianTransforms.hpp: inverseJacobian", "include/shiva/geometry/mapping/LinearTransform.hpp: jacobian"]}
{"id": "C150", "title": "Order-one interpolation increases along an axis if the nodal values do", "statement": "On a line, square or cube of order one, if of any two nodes that differ in one direction only the upper has at least the value of the lower, then moving up in that direction does not decrease the interpolated value: a monotone table stays monotone between its nodes. In exact arithmetic the value even grows at least at half the least nodal difference per unit. (In float and double the code violates this: with nodal values 3 and 4 there are neighbouring points where the value falls. For order two it is false in exact arithmetic.)", "quantifier": "exact arithmetic in any dimension; float and double, elements of order one with EqualSpacing or GaussLobattoSpacing, all nodal values up to 2^56, all pairs of points of the parent element in line along an axis", "why_tests_cant": "The fall is one unit in the last place between adjacent floating-point numbers; a test with a few points misses it, and no number of points shows that it does not happen.", "anchors": ["include/shiva/discretizations/finiteElementMethod/parentElements/ParentElement.hpp: value", "include/shiva/functions/bases/LagrangeBasis.hpp: value", "include/shiva/functions/bases/BasisProduct.hpp: value", "include/shiva/geometry/shapes/InterpolatedShape.hpp: value"]}
{"id": "C151", "title": "The derivative along an axis has the sign of the nodal differences", "statement": "On a line, square or cube of order one, if of any two nodes that differ in one direction only the upper has at least the value of the lower, then the derivative in that direction is nowhere negative; in exact arithmetic it lies between half the least and half the greatest of these nodal differences. Applied to vertex coordinates: an entry of the Jacobian has the sign of the edges it is made of. (In float and double this holds in the last direction. In the first direction of a square the code violates it: the derivative can be negative though all nodal differences are positive.)", "quantifier": "exact arithmetic in any dimension; float and double, elements of order one with EqualSpacing or GaussLobattoSpacing, all nodal values, all points of the parent element", "why_tests_cant": "Whether the rounded sum of opposite terms keeps the sign depends on the order of the sum and on the last bits of all nodal values and coordinates; tests see a few of them.", "anchors": ["include/shiva/discretizations/finiteElementMethod/parentElements/ParentElement.hpp: gradient", "include/shiva/functions/bases/LagrangeBasis.hpp: gradient", "include/shiva/functions/bases/BasisProduct.hpp: gradient", "include/shiva/geometry/mapping/LinearTransform.hpp: jacobian"]}
{"id": "C152", "title": "Order-one interpolation keeps signs and order in every rounding mode and whatever the compiler fuses", "statement": "For elements of order one in every direction whose nodes are the ends of the interval, at points between the nodes, with any rounding function that does not reverse the order of numbers and keeps zero (to nearest, up, down, towards zero), and whatever products the compiler fuses with sums: no shape function is negative; if no nodal value is negative, no interpolated value is (this also holds, and nothing is divided by zero, if every operation has its own relative error below 1, as with wider registers); if no nodal value of one field exceeds that of another, the results that the same compiled function returns for the two fields are in this order; as the point moves up an axis, the shape functions of the upper support points do not decrease and those of the lower ones do not increase; and if no nodal value on the upper side is negative and none on the lower side is positive, the interpolated value does not decrease. Overflow is not considered.", "quantifier": "all dimensions, all intervals of nodes, all points between the nodes, all nodal values, all monotone rounding functions that keep zero, all choices of fused products (the same for two results that are compared), all relative errors below 1", "why_tests_cant": "Tests run one build with one rounding mode; which products are fused depends on the compiler, its flags and the processor, and the results must be in order for all points and nodal values.", "anchors": ["include/shiva/functions/bases/LagrangeBasis.hpp: value", "include/shiva/functions/bases/BasisProduct.hpp: value", "include/shiva/discretizations/finiteElementMethod/parentElements/ParentElement.hpp: value"]}
{"id": "C153", "title": "Refining a field or a cell loses nothing", "statement": "A field is moved to a part of the parent element (or all of it), to an element of the same or a higher order in each direction: its new nodal values are the interpolated values at the new nodes. In exact arithmetic the new field has, at every point, the value of the old one, and its gradient times the half lengths of the part; interpolating it at the old nodes gives back the old nodal values. In rounded arithmetic, with new nodal values that are off by at most delta, the computed value is within an explicit bound of the value of the old field. For cells refined in this way (new nodes at the positions that the old cell gives them), positions agree, Jacobians are multiplied by the diagonal matrix of the half lengths and determinants by their product. If a cell is split by a plane of its parent element, the two new cells cover it; if it does not overlap itself, they share only the image of the plane and their volumes add up to its volume.", "quantifier": "all dimensions (Jacobians: at most 3, determinants: 3), all orders old <= new, all node families of either element, all parts (also mirrored ones), all nodal values and positions, all points, all splitting planes, all rounding functions with a unit roundoff, all build configurations", "why_tests_cant": "Tests check single elements at a few points; that nothing is lost when meshes and orders are refined must hold for all fields, parts, points and orders.", "anchors": ["include/shiva/discretizations/finiteElementMethod/parentElements/ParentElement.hpp: value", "include/shiva/discretizations/finiteElementMethod/parentElements/ParentElement.hpp: gradient", "include/shiva/geometry/mapping/LinearTransform.hpp: jacobian", "include/shiva/geometry/mapping/JacobianTransforms.hpp: inverseJacobian", "include/shiva/geometry/shapes/InterpolatedShape.hpp: value"]}
{"id": "C154", "title": "On a face, an element interpolates like the element of the face", "statement": "At a point of a layer of nodes of an element (such as a side of the cube, with equally spaced or Gauss-Lobatto points), the interpolated value is that of the element of one dimension less that has the other bases and the nodal values of the layer, and the components of the gradient along the layer are its gradient. In rounded arithmetic the two computed values differ by no more than their rounding errors, which depend on the nodal values of the layer only. In float and double the element of the layer gives the same values and derivatives to the last bit, if the basis functions of the direction across are exactly 1 at their own points (C128: all equally spaced points, and the other families at low orders). Two cells that share a layer with the same points along it and the same nodal values on it agree in value and in the components of the gradient along it at every point of the layer, whatever their orders and points across the layer, and even if the layer lies in different directions of the two.", "quantifier": "all dimensions (float and double: two and three), orders and distinct interpolation points (float and double: the shipped families), all directions and layers, all nodal values (also off the layer), all points of the layer, all rounding functions with a unit roundoff", "why_tests_cant": "Tests check single elements of equal orders at a few points; that fields are continuous across faces, and faces can be integrated with elements of the face, must hold for all orders, layers, values and points.", "anchors": ["include/shiva/discretizations/finiteElementMethod/parentElements/ParentElement.hpp: value", "include/shiva/discretizations/finiteElementMethod/parentElements/ParentElement.hpp: gradient", "include/shiva/geometry/shapes/InterpolatedShape.hpp: value", "include/shiva/functions/bases/LagrangeBasis.hpp: value"]}
{"id": "C155", "title": "Along an edge, the derivative is half of the difference of the nodal values at its ends, correctly rounded", "statement": "For elements of order one with nodes at -1 and 1: on an edge of the parent element, the derivative in the direction of the edge is half of the difference of the nodal values at the ends of the edge. In float and double the computed derivative is the number of the type that is nearest to it, with a single rounding, for nodal values that are numbers of the type and whose halves are, too. So elements that share an edge compute the same derivative along it to the last bit, even if they have different numbers of dimensions, and opposite numbers if the edge has opposite directions in the two. On an edge of a cell, the column of the Jacobian that belongs to the edge is half of the edge vector, correctly rounded; at a vertex this holds for all columns.", "quantifier": "all dimensions (float and double: up to three), all edges, all points of an edge, all nodal values and vertices that are numbers of the type and whose halves are, all build configurations, both types, all families of points that give the nodes -1 and 1", "why_tests_cant": "Tests compare a few gradients within a tolerance; that a derivative at vertices and edges has a single rounding, and does not depend on the element that computes it, must hold for all values, edges and elements.", "anchors": ["include/shiva/discretizations/finiteElementMethod/parentElements/ParentElement.hpp: gradient", "include/shiva/functions/bases/BasisProduct.hpp: gradient", "include/shiva/functions/bases/LagrangeBasis.hpp: gradient", "include/shiva/geometry/mapping/LinearTransform.hpp: jacobian"]}
{"id": "C156", "title": "At a vertex, the determinant is the triple product of the half edges, with an error relative to the edges", "statement": "For hexahedra of order one with nodes at -1 and 1. At a vertex, inverseJacobian returns the determinant of the matrix of the halves of the three edges that meet there. If it is negative, the determinant is negative at points of the interior that are as close to the vertex as one likes, so a check at the vertices rejects no valid cell. In float and double, for vertices whose coordinates (and their halves) are numbers of the type, the returned number is finite and off by at most eight roundings' worth of the sum of the magnitudes of the six terms of this determinant (plus a multiple of the smallest positive number), so it has the right sign if the determinant is larger than that; if the determinant is at least twice as large, the computed inverse is finite and close to that of the half edges, with an explicit bound. The bounds do not depend on how far the cell is from the origin.", "quantifier": "all hexahedra, all vertices, all edges whose halves are at most C with C cubed at most 2^120, all distances from the origin that the type can express, both types, all families of points that give the nodes -1 and 1, all build configurations", "why_tests_cant": "Tests look at a few cells near the origin and compare within a tolerance. That accuracy is not lost for cells far from the origin, and that a negative determinant at a vertex always means an invalid cell, must hold for all cells.", "anchors": ["include/shiva/geometry/mapping/LinearTransform.hpp: jacobian, inverseJacobian", "include/shiva/common/MathUtilities.hpp: inverse", "include/shiva/discretizations/finiteElementMethod/parentElements/ParentElement.hpp: gradient"]}
{"id": "C157", "title": "Adding a constant to a field, or moving a cell, does not change derivatives", "statement": "If the same constant is added to all nodal values of a field, its gradient stays the same; if a cell is moved by a vector, its Jacobian, the determinant and the inverse of the Jacobian stay the same. (In float and double, and as long as the nodal values or coordinates are numbers of the type before and after, this holds to the last bit on the edges of elements of order one for the derivative along the edge, and at the vertices of a hexahedron for the Jacobian, its determinant and its inverse. Inside of elements the code violates it: a derivative that was zero becomes nonzero after a constant was added.)", "quantifier": "exact arithmetic: all dimensions, orders, points, fields, constants, cells and vectors; float and double: elements of order one with nodes at -1 and 1, all edges and vertices, all nodal values and constants for which the values and their halves are numbers of the type before and after", "why_tests_cant": "Rounding depends on the size of the nodal values, so a cell far away from the origin is computed differently from one close to it; tests put a few cells at a few places.", "anchors": ["include/shiva/discretizations/finiteElementMethod/parentElements/ParentElement.hpp: gradient", "include/shiva/geometry/mapping/LinearTransform.hpp: jacobian, inverseJacobian", "include/shiva/common/MathUtilities.hpp: inverse"]}
{"id": "C158", "title": "Bounds checks change nothing unless they stop the program", "statement": "Compare any program built with bounds checks with the same program built without. Unless a check stops it, it has the same outcome: the same elements are read and written, all arrays and views have the same contents, and setData, jacobian, inverse and inverseJacobian of all mappings leave the same numbers. This holds for all indices (of any integer type), in or out of range, all contents and all arithmetics. If several threads that share arrays run to their ends with checks, in some order of their accesses, they do so without, free of data races and with the same values. So a program that was tested with checks, and was not stopped, behaves the same in a build without. When the compiler evaluates the code, the checks make no difference at all. For cells made of shipped elements no check ever stops the program, so all builds and contexts (host, device, compiler) give the same numbers to the last bit. (On a device, what a failed check does is itself undefined, see C59.)", "quantifier": "all arrays, views, dimensions, indices, contents, programs of any length, transforms, points, quadrature rules, arithmetics, previous contents of output arguments and build configurations", "why_tests_cant": "Tests are built once, with or without checks, and only with indices in range; that two builds agree on all programs is a statement about pairs of runs.", "anchors": ["include/shiva/common/CArrayHelper.hpp: linearIndexHelper::level", "include/shiva/common/CArray.hpp: operator(), operator[], squareBracketOperatorHelper", "include/shiva/common/ShivaMacros.hpp: SHIVA_ASSERT_MSG", "include/shiva/common/MathUtilities.hpp: inverse", "include/shiva/geometry/mapping/LinearTransform.hpp: setData, jacobian, inverseJacobian", "include/shiva/geometry/mapping/Scaling.hpp: jacobian, inverseJacobian", "include/shiva/geometry/mapping/UniformScaling.hpp: jacobian, inverseJacobian"]}
{"id": "C159", "title": "Moving inner nodes of a mesh does not change its volume", "statement": "Take two meshes of a block of n0 x n1 x n2 cells made of Lagrange elements of any orders with nodes at -1 and 1, such that neighbouring cells have the nodes of the face between them in common, and such that the two meshes have the same nodes on the faces of the block. In exact arithmetic the integrals over the parent cube of the determinants that inverseJacobian returns have the same sum over the cells, wherever the inner nodes are, even if cells are tangled. If all maps are one-to-one and no determinant is negative, the volumes of the cells have the same sum. For hexahedra, the sums of weights times determinants over all cells and quadrature points agree, up to the accuracy of the shipped decimals, for all rules but the two-point Gauss-Lobatto rule (with that rule there are two meshes for which they differ by an eighth). So a moving mesh with a fixed boundary neither gains nor loses volume.", "quantifier": "all block sizes, orders, node families, positions of the nodes, quadrature rules and build configurations", "why_tests_cant": "Tests compute single cells with fixed vertices; that contributions of inner faces cancel for all positions of all nodes is a statement about all meshes.", "anchors": ["include/shiva/geometry/mapping/LinearTransform.hpp: inverseJacobian, jacobian, setData", "include/shiva/common/MathUtilities.hpp: inverse", "include/shiva/discretizations/finiteElementMethod/parentElements/ParentElement.hpp: gradient", "include/shiva/functions/spacing/Spacing.hpp: GaussLobattoSpacing, EqualSpacing", "include/shiva/functions/quadrature/Quadrature.hpp: QuadratureGaussLegendre, QuadratureGaussLobatto"]}
{"id": "C160", "title": "The mean gradient over a mesh depends only on the boundary", "statement": "Take two meshes as in C159, and on each a variable interpolated by the elements of the cells, such that neighbouring cells have the nodal values on the face between them in common, and such that the two meshes have the same nodes and the same nodal values on the faces of the block. In exact arithmetic, if no determinant vanishes on the cells, the integrals of the gradient in physical coordinates (gradient times the matrix of inverseJacobian, times the determinant) have the same sum over the cells, component by component. For hexahedra the same holds for the sums over quadrature points, up to the accuracy of the shipped decimals, for all rules but the two-point Gauss-Lobatto rule (with that rule there are a mesh and two variables for which they differ by an eighth). So neither moving inner nodes nor changing inner values creates or destroys a mean gradient: contributions of inner faces cancel.", "quantifier": "all block sizes, orders, node families, positions of the nodes, nodal values, quadrature rules and build configurations", "why_tests_cant": "Tests look at one cell with fixed vertices and values; cancellation on inner faces is a statement about all pairs of neighbouring cells and all values.", "anchors": ["include/shiva/geometry/mapping/LinearTransform.hpp: inverseJacobian, jacobian, setData", "include/shiva/common/MathUtilities.hpp: inverse", "include/shiva/discretizations/finiteElementMethod/parentElements/ParentElement.hpp: gradient, value", "include/shiva/functions/quadrature/Quadrature.hpp: QuadratureGaussLegendre, QuadratureGaussLobatto"]}
{"id": "C161", "title": "Volume and mean gradient of unstructured meshes depend only on the boundary", "statement": "Take cells of one order with the same mirror-symmetric nodes, among them -1 and 1, in all three directions (the Gauss-Lobatto nodes are such), glued along faces: each face is either on the boundary or has its nodes in common with a face of another cell, whose own node numbering may be turned by any rotation of the cube. In exact arithmetic, for two such meshes with the same gluing and the same nodes on the boundary, the integrals of the determinant that inverseJacobian returns have the same sum over the cells; if the maps are one-to-one with determinants nowhere negative, the sums of the volumes of the cells are the same. For variables with the same values at common nodes, the same on the boundary in both meshes, the integrals of the gradient in physical coordinates have the same sum too, if no determinant vanishes. For hexahedra the sums over quadrature points of weights times determinants, and of weights times gradients times determinants, agree up to the accuracy of the shipped decimals, for all rules but the two-point Gauss-Lobatto rule; with that rule there are meshes of four hexahedra for which the sums of determinants differ by an eighth. So these results do not depend on how the cells of a mesh are numbered or turned.", "quantifier": "all finite numbers of cells, gluings by rotations, orders, mirror-symmetric nodes that include the ends, node positions, nodal values, quadrature rules and build configurations", "why_tests_cant": "Tests look at one cell; here contributions of two cells that number the common face differently must cancel, for all 24 relative orientations, all positions and all orders.", "anchors": ["include/shiva/geometry/mapping/LinearTransform.hpp: inverseJacobian, jacobian, setData", "include/shiva/discretizations/finiteElementMethod/parentElements/ParentElement.hpp: gradient, value", "include/shiva/functions/bases/LagrangeBasis.hpp: LagrangeBasis", "include/shiva/functions/spacing/Spacing.hpp: GaussLobattoSpacing", "include/shiva/functions/quadrature/Quadrature.hpp: QuadratureGaussLegendre, QuadratureGaussLobatto"]}
{"id": "C162", "title": "The cells of a mesh of a box measure the box", "statement": "Take a block of cells of any orders, with element nodes that include -1 and 1, such that neighbouring cells have the nodes on the face between them in common and the nodes on the faces of the block are where a mesh of boxes has them (with any spacing of the boxes). In exact arithmetic the integrals of the determinant that inverseJacobian returns sum up to the product of the edges of the box that the block fills, wherever the inner nodes are. If the maps are one-to-one with determinants nowhere negative, so do the volumes of the cells. For hexahedra the sum over all cells and quadrature points of weights times determinants is that product, up to the accuracy of the shipped decimals, for all rules but the two-point Gauss-Lobatto rule.", "quantifier": "all block sizes, orders, element nodes that include the ends, spacings of the boxes, positions of inner nodes, quadrature rules and build configurations", "why_tests_cant": "Tests measure single cells with fixed vertices; the sum over a mesh is independent of all inner nodes.", "anchors": ["include/shiva/geometry/mapping/LinearTransform.hpp: inverseJacobian, jacobian, setData", "include/shiva/common/MathUtilities.hpp: inverse", "include/shiva/functions/quadrature/Quadrature.hpp: QuadratureGaussLegendre, QuadratureGaussLobatto"]}
{"id": "C163", "title": "For affine boundary values the mean gradient over a mesh is exact", "statement": "Take a mesh as in C159 (a block of cells of any orders) or C161 (cells glued along faces in any orientation), and a variable with the same values at common nodes, which at the nodes on the boundary is b . x + d. In exact arithmetic, if no determinant vanishes on the cells, the gradient in physical coordinates (gradient times the matrix of inverseJacobian, times the determinant), integrated over all cells, is b times the sum of the integrals of the determinants, whatever the values and positions of inner nodes. For hexahedra the same holds for the sums over quadrature points, up to the accuracy of the shipped decimals, for all rules but the two-point Gauss-Lobatto rule.", "quantifier": "all meshes of both kinds, orders, node positions, b and d, values at inner nodes, quadrature rules and build configurations", "why_tests_cant": "Tests look at one cell with fixed vertices and values; here inner values and positions are arbitrary.", "anchors": ["include/shiva/geometry/mapping/LinearTransform.hpp: inverseJacobian, jacobian, setData", "include/shiva/common/MathUtilities.hpp: inverse", "include/shiva/discretizations/finiteElementMethod/parentElements/ParentElement.hpp: gradient, value", "include/shiva/functions/quadrature/Quadrature.hpp: QuadratureGaussLegendre, QuadratureGaussLobatto"]}
