import Verif.Model.CArray
import Verif.Model.CArrayTypes
import Verif.Model.Sequence
import Verif.Model.IndexTypes
import Verif.Model.MathUtilities
import Verif.Model.NCube
import Verif.Model.Spacing
import Verif.Model.Quadrature
import Verif.Model.LagrangeBasis
import Verif.Model.BasisProduct
import Verif.Model.Scaling
import Verif.Model.LinearTransform
import Verif.Model.ErrorHandling

/-!
# The unit tests of the repository, run on the model

These are tests of the transcription, not proofs of properties: each `example` gives the model the inputs of
a test in /repo/tests and compares the outcome with the reference values written there, with the tolerance
used there.  Real arithmetic is exact (`ratArith`).  Square roots in the references are replaced by their
squares.
-/

namespace Verif.Tests

/-- `EXPECT_NEAR( x, ref, abs( ref ) * tol )`. -/
def near (tol : ℚ) (x : Res ℚ) (ref : ℚ) : Bool :=
  match x with
  | .ok v => decide (|v - ref| ≤ |ref| * tol)
  | _ => false

/-- `pmpl::check( x, ref, tol )`. -/
def close (tol : ℚ) (x : Res ℚ) (ref : ℚ) : Bool :=
  match x with
  | .ok v => decide (|v - ref| < tol)
  | _ => false

/-- `near` for the entries of a list. -/
def nearAll (tol : ℚ) (x : Res (List ℚ)) (ref : List ℚ) : Bool :=
  match x with
  | .ok v => v.length == ref.length && (v.zip ref).all fun p => near tol (.ok p.1) p.2
  | _ => false

/-- Evaluate a list of results. -/
def collect {α : Type} : List (Res α) → Res (List α)
  | [] => .ok []
  | x :: xs => do
    let a ← x
    let as ← collect xs
    .ok (a :: as)

/-- `0, .., n-1` as `int`. -/
def ints (n : Nat) : List Int := (List.range n).map Int.ofNat

/-- All index tuples of a box of three directions, in lexicographic order. -/
def box3 (n : Nat) : List (List Int) :=
  (ints n).flatMap fun a => (ints n).flatMap fun b => (ints n).map fun c => [a, b, c]

/-- tests/discretizations/finiteElementMethod/testParentElement.cpp 62-63 -/
def field1 : List ℚ :=
  [0.75321698514839, 0.043928500403754, -0.82755314609174, -0.24417409139023, -0.97671085406151, 0.85453232668432,
   0.087513533902136, -0.041336659055151]

/-- tests/discretizations/finiteElementMethod/testParentElement.cpp 93-104 -/
def field3 : List ℚ :=
  [0.75321698514839, 0.043928500403754, -0.82755314609174, -0.24417409139023, -0.97671085406151, 0.85453232668432,
   0.087513533902136, -0.041336659055151, -0.50930154443859, 0.51979200312318, 0.96998599508861, -0.56590975687332,
   -0.081965626149824, 0.76945833740991, 0.1677085719803, -0.47205366499994, 0.83912032472826, -0.15232955420577,
   0.97458062333262, 0.17588531238907, -0.83439021321014, 0.58042926096295, 0.39231786572069, 0.50373246771709,
   -0.19690154632734, 0.26548251523734, 0.64878944174577, -0.78892331571369, -0.057476701102634, -0.38000100540515,
   0.56360464169372, -0.56726393971425, -0.57679390444802, 0.75875590367842, -0.18369900352008, 0.35735232771115,
   0.71207507000379, -0.98436408586698, 0.30360304171591, -0.3522210520638, 0.31575877583795, 0.53395391736692,
   0.21200301642118, -0.94894741267982, 0.23239011510346, 0.23202839452223, 0.69368646162036, -0.21906790427127,
   0.87616166398538, -0.24685540701046, 0.80172883854487, -0.75819705120112, -0.54601148928802, 0.97267584128641,
   0.62933378989992, -0.70069407632118, 0.81158931783762, -0.51941755373757, -0.59755364127609, -0.90505968109323,
   0.39469344992863, -0.7569937332484, 0.24030904537321, 0.64377524701047]

/-- tests/geometry/shapes/testInterpolatedShapeSolutions.hpp 36-37 -/
def shapeValues1 : List ℚ :=
  [0.030564122401949, 0.16864152448555, 0.022050860348051, 0.12166849276445, 0.058563594743051, 0.32313225836945,
   0.042251422506949, 0.23312772438055]

/-- tests/geometry/shapes/testInterpolatedShapeSolutions.hpp 38-41 -/
def shapeGradients1 : List ℚ :=
  [-0.0445638585725, -0.026307491375, -0.09960282344375, -0.2458868914275, -0.145155008625, 0.09960282344375,
   -0.0321511414275, 0.026307491375, -0.07185967655625, -0.1773981085725, 0.145155008625, 0.07185967655625,
   0.0445638585725, -0.050407508625, -0.19084792655625, 0.2458868914275, -0.278129991375, 0.19084792655625,
   0.0321511414275, 0.050407508625, -0.13768957344375, 0.1773981085725, 0.278129991375, 0.13768957344375]

/-- tests/geometry/shapes/testInterpolatedShapeSolutions.hpp 64-72 -/
def shapeValues3 : List ℚ :=
  [0.00029480662998955, -0.00097875857989107, 0.0045384751099593, 0.0016266339617432, -0.0019359683760398, 0.0064274187405959,
   -0.029803754035777, -0.01068195755787, -0.00090727558355123, 0.0030121566864284, -0.013967283076256, -0.0050060111501464,
   0.00021269185295386, -0.00070613736183238, 0.0032743384392556, 0.0011735549889536, -0.0011378239751871, 0.0037775777911087,
   -0.017516518509386, -0.0062780919160148, 0.0074719867512486, -0.024807010418579, 0.11502938686857, 0.041227659675451,
   0.0035016848539094, -0.011625600465498, 0.053907571729144, 0.019321002064616, -0.00082089703893853, 0.0027253797517944,
   -0.012637506758901, -0.0045294062846522, -0.0065104039128026, 0.021614553541207, -0.10022605704316, -0.03592200117618,
   0.042753231468636, -0.14194081089519, 0.65817541789208, 0.235896520657, 0.020035948680501, -0.066519388244399,
   0.30844847144075, 0.11055095531807, -0.0046970106192697, 0.015594084310833, -0.072309316067706, -0.02591636759405,
   0.00056487589531351, -0.0018753890614039, 0.0086961246128934, 0.0031167762933947, -0.0037094887240253, 0.012315509714885,
   -0.057106660882287, -0.020467586971896, -0.0017384212409767, 0.0057715618713565, -0.026762564780435, -0.0095919655215643,
   0.00040753663127406, -0.0013530224014756, 0.0062739255813192, 0.0022486364201113]

/-- tests/geometry/shapes/testInterpolatedShapeSolutions.hpp 73-104 -/
def shapeGradients3 : List ℚ :=
  [-0.0022581643543929, 0.00029510192644433, 0.00049656139120705, 0.0074971100098549, -0.0009797389646902, -0.0013683638724197,
   -0.034763881385479, 0.0045430211258006, -0.008129659246093, -0.012459715815019, 0.0016282632983769, 0.0090014617273057,
   0.014829160314882, 0.0025355097937921, -0.0032608735772776, -0.049232840832939, -0.0084178974033245, 0.0089859213275284,
   0.22829125312776, 0.039033545787594, 0.053386734243303, 0.081821822640745, 0.013990005384414, -0.059111781993554,
   0.0069495634560833, -0.0034803363571872, -0.0015281814591224, -0.023072564071507, 0.011554723415225, 0.0042111777842445,
   0.10698680952879, -0.053578916905431, 0.025019251896856, 0.038345121130264, -0.019203208954598, -0.027702248221978,
   -0.0016291803234792, 0.00064972463695073, 0.00035825029581226, 0.0054088818146711, -0.0021570870472101, -0.00098722287063344,
   -0.025080827890498, 0.010002349992036, -0.0058652422063787, -0.0089892145372337, 0.0035849402718072, 0.0064942147811999,
   0.0093441519804066, -0.0011389636896706, -0.0019165086486951, -0.031022602588528, 0.0037813616453911, 0.005281282923909,
   0.1438509072481, -0.017534064131803, 0.031376910351826, 0.051557575063891, -0.0062843804390566, -0.03474168462704,
   -0.0613621977756, -0.0097859530255499, 0.012585538311713, 0.20372261490852, 0.032489382910104, -0.034681705516492,
   -0.94465584884176, -0.15065232500118, -0.20604932182538, -0.33857391495072, -0.053995269848398, 0.22814548903016,
   -0.028756886984242, 0.013432568151752, 0.005898108542157, 0.09547292022497, -0.044596152159009, -0.016253294733767,
   -0.44270515836947, 0.20679106240493, -0.096563312197209, -0.15866986778498, 0.074115943558812, 0.10691849838882,
   0.0067414528603565, -0.0025076514365314, -0.001382688631214, -0.0223816364925, 0.0083254076035137, 0.00381024623191,
   0.10378299841078, -0.03860467327195, 0.022637256166639, 0.037196843824493, -0.013836293271357, -0.025064813767335,
   -0.0040125981661865, -0.0065169251338304, -0.010965883719697, 0.013321833647192, 0.021636204007591, 0.03021845712715,
   -0.06177295573085, -0.10032644962702, 0.17953247987466, -0.022140032780737, -0.035957982862196, -0.19878505328211,
   0.026350367886122, -0.055993289170731, 0.072011962883654, -0.087483272179944, 0.18589782799022, -0.19844186466549,
   0.40565739241913, -0.86200282956703, -1.17897349704, 0.14539158535719, -0.30895026274696, 1.3054033988218,
   0.012348882190718, 0.076858500226076, 0.033747811408771, -0.040998312679255, -0.25517036891775, -0.092998140255612,
   0.19010798522536, 1.1832175900427, -0.55251618815512, 0.068136565184096, 0.42407678117962, 0.61176651700196,
   -0.0028949380790918, -0.014348285921515, -0.0079114710808963, 0.009611200003422, 0.047636336919934, 0.021801475903062,
   -0.044566855288488, -0.22088831084864, 0.12952590588379, -0.015973197742402, -0.079168535570466, -0.14341591070595,
   -0.0030733894598271, 0.00056544170975696, 0.00095145607968906, 0.01020365893148, -0.0018772675664469, -0.0026219076808928,
   -0.04731407013177, 0.0087048351862227, -0.015577154914709, -0.016957826468134, 0.0031198982482497, 0.017247606515913,
   0.020182669574596, 0.0048582637537536, -0.0062481257003417, -0.067006501895641, -0.016129445028182, 0.017217829718701,
   0.31070720329486, 0.074791768166169, 0.10229376220141, 0.11136050695279, 0.026806102757057, -0.11326346621977,
   0.0094584413374409, -0.006668636033823, -0.0029281324845166, -0.031402043474208, 0.022139884488033, 0.008068993635875,
   0.14561036361532, -0.102662001387, 0.047939126456591, 0.052188181470621, -0.036795067504097, -0.053079987607949,
   -0.0022173344577856, 0.0012449305703125, 0.00068643963875728, 0.007361554674407, -0.0041331718934041, -0.001891607400223,
   -0.03413531523179, 0.019165398034606, -0.011238329147062, -0.012234431544858, 0.0068690664987904, 0.012443496908528]

/-- tests/geometry/mapping/testLinearTransform.cpp 33-41 -/
def vertices : List ℚ :=
  [-1.31, -1.15, -1.23,
   1.38, -1.22, -1.17,
   -1.31, 1.12, -1.31,
   1.32, 1.17, -1.37,
   -1.23, -1.25, 1.27,
   1.27, -1.34, 1.24,
   -1.29, 1.28, 1.41,
   1.39, 1.24, 1.36]

/-- tests/geometry/mapping/testLinearTransform.cpp 58-66 -/
def points : List ℚ :=
  [-0.9, -0.5, -0.6,
   -0.9, -0.5, 0.6,
   -0.9, 0.5, -0.6,
   -0.9, 0.5, 0.6,
   0.9, -0.5, -0.6,
   0.9, -0.5, 0.6,
   0.9, 0.5, -0.6,
   0.9, 0.5, 0.6]

/-- tests/geometry/mapping/testLinearTransform.cpp 69-77 -/
def jacobians : List ℚ :=
  [1.3245, -6.3e-3, 2.925e-2, -2.375e-2, 1.16365, -1.84375e-2, 8.5e-3, -2.05e-2, 1.275875,
   1.2855, -2.07e-2, 2.925e-2, -3.5e-2, 1.2406, -1.84375e-2, -1.1e-2, 4.7e-2, 1.275875,
   1.3215, -6.3e-3, 1.725e-2, 2.75e-3, 1.16365, 4.56875e-2, -1.65e-2, -2.05e-2, 1.332125,
   1.3185, -2.07e-2, 1.725e-2, -1.9e-2, 1.2406, 4.56875e-2, -2.1e-2, 4.7e-2, 1.332125,
   1.3245, -1.17e-2, -2.925e-2, -2.375e-2, 1.21135, -3.53125e-2, 8.5e-3, -6.55e-2, 1.246625,
   1.2855, 3.87e-2, -2.925e-2, -3.5e-2, 1.2694, -3.53125e-2, -1.1e-2, 2.9e-2, 1.246625,
   1.3215, -1.17e-2, 1.275e-2, 2.75e-3, 1.21135, 1.30625e-2, -1.65e-2, -6.55e-2, 1.325375,
   1.3185, 3.87e-2, 1.275e-2, -1.9e-2, 1.2694, 1.30625e-2, -2.1e-2, 2.9e-2, 1.325375]

/-- tests/geometry/mapping/testLinearTransform.cpp 80-89 -/
def inverses : List ℚ :=
  [7.5518050317544e-1, 3.7845098812477e-3, -1.725815837519e-2,
   1.5337360823102e-2, 8.5966062432681e-1, 1.2071225595728e-2,
   -4.784652399426e-3, 1.3787302411842e-2, 7.8408476886129e-1,
   7.7812816372463e-1, 1.3651790001633e-2, -1.7641652913326e-2,
   2.2040308761543e-2, 8.0600721432107e-1, 1.1142219247787e-2,
   5.8967495163542e-3, -2.957356275738e-2, 7.8321329088924e-1,
   7.565836884692e-1, 3.9211774440993e-3, -9.931663635598e-3,
   -2.1546321329131e-3, 8.5883484385508e-1, -2.9427305638987e-2,
   9.338058291089e-3, 1.3265131820855e-2, 7.501044329807e-1,
   7.5846203705445e-1, 1.3044334658016e-2, -1.0268881057617e-2,
   1.1190189368391e-2, 8.0730273673882e-1, -2.783272932447e-2,
   1.1561800790338e-2, -2.8277599773975e-2, 7.5150041608411e-1,
   7.5503486460179e-1, 8.2631892175591e-3, 1.7949715158005e-2,
   1.4675786248095e-2, 8.2695222317457e-1, 2.3768989975822e-2,
   -4.3770438984178e-3, 4.3393268632977e-2, 8.0329232629265e-1,
   7.7740146085247e-1, -2.410163122351e-2, 1.7557728970103e-2,
   2.1611414506272e-2, 7.8659427371398e-1, 2.2788524347605e-2,
   6.3569117005477e-3, -1.8511061370632e-2, 8.0179064900238e-1,
   7.5660974382485e-1, 6.9105787290405e-3, -7.346632966832e-3,
   -1.8182541770253e-3, 8.2506893149255e-1, -8.1141414142144e-3,
   9.3294087518739e-3, 4.0860918277311e-2, 7.5401098126448e-1,
   7.5799440223966e-1, -2.2947438633317e-2, -7.0656815704294e-3,
   1.1224373599541e-2, 7.8761135930028e-1, -7.8704397957213e-3,
   1.1764501075278e-2, -1.7597001324914e-2, 7.5456369966319e-1]

/-- tests/geometry/mapping/testLinearTransform.cpp 91-98 -/
def determinants : List ℚ :=
  [1.9654823830313, 2.035290793125, 2.0500889374688, 2.17609699875, 1.9969756307812, 2.0369010315,
   2.1230873817188, 2.219082631125]

/-! ### tests/functions/testSpacing.cpp -/

/-- lines 32-54 -/
def equalReference : List (List ℚ) :=
  [[-1, 1], [-1, 0, 1], [-1, -1 / 3, 1 / 3, 1], [-1, -0.5, 0, 0.5, 1]]

/-- lines 58-79 -/
def legendreReference : List (List ℚ) :=
  [[-0.57735026918962576451, 0.57735026918962576451],
   [-0.77459666924148337704, 0, 0.77459666924148337704],
   [-0.86113631159405257522, -0.3399810435848562648, 0.3399810435848562648, 0.86113631159405257522]]

/-- lines 80-106 -/
def lobattoReference : List (List ℚ) :=
  [[-1, 1], [-1, 0, 1], [-1, -0.44721359549995793928, 0.44721359549995793928, 1],
   [-1, -0.6546536707079771438, 0, 0.6546536707079771438, 1]]

/-- The coordinates of a spacing at run time (tolerance 1e-14) and at compile time (tolerance 1e-13). -/
def spacingTest (S : Int → Spacing ℚ) (ref : List ℚ) : Bool :=
  (ints ref.length).all fun a =>
    (match (S ref.length).coordRT a with
      | .ok v => decide (|v - ref.getD a.toNat 0| ≤ 1e-14)
      | _ => false) &&
    close 1e-13 ((S ref.length).coordCT a) (ref.getD a.toNat 0)

example : equalReference.all (spacingTest (equalSpacing ratArith)) = true := by decide +kernel
example : legendreReference.all (spacingTest (gaussLegendreSpacing ratArith)) = true := by decide +kernel
example : lobattoReference.all (spacingTest (gaussLobattoSpacing ratArith)) = true := by decide +kernel

/-! ### tests/functions/testQuadrature.cpp -/

/-- The weights at run time and at compile time. -/
def weightTest (Q : Int → Quadrature ℚ) (ref : List ℚ) : Bool :=
  (ints ref.length).all fun a =>
    near 1e-13 ((Q ref.length).weightRT a) (ref.getD a.toNat 0) &&
    near 1e-13 ((Q ref.length).weightCT a) (ref.getD a.toNat 0)

/-- The squares of the coordinates at run time and at compile time, and their signs. -/
def squareTest (Q : Int → Quadrature ℚ) (ref : List ℚ) : Bool :=
  (ints ref.length).all fun a =>
    let sq := fun x : ℚ => if decide (0 ≤ x) == decide ((ref.length : Int) ≤ 2 * a + 1) then x ^ 2 else 100
    near 1e-13 (((Q ref.length).coordRT a) >>= fun x => .ok (sq x)) (ref.getD a.toNat 0) &&
    near 1e-13 (((Q ref.length).coordCT a) >>= fun x => .ok (sq x)) (ref.getD a.toNat 0)

example : ([[1, 1], [5 / 9, 8 / 9, 5 / 9]] : List (List ℚ)).all (weightTest (quadratureGaussLegendre ratArith))
    = true := by decide +kernel
example : ([[1 / 3, 1 / 3], [0.6, 0, 0.6]] : List (List ℚ)).all (squareTest (quadratureGaussLegendre ratArith))
    = true := by decide +kernel
/-- The 4-point rule: `( 36 w - 18 )^2 = 30` with the sign of the reference, and
`( ( 35 x^2 - 15 ) / 2 )^2 = 30`. -/
example : (ints 4).all (fun a =>
    let s : ℚ := if a = 0 ∨ a = 3 then -1 else 1
    (match (quadratureGaussLegendre ratArith 4).weightRT a with
      | .ok w => decide (0 < s * (36 * w - 18)) && near 1e-13 (.ok ((36 * w - 18) ^ 2)) 30
      | _ => false) &&
    (match (quadratureGaussLegendre ratArith 4).weightCT a with
      | .ok w => decide (0 < s * (36 * w - 18)) && near 1e-13 (.ok ((36 * w - 18) ^ 2)) 30
      | _ => false) &&
    (match (quadratureGaussLegendre ratArith 4).coordRT a with
      | .ok x => decide (s * (35 * x ^ 2 - 15) < 0) && near 1e-13 (.ok (((35 * x ^ 2 - 15) / 2) ^ 2)) 30
      | _ => false)) = true := by decide +kernel
example : ([[1, 1], [1 / 3, 4 / 3, 1 / 3], [1 / 6, 5 / 6, 5 / 6, 1 / 6],
    [1 / 10, 49 / 90, 32 / 45, 49 / 90, 1 / 10]] : List (List ℚ)).all
    (weightTest (quadratureGaussLobatto ratArith)) = true := by decide +kernel
example : ([[1, 1], [1, 0, 1], [1, 0.2, 0.2, 1], [1, 3 / 7, 0, 3 / 7, 1]] : List (List ℚ)).all
    (squareTest (quadratureGaussLobatto ratArith)) = true := by decide +kernel

/-! ### tests/functions/testLagrangeBasis.cpp -/

/-- Values and gradients of all basis functions at a coordinate. -/
def basisTest (b : Res (Basis ℚ)) (x : ℚ) (values gradients : List ℚ) : Bool :=
  nearAll 1e-12 (do let b ← b; collect ((ints values.length).map fun i => b.value i x)) values &&
  nearAll 1e-12 (do let b ← b; collect ((ints values.length).map fun i => b.gradient i x)) gradients

example : basisTest (lagrangeBasis ratArith (equalSpacing ratArith) 5) 0.3
      [-0.0076904296875, 0.0555419921875, -0.199951171875, 0.999755859375, 0.1666259765625, -0.0142822265625]
      [-0.064208984375, 0.44474283854167, -1.42333984375, -0.88134765625, 2.0747884114583, -0.150634765625] = true := by
  decide +kernel
example : basisTest (lagrangeBasis ratArith (gaussLobattoSpacing ratArith) 5) 0.3
      [-0.0039331249999999, 0.011438606947084, -0.025205197129078, 0.99880774621932, 0.026196343962672, -0.0073043749999999]
      [-0.26265625, 0.76193547139425, -1.6595367733139, -0.16178550663066, 1.8258868085503, -0.50384375] = true := by
  decide +kernel

/-! ### tests/geometry/shapes/testInterpolatedShape.cpp and
tests/discretizations/finiteElementMethod/testParentElement.cpp -/

/-- `Cube< double >` with the same Lagrange basis in all directions. -/
def cubeElement (S : Int → Spacing ℚ) (order : Int) : Res (Element ℚ) := do
  let b ← lagrangeBasis ratArith S order
  .ok ⟨.ok 3, [b, b, b]⟩

/-- testCoords -/
def testCoords : List ℚ := [0.31415, -0.161803, 0.69314]

/-- Values and gradients of all shape functions. -/
def shapeTest (order : Nat) (values gradients : List ℚ) : Bool :=
  nearAll 1e-12 (do
    let e ← cubeElement (gaussLobattoSpacing ratArith) order
    collect ((box3 (order + 1)).map fun idx => InterpolatedShape.value ratArith e idx testCoords)) values &&
  nearAll 1e-12 (do
    let e ← cubeElement (gaussLobattoSpacing ratArith) order
    let g ← collect ((box3 (order + 1)).map fun idx => InterpolatedShape.gradient ratArith e idx testCoords)
    .ok g.flatten) gradients

example : shapeTest 1 shapeValues1 shapeGradients1 = true := by decide +kernel
example : shapeTest 3 shapeValues3 shapeGradients3 = true := by decide +kernel

/-- The interpolation of a variable stored in a `CArrayNd< double, N, N, N >`. -/
def elementTest (order : Nat) (field : List ℚ) (value : ℚ) (gradient : List ℚ) : Bool :=
  let n : Int := order + 1
  near 1e-12 (do
    let e ← cubeElement (gaussLobattoSpacing ratArith) order
    ParentElement.value ratArith e testCoords (CArray.read checkedHost field (CArray.whole [n, n, n]))) value &&
  nearAll 1e-12 (do
    let e ← cubeElement (gaussLobattoSpacing ratArith) order
    ParentElement.gradient ratArith e testCoords (CArray.read checkedHost field (CArray.whole [n, n, n]))) gradient

example : elementTest 1 field1 0.19546114484888 [0.18762801054421, -0.27892876405183, 0.30302193042302] = true := by
  decide +kernel
example : elementTest 3 field3 0.25230798990974 [-0.23132556090577, -0.71640960094542, -1.1388626399789] = true := by
  decide +kernel

/-! ### tests/geometry/mapping/testLinearTransform.cpp -/

/-- makeLinearTransform, lines 101-128 and the `setData` it calls -/
def makeLinearTransform : Res (LinearTransform ℚ) := do
  let e ← cubeElement (equalSpacing ratArith) 1
  LinearTransform.setData checkedHost ⟨e, List.replicate 24 0⟩ fun a i =>
    if 0 ≤ a ∧ a < 8 ∧ 0 ≤ i ∧ i < 3 then CArray.load vertices (3 * a + i) else .ub

/-- testConstructionAndSetters -/
example : (do
    let t ← makeLinearTransform
    collect ((box3 2).flatMap fun idx => (ints 3).map fun j =>
      CArray.read checkedHost t.data t.dataView (idx ++ [j])))
    = collect ((box3 2).flatMap fun idx => (ints 3).map fun j =>
      CArray.load vertices (3 * (idx.getD 0 0 + 2 * idx.getD 1 0 + 4 * idx.getD 2 0) + j)) := by decide +kernel

/-- testJacobianFunctionModifyLvalueRefArg -/
example : (List.range 8).all (fun q => nearAll 1e-13 (do
    let t ← makeLinearTransform
    let J ← CArray.listInit 0 [3, 3] [(0 : ℚ)]
    LinearTransform.jacobian checkedHost ratArith t ((points.drop (3 * q)).take 3) J)
    ((jacobians.drop (9 * q)).take 9)) = true := by decide +kernel

/-- testJacobianFunctionReturnByValue -/
example : (List.range 8).all (fun q => nearAll 1e-13 (do
    let t ← makeLinearTransform
    LinearTransform.jacobianValue checkedHost ratArith t ((points.drop (3 * q)).take 3))
    ((jacobians.drop (9 * q)).take 9)) = true := by decide +kernel

/-- testInvJacobianFunctionModifyLvalueRefArg -/
example : (List.range 8).all (fun q => nearAll 1e-13 (do
    let t ← makeLinearTransform
    let J ← CArray.listInit 0 [3, 3] [(0 : ℚ)]
    let r ← LinearTransform.inverseJacobian checkedHost ratArith t ((points.drop (3 * q)).take 3) J
    let m ← r.2
    .ok (r.1 :: m))
    (determinants.getD q 0 :: (inverses.drop (9 * q)).take 9)) = true := by decide +kernel

/-- testInvJacobianFunctionReturnByValue -/
example : (List.range 8).all (fun q => nearAll 1e-13 (do
    let t ← makeLinearTransform
    let r ← LinearTransform.inverseJacobianValue checkedHost ratArith t ((points.drop (3 * q)).take 3)
    let m ← r.2
    .ok (r.1 :: m))
    (determinants.getD q 0 :: (inverses.drop (9 * q)).take 9)) = true := by decide +kernel

/-! ### tests/geometry/mapping/testScaling.cpp and testUniformScaling.cpp -/

/-- makeScaling with `h = { 10, 20, 30 }` -/
def makeScaling : Res (Scaling ℚ) := (Scaling.init ratArith).setData [10, 20, 30]

example : (do let s ← makeScaling; .ok s.getData) = Res.ok [10, 20, 30] := by decide +kernel
example : (do let s ← makeScaling; s.jacobian checkedHost ratArith [7, 7, 7]) = Res.ok [5, 10, 15] := by
  decide +kernel
example : (do let s ← makeScaling; s.jacobianValue checkedHost ratArith [7, 7, 7]) = Res.ok [5, 10, 15] := by
  decide +kernel
example : (do
    let s ← makeScaling
    let r ← s.inverseJacobian checkedHost ratArith [7, 7, 7]
    let m ← r.2
    .ok (r.1, m)) = Res.ok (0.125 * 10 * 20 * 30, [2 / 10, 2 / 20, 2 / 30]) := by decide +kernel
example : (do
    let s ← makeScaling
    let r ← s.inverseJacobianValue checkedHost ratArith [7, 7, 7]
    let m ← r.2
    .ok (r.1, m)) = Res.ok (0.125 * 10 * 20 * 30, [2 / 10, 2 / 20, 2 / 30]) := by decide +kernel

/-- makeUniformScaling with `h = 3.14` -/
def makeUniformScaling : UniformScaling ℚ := (UniformScaling.init ratArith).setData 3.14

example : makeUniformScaling.getData = 3.14 := by decide +kernel
example : makeUniformScaling.jacobian checkedHost ratArith [7] = .ok [3.14 / 2] := by decide +kernel
example : makeUniformScaling.jacobianValue checkedHost ratArith [7] = .ok [3.14 / 2] := by decide +kernel
example : makeUniformScaling.inverseJacobian checkedHost ratArith [7]
    = (0.125 * 3.14 * 3.14 * 3.14, .ok [2 / 3.14]) := by decide +kernel
example : makeUniformScaling.inverseJacobianValue checkedHost ratArith [7]
    = (0.125 * 3.14 * 3.14 * 3.14, .ok [2 / 3.14]) := by decide +kernel

/-! ### tests/geometry/shapes/testNCube.cpp and testNSimplex.cpp -/

/-- One line of the tables: the template arguments, the five counts and the four lengths. -/
structure ShapeRow where
  args : ShapeArgs
  counts : List Int
  coords : List ℚ

/-- testNCube.cpp 44-96 -/
def ncubes : List ShapeRow :=
  [⟨⟨1, 0, 1, 1⟩, [2, 1, 0, 0, 2], [0, 1, 1, 1]⟩,
   ⟨⟨1, -1, 1, 2⟩, [2, 1, 0, 0, 2], [-0.5, 0.5, 1, 1]⟩,
   ⟨⟨1, -1, 1, 1⟩, [2, 1, 0, 0, 2], [-1, 1, 2, 2]⟩,
   ⟨⟨2, 0, 1, 1⟩, [4, 4, 1, 0, 4], [0, 1, 1, 1]⟩,
   ⟨⟨2, -1, 1, 2⟩, [4, 4, 1, 0, 4], [-0.5, 0.5, 1, 1]⟩,
   ⟨⟨2, -1, 1, 1⟩, [4, 4, 1, 0, 4], [-1, 1, 2, 4]⟩,
   ⟨⟨3, 0, 1, 1⟩, [8, 12, 6, 1, 6], [0, 1, 1, 1]⟩,
   ⟨⟨3, -1, 1, 2⟩, [8, 12, 6, 1, 6], [-0.5, 0.5, 1, 1]⟩,
   ⟨⟨3, -1, 1, 1⟩, [8, 12, 6, 1, 6], [-1, 1, 2, 8]⟩,
   ⟨⟨4, 0, 1, 1⟩, [16, 32, 24, 8, 8], [0, 1, 1, 1]⟩,
   ⟨⟨4, -1, 1, 2⟩, [16, 32, 24, 8, 8], [-0.5, 0.5, 1, 1]⟩,
   ⟨⟨4, -1, 1, 1⟩, [16, 32, 24, 8, 8], [-1, 1, 2, 16]⟩]

/-- testNSimplex.cpp 44-96 -/
def nsimplexes : List ShapeRow :=
  [⟨⟨1, 0, 1, 1⟩, [2, 1, 0, 0, 2], [0, 1, 1, 1]⟩,
   ⟨⟨1, -1, 1, 1⟩, [2, 1, 0, 0, 2], [-1, 1, 2, 2]⟩,
   ⟨⟨1, -1, 1, 2⟩, [2, 1, 0, 0, 2], [-0.5, 0.5, 1, 1]⟩,
   ⟨⟨2, 0, 1, 1⟩, [3, 3, 1, 0, 3], [0, 1, 1, 0.5]⟩,
   ⟨⟨2, -1, 1, 1⟩, [3, 3, 1, 0, 3], [-1, 1, 2, 2]⟩,
   ⟨⟨2, -1, 1, 2⟩, [3, 3, 1, 0, 3], [-0.5, 0.5, 1, 0.5]⟩,
   ⟨⟨3, 0, 1, 1⟩, [4, 6, 4, 1, 4], [0, 1, 1, 1 / 6]⟩,
   ⟨⟨3, -1, 1, 1⟩, [4, 6, 4, 1, 4], [-1, 1, 2, 8 / 6]⟩,
   ⟨⟨3, -1, 1, 2⟩, [4, 6, 4, 1, 4], [-0.5, 0.5, 1, 1 / 6]⟩,
   ⟨⟨4, 0, 1, 1⟩, [5, 10, 10, 5, 5], [0, 1, 1, 1 / 24]⟩,
   ⟨⟨4, -1, 1, 1⟩, [5, 10, 10, 5, 5], [-1, 1, 2, 16 / 24]⟩,
   ⟨⟨4, -1, 1, 2⟩, [5, 10, 10, 5, 5], [-0.5, 0.5, 1, 1 / 24]⟩]

example : ncubes.all (fun r =>
    ShapeArgs.numDims r.args == .ok r.args.n &&
    collect [NCube.numVertices r.args, NCube.numEdges r.args, NCube.numFaces r.args, NCube.numCells r.args,
      NCube.numHyperFaces r.args] == .ok r.counts &&
    collect [ShapeArgs.minCoord ratArith r.args, ShapeArgs.maxCoord ratArith r.args, ShapeArgs.length ratArith r.args,
      NCube.volume ratArith r.args] == .ok r.coords) = true := by decide +kernel
example : nsimplexes.all (fun r =>
    ShapeArgs.numDims r.args == .ok r.args.n &&
    collect [NSimplex.numVertices r.args, NSimplex.numEdges r.args, NSimplex.numFaces r.args,
      NSimplex.numCells r.args, NSimplex.numHyperFaces r.args] == .ok r.counts &&
    collect [ShapeArgs.minCoord ratArith r.args, ShapeArgs.maxCoord ratArith r.args,
      ShapeArgs.length ratArith r.args, NSimplex.volume ratArith r.args] == .ok r.coords) = true := by decide +kernel

/-! ### tests/common/testCArray.cpp -/

/-- testSingleValueInitialization -/
example : CArray.listInit (0 : ℚ) [2, 3, 4] [0] = .ok (List.replicate 24 0) := by decide +kernel

/-- testTraits -/
example : CArray.rank (CArray.whole [2, 3, 4]) = 3 ∧
    collect ((ints 3).map (CArray.extent (CArray.whole [2, 3, 4]))) = .ok [2, 3, 4] ∧
    CArray.size (CArray.whole [2, 3, 4]) = .ok 24 := by decide +kernel

/-- testStrides -/
example : CArrayHelper.stride [2] = .ok 1 ∧ CArrayHelper.stride [3, 4] = .ok 4 ∧
    CArrayHelper.stride [2, 3, 4] = .ok 12 := by decide +kernel

/-- All tuples of the box 2 x 3 x 4. -/
def box234 : List (List Int) :=
  (ints 2).flatMap fun a => (ints 3).flatMap fun b => (ints 4).map fun c => [a, b, c]

/-- testLinearIndex -/
example : collect (box234.map (CArrayHelper.evalCT [2, 3, 4])) = .ok (ints 24) ∧
    collect (box234.map (CArrayHelper.evalRT checkedHost [2, 3, 4])) = .ok (ints 24) ∧
    collect (box234.map (CArrayHelper.evalRT checkedConst [2, 3, 4])) = .ok (ints 24) := by decide +kernel

/-- initializer: multiples of 3.14159 -/
def array3d : List ℚ := (List.range 24).map fun i => i * 3.14159

/-- testParenthesesOperator -/
example : collect (box234.map (CArray.read checkedHost array3d (CArray.whole [2, 3, 4]))) = .ok array3d ∧
    collect (box234.map (CArray.read checkedConst array3d (CArray.whole [2, 3, 4]))) = .ok array3d ∧
    collect (box234.map fun idx => CArray.parenCT 24 (CArray.whole [2, 3, 4]) idx >>= CArray.load array3d)
      = .ok array3d := by decide +kernel

/-- testBoundsCheckParenthesesOperator1d -/
def paren1d (lower upper : Int) : Res (List ℚ) := do
  let a ← CArray.listInit (0 : ℚ) [2] [0]
  Sequence.commaFold (fun i m => CArray.write checkedHost m (CArray.whole [2]) [lower + i] (lower + i))
    (ints (upper - lower + 1).toNat) a

example : paren1d 0 1 = .ok [0, 1] ∧ paren1d (-1) (-1) = .abort ∧ paren1d 2 2 = .abort := by decide +kernel

/-- testBoundsCheckParenthesesOperator2d -/
def paren2d (il iu jl ju : Int) : Res (List ℚ) := do
  let a ← CArray.listInit (0 : ℚ) [2, 4] [0]
  Sequence.commaFold (fun i m => Sequence.commaFold (fun j m =>
    CArray.write checkedHost m (CArray.whole [2, 4]) [il + i, jl + j] ((il + i) * 4 + (jl + j)))
    (ints (ju - jl + 1).toNat) m) (ints (iu - il + 1).toNat) a

example : paren2d 0 1 0 3 = .ok [0, 1, 2, 3, 4, 5, 6, 7] ∧ paren2d (-1) (-1) 0 3 = .abort ∧
    paren2d 2 2 0 3 = .abort ∧ paren2d 0 1 (-1) (-1) = .abort ∧ paren2d 0 1 4 4 = .abort ∧
    paren2d (-1) (-1) (-1) (-1) = .abort ∧ paren2d (-1) (-1) 4 4 = .abort ∧
    paren2d 2 2 (-1) (-1) = .abort ∧ paren2d 2 2 4 4 = .abort := by decide +kernel

/-- testSquareBracketOperator1D -/
def bracket1d (dim lower upper : Int) : Res (List ℚ × List ℚ) := do
  let a ← CArray.listInit (0 : ℚ) [dim] [0]
  let m ← Sequence.commaFold (fun i (m : List ℚ) =>
    CArray.writeBracket checkedHost m (CArray.whole [dim]) [lower + i] (lower + i))
    (ints (upper - lower + 1).toNat) a
  let r ← collect ((ints (upper - lower + 1).toNat).map fun i =>
    CArray.read checkedHost m (CArray.whole [dim]) [lower + i])
  .ok (m, r)

example : bracket1d 3 0 2 = .ok ([0, 1, 2], [0, 1, 2]) ∧ bracket1d 2 (-1) (-1) = .abort ∧
    bracket1d 2 3 3 = .abort := by decide +kernel

/-- testSquareBracketOperator2D: where the slices point, and values written through them -/
example : CArray.bracket checkedHost 8 (CArray.whole [2, 4]) 0 = .ok (.sub ⟨[4], 0⟩) ∧
    CArray.bracket checkedHost 8 (CArray.whole [2, 4]) 1 = .ok (.sub ⟨[4], 4⟩) ∧
    CArray.parenRT checkedHost 8 (CArray.whole [2, 4]) [0, 0] = .ok 0 ∧
    CArray.parenRT checkedHost 8 (CArray.whole [2, 4]) [1, 0] = .ok 4 := by decide +kernel
example : Sequence.commaFold (fun i (m : List ℚ) => do
      let m ← CArray.writeBracket checkedHost m ⟨[4], 0⟩ [i] (i + 1)
      CArray.writeBracket checkedHost m ⟨[4], 4⟩ [i] (100 + i + 1)) (ints 4) (List.replicate 8 0)
    = .ok [1, 2, 3, 4, 101, 102, 103, 104] := by decide +kernel

/-! ### tests/common/testSequenceUtilities.cpp and testNestedSequenceUtilities.cpp -/

/-- Data::h -/
def h : List Int := [11, 22, 33, 44, 55, 66, 77, 88, 99, 100]

/-- testSequenceExpansionLambda: the call made, and the sum over its arguments -/
example : Sequence.executeSequence 10 ⟨fun _ => true, fun _ _ => true⟩ [] = .ok (.plain ((ints 10).map .ic)) ∧
    ((ints 10).map fun a => h.getD a.toNat 0).sum = 595 := by decide +kernel

/-- testForSequenceLambda -/
example : Sequence.forSequence 10 (fun a s => iadd s (h.getD a.toNat 0)) 0 = .ok 595 := by decide +kernel

/-- testNestedForSequenceLambda -/
def nested (ends : List Int) : Res Int :=
  Sequence.forNestedSequence ends (fun idx s => iadd s ((idx.map fun a => h.getD a.toNat 0).sum)) 0

example : nested [10] = .ok 595 ∧ nested [10, 8] = .ok 8720 ∧ nested [10, 8, 6, 4, 2] = .ok 735360 := by
  decide +kernel

/-! ### tests/common/testIndexTypes.cpp -/

/-- testMultiIndexManualLoop -/
example : collect ((box3 2).map (IndexTypes.linearIndex [2, 2, 2])) = .ok (ints 8) := by decide +kernel

/-- testMultiIndexForRange -/
example : (do
    let r ← IndexTypes.forRange [2, 2, 2] (fun i (m : List Int) => do
      let k ← IndexTypes.linearIndex [2, 2, 2] i
      CArray.store m (4 * i.getD 0 0 + 2 * i.getD 1 0 + i.getD 2 0) k) [0, 0, 0] (List.replicate 8 (-1))
    .ok r.2) = Res.ok (ints 8) := by decide +kernel

/-! ### tests/common/testShivaErrorHandling.cpp -/

example : shivaAssertionFailed checkedHost true "host assertion failed" 0 = .abort ∧
    shivaAssertionFailed checkedHost false "host assertion failed" 0 = .ok () := by decide +kernel

end Verif.Tests
