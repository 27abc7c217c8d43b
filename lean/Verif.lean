import Verif.Lemmas.Aggregate
import Verif.Lemmas.AggregateGraph
import Verif.Lemmas.AggregateRun
import Verif.Lemmas.AggregateText
import Verif.Lemmas.ArithHom
import Verif.Lemmas.AxesFloat
import Verif.Lemmas.AxisOrder
import Verif.Lemmas.AxisSlope
import Verif.Lemmas.BoxMargin
import Verif.Lemmas.CArray
import Verif.Lemmas.CArrayAccess
import Verif.Lemmas.CMakeConfig
import Verif.Lemmas.CellVolume
import Verif.Lemmas.CiScript
import Verif.Lemmas.CodeChecks
import Verif.Lemmas.CompareSettings
import Verif.Lemmas.ConfigBuild
import Verif.Lemmas.ConstantFloat
import Verif.Lemmas.Contraction
import Verif.Lemmas.ControlValues
import Verif.Lemmas.Counting
import Verif.Lemmas.DataOnly
import Verif.Lemmas.Degenerate
import Verif.Lemmas.DistortedBox
import Verif.Lemmas.DoubleRounding
import Verif.Lemmas.Dyadic
import Verif.Lemmas.DyadicCell
import Verif.Lemmas.DyadicData
import Verif.Lemmas.ErrorTracking
import Verif.Lemmas.Evaluation
import Verif.Lemmas.ExchangeFloat
import Verif.Lemmas.ExchangeKnown
import Verif.Lemmas.FaceFloat
import Verif.Lemmas.FaceFlux
import Verif.Lemmas.FaceKnown
import Verif.Lemmas.FarBox
import Verif.Lemmas.FlatKnown
import Verif.Lemmas.Float
import Verif.Lemmas.FloatElement
import Verif.Lemmas.FloatEval
import Verif.Lemmas.FloatIEEE
import Verif.Lemmas.FloatInverse
import Verif.Lemmas.FloatSim
import Verif.Lemmas.FloatTables
import Verif.Lemmas.FusedKnown
import Verif.Lemmas.FusedOrder
import Verif.Lemmas.GaussRule
import Verif.Lemmas.GaussTables
import Verif.Lemmas.Guarded
import Verif.Lemmas.Headers
import Verif.Lemmas.HostConfigs
import Verif.Lemmas.IndexConversion
import Verif.Lemmas.InterpolationError
import Verif.Lemmas.Inverse
import Verif.Lemmas.KnownTables
import Verif.Lemmas.Lagrange
import Verif.Lemmas.LinearIndex
import Verif.Lemmas.Mapping
import Verif.Lemmas.MatrixMemory
import Verif.Lemmas.MirrorFloat
import Verif.Lemmas.Mixed
import Verif.Lemmas.MixedFloat
import Verif.Lemmas.MixedScaling
import Verif.Lemmas.MonotoneFloat
import Verif.Lemmas.Near
import Verif.Lemmas.NearElement
import Verif.Lemmas.NearInverse
import Verif.Lemmas.NearLagrange
import Verif.Lemmas.NearNodes
import Verif.Lemmas.NodalFloat
import Verif.Lemmas.NonFinite
import Verif.Lemmas.Odometer
import Verif.Lemmas.OutOfRange
import Verif.Lemmas.PhysicalGradient
import Verif.Lemmas.Piola
import Verif.Lemmas.PyPath
import Verif.Lemmas.Quadrature
import Verif.Lemmas.QuadratureError
import Verif.Lemmas.Quadrilateral
import Verif.Lemmas.Relational
import Verif.Lemmas.Residual
import Verif.Lemmas.RoundedMapping
import Verif.Lemmas.Rounding
import Verif.Lemmas.Scaling
import Verif.Lemmas.Sequence
import Verif.Lemmas.SetData
import Verif.Lemmas.SharedFace
import Verif.Lemmas.SignedZero
import Verif.Lemmas.Smooth
import Verif.Lemmas.SplitText
import Verif.Lemmas.Stability
import Verif.Lemmas.StabilitySharp
import Verif.Lemmas.StabilityTables
import Verif.Lemmas.Standards
import Verif.Lemmas.Tensor
import Verif.Lemmas.TensorPoly
import Verif.Lemmas.TensorQuadrature
import Verif.Lemmas.TurnedFlux
import Verif.Lemmas.TypedMath
import Verif.Lemmas.UnitsFloat
import Verif.Lemmas.Volume
import Verif.Lemmas.Workflow
import Verif.Model.Aggregate
import Verif.Model.Arith
import Verif.Model.BasisProduct
import Verif.Model.CArray
import Verif.Model.CArrayHelper
import Verif.Model.CArrayTypes
import Verif.Model.CMakeConfig
import Verif.Model.CheckTests
import Verif.Model.CiScript
import Verif.Model.CodeChecks
import Verif.Model.CompareSettings
import Verif.Model.ConfigBuild
import Verif.Model.Copies
import Verif.Model.ErrorHandling
import Verif.Model.Float
import Verif.Model.ForRangeBody
import Verif.Model.Headers
import Verif.Model.HostConfigs
import Verif.Model.IndexConversion
import Verif.Model.IndexTypes
import Verif.Model.InverseAlias
import Verif.Model.LagrangeBasis
import Verif.Model.LinearTransform
import Verif.Model.MathUtilities
import Verif.Model.Mixed
import Verif.Model.NCube
import Verif.Model.Outcome
import Verif.Model.Package
import Verif.Model.Pmpl
import Verif.Model.PyPath
import Verif.Model.Quadrature
import Verif.Model.Scaling
import Verif.Model.Sequence
import Verif.Model.SignedZero
import Verif.Model.Spacing
import Verif.Model.Standards
import Verif.Model.Threads
import Verif.Model.TypedIndex
import Verif.Model.TypedMath
import Verif.Model.Workflow
import Verif.Props.Aggregate
import Verif.Props.AxesFloat
import Verif.Props.AxisOrder
import Verif.Props.AxisSlope
import Verif.Props.BlockLobatto
import Verif.Props.BlockMesh
import Verif.Props.BoxFloat
import Verif.Props.BoxMesh
import Verif.Props.CArray
import Verif.Props.CArrayTypes
import Verif.Props.CMakeConfig
import Verif.Props.CellVolume
import Verif.Props.CheckTests
import Verif.Props.CiScript
import Verif.Props.CodeChecks
import Verif.Props.CompareSettings
import Verif.Props.ConfigBuild
import Verif.Props.Conformity
import Verif.Props.ConstantFloat
import Verif.Props.Contraction
import Verif.Props.Copies
import Verif.Props.Degenerate
import Verif.Props.DistortedBox
import Verif.Props.Dyadic
import Verif.Props.EdgeFloat
import Verif.Props.Element
import Verif.Props.Evaluation
import Verif.Props.ExchangeFloat
import Verif.Props.FaceElement
import Verif.Props.FaceFloat
import Verif.Props.Finite
import Verif.Props.FiniteInverse
import Verif.Props.Float
import Verif.Props.FloatInverse
import Verif.Props.FloatTables
import Verif.Props.FloatVolume
import Verif.Props.ForRangeBody
import Verif.Props.FusedOrder
import Verif.Props.GaussRule
import Verif.Props.GluedMesh
import Verif.Props.GradientTheorem
import Verif.Props.Guarded
import Verif.Props.GuardedThreads
import Verif.Props.Headers
import Verif.Props.HostConfigs
import Verif.Props.IEEE
import Verif.Props.IndexConversion
import Verif.Props.InterpolationError
import Verif.Props.Inverse
import Verif.Props.InverseAlias
import Verif.Props.Lagrange
import Verif.Props.MappedCells
import Verif.Props.Mapping
import Verif.Props.Matrices
import Verif.Props.MeshGradient
import Verif.Props.MeshPatch
import Verif.Props.MirrorFloat
import Verif.Props.MixedBasis
import Verif.Props.MixedScaling
import Verif.Props.MixedTables
import Verif.Props.MonotoneFloat
import Verif.Props.MovedFloat
import Verif.Props.NodalFloat
import Verif.Props.NonFinite
import Verif.Props.OutOfRange
import Verif.Props.Package
import Verif.Props.Packs
import Verif.Props.PatchFloat
import Verif.Props.PhysicalGradient
import Verif.Props.Pmpl
import Verif.Props.PointChecks
import Verif.Props.Quadrature
import Verif.Props.QuadratureError
import Verif.Props.Quadrilateral
import Verif.Props.Refinement
import Verif.Props.Residual
import Verif.Props.RoundedMapping
import Verif.Props.RoundedNodes
import Verif.Props.Rounding
import Verif.Props.Scaling
import Verif.Props.Sequence
import Verif.Props.Shapes
import Verif.Props.SharedFace
import Verif.Props.SignedZero
import Verif.Props.SmoothIntegral
import Verif.Props.Stability
import Verif.Props.Standards
import Verif.Props.SummationByParts
import Verif.Props.TensorQuadrature
import Verif.Props.Threads
import Verif.Props.TotalError
import Verif.Props.TypedIndex
import Verif.Props.TypedMath
import Verif.Props.UnitsFloat
import Verif.Props.ValidCells
import Verif.Props.VertexDet
import Verif.Props.VertexJacobian
import Verif.Props.Workflow
import Verif.Spec.Aggregate
import Verif.Spec.AxisOrder
import Verif.Spec.BlockMesh
import Verif.Spec.Box
import Verif.Spec.BoxMargin
import Verif.Spec.BoxMesh
import Verif.Spec.CMake
import Verif.Spec.Calls
import Verif.Spec.CheckTests
import Verif.Spec.Ci
import Verif.Spec.CodeChecks
import Verif.Spec.ConfigBuild
import Verif.Spec.Contraction
import Verif.Spec.ControlValues
import Verif.Spec.Copies
import Verif.Spec.Cube
import Verif.Spec.Degenerate
import Verif.Spec.DistortedBox
import Verif.Spec.Dyadic
import Verif.Spec.Element
import Verif.Spec.Evaluation
import Verif.Spec.ExchangeFloat
import Verif.Spec.Faces
import Verif.Spec.Families
import Verif.Spec.FileTree
import Verif.Spec.Float
import Verif.Spec.GaussRule
import Verif.Spec.GluedMesh
import Verif.Spec.Grid
import Verif.Spec.Guarded
import Verif.Spec.HalfEdges
import Verif.Spec.History
import Verif.Spec.HostScript
import Verif.Spec.IEEE
import Verif.Spec.Legendre
import Verif.Spec.Mapping
import Verif.Spec.MeshGradient
import Verif.Spec.Mixed
import Verif.Spec.Nodes
import Verif.Spec.NonFinite
import Verif.Spec.Odometer
import Verif.Spec.Package
import Verif.Spec.PatchError
import Verif.Spec.QuadratureTruncation
import Verif.Spec.Quadrilateral
import Verif.Spec.Refinement
import Verif.Spec.Residual
import Verif.Spec.Rounding
import Verif.Spec.SameWay
import Verif.Spec.Scaling
import Verif.Spec.Settings
import Verif.Spec.SignedZero
import Verif.Spec.Smooth
import Verif.Spec.Stability
import Verif.Spec.Symmetry
import Verif.Spec.Threads
import Verif.Spec.TotalError
import Verif.Spec.Translation
import Verif.Spec.Units
import Verif.Spec.Workflow
import Verif.Tests.UnitTests
