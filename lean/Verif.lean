import Verif.Model.Ops
import Verif.Model.Math
import Verif.Model.DataApi
import Verif.Model.Ext
import Verif.Model.GolubWelsch
import Verif.Model.NewtonCotes
import Verif.Model.Chebyshev
import Verif.Model.LegendreData
import Verif.Model.Legendre
import Verif.Model.GolubRules
import Verif.Model.RealOps
import Verif.Model.F64
import Verif.Spec.Deque
import Verif.Proofs.Iter
import Verif.Proofs.Structure
import Verif.Proofs.F64Round
import Verif.Spec.Yields
import Verif.Proofs.Yields
import Verif.Proofs.ExternalsExist
import Verif.Props.DataAccess
import Verif.Props.GolubWelschStructure
import Verif.Model.AnyRule
import Verif.Spec.Protocol
import Verif.Proofs.Protocol
import Verif.Props.Protocol
import Verif.Spec.RealRule
import Verif.Proofs.RealRule
import Verif.Proofs.RealRuleLemmas
import Verif.Props.RealAlgebra
import Verif.Spec.IEEE
import Verif.Proofs.F64Arith
import Verif.Props.Param
import Verif.Proofs.F64Nat
import Verif.Props.NodeIter
import Verif.Proofs.F64Special
import Verif.Props.EmptyInterval
import Verif.Props.JacobiNaN
import Verif.Proofs.F64Error
import Verif.Props.ParallelError
import Verif.Spec.Gauss
import Verif.Spec.Eigen
import Verif.Proofs.GaussTheory
import Verif.Proofs.Chebyshev
import Verif.Proofs.GaussConvergence
import Verif.Proofs.GaussSums
import Verif.Props.Chebyshev
import Verif.Proofs.GolubWelschTheory
import Verif.Proofs.Orthogonal
import Verif.Proofs.OrthogonalJacobi
import Verif.Proofs.Gamma
import Verif.Props.Gamma
import Verif.Proofs.GaussUnique
import Verif.Proofs.GolubRules
import Verif.Props.GolubWelschExact
import Verif.Proofs.GaussWeights
import Verif.Props.GolubWelschMore
import Verif.Proofs.NewtonCotesError
import Verif.Props.NewtonCotesError
import Verif.Props.PointsIEEE
import Verif.Proofs.Interval
import Verif.Proofs.LegendreAsymptotic
import Verif.Proofs.F64Approx
import Verif.Proofs.F64Horner
import Verif.Proofs.F64Series
import Verif.Proofs.F64Core
import Verif.Spec.Trig
import Verif.Spec.Backend
import Verif.Proofs.LegendreAngles
import Verif.Props.Legendre
import Verif.Props.LegendreMiddle
import Verif.Spec.Legendre
import Verif.Proofs.LegendrePoly
import Verif.Proofs.LegendreGauss
import Verif.Proofs.LegendreRootsData
import Verif.Proofs.LegendreCheck
import Verif.Proofs.LegendreCheckSound
import Verif.Proofs.LegendreAccurate
import Verif.Props.LegendreAccuracy
import Verif.Proofs.ListPoly
import Verif.Proofs.GammaAccuracy
import Verif.Props.GammaAccuracy
import Verif.Proofs.TaylorModel
import Verif.Proofs.Sinc
import Verif.Proofs.OdeCompare
import Verif.Proofs.LegendreOde
import Verif.Proofs.Bessel
import Verif.Proofs.PhaseData
import Verif.Proofs.Phase
import Verif.Proofs.PhaseCode
import Verif.Proofs.BesselTable
import Verif.Proofs.McMahon
import Verif.Proofs.BesselZeros
import Verif.Proofs.BesselCode
import Verif.Proofs.LegendreBessel
import Verif.Proofs.LegendreRoots
import Verif.Proofs.LegendrePairs
import Verif.Proofs.LegendreLarge
import Verif.Props.LegendreLarge
import Verif.Props.LegendreOdd
import Verif.Spec.Bessel
import Verif.Proofs.BesselTrue
import Verif.Props.Bessel
import Verif.Proofs.F64Bessel
import Verif.Proofs.F64Legendre
import Verif.Proofs.TrigExists
import Verif.Props.LegendreF64
import Verif.Props.FloatOrder
import Verif.Proofs.LegendreSpacing
import Verif.Props.LegendreF64Order
import Verif.Proofs.F64Sum
import Verif.Proofs.F64Integrate
import Verif.Proofs.F64Gauss
import Verif.Spec.Approx
import Verif.Props.LegendreF64Integral
import Verif.Proofs.F64Chebyshev
import Verif.Props.ChebyshevF64
import Verif.Props.ChebyshevF64Integral
import Verif.Proofs.F64NewtonCotes
import Verif.Proofs.F64Gamma
import Verif.Props.NewtonCotesF64
import Verif.Props.GammaF64
import Verif.Spec.EigenF64
import Verif.Proofs.Perturb
import Verif.Proofs.F64Golub
import Verif.Proofs.F64GolubRules
import Verif.Proofs.F64GolubSum
import Verif.Proofs.SolverExists
import Verif.Props.HermiteF64
import Verif.Proofs.GammaPerturb
import Verif.Proofs.F64Laguerre
import Verif.Props.LaguerreF64
import Verif.Proofs.F64Jacobi
import Verif.Proofs.F64JacobiScale
import Verif.Proofs.F64JacobiRule
import Verif.Proofs.F64JacobiIntegral
import Verif.Props.JacobiF64
import Verif.Spec.Smooth
import Verif.Proofs.GaussRemainder
import Verif.Proofs.GaussNorms
import Verif.Props.GaussError
import Verif.Props.TotalError
import Verif.Proofs.WeakQuad
import Verif.Proofs.GaussUnbounded
import Verif.Props.UnboundedConvergence
import Verif.Model.Parallel
import Verif.Proofs.Concurrency
import Verif.Props.Concurrency
import Verif.Proofs.Interlace
import Verif.Proofs.Stieltjes
import Verif.Props.Interlacing
import Verif.Props.MonotoneError
import Verif.Proofs.RiemannConv
import Verif.Props.RiemannConvergence
import Verif.Props.JacobiDelegated
import Verif.Proofs.Variation
import Verif.Proofs.VariationPerturbed
import Verif.Proofs.ChristoffelBound
import Verif.Props.BoundedVariation
import Verif.Model.Report
import Verif.Props.Report
import Verif.Proofs.F64Monotone
import Verif.Proofs.F64Combine
import Verif.Props.FloatRobust
import Verif.Model.Derives
import Verif.Props.Derives
import Verif.Model.Counted
import Verif.Proofs.CountedLegendre
import Verif.Props.Cost
import Verif.Spec.Analytic
import Verif.Proofs.Bernstein
import Verif.Proofs.BernsteinInterval
import Verif.Props.Analytic
import Verif.Proofs.Periodic
import Verif.Props.Periodic
import Verif.Props.Convex
import Verif.Model.Alloc
import Verif.Props.Alloc
import Verif.Model.Serde
import Verif.Props.Serde
import Verif.Spec.FiniteSmooth
import Verif.Proofs.Jackson
import Verif.Proofs.SmoothInterval
import Verif.Props.FiniteSmooth
import Verif.Proofs.EulerMaclaurin
import Verif.Props.EulerMaclaurin
import Verif.Spec.NearPoly
import Verif.Props.NestedF64
import Verif.Spec.Iterated
import Verif.Props.NestedDepth
import Verif.Props.EndpointSingularity
import Verif.Model.Debug
import Verif.Spec.DebugText
import Verif.Props.Debug
import Verif.Props.EndpointGauss
import Verif.Model.MatrixMemory
import Verif.Props.MatrixMemory
import Verif.Proofs.Sturm
import Verif.Proofs.NodeSpacing
import Verif.Props.HermiteSpacing
import Verif.Proofs.LaguerreSpacing
import Verif.Proofs.LaguerreRate
import Verif.Props.LaguerreSpacing
import Verif.Proofs.JacobiSpacing
import Verif.Proofs.JacobiRate
import Verif.Props.JacobiSpacing
import Verif.Proofs.LegendreEndpoint
import Verif.Proofs.LegendreEndpointRate
import Verif.Props.EndpointRate
import Verif.Model.Bytes
import Verif.Props.Bytes
import Verif.Props.Conformance
import Verif.Props.LargeParameters
import Verif.Props.CoincidentNodes
import Verif.Props.FloatText
import Verif.Props.ChebyshevClosed
import Verif.Props.Instances
import Verif.Props.JacobiOdd
import Verif.Props.NodeSums
import Verif.Props.JacobiOddF64
import Verif.Props.CrossRules
import Verif.Props.ClassicalForm
import Verif.Props.ParameterDependence
import Verif.Props.Oscillatory
import Verif.Props.DelegatedLimits
import Verif.Props.GaussPointsIEEE
import Verif.Props.NodeDistribution
import Verif.Props.NodesInside
import Verif.Props.Modulus
import Verif.Props.Aliasing
import Verif.Props.ModulusF64
import Verif.Props.SeriesError
import Verif.Props.UnboundedRate
import Verif.Spec.PowerScale
import Verif.Proofs.F64Scale
import Verif.Props.PowerScale
import Verif.Spec.Summands
import Verif.Props.ExactSums
import Verif.Props.IntervalScale
import Verif.Props.ParallelDifference
import Verif.Spec.RayonTree
import Verif.Props.RayonRounding
import Verif.Props.IntervalScalePar
import Verif.Spec.Backward
import Verif.Props.Backward
import Verif.Props.ApproxLinear
import Verif.Props.RangeF64
import Verif.Props.ConvexF64
import Verif.Props.MonotoneF64
import Verif.Props.ConstantsF64
import Verif.Spec.Arithmetic
import Verif.Props.ArithmeticF64
