import Verif.Props.Combinatorial
import Verif.Props.Cochain
import Verif.Props.Coboundary
import Verif.Props.Cocycle
import Verif.Props.Repair
import Verif.Props.EMCoords
import Verif.Props.EMInit
import Verif.Props.Construct
import Verif.Props.EndToEnd
import Verif.Props.ConstructExamples
import Verif.Props.CircleMap
import Verif.Props.LLL
import Verif.Lemmas.LLL4Poly
import Verif.Lemmas.LLL4Scalar
import Verif.Lemmas.LLL4Vec
import Verif.Lemmas.LLL4
import Verif.Props.LLL4
import Verif.Props.ToroidalState
import Verif.Props.Circular
import Verif.Props.CircularCall
import Verif.Props.CircularExamples
import Verif.Props.RepairExamples
import Verif.Props.Instances
import Verif.Props.Ppca
import Verif.Props.ClassMap
import Verif.Props.ClassMap2
import Verif.Props.Geometry
import Verif.Props.Metrics
import Verif.Props.ProjUtils
import Verif.Props.LensUtils
import Verif.Props.Examples
import Verif.Props.Samples
import Verif.Props.Plotting
import Verif.Props.Instances2
import Verif.Props.Instances3
import Verif.Props.Instances4
import Verif.Props.EndToEnd2
import Verif.Props.EndToEnd2Examples
import Verif.Props.Int64
import Verif.Props.Invariance
import Verif.Spec.Rounding
import Verif.Lemmas.Rounding
import Verif.Lemmas.RoundingCast
import Verif.Model.Float
import Verif.Lemmas.Float
import Verif.Props.Float
import Verif.Props.Float64
import Verif.Props.FloatAngles
import Verif.Props.FloatDist
import Verif.Model.LLLFloat
import Verif.Props.FloatLLL
import Verif.Lemmas.FloatSum
import Verif.Props.FloatDist2
import Verif.Props.FloatLLLExact
import Verif.Props.Repeated
import Verif.Props.RepeatedExample
import Verif.Props.PpcaSpectral
import Verif.Props.Winding
import Verif.Props.WindingExamples
import Verif.Props.Holonomy
import Verif.Props.HolonomyExamples
import Verif.Props.CheckFlag
import Verif.Props.CheckFlagExamples
import Verif.Props.Arrows
import Verif.Props.EndToEndWindingExamples
import Verif.Props.EndToEndHolonomyExamples
import Verif.Props.GeodesicExamples
import Verif.Props.CircleMapFloatExamples
import Verif.Props.SparseIntegrateFloat
import Verif.Props.SparseIntegrateFloatExamples
import Verif.Props.FloatRadius
import Verif.Props.FloatWinding
import Verif.Props.FloatWindingExamples
import Verif.Props.ClassOrder
import Verif.Props.ClassOrderExamples
import Verif.Spec.Landmarks
import Verif.Props.Coverage
import Verif.Props.CoverageExamples
import Verif.Spec.SinglePrecision
import Verif.Props.Precision
import Verif.Props.PrecisionExamples
import Verif.Props.RoundedDistances
import Verif.Props.RoundedDistancesExamples
import Verif.Spec.Outcomes
import Verif.Props.Outcomes
import Verif.Props.OutcomesExamples
import Verif.Props.ManyClasses
import Verif.Props.FiveSquares
import Verif.Spec.ProjOutcomes
import Verif.Props.ProjOutcomes
import Verif.Props.ProjOutcomesExamples
import Verif.Props.LensProjective
import Verif.Props.LensProjectiveExamples
import Verif.Spec.Surface
import Verif.Lemmas.Surface
import Verif.Props.Chern
import Verif.Props.ChernExamples
import Verif.Spec.Continuity
import Verif.Lemmas.Continuity
import Verif.Props.Continuity
import Verif.Props.ContinuityExamples
import Verif.Spec.Degree
import Verif.Lemmas.Degree
import Verif.Props.Degree
import Verif.Props.DegreeExamples
import Verif.Spec.Prime
import Verif.Lemmas.Prime
import Verif.Props.Prime
import Verif.Props.PrimeExamples
import Verif.Spec.Format
import Verif.Props.Format
import Verif.Props.FormatExamples
import Verif.Props.Options
import Verif.Props.OptionsExamples
import Verif.Spec.Reduced
import Verif.Lemmas.Reduced
import Verif.Props.Reduced
import Verif.Props.ReducedExamples
import Verif.Lemmas.ReducedChern
import Verif.Props.ReducedChern
import Verif.Props.ReducedChernExamples
import Verif.Spec.Essential
import Verif.Lemmas.Essential
import Verif.Props.Essential
import Verif.Props.EssentialExamples
import Verif.Props.EssentialReduced
import Verif.Props.EssentialReducedExamples
import Verif.Spec.GeodesicLoop
import Verif.Props.GeodesicCircular
import Verif.Props.GeodesicCircularExamples
import Verif.Props.Instances5
import Verif.Lemmas.Essential2
import Verif.Props.Essential2
import Verif.Props.Essential2Examples
import Verif.Props.Essential2Reduced
import Verif.Props.Essential2ReducedExamples
import Verif.Spec.HopfDegree
import Verif.Props.HopfDegree
import Verif.Props.HopfDegreeExamples
import Verif.Spec.StoredState
import Verif.Props.StoredState
import Verif.Props.StoredStateExamples
import Verif.Props.StoredToro
import Verif.Props.StoredToroExamples
import Verif.Spec.StoredCocycles
import Verif.Props.StoredCocycles
import Verif.Props.StoredCocyclesExamples
import Verif.Spec.DiscPlot
import Verif.Props.DiscPlot
import Verif.Props.DiscPlotExamples
