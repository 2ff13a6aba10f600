import Verif.Model.Collocation
import Verif.Lemmas.Poly
import Verif.Lemmas.Lagrange
import Verif.Props.Basis
import Verif.Props.Nodes
import Verif.Props.Gauss
import Verif.Props.Composite
import Verif.Props.CompositeQuad
import Verif.Model.Transcription
import Verif.Props.Validate
import Verif.Lemmas.Phase2
import Verif.Lemmas.Nlp
import Verif.Lemmas.Order
import Verif.Props.Setup
import Verif.Props.Transcription
import Verif.Props.Scaling
import Verif.Model.Solver
import Verif.Props.Guess
import Verif.Props.Solver
import Verif.Props.LifeCycle
import Verif.Model.Widths
import Verif.Model.HAdaptive
import Verif.Props.MergeSplit
import Verif.Props.EqualArea
import Verif.Props.SlopeWidths
import Verif.Props.HAdaptive
import Verif.Props.Residuals
import Verif.Props.ResidualExamples
import Verif.Props.ResidualGrid
import Verif.Props.Refine
import Verif.Props.PostInterp
import Verif.Props.PostExamples
import Verif.Props.Adaptive
import Verif.Props.AdaptiveExamples
import Verif.Props.Cache
import Verif.Props.PhAdaptive
import Verif.Lemmas.SameOn
import Verif.Model.Helpers
import Verif.Spec.Solution
import Verif.Props.EndToEnd
import Verif.Props.EndToEndExample
import Verif.Model.AdaptSession
import Verif.Props.AdaptiveEnd
import Verif.Props.AdaptiveEndExample
import Verif.Spec.Continuous
import Verif.Props.JacobiRoots
import Verif.Props.Exact
import Verif.Props.ExactExample
import Verif.Model.HSession
import Verif.Spec.CheckPoint
import Verif.Props.CheckPoint
import Verif.Props.HLoop
import Verif.Props.HRefine
import Verif.Props.HEnd
import Verif.Props.HMeasure
import Verif.Props.HReturns
import Verif.Props.HEndExample
import Verif.Props.ExactFree
import Verif.Props.ExactFreeExample
import Verif.Props.DefaultGrid
import Verif.Props.DefaultGridExample
import Verif.Props.PlotData
import Verif.Props.PlotDataExample
import Verif.Props.Weights
import Verif.Model.Examples
import Verif.Props.Shipped
import Verif.Props.ShippedExample
import Verif.Props.Existence
import Verif.Props.ShippedValid
import Verif.Props.MoonExample
import Verif.Props.PlotFigures
import Verif.Props.PlotVars
import Verif.Props.PlotSolve
import Verif.Spec.HCourse
import Verif.Props.HCourse
import Verif.Props.HStop
import Verif.Spec.Response
import Verif.Spec.FreeMode
import Verif.Props.Response
import Verif.Props.ResponseEnd
import Verif.Props.ChebWeights
import Verif.Props.Resolve
import Verif.Props.HResolve
import Verif.Props.FirstSegment
import Verif.Props.Convergence
import Verif.Props.CostLimit
import Verif.Props.ResponseExists
import Verif.Spec.Flown
import Verif.Props.Flown
import Verif.Props.FlownExample
import Verif.Spec.Tolerance
import Verif.Props.Tolerance
import Verif.Props.ToleranceExample
import Verif.Spec.FlownTo
import Verif.Props.FlownTo
import Verif.Props.FlownToExample
import Verif.Spec.Consistency
import Verif.Props.Consistency
import Verif.Spec.Best
import Verif.Props.Best
import Verif.Props.BestExample
import Verif.Model.HWatch
import Verif.Spec.HWatch
import Verif.Props.HWatch
import Verif.Props.HWatchExample
import Verif.Spec.ToleranceFree
import Verif.Props.ToleranceFree
import Verif.Props.ToleranceFreeExample
import Verif.Spec.FlownFree
import Verif.Props.FlownFree
import Verif.Spec.ConsistencyFree
import Verif.Props.ConsistencyFree
import Verif.Props.ConsistencyFreeExample
import Verif.Props.FlownFreeExample
import Verif.Lemmas.Clock
import Verif.Spec.KnownRate
import Verif.Props.KnownRate
import Verif.Props.KnownRateEnd
import Verif.Spec.Mayer
import Verif.Props.Mayer
import Verif.Props.MayerEnd
import Verif.Model.StatePlot
import Verif.Props.StateResiduals
import Verif.Props.StatePlot
import Verif.Props.StatePlotExample
import Verif.Spec.Scales
import Verif.Props.Scales
import Verif.Model.SecondPlot
import Verif.Props.SecondPlot
import Verif.Props.SecondPlotExample
import Verif.Model.PhSolve
import Verif.Props.PhSolve
import Verif.Props.PhSolveEnd
import Verif.Props.Compare
import Verif.Props.CompareExample
import Verif.Spec.UnitChange
import Verif.Props.UnitChange
import Verif.Props.UnitChangeExample
import Verif.Props.HUnknown
import Verif.Props.HUnknownExample
import Verif.Props.Schwartz
import Verif.Props.SchwartzExample
import Verif.Props.Split
import Verif.Props.SplitEnd
import Verif.Props.SplitExample
import Verif.Props.Euler
import Verif.Props.EulerExample
import Verif.Props.Accuracy
import Verif.Props.AccuracyExample
import Verif.Props.Loosen
import Verif.Props.LoosenExample
import Verif.Props.Local
import Verif.Props.ConvexLocal
import Verif.Props.LocalExample
import Verif.Props.Interval
import Verif.Props.IntervalRun
import Verif.Props.LatePost
import Verif.Props.IntervalExample
import Verif.Props.Renumber
import Verif.Props.RenumberExample
import Verif.Model.ExamplesMore
import Verif.Spec.Certificate
import Verif.Props.Certificate
import Verif.Props.Mine
import Verif.Props.MineExample
import Verif.Props.CertificateExample
import Verif.Spec.Forward
import Verif.Props.Backward
import Verif.Props.BackwardEnd
import Verif.Spec.Impossible
import Verif.Props.Impossible
import Verif.Props.ImpossibleEnd
import Verif.Model.ExamplesLaunch
import Verif.Spec.Staged
import Verif.Props.Staged
import Verif.Props.LaunchEnd
import Verif.Props.LaunchExample
import Verif.Props.LaunchTarget
import Verif.Spec.Rest
import Verif.Model.ExamplesVdp
import Verif.Props.Rest
import Verif.Props.RestVdp
import Verif.Props.ExistenceAdaptive
import Verif.Props.ExistenceH
import Verif.Props.RestVdpEnd
import Verif.Model.ExamplesVdpTest
import Verif.Props.OneSegment
import Verif.Props.OneSegmentVdp
import Verif.Model.Negative
import Verif.Props.Negative
import Verif.Props.NegativeExample
import Verif.Spec.Energy
import Verif.Props.Energy
import Verif.Props.EnergyExample
import Verif.Props.Calls
import Verif.Spec.Symmetry
import Verif.Props.Symmetry
import Verif.Props.SymmetryExample
import Verif.Props.SymmetryFree
import Verif.Spec.Principle
import Verif.Props.Principle
import Verif.Props.PrincipleExample
import Verif.Props.PrincipleFree
import Verif.Props.PrincipleWidths
import Verif.Props.PrincipleH
import Verif.Props.OneSegmentFree
import Verif.Props.OneSegmentVdpFree
