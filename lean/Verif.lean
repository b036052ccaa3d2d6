import Verif.Basics
import Verif.Lemmas.Bessel
import Verif.Lemmas.BesselRatio
import Verif.Lemmas.BetaMoments
import Verif.Lemmas.Boxes
import Verif.Lemmas.Censored
import Verif.Lemmas.CensoredMoments
import Verif.Lemmas.CountLaw
import Verif.Lemmas.CountOne
import Verif.Lemmas.DirichletLaw
import Verif.Lemmas.DiscreteWide
import Verif.Lemmas.ElicitPlot
import Verif.Lemmas.GammaDouble
import Verif.Lemmas.GammaRatio
import Verif.Lemmas.GridSum
import Verif.Lemmas.HalfScale
import Verif.Lemmas.Hdi
import Verif.Lemmas.Info
import Verif.Lemmas.Interval
import Verif.Lemmas.Lanczos
import Verif.Lemmas.LawBase
import Verif.Lemmas.LawDiscrete
import Verif.Lemmas.LawEven
import Verif.Lemmas.LawGamma
import Verif.Lemmas.LawLaplace
import Verif.Lemmas.LawLogGamma
import Verif.Lemmas.LawMore
import Verif.Lemmas.LawNormal
import Verif.Lemmas.LawSimple
import Verif.Lemmas.LawThird
import Verif.Lemmas.LocScale
import Verif.Lemmas.LogScale
import Verif.Lemmas.LogitNormalLaw
import Verif.Lemmas.Loop
import Verif.Lemmas.MatchLine
import Verif.Lemmas.MatchMv
import Verif.Lemmas.MaxentHdi
import Verif.Lemmas.MlAsym
import Verif.Lemmas.MlCauchy
import Verif.Lemmas.MlConvex
import Verif.Lemmas.MlDisWeibull
import Verif.Lemmas.MlExpFam
import Verif.Lemmas.MlFamilies
import Verif.Lemmas.MlGammaBeta
import Verif.Lemmas.MlHalfStudent
import Verif.Lemmas.MlKuma
import Verif.Lemmas.MlNegBin
import Verif.Lemmas.MlNegBinOne
import Verif.Lemmas.MlReduce
import Verif.Lemmas.MlRice
import Verif.Lemmas.MlTrunc
import Verif.Lemmas.MlZip
import Verif.Lemmas.Modifier
import Verif.Lemmas.ModifierBase
import Verif.Lemmas.Moments
import Verif.Lemmas.MoreLaws
import Verif.Lemmas.NoVar
import Verif.Lemmas.NumFit
import Verif.Lemmas.Overview
import Verif.Lemmas.Param
import Verif.Lemmas.Param2
import Verif.Lemmas.Param3
import Verif.Lemmas.Param4
import Verif.Lemmas.ParetoBest
import Verif.Lemmas.PeakGiven
import Verif.Lemmas.PolyCheck
import Verif.Lemmas.PolyRange
import Verif.Lemmas.PositiveGiven
import Verif.Lemmas.Ppa
import Verif.Lemmas.Printed
import Verif.Lemmas.PrintedP
import Verif.Lemmas.PrintedText
import Verif.Lemmas.QuartileShape
import Verif.Lemmas.QuartileSkew
import Verif.Lemmas.Rc
import Verif.Lemmas.Refit
import Verif.Lemmas.RiceWeibull
import Verif.Lemmas.Rotation
import Verif.Lemmas.Sampling
import Verif.Lemmas.ShiftGiven
import Verif.Lemmas.SkewLaw
import Verif.Lemmas.SkewStudent
import Verif.Lemmas.Trapezoid
import Verif.Lemmas.TruncNormal
import Verif.Lemmas.VonMisesArc
import Verif.Lemmas.VonMisesLaw
import Verif.Lemmas.VonMisesMass
import Verif.Lemmas.WeibullShape
import Verif.Lemmas.Widest
import Verif.Lemmas.WrapElicit
import Verif.Model.Cache
import Verif.Model.Catalog
import Verif.Model.Categorical
import Verif.Model.CensoredEntropy
import Verif.Model.Citations
import Verif.Model.ContMoments
import Verif.Model.Contours
import Verif.Model.Curves
import Verif.Model.Delegate
import Verif.Model.Dirichlet
import Verif.Model.ElicitPlot
import Verif.Model.Explorer
import Verif.Model.ExplorerBambi
import Verif.Model.Extra
import Verif.Model.FromPymc
import Verif.Model.GridMoments
import Verif.Model.Hdi
import Verif.Model.HdiLong
import Verif.Model.Info
import Verif.Model.Interactive
import Verif.Model.Interval
import Verif.Model.Joint
import Verif.Model.LMoments
import Verif.Model.Loop
import Verif.Model.Match
import Verif.Model.MaxentRun
import Verif.Model.MixPpf
import Verif.Model.MlFit
import Verif.Model.Mle
import Verif.Model.MleMore
import Verif.Model.MleTop
import Verif.Model.Modes
import Verif.Model.Modifier
import Verif.Model.Moments
import Verif.Model.MomentsMore
import Verif.Model.Multivariate
import Verif.Model.MvObject
import Verif.Model.Nest
import Verif.Model.NestLaw
import Verif.Model.NestMix
import Verif.Model.NumFit
import Verif.Model.Optim
import Verif.Model.Overview
import Verif.Model.Panels
import Verif.Model.Param
import Verif.Model.PlotCall
import Verif.Model.PointInterval
import Verif.Model.Posterior
import Verif.Model.Ppa
import Verif.Model.PpaDistance
import Verif.Model.PpaUi
import Verif.Model.Ppl
import Verif.Model.Printed
import Verif.Model.Project
import Verif.Model.QuartileInt
import Verif.Model.Rc
import Verif.Model.RcObjects
import Verif.Model.ReadModel
import Verif.Model.Redraw
import Verif.Model.Refit
import Verif.Model.RiceWeibull
import Verif.Model.Roulette
import Verif.Model.RouletteSession
import Verif.Model.Sample
import Verif.Model.SampleCall
import Verif.Model.Slider
import Verif.Model.Source
import Verif.Model.Special
import Verif.Model.Summary
import Verif.Model.Support
import Verif.Model.Survival
import Verif.Model.ToPymc
import Verif.Model.TruncNormal
import Verif.Model.TruncatedMoments
import Verif.Model.UnitFit
import Verif.Model.VarGraph
import Verif.Model.WarnText
import Verif.Model.Warnings
import Verif.Model.WrapElicit
import Verif.Model.Wrapper
import Verif.Props.BoxAgree
import Verif.Props.Boxes
import Verif.Props.Cache
import Verif.Props.Catalog
import Verif.Props.Categorical
import Verif.Props.Censored
import Verif.Props.CensoredEntropy
import Verif.Props.CensoredMoments
import Verif.Props.Citations
import Verif.Props.Combine
import Verif.Props.ContMoments
import Verif.Props.Contours
import Verif.Props.CountFit
import Verif.Props.CountLaw
import Verif.Props.CountOne
import Verif.Props.Curves
import Verif.Props.Delegate
import Verif.Props.Dirichlet
import Verif.Props.DiscreteWide
import Verif.Props.ElicitPlot
import Verif.Props.ExgLaw
import Verif.Props.Explorer
import Verif.Props.ExplorerBambi
import Verif.Props.Extra
import Verif.Props.FixedParams
import Verif.Props.FixedStat
import Verif.Props.FromPymc
import Verif.Props.GridMoments
import Verif.Props.Grids
import Verif.Props.HalfScale
import Verif.Props.Hdi
import Verif.Props.HdiLong
import Verif.Props.Hurdle
import Verif.Props.Info
import Verif.Props.Interactive
import Verif.Props.IntervalScale
import Verif.Props.Intervals
import Verif.Props.Joint
import Verif.Props.LMoments
import Verif.Props.Law
import Verif.Props.LawMore
import Verif.Props.LocScale
import Verif.Props.LogScale
import Verif.Props.Match
import Verif.Props.MatchLine
import Verif.Props.MatchMv
import Verif.Props.MaxentHdi
import Verif.Props.MaxentRun
import Verif.Props.MixPpf
import Verif.Props.Mixture
import Verif.Props.MlCounts
import Verif.Props.MlCountsRun
import Verif.Props.MlExist
import Verif.Props.MlFit
import Verif.Props.MlHalfStudent
import Verif.Props.MlMore
import Verif.Props.MlMoreRun
import Verif.Props.MlRice
import Verif.Props.MlRun
import Verif.Props.MlTrunc
import Verif.Props.MlTruncRun
import Verif.Props.Mle
import Verif.Props.MleApprox
import Verif.Props.MleMore
import Verif.Props.MleTop
import Verif.Props.ModelText
import Verif.Props.Modes
import Verif.Props.Moments
import Verif.Props.MomentsMore
import Verif.Props.MoreLaws
import Verif.Props.Multivariate
import Verif.Props.MvObject
import Verif.Props.Nest
import Verif.Props.NestAround
import Verif.Props.NestLaw
import Verif.Props.NestMix
import Verif.Props.NestSample
import Verif.Props.Nested
import Verif.Props.NestedMore
import Verif.Props.NumFit
import Verif.Props.Overview
import Verif.Props.Panels
import Verif.Props.Param
import Verif.Props.ParetoBest
import Verif.Props.PeakGiven
import Verif.Props.PlotCall
import Verif.Props.PointInterval
import Verif.Props.PositiveGiven
import Verif.Props.Posterior
import Verif.Props.Ppa
import Verif.Props.PpaDistance
import Verif.Props.PpaUi
import Verif.Props.Ppl
import Verif.Props.Printed
import Verif.Props.Project
import Verif.Props.QuartileCount
import Verif.Props.QuartileInt
import Verif.Props.QuartileShape
import Verif.Props.QuartileSkew
import Verif.Props.Rc
import Verif.Props.RcObjects
import Verif.Props.ReadModel
import Verif.Props.Redraw
import Verif.Props.Refit
import Verif.Props.Reported
import Verif.Props.RiceWeibull
import Verif.Props.Roulette
import Verif.Props.RouletteSession
import Verif.Props.RoundTrip
import Verif.Props.SampleCall
import Verif.Props.Sampling
import Verif.Props.Select
import Verif.Props.ShiftGiven
import Verif.Props.SkewLaw
import Verif.Props.Slider
import Verif.Props.Source
import Verif.Props.Special
import Verif.Props.Summary
import Verif.Props.Support
import Verif.Props.Survival
import Verif.Props.TableNumbers
import Verif.Props.ToPymc
import Verif.Props.TruncNormal
import Verif.Props.Truncated
import Verif.Props.TruncatedMoments
import Verif.Props.Truncation
import Verif.Props.TwoIntervals
import Verif.Props.Unravel
import Verif.Props.Validation
import Verif.Props.VarGraph
import Verif.Props.VonMisesArc
import Verif.Props.VonMisesBest
import Verif.Props.VonMisesFit
import Verif.Props.VonMisesGiven
import Verif.Props.WarnText
import Verif.Props.Warnings
import Verif.Props.WeibullShape
import Verif.Props.Widest
import Verif.Props.WrapElicit
import Verif.Props.Wrapper
import Verif.Spec.Arc
import Verif.Spec.Bambi
import Verif.Spec.Circular
import Verif.Spec.CountLaw
import Verif.Spec.CountOne
import Verif.Spec.Delegate
import Verif.Spec.DiscreteWide
import Verif.Spec.ElicitPlot
import Verif.Spec.FromPymc
import Verif.Spec.HalfScale
import Verif.Spec.Html
import Verif.Spec.Interval
import Verif.Spec.LMoments
import Verif.Spec.Law
import Verif.Spec.LawMore
import Verif.Spec.Likelihood
import Verif.Spec.LocScale
import Verif.Spec.LogScale
import Verif.Spec.MatchLine
import Verif.Spec.MatchMv
import Verif.Spec.MaxentHdi
import Verif.Spec.MaxentRun
import Verif.Spec.MlCounts
import Verif.Spec.MlDomain
import Verif.Spec.MlExist
import Verif.Spec.MlTrunc
import Verif.Spec.MleTop
import Verif.Spec.Modes
import Verif.Spec.Modifier
import Verif.Spec.Moments
import Verif.Spec.MoreLaws
import Verif.Spec.Multivariate
import Verif.Spec.Nest
import Verif.Spec.NestLaw
import Verif.Spec.Nested
import Verif.Spec.NumFit
import Verif.Spec.Optim
import Verif.Spec.Param
import Verif.Spec.ParetoBest
import Verif.Spec.PeakGiven
import Verif.Spec.PositiveGiven
import Verif.Spec.Printed
import Verif.Spec.QuartileCount
import Verif.Spec.QuartileShape
import Verif.Spec.QuartileSkew
import Verif.Spec.Rc
import Verif.Spec.RcObjects
import Verif.Spec.Rebuild
import Verif.Spec.RiceWeibull
import Verif.Spec.SampleCall
import Verif.Spec.ShiftGiven
import Verif.Spec.SkewLaw
import Verif.Spec.Source
import Verif.Spec.Support
import Verif.Spec.ToPymc
import Verif.Spec.TruncNormal
import Verif.Spec.Truncation
import Verif.Spec.TwoIntervals
import Verif.Spec.VarGraph
import Verif.Spec.VonMisesBest
import Verif.Spec.WarnText
import Verif.Spec.Widest
import Verif.Spec.WrapElicit
