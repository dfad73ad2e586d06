import Verif.Props.Hypervolume
import Verif.Props.NonDomSort
import Verif.Props.Derivatives
import Verif.Props.DecisionSpace
import Verif.Props.Utils
import Verif.Props.State
import Verif.Props.KKT
import Verif.Props.BoxStep
import Verif.Props.Population
import Verif.Props.Residual
import Verif.Props.Run
import Verif.Props.DeltaP
import Verif.Props.MMD
import Verif.Props.RefSet
import Verif.Moea.SmsEmoa
import Verif.HV.Embed
import Verif.HV.Round
import Verif.Props.Rounding
import Verif.Props.Moea
import Verif.Props.SmsEmoa
import Verif.Props.RefDirs
import Verif.Props.DTLZ
import Verif.Props.DTLZSet
import Verif.Props.ZDT
import Verif.Props.ZDT6
import Verif.Props.Problems
import Verif.Props.RSG
import Verif.Props.Chim
import Verif.Props.Bootstrap
import Verif.Props.WFG
import Verif.Props.Newton
import Verif.Props.Shift
import Verif.Props.UF
import Verif.Props.CF
import Verif.Props.Misc
import Verif.Props.Pymoo
import Verif.Props.Total
import Verif.Opt.HVNIter
import Verif.Opt.Points
import Verif.Opt.PointsLemmas
import Verif.Opt.HVNIterLemmas
import Verif.Opt.HVNEnv
import Verif.HVD.Given
import Verif.Props.HVNIter
import Verif.Props.Kkt
import Verif.Props.DpN
import Verif.Props.HVN
import Verif.Opt.DpN
import Verif.Opt.DpNLemmas
import Verif.Opt.DpNRef
import Verif.Opt.DpNRows
import Verif.Opt.DpNSearch
import Verif.Opt.MMDN
import Verif.Opt.MMDNLemmas
import Verif.Opt.MMDNStep
import Verif.Props.MMDN
import Verif.Props.Components
import Verif.Props.MMDNDescent
import Verif.HVD.ChainLine
import Verif.Opt.Lara
import Verif.Opt.Precond
import Verif.Opt.PrecondLemmas
import Verif.Opt.PrecondKeep
import Verif.Props.Lara
import Verif.Props.PrecondDescent
import Verif.HVD.Inclusion
import Verif.Opt.LocalNewton
import Verif.Opt.OneLayer
import Verif.Props.LocalConv
import Verif.Props.SmoothHv
import Verif.Props.Lagrangian
import Verif.Props.LocalConvHv
import Verif.Props.LocalConvExample
import Verif.Ind.RefSetDefined
import Verif.Props.RefSetDefined
import Verif.Scripts.RefData
import Verif.Props.RefData
import Verif.Scripts.Piecewise
import Verif.Props.Piecewise
import Verif.Scripts.BoxUnion
import Verif.Props.BoxUnion
import Verif.Opt.DpNMany
import Verif.Props.DpNMany
import Verif.Props.MMDNMany
import Verif.Props.Rest
import Verif.Props.RestStuck
import Verif.Scripts.PolyFeatures
import Verif.Props.PolyFeatures
import Verif.Scripts.Examples
import Verif.Props.ExampleFronts
import Verif.Ind.FlModel
import Verif.Props.IndRounding
import Verif.Props.KktMap
import Verif.Props.LocalConvDp
import Verif.Props.LocalConvDpExample
import Verif.Props.KktMapMmd
import Verif.Props.LocalConvMmd
import Verif.Props.LocalConvMmdExample
import Verif.Props.LocalConvMmdCurved
import Verif.Scripts.Statistics
import Verif.Props.Statistics
import Verif.Scripts.Approximator
import Verif.Props.Approximator
import Verif.Scripts.SplineFile
import Verif.Props.SplineFile
import Verif.Scripts.Subset
import Verif.Props.Subset
import Verif.Moea.MoeadSetup
import Verif.Props.MoeadSetup
import Verif.Scripts.EaRuns
import Verif.Props.EaRuns
import Verif.Props.EaReference
import Verif.HV.Scale
import Verif.Scripts.CubicFront
import Verif.Props.CubicFront
import Verif.Scripts.MatchCluster
import Verif.Props.MatchCluster
import Verif.Props.SplineOrder
