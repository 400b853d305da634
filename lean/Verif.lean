import Verif.Lib.Adjust
import Verif.Lib.Backdoor
import Verif.Lib.Bayes
import Verif.Lib.Bfs
import Verif.Lib.CausalGraph
import Verif.Lib.Causation
import Verif.Lib.DSep
import Verif.Lib.Explicit
import Verif.Lib.FrontAdjust
import Verif.Lib.Hedge
import Verif.Lib.HedgeModels
import Verif.Lib.IdGraph
import Verif.Lib.MMatrix
import Verif.Lib.Mdg
import Verif.Lib.Paths
import Verif.Lib.Powerset
import Verif.Lib.Prune
import Verif.Lib.QFactor
import Verif.Lib.Sign
import Verif.Model.BN
import Verif.Model.BNNodes
import Verif.Model.BNSites
import Verif.Model.Backdoor
import Verif.Model.BestFirst
import Verif.Model.Bound
import Verif.Model.CEInterp
import Verif.Model.CTForest
import Verif.Model.CausalForest
import Verif.Model.CausalGraph
import Verif.Model.CausalModel
import Verif.Model.Cells
import Verif.Model.ClassCriterion
import Verif.Model.Criterion
import Verif.Model.CrossFit
import Verif.Model.Dagma
import Verif.Model.DeepIV
import Verif.Model.DeepIVLoss
import Verif.Model.Discovery
import Verif.Model.DoubleML
import Verif.Model.DoublyRobust
import Verif.Model.EffectTable
import Verif.Model.ExpData
import Verif.Model.Factory
import Verif.Model.FeatureDraw
import Verif.Model.Forest
import Verif.Model.Frontdoor
import Verif.Model.Gen
import Verif.Model.GolemFit
import Verif.Model.GrfMemory
import Verif.Model.HiddenConf
import Verif.Model.IV
import Verif.Model.Id
import Verif.Model.Importance
import Verif.Model.Init
import Verif.Model.Introsort
import Verif.Model.Ipw
import Verif.Model.Logging
import Verif.Model.Mdn
import Verif.Model.Median
import Verif.Model.MetaFrame
import Verif.Model.MetaLearner
import Verif.Model.NaiveGrf
import Verif.Model.NoTears
import Verif.Model.NoTearsFit
import Verif.Model.Nx
import Verif.Model.Params
import Verif.Model.PartialDep
import Verif.Model.Permuted
import Verif.Model.Pipeline
import Verif.Model.Policy
import Verif.Model.Prob
import Verif.Model.Propensity
import Verif.Model.Proxy
import Verif.Model.Pruning
import Verif.Model.PyroStore
import Verif.Model.RLoss
import Verif.Model.RandomSplit
import Verif.Model.RegCriterion
import Verif.Model.Seed
import Verif.Model.SkEx
import Verif.Model.SkFrame
import Verif.Model.TicToc
import Verif.Model.Toy
import Verif.Model.Tree
import Verif.Model.TreePlot
import Verif.Model.TreeQuery
import Verif.Model.TwoStage
import Verif.Model.Uplift
import Verif.Model.UpliftPlot
import Verif.Model.Utils
import Verif.Model.Why
import Verif.Model.WhyEffect
import Verif.Model.WhyFit
import Verif.Model.WhyGraph
import Verif.Model.WhyPi
import Verif.Model.WhyPolicy
import Verif.Model.WhyPre
import Verif.Model.WhyScore
import Verif.Model.WithoutReplacement
import Verif.Props.BN
import Verif.Props.BNEstimate
import Verif.Props.BNMarkov
import Verif.Props.BNModel
import Verif.Props.BNNodes
import Verif.Props.BNObj
import Verif.Props.BNSites
import Verif.Props.Backdoor
import Verif.Props.BestFirst
import Verif.Props.Bound
import Verif.Props.CEInterp
import Verif.Props.CTForest
import Verif.Props.CausalForest
import Verif.Props.CausalModel
import Verif.Props.Cells
import Verif.Props.ClassCriterion
import Verif.Props.Criterion
import Verif.Props.CrossFit
import Verif.Props.DSep
import Verif.Props.Dagma
import Verif.Props.DagmaTrain
import Verif.Props.DeepIV
import Verif.Props.DeepIVLoss
import Verif.Props.Defaults
import Verif.Props.Discovery
import Verif.Props.DmlBias
import Verif.Props.DmlCausal
import Verif.Props.DoubleML
import Verif.Props.DoublyRobust
import Verif.Props.EffectTable
import Verif.Props.EndToEnd
import Verif.Props.ExpData
import Verif.Props.Explicit
import Verif.Props.Factory
import Verif.Props.FeatureDraw
import Verif.Props.Forest
import Verif.Props.Frontdoor
import Verif.Props.Gen
import Verif.Props.GenUndirected
import Verif.Props.GolemFit
import Verif.Props.Graph
import Verif.Props.GrfMemory
import Verif.Props.GrfTree
import Verif.Props.HiddenConf
import Verif.Props.IV
import Verif.Props.Id
import Verif.Props.IdComplete
import Verif.Props.IdExact
import Verif.Props.IdSound
import Verif.Props.IdTerm
import Verif.Props.Identify
import Verif.Props.Importance
import Verif.Props.Init
import Verif.Props.Introsort
import Verif.Props.Ipw
import Verif.Props.IvBasis
import Verif.Props.IvCausal
import Verif.Props.Logging
import Verif.Props.Mdn
import Verif.Props.Median
import Verif.Props.MetaFrame
import Verif.Props.MetaLearner
import Verif.Props.MetaMore
import Verif.Props.NaiveGrf
import Verif.Props.NoTears
import Verif.Props.NoTearsFit
import Verif.Props.Params
import Verif.Props.PartialDep
import Verif.Props.Paths
import Verif.Props.Permuted
import Verif.Props.Pipeline
import Verif.Props.Policy
import Verif.Props.PolicySettings
import Verif.Props.Powerset
import Verif.Props.Propensity
import Verif.Props.Proxy
import Verif.Props.Pruning
import Verif.Props.PyroStore
import Verif.Props.RLoss
import Verif.Props.RandomSplit
import Verif.Props.RegCriterion
import Verif.Props.Seed
import Verif.Props.SkEx
import Verif.Props.SkFrame
import Verif.Props.TicToc
import Verif.Props.Toy
import Verif.Props.Tree
import Verif.Props.TreeBuild
import Verif.Props.TreePlot
import Verif.Props.TreeQuery
import Verif.Props.TreeSplit
import Verif.Props.TwoStage
import Verif.Props.Uplift
import Verif.Props.UpliftArea
import Verif.Props.UpliftPlot
import Verif.Props.Utils
import Verif.Props.Why
import Verif.Props.WhyArms
import Verif.Props.WhyEffect
import Verif.Props.WhyFit
import Verif.Props.WhyGraph
import Verif.Props.WhyPi
import Verif.Props.WhyPolicy
import Verif.Props.WhyPre
import Verif.Props.WhyScore
import Verif.Props.WithoutReplacement
import Verif.Spec.Bayes
import Verif.Spec.Bound
import Verif.Spec.CausalGraph
import Verif.Spec.Estimand
import Verif.Spec.Graph
import Verif.Spec.Uplift
