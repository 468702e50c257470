import Verif.Props.Acquisition
import Verif.Props.Annealing
import Verif.Props.ArgmaxRestart
import Verif.Props.Ask
import Verif.Props.AskFull
import Verif.Props.AskNoisy
import Verif.Props.AskSearch
import Verif.Props.Batch
import Verif.Props.BoxConstraint
import Verif.Props.BoxDecomposition
import Verif.Props.CallerArrays
import Verif.Props.Checkpoint
import Verif.Props.Cholesky
import Verif.Props.CmaEs
import Verif.Props.CmaFrame
import Verif.Props.CmaNeutral
import Verif.Props.CmaOrder
import Verif.Props.CmaSampling
import Verif.Props.Conditional
import Verif.Props.ConditionalRun
import Verif.Props.ConditionalTell
import Verif.Props.ConstraintCall
import Verif.Props.Construct
import Verif.Props.Csv
import Verif.Props.Daemon
import Verif.Props.DataOrder
import Verif.Props.Design
import Verif.Props.DesignSize
import Verif.Props.Distribution
import Verif.Props.Ehvi
import Verif.Props.EhviOrder
import Verif.Props.Evaluate
import Verif.Props.Exhaust
import Verif.Props.FixedSeed
import Verif.Props.Fmin
import Verif.Props.ForestTree
import Verif.Props.FrontProgress
import Verif.Props.FullRun
import Verif.Props.GpPosterior
import Verif.Props.Gpr
import Verif.Props.GprConfig
import Verif.Props.GprFit
import Verif.Props.GprHessian
import Verif.Props.GprOrder
import Verif.Props.GprShared
import Verif.Props.Hypervolume
import Verif.Props.InnerSearch
import Verif.Props.Kernels
import Verif.Props.LearnAnneal
import Verif.Props.LearnGp
import Verif.Props.LearnSteps
import Verif.Props.Learner
import Verif.Props.Likelihood
import Verif.Props.Metropolis
import Verif.Props.Mies
import Verif.Props.MiesFrame
import Verif.Props.MiesFull
import Verif.Props.MiesLaw
import Verif.Props.MiesOrder
import Verif.Props.MiesStrength
import Verif.Props.Mobo
import Verif.Props.MoboFrame
import Verif.Props.MoboPropose
import Verif.Props.MoboWhole
import Verif.Props.MultiList
import Verif.Props.Node
import Verif.Props.NothingNew
import Verif.Props.OnePlusOne
import Verif.Props.OnePlusOneFrame
import Verif.Props.OnePlusOneFull
import Verif.Props.OnePlusOneValues
import Verif.Props.Optimizer
import Verif.Props.Pareto
import Verif.Props.PartialArgument
import Verif.Props.Pcabo
import Verif.Props.PcaboRun
import Verif.Props.PcaboTell
import Verif.Props.Penalized
import Verif.Props.Penalty
import Verif.Props.PredictBatch
import Verif.Props.PriorCov
import Verif.Props.RandomForest
import Verif.Props.Recommend
import Verif.Props.Recovery
import Verif.Props.Resolution
import Verif.Props.Restricted
import Verif.Props.Resume
import Verif.Props.Retry
import Verif.Props.RunFrame
import Verif.Props.SamplerLaw
import Verif.Props.Sampling
import Verif.Props.SaveLoad
import Verif.Props.Scores
import Verif.Props.SearchSpace
import Verif.Props.Seeding
import Verif.Props.Selection
import Verif.Props.SideBySide
import Verif.Props.SkGpr
import Verif.Props.Solution
import Verif.Props.SolutionView
import Verif.Props.SpaceDict
import Verif.Props.SpaceEdit
import Verif.Props.SpaceReplace
import Verif.Props.SpaceRound
import Verif.Props.Stagnation
import Verif.Props.Trend
import Verif.Props.TypedSpace
import Verif.Props.Variables
import Verif.Props.Workers
import Verif.Axioms
