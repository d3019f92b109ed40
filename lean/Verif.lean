import Verif.Claims.Tokens
import Verif.Claims.Positions
import Verif.Claims.Sampling
import Verif.Claims.Violation
import Verif.Claims.Episode
import Verif.Claims.Exec
import Verif.Claims.Terms
import Verif.Claims.Memory
import Verif.Claims.Cache
import Verif.Claims.Searcher
import Verif.Claims.Naming
import Verif.Claims.SgaTree
import Verif.Claims.SgaEval
import Verif.Claims.SgaEvolve
import Verif.Claims.Regress
import Verif.Claims.FiniteDiff
import Verif.Claims.Equation
import Verif.Claims.SgaSearch
import Verif.Claims.Grid
import Verif.Claims.Dataset
import Verif.Claims.Params
import Verif.Claims.Viz
import Verif.Claims.Dlga
import Verif.Claims.DlgaFit
import Verif.Claims.Select
import Verif.Claims.Complete
import Verif.Claims.Input
import Verif.Claims.Torch
import Verif.Claims.Deriv
import Verif.Claims.Fit
import Verif.Claims.Regulate
import Verif.Claims.Reward
import Verif.Claims.Show
import Verif.Discover.Diff
import Verif.Claims.Diff
import Verif.Discover.Adapter
import Verif.Claims.Adapter
import Verif.Claims.AdapterSparse
import Verif.Claims.AdapterLegacy
import Verif.EqGpt.Sentence
import Verif.EqGpt.Reward
import Verif.EqGpt.Board
import Verif.EqGpt.Terms
import Verif.Claims.EqGptBoard
import Verif.Claims.EqGptSentence
import Verif.Claims.EqGptSample
import Verif.Claims.EqGptTerms
import Verif.Claims.EqGptReward
import Verif.Api.Config
import Verif.Claims.Config
import Verif.Discover.Facade
import Verif.Claims.Facade
import Verif.Discover.Regression
import Verif.Discover.RegressionMetric
import Verif.Discover.RegressionText
import Verif.Claims.Regression
import Verif.Claims.RegressionMetric
import Verif.Discover.RegressionRun
import Verif.Claims.RegressionRun
import Verif.Claims.RegressionText
import Verif.App.Runner
import Verif.Claims.Runner
import Verif.Dataset.Load
import Verif.Claims.Load
import Verif.Discover.Build
import Verif.Claims.Build
import Verif.Viz.Data
import Verif.Claims.VizData
import Verif.Viz.Fields
import Verif.Claims.VizFields
import Verif.Api.PySR
import Verif.Claims.PySR
import Verif.Discover.Pinn
import Verif.Claims.Pinn
import Verif.Claims.PinnData
import Verif.Discover.Stability
import Verif.Claims.Stability
import Verif.EqGpt.Surrogate
import Verif.EqGpt.Augment
import Verif.Claims.EqGptSurrogate
import Verif.Claims.EqGptAugment
import Verif.Utils.Diff
import Verif.Claims.Utils
import Verif.Sga.Autograd
import Verif.Sga.Derivs
import Verif.Sga.Problems
import Verif.Claims.SgaAutograd
import Verif.Claims.SgaDerivs
import Verif.Claims.SgaProblems
import Verif.Dataset.Info
import Verif.Claims.DatasetInfo
import Verif.EqGpt.Gpt
import Verif.Discover.Soft
import Verif.Claims.EqGptNet
import Verif.Claims.Soft
import Verif.Sga.LatexUnique
import Verif.Claims.Latex
import Verif.Claims.DlgaSvd
import Verif.Claims.Stats
import Verif.Claims.Batch
import Verif.Claims.ProgramState
import Verif.Claims.Aggregate
import Verif.Claims.Expand
import Verif.Claims.Policy
import Verif.Claims.PriorBuild
import Verif.Sga.Reuse
import Verif.Claims.Reuse
import Verif.Sga.MetaTrain
import Verif.Claims.MetaTrain
import Verif.App.Form
import Verif.Claims.Form
import Verif.Discover.Inner
import Verif.Claims.Inner
import Verif.Dlga.BaseText
import Verif.Claims.DlgaText
import Verif.Discover.Search
import Verif.Claims.Search
import Verif.Discover.Recover
import Verif.Claims.Recover
import Verif.Sga.Run
import Verif.Claims.SgaRun
import Verif.Sga.Aic
import Verif.Claims.SgaAic
import Verif.Dlga.Meta
import Verif.Claims.DlgaMeta
import Verif.Dlga.Run
import Verif.Claims.DlgaRun
import Verif.EqGpt.Run
import Verif.Claims.EqGptRun
import Verif.Viz.Nd
import Verif.Claims.VizNd
import Verif.Discover.SprRun
import Verif.Claims.SprRun
import Verif.Viz.SgaFig
import Verif.Claims.SgaFig
import Verif.Viz.Spr
import Verif.Claims.VizSpr
import Verif.Discover.InnerPinn
import Verif.Claims.InnerPinn
import Verif.Discover.GenericCheck
import Verif.Claims.GenericCheck
import Verif.Discover.Protected
import Verif.Claims.Protected
import Verif.Viz.Line
import Verif.Claims.VizLine
import Verif.EqGpt.Simulate
import Verif.Claims.EqGptSimulate
import Verif.Viz.DlgaOld
import Verif.Claims.VizDlgaOld
import Verif.Discover.Trim
import Verif.Claims.Trim
import Verif.Viz.TreeFig
import Verif.Claims.TreeFig
import Verif.Viz.RewardFig
import Verif.Claims.RewardFig
import Verif.Discover.Weak
import Verif.Claims.Weak
import Verif.Discover.TorchDiff
import Verif.Claims.TorchDiff
import Verif.Viz.Api
import Verif.Claims.VizApi
import Verif.Dlga.History
import Verif.Claims.DlgaHistory
import Verif.Viz.DlgaCompare
import Verif.Claims.DlgaCompare
import Verif.Discover.Notation
import Verif.Claims.Notation
import Verif.App.RunnerViz
import Verif.Claims.RunnerViz
import Verif.Viz.SgaLegacy
import Verif.Claims.SgaLegacy
import Verif.Sga.InputDim
import Verif.Claims.SgaInputDim
import Verif.Viz.Containers
import Verif.Claims.VizContainers
import Verif.Utils.Logging
import Verif.Claims.Logging
import Verif.Dataset.Handler
import Verif.Claims.DataHandler
import Verif.Viz.SgaParity
import Verif.Claims.SgaParity
import Verif.Discover.Objects
import Verif.Claims.Objects
import Verif.Claims.ObjectsScan
import Verif.EqGpt.Answer
import Verif.Claims.EqGptAnswer
