import Verif.Graph.Model
import Verif.Graph.Spec
import Verif.Graph.Lemmas
import Verif.Graph.Traverse
import Verif.Graph.TraverseSet
import Verif.Graph.TraverseMap
import Verif.Graph.TraversePdf
import Verif.Graph.TraverseSample
import Verif.Graph.PropsLemmas
import Verif.Graph.History
import Verif.Graph.Examples
import Verif.Graph.Props
import Verif.Mpi.Model
import Verif.Mpi.Inv
import Verif.Mpi.Final
import Verif.Mpi.Props
import Verif.Mpi.Program
import Verif.Mpi.ProgramLemmas
import Verif.Mpi.ProgramProps
import Verif.Mpi.Ranks
import Verif.Kernel.Model
import Verif.Kernel.Props
import Verif.Models.Model
import Verif.Models.Props
import Verif.Models.Simulate
import Verif.Collect
import Verif.Journal.Model
import Verif.Journal.Props
import Verif.Rejection.Model
import Verif.Rejection.Props
import Verif.Pmc.Percentile
import Verif.Pmc.Model
import Verif.Pmc.Lemmas
import Verif.Pmc.Props
import Verif.Graph.Replay
import Verif.Smc.Model
import Verif.Smc.Lemmas
import Verif.Smc.Props
import Verif.Smc.Spec
import Verif.Smc.Moves
import Verif.Smc.Run
import Verif.Smc.Restart
import Verif.Smc.RHit
import Verif.Chance
import Verif.Smc.Balance
import Verif.Smc.Truncated
import Verif.Pmc.Truncated
import Verif.Pmc.Run
import Verif.Pmc.Restart
import Verif.PmcLik.Model
import Verif.PmcLik.Spec
import Verif.PmcLik.Run
import Verif.Rsmc.Model
import Verif.Rsmc.Lemmas
import Verif.Rsmc.Props
import Verif.Rsmc.Spec
import Verif.Rsmc.Run
import Verif.Rsmc.Restart
import Verif.Apmc.Model
import Verif.Apmc.Lemmas
import Verif.Apmc.Props
import Verif.Apmc.Spec
import Verif.Apmc.Run
import Verif.Apmc.Restart
import Verif.Sabc.Model
import Verif.Sabc.Lemmas
import Verif.Sabc.Props
import Verif.Sabc.Spec
import Verif.Sabc.Run
import Verif.Sabc.Restart
import Verif.Sabc.Balance
import Verif.Subsim.Model
import Verif.Subsim.Lemmas
import Verif.Subsim.Spec
import Verif.Subsim.Run
import Verif.Subsim.Restart
import Verif.Subsim.Props
import Verif.Subsim.Deviations
import Verif.Transform.Model
import Verif.Transform.Lemmas
import Verif.Transform.Props
import Verif.Transform.Jacobian
import Verif.Transform.Scaler
import Verif.Mcmc.Model
import Verif.Mcmc.Lemmas
import Verif.Mcmc.Props
import Verif.Mcmc.Resume
import Verif.Mcmc.Balance
import Verif.Mcmc.Bounds
import Verif.Distance.Model
import Verif.Distance.CacheLemmas
import Verif.Distance.CacheProps
import Verif.Distance.Psd
import Verif.Distance.Lemmas
import Verif.Distance.Props
import Verif.Distance.NeighbourLemmas
import Verif.Distance.NeighbourProps
import Verif.Joint.Model
import Verif.Joint.Props
import Verif.Statistics.Model
import Verif.Statistics.Props
import Verif.LogReg.Model
import Verif.LogReg.Props
import Verif.Wasserstein.Transport
import Verif.Wasserstein.Model
import Verif.Wasserstein.Props
import Verif.Memo.Model
import Verif.Memo.Props
import Verif.Learning.Model
import Verif.Learning.Props
import Verif.Learning.Semiautomatic
import Verif.Nn.Model
import Verif.Nn.Props
import Verif.Selection.Model
import Verif.Selection.Props
import Verif.Likelihood.Model
import Verif.Likelihood.Props
import Verif.Cov.Model
import Verif.Cov.Props
import Verif.Network.Model
import Verif.Network.Props
import Verif.Graph.Fresh
import Verif.Schedule.Model
import Verif.Schedule.Props
import Verif.Schedule.Seeds
import Verif.Rejection.Law
import Verif.Deriv.Model
import Verif.Deriv.Props
import Verif.Deriv.Train
import Verif.Deriv.TrainProps
import Verif.Densities.Model
import Verif.Densities.Props
import Verif.Densities.Multi
import Verif.Densities.MultiProps
import Verif.Distance.Estimators
import Verif.Mcmc.Adapt
import Verif.Kernel.Density
import Verif.Pmc.Target
import Verif.Schedule.Runs
import Verif.Site.Model
import Verif.Site.Props
import Verif.Site.Refine
import Verif.Site.Samplers
import Verif.Site.Same
import Verif.Site.Tasks
import Verif.Site.Examples
import Verif.Nested.Model
import Verif.Nested.Props
import Verif.Nested.Examples
import Verif.Nested.Stream
import Verif.Embedding.Model
import Verif.Embedding.Props
import Verif.Embedding.Examples
import Verif.Embedding.Losses
import Verif.Site.RunModel
import Verif.Site.Run
import Verif.Site.RunOthers
import Verif.Site.RunChains
import Verif.Site.RunExamples
import Verif.Site.EndToEnd
import Verif.Site.EndExamples
import Verif.Mpi.Release
import Verif.Cov.Shape
import Verif.Likelihood.Integers
import Verif.Mcmc.Default
import Verif.Mcmc.Stuck
import Verif.Embedding.Forward
import Verif.Site.Likelihood
import Verif.Mcmc.Follow
import Verif.Site.RunMcmc
import Verif.Site.RunPmc
import Verif.Schedule.Spark
import Verif.Site.Spark
import Verif.Network.Draw
import Verif.Deriv.Score
import Verif.Deriv.ScoreProps
import Verif.Journal.Histogram
import Verif.Journal.HistogramProps
import Verif.Learning.Trained
import Verif.Learning.TrainedProps
import Verif.Deriv.Autograd
import Verif.Deriv.AutogradProps
import Verif.Deriv.Noise
import Verif.Mcmc.Kernels
import Verif.Mpi.Manager
import Verif.Smc.Vanish
import Verif.Floats.Basic
import Verif.Floats.Bisection
import Verif.Floats.Choice
import Verif.Floats.LogWeights
import Verif.Mcmc.Ergodic
import Verif.Pmc.LikTarget
import Verif.Mcmc.Averages
import Verif.LogReg.Scores
import Verif.Rejection.Averages
import Verif.Rejection.Limit
import Verif.Smc.Target
import Verif.Journal.Plot
import Verif.Pmc.Averages
import Verif.Cov.Joint
import Verif.Apmc.Target
import Verif.Journal.Trace
import Verif.Mcmc.Original
import Verif.Mcmc.Matrix
import Verif.Site.Files
import Verif.Pmc.Exact
import Verif.Pmc.ExactMeans
import Verif.Apmc.Exact
import Verif.Redraw
import Verif.Smc.Redraw
import Verif.Subsim.Redraw
import Verif.Sabc.Redraw
import Verif.Smc.RedrawRun
import Verif.Site.EndRuns
import Verif.Expr.Model
import Verif.Expr.Values
import Verif.Expr.Props
import Verif.Expr.Examples
import Verif.Floats.Underflow
import Verif.Floats.Prior
import Verif.Floats.PriorExamples
import Verif.Nan.Num
import Verif.Nan.Percentile
import Verif.Nan.Rejection
import Verif.Nan.Pmc
import Verif.Nan.PmcProps
import Verif.Nan.PmcReal
import Verif.Nan.Mcmc
import Verif.Nan.McmcProps
import Verif.Witness.Samplers
import Verif.Witness.Parts
import Verif.Witness.Relations
import Verif.Witness.More
import Verif.Nan.Smc
import Verif.Nan.SmcProps
import Verif.Nan.Apmc
import Verif.Nan.Sabc
import Verif.Nan.Rsmc
import Verif.Nan.Subsim
import Verif.Nan.PmcLik
import Verif.Rejection.Cost
import Verif.Mcmc.Burnin
import Verif.Scale.Mcmc
import Verif.Scale.Pmc
import Verif.Scale.Ratio
import Verif.Scale.Apmc
import Verif.Units.Basic
import Verif.Units.Rsmc
import Verif.Units.Apmc
import Verif.Units.Subsim
import Verif.Units.Sabc
import Verif.Units.Smc
import Verif.Rejection.First
import Verif.Journal.Order
import Verif.Rejection.Tighter
import Verif.Nan.Weights
import Verif.Site.Longer
import Verif.Site.Output
import Verif.Graph.Attempt
import Verif.Graph.Law
import Verif.Graph.LawProps
import Verif.Graph.Densities
import Verif.Graph.DensityLaw
import Verif.Graph.RejectLaw
import Verif.Graph.Recover
import Verif.Graph.RejectSame
import Verif.Graph.RejectLimit
import Verif.Refuse.Pmc
import Verif.Refuse.First
import Verif.Graph.PairLaw
import Verif.Edge.Perfect
import Verif.Floats.Summary
import Verif.Floats.Importance
import Verif.Floats.Threshold
import Verif.Refuse.Draws
import Verif.Graph.RootOrder
import Verif.Joint.Order
import Verif.Journal.Names
import Verif.Witness.Rest
import Verif.Pmc.Given
import Verif.Pmc.Sizes
import Verif.Pmc.Cost
import Verif.Floats.Endless
import Verif.Nan.ApmcWeights
import Verif.Nan.SmcDensities
import Verif.Sabc.Temperature
import Verif.Sabc.Resampling
import Verif.Journal.Bootstrap
import Verif.Smc.Resampling
import Verif.Smc.Near
import Verif.Site.Best
import Verif.Site.Support
import Verif.Models.Uniform
