import Verif.Adapter.Checks
import Verif.Adapter.Model
import Verif.Adapter.Props
import Verif.Analysis.Smooth
import Verif.AugLag.Function
import Verif.AugLag.Model
import Verif.AugLag.Overloads
import Verif.AugLag.Props
import Verif.AugLag.Resume
import Verif.AugLag.Saddle
import Verif.Axioms
import Verif.Best
import Verif.BigBatch.Collapse
import Verif.BigBatch.Converge
import Verif.BigBatch.Model
import Verif.BigBatch.Props
import Verif.BigBatch.Run
import Verif.BigBatch.Search
import Verif.BigBatch.Values
import Verif.Callbacks.BarProps
import Verif.Callbacks.Model
import Verif.Callbacks.Props
import Verif.Callbacks.Report
import Verif.Callbacks.ReportProps
import Verif.Callbacks.Timer
import Verif.Cd.Model
import Verif.Cd.Props
import Verif.Cd.Resume
import Verif.Cd.Stopping
import Verif.Cmaes.Active
import Verif.Cmaes.AnySelection
import Verif.Cmaes.Boundary
import Verif.Cmaes.Covariance
import Verif.Cmaes.Invariance
import Verif.Cmaes.Model
import Verif.Cmaes.Numeric
import Verif.Cmaes.Params
import Verif.Cmaes.Pop
import Verif.Cmaes.PopMore
import Verif.Cmaes.Props
import Verif.Cmaes.Recombine
import Verif.Cmaes.Rule
import Verif.Cmaes.Stop
import Verif.Cne.Invariance
import Verif.Cne.Model
import Verif.Cne.Prob
import Verif.Cne.Props
import Verif.Cne.Stop
import Verif.Common
import Verif.Converge.Accelerated
import Verif.Converge.AdamFamily
import Verif.Converge.Adaptive
import Verif.Converge.AmsGrad
import Verif.Converge.Average
import Verif.Converge.Base
import Verif.Converge.Cd
import Verif.Converge.Gd
import Verif.Converge.LastIterate
import Verif.Converge.Lbfgs
import Verif.Converge.LbfgsDir
import Verif.Converge.LbfgsStop
import Verif.Converge.Logistic
import Verif.Converge.Mirror
import Verif.Converge.Momentum
import Verif.Converge.MomentumRegret
import Verif.Converge.Quadratic
import Verif.Converge.RandomCd
import Verif.Converge.Regret
import Verif.Converge.RegretProps
import Verif.Converge.Restarts
import Verif.Converge.Restless
import Verif.Converge.Rigid
import Verif.Converge.RigidLbfgs
import Verif.Converge.RmsProp
import Verif.Converge.Sarah
import Verif.Converge.Sawtooth
import Verif.Converge.Softmax
import Verif.Converge.Svrg
import Verif.Converge.VrBase
import Verif.De.Closure
import Verif.De.Invariance
import Verif.De.Model
import Verif.De.Props
import Verif.De.Stop
import Verif.EndLast
import Verif.Epoch.Eve
import Verif.Epoch.Model
import Verif.Epoch.Props
import Verif.Epoch.Spalera
import Verif.Fw.Affine
import Verif.Fw.Atoms
import Verif.Fw.AtomsProps
import Verif.Fw.FullCorrection
import Verif.Fw.LineSearch
import Verif.Fw.Lp
import Verif.Fw.Model
import Verif.Fw.Omp
import Verif.Fw.OmpCases
import Verif.Fw.OmpProps
import Verif.Fw.OmpRecovery
import Verif.Fw.Props
import Verif.Fw.Proximal
import Verif.Fw.Record
import Verif.Fw.Resume
import Verif.Fw.SearchRate
import Verif.Gd.Lemmas
import Verif.Gd.Model
import Verif.Gd.Props
import Verif.Gd.Record
import Verif.Gd.Resume
import Verif.Gd.Rigid
import Verif.Gd.Textbook
import Verif.Grid.Model
import Verif.Grid.Props
import Verif.Holder.Leak
import Verif.Holder.Model
import Verif.Holder.NoThrow
import Verif.Holder.Props
import Verif.Indicators.Model
import Verif.Indicators.Props
import Verif.Iqn.Line
import Verif.Iqn.Model
import Verif.Iqn.Props
import Verif.Iqn.Textbook
import Verif.Iqn.Warm
import Verif.Lbfgs.Direction
import Verif.Lbfgs.Model
import Verif.Lbfgs.Props
import Verif.Lbfgs.Resume
import Verif.Lbfgs.Run
import Verif.Lookahead.Descent
import Verif.Lookahead.Model
import Verif.Lookahead.Props
import Verif.Loop
import Verif.Moo.Affine
import Verif.Moo.Agemoea
import Verif.Moo.Bounds
import Verif.Moo.Crowding
import Verif.Moo.DasDennis
import Verif.Moo.Decomposition
import Verif.Moo.Elitism
import Verif.Moo.Events
import Verif.Moo.Genes
import Verif.Moo.Moead
import Verif.Moo.MoeadAffine
import Verif.Moo.MoeadProps
import Verif.Moo.MoeadSlot
import Verif.Moo.Nsga2
import Verif.Moo.Nsga2Elite
import Verif.Moo.Nsga2Props
import Verif.Moo.Pareto
import Verif.Moo.Survival
import Verif.Moo.SurvivalMore
import Verif.Moo.SurvivalProps
import Verif.Moo.SurvivalRun
import Verif.Moo.SurvivalScale
import Verif.Moo.SurvivalScore
import Verif.Prob.Draws
import Verif.Prob.Ville
import Verif.Problems.AugLagFns
import Verif.Problems.AugLagFnsProps
import Verif.Problems.Base
import Verif.Problems.Dtlz56
import Verif.Problems.DtlzSets
import Verif.Problems.Eggholder
import Verif.Problems.Gradients
import Verif.Problems.Landscape
import Verif.Problems.LogisticProps
import Verif.Problems.Maf6
import Verif.Problems.MafSets
import Verif.Problems.Minima
import Verif.Problems.Model
import Verif.Problems.Multi
import Verif.Problems.MultiProps
import Verif.Problems.ParetoSets
import Verif.Problems.Regression
import Verif.Problems.Schaffer4
import Verif.Problems.Separable
import Verif.Problems.SeparableProps
import Verif.Problems.SoftmaxProps
import Verif.Psgd.Backoff
import Verif.Psgd.BackoffRun
import Verif.Psgd.Hogwild
import Verif.Psgd.Model
import Verif.Psgd.Props
import Verif.Psgd.Race
import Verif.Psgd.Resume
import Verif.Psgd.Textbook
import Verif.Pso.Invariance
import Verif.Pso.Model
import Verif.Pso.Plateau
import Verif.Pso.Policy
import Verif.Pso.Props
import Verif.Pso.Textbook
import Verif.Resume
import Verif.Sa.Balance
import Verif.Sa.Control
import Verif.Sa.Invariance
import Verif.Sa.Model
import Verif.Sa.Props
import Verif.Sa.Record
import Verif.Sa.Start
import Verif.Sa.Stop
import Verif.Sdp.Independence
import Verif.Sdp.Lrsdp
import Verif.Sdp.LrsdpRun
import Verif.Sdp.PrimalDual
import Verif.Sdp.PrimalDualCert
import Verif.Sdp.PrimalDualExact
import Verif.Sdp.PrimalDualMehrotra
import Verif.Sdp.PrimalDualProps
import Verif.Sdp.PrimalDualRun
import Verif.Sdp.PrimalDualSolvable
import Verif.Sdp.PrimalDualTrace
import Verif.Sdp.Svec
import Verif.Sgd.Batches
import Verif.Sgd.Epochs
import Verif.Sgd.Equivariance
import Verif.Sgd.Invariant
import Verif.Sgd.Lemmas
import Verif.Sgd.Model
import Verif.Sgd.Object
import Verif.Sgd.ObjectProps
import Verif.Sgd.Props
import Verif.Sgd.Record
import Verif.Sgd.Resume
import Verif.Sgd.Setters
import Verif.Sgd.Snapshot
import Verif.Sgd.SnapshotCases
import Verif.Sgd.SnapshotMore
import Verif.Sgd.SnapshotProps
import Verif.Sgd.SnapshotRun
import Verif.Sgd.Textbook
import Verif.Shape.Norms
import Verif.SortIndex
import Verif.Spsa.Converge
import Verif.Spsa.Gains
import Verif.Spsa.Model
import Verif.Spsa.Props
import Verif.Spsa.Resume
import Verif.Spsa.Setter
import Verif.Stop
import Verif.Trace
import Verif.Update.Bound
import Verif.Update.Bounds
import Verif.Update.ClosedForm
import Verif.Update.Demon
import Verif.Update.DemonSetter
import Verif.Update.Invariance
import Verif.Update.Model
import Verif.Update.Moments
import Verif.Update.Norm
import Verif.Vr.Base
import Verif.Vr.Clip
import Verif.Vr.Katyusha
import Verif.Vr.KatyushaResume
import Verif.Vr.Limit
import Verif.Vr.Record
import Verif.Vr.Reuse
import Verif.Vr.Sarah
import Verif.Vr.SarahResume
import Verif.Vr.SarahTold
import Verif.Vr.Svrg
import Verif.Vr.SvrgResume
import Verif.Vr.Textbook
