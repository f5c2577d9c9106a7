import Verif.Lemmas.Anchor
import Verif.Lemmas.BO
import Verif.Lemmas.Bandit
import Verif.Lemmas.Batch
import Verif.Lemmas.Build
import Verif.Lemmas.ConfigMem
import Verif.Lemmas.Context
import Verif.Lemmas.Corr
import Verif.Lemmas.CorrRun
import Verif.Lemmas.Design
import Verif.Lemmas.Feasible
import Verif.Lemmas.Float
import Verif.Lemmas.Gauss
import Verif.Lemmas.GaussMoments
import Verif.Lemmas.Grid
import Verif.Lemmas.Iroot
import Verif.Lemmas.Layout
import Verif.Lemmas.Listing
import Verif.Lemmas.Mills
import Verif.Lemmas.OneValue
import Verif.Lemmas.Optimizer
import Verif.Lemmas.Parallel
import Verif.Lemmas.Py
import Verif.Lemmas.Rejection
import Verif.Lemmas.Renumber
import Verif.Lemmas.Sim
import Verif.Lemmas.Smaller
import Verif.Lemmas.Space
import Verif.Lemmas.Units
import Verif.Lemmas.UnitsBatch
import Verif.Lemmas.UnitsDesign
import Verif.Lemmas.UnitsNext
import Verif.Lemmas.UnitsRun
import Verif.Lemmas.UnitsSuggest
import Verif.Lemmas.VarOrder
import Verif.Lemmas.VarOrderContext
import Verif.Lemmas.VarOrderCorr
import Verif.Model.AcqBase
import Verif.Model.AcqCost
import Verif.Model.Acquisition
import Verif.Model.Anchor
import Verif.Model.BO
import Verif.Model.BatchModels
import Verif.Model.Benchmarks
import Verif.Model.Broadcast
import Verif.Model.ConfigMem
import Verif.Model.ConstraintExpr
import Verif.Model.ConstraintThreads
import Verif.Model.Constructor
import Verif.Model.Context
import Verif.Model.Cost
import Verif.Model.CostGP
import Verif.Model.Crash
import Verif.Model.Csv
import Verif.Model.Descriptions
import Verif.Model.Design
import Verif.Model.Driver
import Verif.Model.Duplicate
import Verif.Model.EntropySearch
import Verif.Model.Epmgp
import Verif.Model.Evaluators
import Verif.Model.Float
import Verif.Model.FloatAcq
import Verif.Model.GPModel
import Verif.Model.General
import Verif.Model.Helpers
import Verif.Model.Infinite
import Verif.Model.Interface
import Verif.Model.Interrupt
import Verif.Model.LPSpecial
import Verif.Model.LocalOptimizer
import Verif.Model.LocalPenalization
import Verif.Model.Memory
import Verif.Model.NaN
import Verif.Model.Optimizer
import Verif.Model.OtherModels
import Verif.Model.OutputFiles
import Verif.Model.Parallel
import Verif.Model.ParallelRun
import Verif.Model.Parts
import Verif.Model.Plots
import Verif.Model.RawObjective
import Verif.Model.Report
import Verif.Model.Rows
import Verif.Model.Seeds
import Verif.Model.Selection
import Verif.Model.Sobol
import Verif.Model.Space
import Verif.Model.Thompson
import Verif.Model.Underflow
import Verif.Model.Variables
import Verif.Props.Acquisition
import Verif.Props.Bandit
import Verif.Props.Batch
import Verif.Props.BatchConstraints
import Verif.Props.BatchModels
import Verif.Props.Benchmarks
import Verif.Props.Broadcast
import Verif.Props.Clock
import Verif.Props.Config
import Verif.Props.ConfigMem
import Verif.Props.Constrained
import Verif.Props.ConstraintExpr
import Verif.Props.ConstraintThreads
import Verif.Props.Constraints
import Verif.Props.Constructor
import Verif.Props.Context
import Verif.Props.Corners
import Verif.Props.Cost
import Verif.Props.CostUnits
import Verif.Props.Crash
import Verif.Props.CrashCalls
import Verif.Props.Csv
import Verif.Props.DataOrder
import Verif.Props.Descriptions
import Verif.Props.Design
import Verif.Props.DesignFound
import Verif.Props.Driver
import Verif.Props.Eggholder
import Verif.Props.EntropyExpansion
import Verif.Props.EntropySearch
import Verif.Props.Epmgp
import Verif.Props.EpmgpDeriv
import Verif.Props.EpmgpExact
import Verif.Props.EpmgpRange
import Verif.Props.ErrorKinds
import Verif.Props.Feasible
import Verif.Props.Float
import Verif.Props.FloatAcq
import Verif.Props.FloatNorm
import Verif.Props.GPModel
import Verif.Props.General
import Verif.Props.Helpers
import Verif.Props.Infinite
import Verif.Props.InitialBound
import Verif.Props.InitialData
import Verif.Props.Interface
import Verif.Props.Interrupt
import Verif.Props.LPSpecial
import Verif.Props.Listing
import Verif.Props.LocalOptimizer
import Verif.Props.LocalPenalization
import Verif.Props.Loop
import Verif.Props.Malformed
import Verif.Props.Memory
import Verif.Props.ModelUse
import Verif.Props.NaN
import Verif.Props.Names
import Verif.Props.Nested
import Verif.Props.NoRaise
import Verif.Props.NoRepeat
import Verif.Props.NoisyRuns
import Verif.Props.OneValue
import Verif.Props.Ordering
import Verif.Props.OtherModels
import Verif.Props.OutputFiles
import Verif.Props.Parallel
import Verif.Props.ParallelRun
import Verif.Props.Parts
import Verif.Props.PenalizedFeasible
import Verif.Props.Penalty
import Verif.Props.PenaltyOrder
import Verif.Props.Plots
import Verif.Props.RandomSearch
import Verif.Props.RawObjective
import Verif.Props.Records
import Verif.Props.Rectangular
import Verif.Props.Regret
import Verif.Props.RegretBatch
import Verif.Props.RegretBatchConstraints
import Verif.Props.RegretBatchEI
import Verif.Props.RegretConstraints
import Verif.Props.RegretEI
import Verif.Props.RegretEIConstraints
import Verif.Props.RegretEICost
import Verif.Props.RegretEIMcmc
import Verif.Props.RegretMPI
import Verif.Props.RegretMPIConstraints
import Verif.Props.RegretMPICost
import Verif.Props.Renumber
import Verif.Props.Report
import Verif.Props.Resume
import Verif.Props.Scaling
import Verif.Props.Search
import Verif.Props.Seeds
import Verif.Props.Selection
import Verif.Props.SetLike
import Verif.Props.Shared
import Verif.Props.Smaller
import Verif.Props.Sobol
import Verif.Props.Space
import Verif.Props.Suggest
import Verif.Props.SureLocations
import Verif.Props.Thompson
import Verif.Props.Underflow
import Verif.Props.Uniform
import Verif.Props.Units
import Verif.Props.VarOrder
import Verif.Props.VarOrderContext
import Verif.Props.Whole
import Verif.Props.Workers
import Verif.Py
import Verif.Spec.Acquisition
import Verif.Spec.BO
import Verif.Spec.Broadcast
import Verif.Spec.Config
import Verif.Spec.ConfigMem
import Verif.Spec.ConstraintExpr
import Verif.Spec.Correspond
import Verif.Spec.Csv
import Verif.Spec.Design
import Verif.Spec.Feasible
import Verif.Spec.Float
import Verif.Spec.FloatAcq
import Verif.Spec.Listing
import Verif.Spec.OneValue
import Verif.Spec.Renumber
import Verif.Spec.Smaller
import Verif.Spec.Space
import Verif.Spec.Suggest
import Verif.Spec.Uniform
import Verif.Spec.Units
import Verif.Spec.VarOrder
import Verif.Spec.VarOrderContext
