import Verif.Props.Mpi
import Verif.Props.Noise
import Verif.Props.Posterior
import Verif.Props.ScaleOnce
import Verif.Props.Fast
import Verif.Props.Loss
import Verif.Props.LossMulti
import Verif.Props.MpiLoss
import Verif.Props.Scale
import Verif.Props.ScaleMpi
import Verif.Props.DownSample
import Verif.Props.Param
import Verif.Props.Hyper
import Verif.Props.Tensors
import Verif.Props.Kernel
import Verif.Props.Covariance
import Verif.Props.Matern
import Verif.Props.Neighbors
import Verif.Props.Workflow
import Verif.Props.FastWorkflow
import Verif.Props.FastWitness
import Verif.Props.Objective
import Verif.Props.ObjectiveColumns
import Verif.Props.Multivariate
import Verif.Props.MultiFast
import Verif.Props.MultiWorkflow
import Verif.Props.Batch
import Verif.Props.Classify
import Verif.Props.ClassifyUq
import Verif.Props.Shear
import Verif.Props.Config
import Verif.Props.ModelEq
import Verif.Props.Sharing
import Verif.Props.Hierarchical
import Verif.Props.BayesOpt
import Verif.Model.Backends
import Verif.Props.Backends
import Verif.Props.BackendLoss
import Verif.Model.DeepKernel
import Verif.Props.DeepKernel
import Verif.Props.Train
import Verif.Props.TrainWitness
import Verif.Props.Pipeline
import Verif.Props.Definite
import Verif.Props.PipelineAlways
import Verif.Props.PipelineWitness
import Verif.Props.Always
import Verif.Props.Memory
import Verif.Props.MultiPipeline
import Verif.Props.MultiPipelineWitness
import Verif.Props.FastPipeline
import Verif.Props.FastPipelineWitness
import Verif.Props.Invariance
import Verif.Props.InvarianceFails
import Verif.Props.InvarianceWitness
import Verif.Model.UqPipeline
import Verif.Props.UqPipeline
import Verif.Props.UqPipelineWitness
import Verif.Model.MultiDeep
import Verif.Props.MultiDeep
import Verif.Props.MultiDeepWitness
import Verif.Props.Reversion
import Verif.Props.ReversionWitness
import Verif.Props.Continuity
import Verif.Props.ContinuityFails
import Verif.Spec.Prior
import Verif.Props.GaussCond
import Verif.Props.Bayes
import Verif.Props.BayesWitness
import Verif.Props.WellPosed
import Verif.Props.Unbiased
import Verif.Props.Truth
import Verif.Props.TruthLool
import Verif.Props.TruthWitness
import Verif.Props.Sampler
import Verif.Props.Cholesky
import Verif.Props.SamplerLaw
import Verif.Props.SamplerDefault
import Verif.Props.SamplerPosterior
import Verif.Model.MpiCalls
import Verif.Spec.MpiCalls
import Verif.Props.MpiCalls
import Verif.Props.BayesMore
import Verif.Spec.MultiResponse
import Verif.Props.MultiResponse
import Verif.Model.Update
import Verif.Spec.Update
import Verif.Props.Update
import Verif.Props.UpdateWitness
import Verif.Props.Current
import Verif.Model.HierWorkflow
import Verif.Spec.HierWorkflow
import Verif.Props.HierWorkflow
import Verif.Props.HierWitness
import Verif.Spec.Units
import Verif.Props.Units
import Verif.Props.UnitsTrain
import Verif.Spec.Information
import Verif.Props.Information
import Verif.Props.InformationWitness
import Verif.Props.InformationTies
import Verif.Spec.Influence
import Verif.Props.Influence
import Verif.Spec.Relabel
import Verif.Props.Relabel
import Verif.Model.ShearWorkflow
import Verif.Spec.ShearWorkflow
import Verif.Props.ShearWorkflow
import Verif.Props.ShearTrain
import Verif.Props.ShearWitness
import Verif.Props.Heteroscedastic
import Verif.Props.FullGP
import Verif.Props.FullGPWitness
import Verif.Props.Leakage
import Verif.Props.Coverage
import Verif.Props.PointFunction
import Verif.Props.Locality
import Verif.Props.Smooth
import Verif.Props.SmoothGen
import Verif.Lemmas.MaternSmooth
import Verif.Props.SmoothWitness
import Verif.Props.ErrorBound
import Verif.Props.ErrorBoundWitness
import Verif.Props.Ridge
import Verif.Props.BatchAverage
import Verif.Props.BatchAverageWitness
import Verif.Props.ShearReferenceWitness
import Verif.Props.SamplerFull
import Verif.Props.Sequential
import Verif.Props.SequentialWitness
import Verif.Props.Replicates
import Verif.Props.ReplicatesWitness
import Verif.Props.InSample
import Verif.Props.DataUtils
import Verif.Props.ConfigAbsl
import Verif.Props.Extremes
import Verif.Props.ExtremesWitness
import Verif.Props.Lookup
import Verif.Props.LookupWitness
import Verif.Props.Dense
import Verif.Props.DenseWitness
import Verif.Props.TestSmooth
import Verif.Props.TestSmoothWitness
import Verif.Model.FreshDraws
import Verif.Props.FreshDraws
import Verif.Props.FreshDrawsWitness
import Verif.Props.FreshUnits
import Verif.Props.SmoothClasses
import Verif.Props.SmoothClassesWitness
import Verif.Spec.Recode
import Verif.Props.Recode
import Verif.Props.Origin
import Verif.Props.ScaleAccuracy
import Verif.Props.BatchVariance
import Verif.Props.Rounding
import Verif.Props.RoundingFails
import Verif.Props.Irrelevant
import Verif.Props.IrrelevantFails
import Verif.Props.MaxLikelihood
import Verif.Props.Relations
import Verif.Props.Inexact
import Verif.Props.InexactDistances
import Verif.Props.InexactWitness
import Verif.Props.FreeSmoothness
import Verif.Props.FreeSmoothnessFails
import Verif.Props.FreeSmoothnessWitness
import Verif.Props.FreeSmoothnessMore
import Verif.Props.FewNeighbours
import Verif.Props.FewNeighboursWorst
import Verif.Props.FewNeighboursWitness
import Verif.Lemmas.Noisy
import Verif.Props.NoisyPoints
import Verif.Props.NoisyPointsWitness
import Verif.Props.ParamHistory
import Verif.Props.LossLimits
import Verif.Props.Reflects
import Verif.Props.UnbiasedWitness
import Verif.Props.OutputMask
import Verif.Props.FullGPMatern
import Verif.Props.TruthMatern
import Verif.Props.TruthMaternWitness
import Verif.Props.ClassifyWitness
import Verif.Props.MultiFastMore
import Verif.Model.Fixedness
import Verif.Props.Fixedness
