import Verif.Lemmas.Accepted
import Verif.Lemmas.Boundary
import Verif.Lemmas.Chain
import Verif.Lemmas.ChangeVar
import Verif.Lemmas.Conditional
import Verif.Lemmas.ConditionalInv
import Verif.Lemmas.Convergence
import Verif.Lemmas.Correlation
import Verif.Lemmas.Distribution
import Verif.Lemmas.Files
import Verif.Lemmas.GaussLaw
import Verif.Lemmas.GwPriors
import Verif.Lemmas.Hdf5
import Verif.Lemmas.Hypergeom
import Verif.Lemmas.Interp
import Verif.Lemmas.InterpError
import Verif.Lemmas.JointPrior
import Verif.Lemmas.Json
import Verif.Lemmas.JumpProposals
import Verif.Lemmas.LogSum
import Verif.Lemmas.MassOrder
import Verif.Lemmas.Mcmc
import Verif.Lemmas.McmcRun
import Verif.Lemmas.MultiGauss
import Verif.Lemmas.Naming
import Verif.Lemmas.NestedWalk
import Verif.Lemmas.Postprocess
import Verif.Lemmas.PriorDict
import Verif.Lemmas.Priors
import Verif.Lemmas.PriorsGamma
import Verif.Lemmas.PriorsGauss
import Verif.Lemmas.PriorsTail
import Verif.Lemmas.PriorsTrig
import Verif.Lemmas.Proposals
import Verif.Lemmas.Quantile
import Verif.Lemmas.RealFft
import Verif.Lemmas.Repr
import Verif.Lemmas.Resolve
import Verif.Lemmas.Reweight
import Verif.Lemmas.Round
import Verif.Lemmas.Spline
import Verif.Lemmas.StudentT
import Verif.Model.AlignedSpin
import Verif.Model.BandedSetup
import Verif.Model.Boundary
import Verif.Model.Calibration
import Verif.Model.Chain
import Verif.Model.Combine
import Verif.Model.ConditionalDict
import Verif.Model.Convergence
import Verif.Model.Cosmological
import Verif.Model.Counter
import Verif.Model.DataAccess
import Verif.Model.Decode
import Verif.Model.DetectorFiles
import Verif.Model.Distances
import Verif.Model.DynestyRun
import Verif.Model.Ensemble
import Verif.Model.EnsembleSetup
import Verif.Model.Eos
import Verif.Model.Equality
import Verif.Model.Files
import Verif.Model.FillPriors
import Verif.Model.Fisher
import Verif.Model.FlowTraining
import Verif.Model.GaussianProcess
import Verif.Model.Generator
import Verif.Model.Geometry
import Verif.Model.Grid
import Verif.Model.GridEval
import Verif.Model.GwLikelihood
import Verif.Model.GwPriorDict
import Verif.Model.GwPriors
import Verif.Model.Hdf5
import Verif.Model.HealPix
import Verif.Model.Hyper
import Verif.Model.Injection
import Verif.Model.InnerProduct
import Verif.Model.Joint
import Verif.Model.JointPrior
import Verif.Model.Json
import Verif.Model.JumpProposals
import Verif.Model.Likelihood
import Verif.Model.LikelihoodParams
import Verif.Model.LikelihoodSetup
import Verif.Model.LogSum
import Verif.Model.LookupTable
import Verif.Model.MassDict
import Verif.Model.Masses
import Verif.Model.Mcmc
import Verif.Model.McmcOptions
import Verif.Model.McmcRestart
import Verif.Model.McmcSets
import Verif.Model.MetaData
import Verif.Model.Multiband
import Verif.Model.MultibandFft
import Verif.Model.Naming
import Verif.Model.NestedOptions
import Verif.Model.NestedWalk
import Verif.Model.NestedWrappers
import Verif.Model.Networks
import Verif.Model.Noise
import Verif.Model.Normalization
import Verif.Model.NumHelpers
import Verif.Model.OtherSamplers
import Verif.Model.PosteriorFigures
import Verif.Model.PosteriorTable
import Verif.Model.Postprocess
import Verif.Model.PpPlot
import Verif.Model.PriorDict
import Verif.Model.PriorLabels
import Verif.Model.Priors
import Verif.Model.PriorsGauss
import Verif.Model.PriorsMisc
import Verif.Model.Process
import Verif.Model.ProposalCycles
import Verif.Model.Proposals
import Verif.Model.Psd
import Verif.Model.Ptemcee
import Verif.Model.PtemceeEvidence
import Verif.Model.Pymc
import Verif.Model.Reconstruct
import Verif.Model.Registry
import Verif.Model.RelativeBinning
import Verif.Model.Repr
import Verif.Model.ResultAttributes
import Verif.Model.ResultFigures
import Verif.Model.ResultLists
import Verif.Model.Reweight
import Verif.Model.Roq
import Verif.Model.RoqMultiband
import Verif.Model.RoqSetup
import Verif.Model.RunSampler
import Verif.Model.SamplerBase
import Verif.Model.SamplingConstraints
import Verif.Model.SavedDetectors
import Verif.Model.Seeds
import Verif.Model.Segments
import Verif.Model.Series
import Verif.Model.Sky
import Verif.Model.Source
import Verif.Model.SourceFailures
import Verif.Model.Spins
import Verif.Model.StrainData
import Verif.Model.StrainExport
import Verif.Model.Summary
import Verif.Model.Tempering
import Verif.Model.Tidal
import Verif.Model.Tov
import Verif.Model.WalkProposals
import Verif.Model.XReal
import Verif.Props.AlignedSpin
import Verif.Props.BandedSetup
import Verif.Props.Boundary
import Verif.Props.CalibMarg
import Verif.Props.Calibration
import Verif.Props.Categorical
import Verif.Props.Chain
import Verif.Props.Combine
import Verif.Props.CombineLaw
import Verif.Props.Conditional
import Verif.Props.ConditionalEval
import Verif.Props.ConstrainedLaw
import Verif.Props.Convergence
import Verif.Props.ConvergenceRun
import Verif.Props.Cosmological
import Verif.Props.Counter
import Verif.Props.Coupled
import Verif.Props.DataAccess
import Verif.Props.Decode
import Verif.Props.DetectorFiles
import Verif.Props.Dirichlet
import Verif.Props.DistanceMarg
import Verif.Props.Distances
import Verif.Props.DynestyRun
import Verif.Props.Ensemble
import Verif.Props.EnsembleSetup
import Verif.Props.Eos
import Verif.Props.Equality
import Verif.Props.Files
import Verif.Props.FillPriors
import Verif.Props.Fisher
import Verif.Props.FlowTraining
import Verif.Props.FrequencyMask
import Verif.Props.GaussianProcess
import Verif.Props.Generator
import Verif.Props.Geometry
import Verif.Props.Grid
import Verif.Props.GridEval
import Verif.Props.GwLikelihood
import Verif.Props.GwMass
import Verif.Props.Hdf5
import Verif.Props.HealPix
import Verif.Props.Hyper
import Verif.Props.HyperLaw
import Verif.Props.Injection
import Verif.Props.InnerProduct
import Verif.Props.Interped
import Verif.Props.Invariance
import Verif.Props.Joint
import Verif.Props.JointPrior
import Verif.Props.Json
import Verif.Props.JumpProposals
import Verif.Props.Likelihood
import Verif.Props.LikelihoodParams
import Verif.Props.LikelihoodSetup
import Verif.Props.LogSum
import Verif.Props.LookupTable
import Verif.Props.MassBounds
import Verif.Props.MassDict
import Verif.Props.Masses
import Verif.Props.Mcmc
import Verif.Props.McmcAdapt
import Verif.Props.McmcOptions
import Verif.Props.McmcRestart
import Verif.Props.McmcSets
import Verif.Props.MetaData
import Verif.Props.Multiband
import Verif.Props.MultibandData
import Verif.Props.MultibandFft
import Verif.Props.MultibandSearch
import Verif.Props.Naming
import Verif.Props.NestedOptions
import Verif.Props.NestedWalk
import Verif.Props.NestedWrappers
import Verif.Props.Networks
import Verif.Props.Noise
import Verif.Props.Normalization
import Verif.Props.NumHelpers
import Verif.Props.OtherSamplers
import Verif.Props.PhaseMarg
import Verif.Props.PosteriorFigures
import Verif.Props.PosteriorTable
import Verif.Props.Postprocess
import Verif.Props.PpPlot
import Verif.Props.PriorDict
import Verif.Props.PriorLabels
import Verif.Props.Priors
import Verif.Props.Process
import Verif.Props.ProposalCycles
import Verif.Props.ProposalPhase
import Verif.Props.ProposalTraining
import Verif.Props.Proposals
import Verif.Props.Psd
import Verif.Props.PsdSegment
import Verif.Props.Ptemcee
import Verif.Props.PtemceeEvidence
import Verif.Props.Pymc
import Verif.Props.Reconstruct
import Verif.Props.Redundancy
import Verif.Props.Registry
import Verif.Props.RejectionLaw
import Verif.Props.RelativeBinning
import Verif.Props.Repr
import Verif.Props.ResultAttributes
import Verif.Props.ResultFigures
import Verif.Props.ResultLists
import Verif.Props.Reweight
import Verif.Props.ReweightLaw
import Verif.Props.Roq
import Verif.Props.RoqBases
import Verif.Props.RoqMultiband
import Verif.Props.RoqSetup
import Verif.Props.RoqTime
import Verif.Props.RunSampler
import Verif.Props.SamplerBase
import Verif.Props.SamplerKwargs
import Verif.Props.SamplingConstraints
import Verif.Props.SavedDetectors
import Verif.Props.Seeds
import Verif.Props.Segments
import Verif.Props.Series
import Verif.Props.Sky
import Verif.Props.SlabSpike
import Verif.Props.Source
import Verif.Props.SourceFailures
import Verif.Props.SpinPriors
import Verif.Props.Spins
import Verif.Props.StrainDomains
import Verif.Props.StrainExport
import Verif.Props.Summary
import Verif.Props.Tempering
import Verif.Props.TemperingLadder
import Verif.Props.Tidal
import Verif.Props.TimeMarg
import Verif.Props.Tov
import Verif.Props.WalkInvariance
import Verif.Props.WalkProposals
import Verif.Spec.Boundary
import Verif.Spec.Combine
import Verif.Spec.Conditional
import Verif.Spec.Coupled
import Verif.Spec.Distribution
import Verif.Spec.Files
import Verif.Spec.Grid
import Verif.Spec.GwLikelihood
import Verif.Spec.GwPriors
import Verif.Spec.Hdf5
import Verif.Spec.Joint
import Verif.Spec.JointPrior
import Verif.Spec.Json
import Verif.Spec.LogSum
import Verif.Spec.Masses
import Verif.Spec.Mcmc
import Verif.Spec.NestedWalk
import Verif.Spec.PriorDict
import Verif.Spec.Proposals
import Verif.Spec.Repr
import Verif.Spec.Reweight
import Verif.Spec.Series
import Verif.Spec.Sphere
import Verif.Spec.Spline
import Verif.Spec.Tabulated
