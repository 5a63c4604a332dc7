import Verif.Model.AngularCl
import Verif.Model.Background
import Verif.Model.Batch
import Verif.Model.BatchBackground
import Verif.Model.BatchCl
import Verif.Model.BgCall
import Verif.Model.Bias
import Verif.Model.Core
import Verif.Model.CosmologyCall
import Verif.Model.Dual
import Verif.Model.DualBackground
import Verif.Model.DualLikelihood
import Verif.Model.DualPower
import Verif.Model.DualSpectra
import Verif.Model.Float
import Verif.Model.FloatAngularCl
import Verif.Model.FloatBackground
import Verif.Model.FloatForecast
import Verif.Model.FloatInterp
import Verif.Model.FloatLikelihood
import Verif.Model.FloatLinear
import Verif.Model.FloatPower
import Verif.Model.FloatProbes
import Verif.Model.FloatRange
import Verif.Model.FloatRomb
import Verif.Model.FloatTracers
import Verif.Model.FloatTransfer
import Verif.Model.Integrate
import Verif.Model.Interp
import Verif.Model.Likelihood
import Verif.Model.Methods
import Verif.Model.Numpy
import Verif.Model.Ode
import Verif.Model.Power
import Verif.Model.Probes
import Verif.Model.Pytree
import Verif.Model.Redshift
import Verif.Model.Sparse
import Verif.Model.Spline
import Verif.Model.Trace
import Verif.Model.Transfer
import Verif.Model.Utils
import Verif.Model.Xr
import Verif.Model.XrBackground
import Verif.Model.XrLikelihood
import Verif.Model.XrPower
import Verif.Model.XrSpectra
import Verif.Proofs.Accuracy
import Verif.Proofs.AccuracyRate
import Verif.Proofs.Argsort
import Verif.Proofs.Batch
import Verif.Proofs.BatchBackground
import Verif.Proofs.BatchCl
import Verif.Proofs.BatchHalofit
import Verif.Proofs.BatchKernels
import Verif.Proofs.BatchProbes
import Verif.Proofs.BatchSpectra
import Verif.Proofs.BatchSpectrum
import Verif.Proofs.Degeneracy
import Verif.Proofs.Float
import Verif.Proofs.FloatGrid
import Verif.Proofs.FloatOde
import Verif.Proofs.Interp
import Verif.Proofs.InterpError
import Verif.Proofs.Jvp
import Verif.Proofs.JvpBackground
import Verif.Proofs.JvpCovariance
import Verif.Proofs.JvpHalofit
import Verif.Proofs.JvpInterp
import Verif.Proofs.JvpKernels
import Verif.Proofs.JvpLikelihood
import Verif.Proofs.JvpLoops
import Verif.Proofs.JvpMatrix
import Verif.Proofs.JvpPower
import Verif.Proofs.JvpRedshift
import Verif.Proofs.JvpSpectra
import Verif.Proofs.LinearIvp
import Verif.Proofs.Lists
import Verif.Proofs.MatrixCalculus
import Verif.Proofs.Oh
import Verif.Proofs.Piecewise
import Verif.Proofs.PosDef
import Verif.Proofs.Pytree
import Verif.Proofs.Relabel
import Verif.Proofs.Simps
import Verif.Proofs.Sparse
import Verif.Proofs.SplineCalculus
import Verif.Proofs.SplinePieces
import Verif.Proofs.SplineSystem
import Verif.Proofs.SplineUnique
import Verif.Proofs.Tables
import Verif.Proofs.Tactics
import Verif.Proofs.Wick
import Verif.Proofs.Xr
import Verif.Proofs.XrLikelihood
import Verif.Proofs.XrPower
import Verif.Proofs.XrSpectra
import Verif.Props.Accuracy
import Verif.Props.Amplitude
import Verif.Props.AngularCl
import Verif.Props.Background
import Verif.Props.Bands
import Verif.Props.Batch
import Verif.Props.BatchBackground
import Verif.Props.BatchCl
import Verif.Props.BeforeTable
import Verif.Props.Cache
import Verif.Props.ClOrdering
import Verif.Props.ClSensitivity
import Verif.Props.Continuity
import Verif.Props.CosmologyCall
import Verif.Props.Covariance
import Verif.Props.Curvature
import Verif.Props.CurvatureSensitivity
import Verif.Props.Defined
import Verif.Props.DefinedCovariance
import Verif.Props.DefinedHalofit
import Verif.Props.DefinedLikelihood
import Verif.Props.DefinedPower
import Verif.Props.DefinedSpectra
import Verif.Props.Degeneracy
import Verif.Props.Dependence
import Verif.Props.DistanceRate
import Verif.Props.Distances
import Verif.Props.EisensteinHu
import Verif.Props.Estimation
import Verif.Props.Expectation
import Verif.Props.FewBaryons
import Verif.Props.Float
import Verif.Props.FloatAngularCl
import Verif.Props.FloatColdDark
import Verif.Props.FloatDistance
import Verif.Props.FloatEsqr
import Verif.Props.FloatForecast
import Verif.Props.FloatGrowth
import Verif.Props.FloatInterp
import Verif.Props.FloatLargeScales
import Verif.Props.FloatLikelihood
import Verif.Props.FloatOde
import Verif.Props.FloatOrder
import Verif.Props.FloatPower
import Verif.Props.FloatProbes
import Verif.Props.FloatRange
import Verif.Props.FloatRate
import Verif.Props.FloatRomb
import Verif.Props.FloatScale
import Verif.Props.FloatSpectrum
import Verif.Props.FloatSurvey
import Verif.Props.FloatTracers
import Verif.Props.FloatTransfer
import Verif.Props.Growth
import Verif.Props.GrowthBound
import Verif.Props.GrowthClosedForm
import Verif.Props.GrowthEquation
import Verif.Props.GrowthOrder
import Verif.Props.GrowthSensitivity
import Verif.Props.GrowthSlope
import Verif.Props.Halofit
import Verif.Props.Hubble
import Verif.Props.HubbleRadius
import Verif.Props.Information
import Verif.Props.Interp
import Verif.Props.JvpBackground
import Verif.Props.JvpLikelihood
import Verif.Props.JvpPower
import Verif.Props.JvpRedshift
import Verif.Props.JvpSpectra
import Verif.Props.KdeMoments
import Verif.Props.Kernels
import Verif.Props.Likelihood
import Verif.Props.Limber
import Verif.Props.Merging
import Verif.Props.Methods
import Verif.Props.MovingCovariance
import Verif.Props.NarrowBins
import Verif.Props.NonlinearScale
import Verif.Props.Normalisation
import Verif.Props.Ode
import Verif.Props.OdeOrder
import Verif.Props.Pipeline
import Verif.Props.Power
import Verif.Props.PowerSensitivity
import Verif.Props.PowerShape
import Verif.Props.Probes
import Verif.Props.Pytree
import Verif.Props.Quadrature
import Verif.Props.Reach
import Verif.Props.Recombine
import Verif.Props.Redshift
import Verif.Props.Relabel
import Verif.Props.Romberg
import Verif.Props.RombergError
import Verif.Props.ScaleJump
import Verif.Props.Score
import Verif.Props.Sensitivity
import Verif.Props.Simpson
import Verif.Props.Sliding
import Verif.Props.SmailShape
import Verif.Props.SourceFraction
import Verif.Props.Sparse
import Verif.Props.Spline
import Verif.Props.SplineLinear
import Verif.Props.SplineOrigin
import Verif.Props.SplineUnique
import Verif.Props.TableConvergence
import Verif.Props.Trace
import Verif.Props.Transfer
import Verif.Props.TransferSign
import Verif.Props.Utils
import Verif.Props.Wick
import Verif.Spec.AngularCl
import Verif.Spec.Background
import Verif.Spec.Bands
import Verif.Spec.Batch
import Verif.Spec.ClosedForm
import Verif.Spec.Degeneracy
import Verif.Spec.Dense
import Verif.Spec.Dependence
import Verif.Spec.Distance
import Verif.Spec.EisensteinHu
import Verif.Spec.Estimation
import Verif.Spec.Fisher
import Verif.Spec.Float
import Verif.Spec.Gaussian
import Verif.Spec.Halofit
import Verif.Spec.InitialValue
import Verif.Spec.Interp
import Verif.Spec.Jvp
import Verif.Spec.JvpArrays
import Verif.Spec.JvpSpectra
import Verif.Spec.JvpSurvey
import Verif.Spec.Lensing
import Verif.Spec.Likelihood
import Verif.Spec.Limber
import Verif.Spec.Power
import Verif.Spec.Probes
import Verif.Spec.Relabel
import Verif.Spec.Romberg
import Verif.Spec.RungeKutta
import Verif.Spec.Sensitivity
import Verif.Spec.Sliding
import Verif.Spec.Spline
