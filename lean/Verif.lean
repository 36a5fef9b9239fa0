import Verif.Spec.Api
import Verif.Spec.Batch
import Verif.Spec.Calculus
import Verif.Spec.Dtype
import Verif.Spec.Energies
import Verif.Spec.Fit
import Verif.Spec.FitNoise
import Verif.Spec.Identify
import Verif.Spec.Ieee
import Verif.Spec.Kinematics
import Verif.Spec.Lab
import Verif.Spec.Logarithmic
import Verif.Spec.Measures
import Verif.Spec.Memory
import Verif.Spec.MemoryGeneralized
import Verif.Spec.MemoryStretches
import Verif.Spec.Mirror
import Verif.Spec.Monotone
import Verif.Spec.Newton
import Verif.Spec.NonFinite
import Verif.Spec.Optimize
import Verif.Spec.Order
import Verif.Spec.Plot
import Verif.Spec.PowerTest
import Verif.Spec.Prediction
import Verif.Spec.Range
import Verif.Spec.Rates
import Verif.Spec.Reindex
import Verif.Spec.Rounding
import Verif.Spec.RoundingLab
import Verif.Spec.RoundingOgdenCurve
import Verif.Spec.RoundingStretches
import Verif.Spec.RoundingTangent
import Verif.Spec.RoundingTangentSplit
import Verif.Spec.Shapes
import Verif.Spec.ShapesApi
import Verif.Spec.Shear
import Verif.Spec.Spectral
import Verif.Spec.Stability
import Verif.Spec.SymmetryHess
import Verif.Spec.Tensor
import Verif.Spec.Threads
import Verif.Spec.Tolerance
import Verif.Spec.Torch
import Verif.Spec.TorchPrecision
import Verif.Spec.Units
import Verif.Spec.UnitsFit
import Verif.Spec.Work
import Verif.Model.Batch
import Verif.Model.BatchGeneralized
import Verif.Model.Dtype
import Verif.Model.Init
import Verif.Model.InvModels
import Verif.Model.Invariants
import Verif.Model.Lab
import Verif.Model.LabGeneralized
import Verif.Model.Memory
import Verif.Model.MemoryGeneralized
import Verif.Model.MemoryStretches
import Verif.Model.NonFinite
import Verif.Model.Optimize
import Verif.Model.Plot
import Verif.Model.Py
import Verif.Model.Range
import Verif.Model.Rounding
import Verif.Model.RoundingLab
import Verif.Model.RoundingOgdenCurve
import Verif.Model.RoundingStretches
import Verif.Model.RoundingTangent
import Verif.Model.RoundingTangentSplit
import Verif.Model.Shapes
import Verif.Model.Space
import Verif.Model.StretchModels
import Verif.Model.Stretches
import Verif.Model.Threads
import Verif.Model.Torch
import Verif.Model.Voigt
import Verif.Proofs.Batch
import Verif.Proofs.BatchGeneralized
import Verif.Proofs.BatchRun
import Verif.Proofs.Binary64
import Verif.Proofs.Binary64Range
import Verif.Proofs.Blocks
import Verif.Proofs.DividedDiff
import Verif.Proofs.Dtype
import Verif.Proofs.DtypeInv
import Verif.Proofs.DtypeSpace
import Verif.Proofs.DtypeSplit
import Verif.Proofs.Exponentials
import Verif.Proofs.Frechet
import Verif.Proofs.GenInv
import Verif.Proofs.Hadamard
import Verif.Proofs.Ieee
import Verif.Proofs.InvFramework
import Verif.Proofs.Invariants
import Verif.Proofs.Lab
import Verif.Proofs.LoadSteps
import Verif.Proofs.Major
import Verif.Proofs.Memory
import Verif.Proofs.MemoryGeneralized
import Verif.Proofs.MemoryInvariants
import Verif.Proofs.MemoryModels
import Verif.Proofs.MemorySpaces
import Verif.Proofs.MemoryStretches
import Verif.Proofs.Models
import Verif.Proofs.Moves
import Verif.Proofs.Newton
import Verif.Proofs.NewtonApprox
import Verif.Proofs.NewtonOgden
import Verif.Proofs.NewtonOgdenRegular
import Verif.Proofs.NewtonOgdenSpace
import Verif.Proofs.NonFinite
import Verif.Proofs.NonFiniteExact
import Verif.Proofs.Optimize
import Verif.Proofs.Plot
import Verif.Proofs.Polyconvex
import Verif.Proofs.PosDef
import Verif.Proofs.PyM
import Verif.Proofs.RangeCert
import Verif.Proofs.RangeNear
import Verif.Proofs.RangeOrder
import Verif.Proofs.RangeSize
import Verif.Proofs.Rotate
import Verif.Proofs.RoundingCert
import Verif.Proofs.RoundingExact
import Verif.Proofs.RoundingHess
import Verif.Proofs.RoundingLab
import Verif.Proofs.RoundingMaj
import Verif.Proofs.RoundingOgdenCurve
import Verif.Proofs.RoundingOgdenSplit
import Verif.Proofs.RoundingOrder
import Verif.Proofs.RoundingPow
import Verif.Proofs.RoundingStretches
import Verif.Proofs.RoundingTangent
import Verif.Proofs.RoundingTangentExact
import Verif.Proofs.RoundingTangentHess
import Verif.Proofs.RoundingTangentSplit
import Verif.Proofs.RoundingTangentSplit2
import Verif.Proofs.RoundingTangentSum
import Verif.Proofs.Shapes
import Verif.Proofs.ShapesCode
import Verif.Proofs.ShapesFramework
import Verif.Proofs.ShapesGenInv
import Verif.Proofs.ShapesSpace
import Verif.Proofs.Space
import Verif.Proofs.SpaceApi
import Verif.Proofs.SpaceCalc
import Verif.Proofs.SpaceConfig
import Verif.Proofs.SpaceUniform
import Verif.Proofs.Spectral
import Verif.Proofs.Stretches
import Verif.Proofs.StretchesCalc
import Verif.Proofs.StretchesFramework
import Verif.Proofs.StretchesModels
import Verif.Proofs.StretchesUnique
import Verif.Proofs.Tensor
import Verif.Proofs.Threads
import Verif.Proofs.ThreadsShared
import Verif.Proofs.ThreadsSteady
import Verif.Proofs.Tolerance
import Verif.Proofs.Torch
import Verif.Proofs.Voigt
import Verif.Props.Balance
import Verif.Props.Batch
import Verif.Props.BatchGeneralized
import Verif.Props.Dilatational
import Verif.Props.DistortionalBound
import Verif.Props.Dtype
import Verif.Props.EndToEnd
import Verif.Props.Exponent2
import Verif.Props.Fit
import Verif.Props.FitNoise
import Verif.Props.FitOgden
import Verif.Props.Generalized
import Verif.Props.History
import Verif.Props.Identify
import Verif.Props.Ieee
import Verif.Props.Initial
import Verif.Props.InitialList
import Verif.Props.Invariants
import Verif.Props.Lab
import Verif.Props.LabCurves
import Verif.Props.LabGeneralized
import Verif.Props.LabOgden
import Verif.Props.LoadSteps
import Verif.Props.Logarithmic
import Verif.Props.Math
import Verif.Props.Memory
import Verif.Props.MemoryGeneralized
import Verif.Props.Mirror
import Verif.Props.Models
import Verif.Props.Monotone
import Verif.Props.MooneyOgden
import Verif.Props.Newton
import Verif.Props.NewtonOgden
import Verif.Props.NonFinite
import Verif.Props.NonFiniteOverflow
import Verif.Props.Optimize
import Verif.Props.Order
import Verif.Props.Plot
import Verif.Props.Polyconvex
import Verif.Props.PowerStability
import Verif.Props.PowerTest
import Verif.Props.Prediction
import Verif.Props.Principal
import Verif.Props.Range
import Verif.Props.Rates
import Verif.Props.Reindex
import Verif.Props.Rounding
import Verif.Props.RoundingHess
import Verif.Props.RoundingLab
import Verif.Props.RoundingOgdenCurve
import Verif.Props.RoundingOgdenCurveDist
import Verif.Props.RoundingOgdenSplit
import Verif.Props.RoundingSpace
import Verif.Props.RoundingSplit
import Verif.Props.RoundingStretches
import Verif.Props.RoundingTangent
import Verif.Props.RoundingTangentSplit
import Verif.Props.Shapes
import Verif.Props.Shear
import Verif.Props.Slope
import Verif.Props.Spaces
import Verif.Props.Stability
import Verif.Props.Stretches
import Verif.Props.StretchesChoice
import Verif.Props.Superposition
import Verif.Props.Symmetry
import Verif.Props.SymmetryHess
import Verif.Props.Threads
import Verif.Props.ThreadsShared
import Verif.Props.Tolerance
import Verif.Props.ToleranceSplit
import Verif.Props.Torch
import Verif.Props.TorchPrecision
import Verif.Props.Units
import Verif.Props.UnitsFit
import Verif.Props.Work
import Verif.Props.WorkStretches
