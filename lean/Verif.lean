import Verif.Model.Np
import Verif.Model.TimeEvolution
import Verif.Model.Constructor
import Verif.Model.MathUtils
import Verif.Model.Geometry
import Verif.Model.Spectra
import Verif.Model.Conversion
import Verif.Model.Kernels
import Verif.Model.Synchrotron
import Verif.Model.Blob
import Verif.Model.Targets
import Verif.Model.Absorption
import Verif.Model.Compton
import Verif.Model.Constraints
import Verif.Model.RadiativeProcess
import Verif.Lemmas.Np
import Verif.Lemmas.Merge
import Verif.Lemmas.SortMerge
import Verif.Lemmas.Mapping
import Verif.Lemmas.MergeBins
import Verif.Lemmas.TimeEval
import Verif.Lemmas.Rates
import Verif.Lemmas.AutoStep
import Verif.Lemmas.Invariant
import Verif.Lemmas.StepInv
import Verif.Lemmas.StepInv2
import Verif.Lemmas.LoopInv
import Verif.Lemmas.Reach
import Verif.Lemmas.RealNumerics
import Verif.Lemmas.Demo
import Verif.Lemmas.Fresh
import Verif.Lemmas.Count
import Verif.Lemmas.TwoHalves
import Verif.Lemmas.NoChange
import Verif.Lemmas.Sums
import Verif.Lemmas.MergeCover
import Verif.Lemmas.Limits
import Verif.Lemmas.Trace
import Verif.Lemmas.Hist
import Verif.Lemmas.Benign
import Verif.Lemmas.AutoSafe
import Verif.Lemmas.ConstRates
import Verif.Lemmas.MathUtils
import Verif.Lemmas.Spectra
import Verif.Lemmas.Radiation
import Verif.Lemmas.Paths
import Verif.Props.MathUtils
import Verif.Props.Geometry
import Verif.Props.Spectra
import Verif.Props.Kernels
import Verif.Props.LogLog
import Verif.Props.Synchrotron
import Verif.Props.SynchShape
import Verif.Props.Absorption
import Verif.Props.Opacity
import Verif.Props.ShellGuard
import Verif.Props.TEBasics
import Verif.Props.TELoop
import Verif.Props.TETwoHalves
import Verif.Lemmas.Units
import Verif.Props.TEUnits
import Verif.Lemmas.Totals
import Verif.Props.TETotals
import Verif.Props.TENoChange
import Verif.Props.TEMappings
import Verif.Props.TEAuto
import Verif.Props.TEHeun
import Verif.Props.TEConstructor
import Verif.Props.TEEmpty
import Verif.Props.Blob
import Verif.Props.Disk
import Verif.Props.Targets
import Verif.Lemmas.FixedGrid
import Verif.Props.EnergyLoss
import Verif.Props.Compton
import Verif.Props.Limits
import Verif.Props.Constraints
import Verif.Props.RadiativeProcess
import Verif.Props.EBL
import Verif.Props.Fit
import Verif.Props.FitData
import Verif.Props.FitSession
import Verif.Model.RateFunctions
import Verif.Props.TEEuler
import Verif.Props.TEConvergence
import Verif.Props.TEHeunRun
import Verif.Lemmas.HeunError
import Verif.Props.TESecondOrder
import Verif.Props.TEClosedForms
import Verif.Props.TESigns
import Verif.Props.TEPhysics
import Verif.Lemmas.TrapzLimit
import Verif.Props.Convergence
import Verif.Props.Redshift
import Verif.Lemmas.Progress
import Verif.Lemmas.NoChangeTotal
import Verif.Props.TEProgress
import Verif.Model.BoundaryCorrection
import Verif.Props.TEBoundary
import Verif.Props.TargetField
import Verif.Props.Beaming
import Verif.Props.Superposition
import Verif.Props.DiskPower
import Verif.Props.ObjectSharing
import Verif.Props.Footprint
import Verif.Props.Assignment
import Verif.Props.TESuperposition
import Verif.Props.Continuity
import Verif.Props.FitLimits
import Verif.Props.Bolometric
import Verif.Props.Amplitudes
import Verif.Props.Quadrature
import Verif.Props.FarField
import Verif.Props.FarDisk
import Verif.Props.BatchLimits
import Verif.Props.BatchTargets
import Verif.Props.PhotonCount
import Verif.Props.UnitObjects
import Verif.Model.Particles
import Verif.Props.Particles
import Verif.Props.ScatteredSpectrum
import Verif.Props.EnergyCount
import Verif.Lemmas.EmissivityIntegral
import Verif.Props.SynchEnergy
import Verif.Props.IsotropicEnergy
import Verif.Props.SSCEnergy
import Verif.Props.IsotropicCount
import Verif.Props.PairColumn
import Verif.Props.TENumber
import Verif.Props.Dominance
import Verif.Model.ArrayType
import Verif.Props.ArrayType
import Verif.Model.Validation
import Verif.Props.Validation
import Verif.Props.SelfAbsorbed
import Verif.Props.TESteady
import Verif.Props.TEBalance
import Verif.Props.TEAutoSteady
import Verif.Props.TEAutoFermi
import Verif.Props.TEAutoCooling
import Verif.Props.TEAutoBalance
