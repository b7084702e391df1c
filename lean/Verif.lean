import Verif.Model.Basic
import Verif.Model.Backend
import Verif.Model.Profile
import Verif.Model.Lib
import Verif.Model.Slm
import Verif.Model.Dmd
import Verif.Model.Lcos
import Verif.Model.Simulation
import Verif.Model.Analysis
import Verif.Model.Cache
import Verif.Model.Controller
import Verif.Props.Analysis
import Verif.Props.AnalysisLimit
import Verif.Props.Ansi
import Verif.Props.Backend
import Verif.Props.Cache
import Verif.Props.Controller
import Verif.Props.ControllerMemory
import Verif.Props.ControllerFaults
import Verif.Props.DmdHistory
import Verif.Props.FirstOrder
import Verif.Props.Geometry
import Verif.Props.Grating
import Verif.Props.Ifta
import Verif.Props.IftaMore
import Verif.Props.Lcos
import Verif.Props.LcosMore
import Verif.Props.ModeMatching
import Verif.Props.Modes
import Verif.Props.Orders
import Verif.Props.Pack
import Verif.Props.Profile
import Verif.Props.ProfileHistory
import Verif.Props.Propagation
import Verif.Props.PropagationMore
import Verif.Props.Sampling
import Verif.Props.SimLife
import Verif.Props.Zernike
import Verif.Props.ModeOverlap
import Verif.Props.Continuum
import Verif.Props.Devices
import Verif.Props.RandomImage
import Verif.Lemmas.CosineSeries
import Verif.Lemmas.RandomOrders
import Verif.Spec.RandomOrders
import Verif.Props.RandomOrders
import Verif.Props.SuperGaussian
import Verif.Props.Patches
import Verif.Model.Float
import Verif.Spec.Float
import Verif.Lemmas.Float
import Verif.Lemmas.FloatGrating
import Verif.Props.Float
import Verif.Props.FloatGrating
import Verif.Props.LastWriter
import Verif.Props.GsConvergence
import Verif.Props.RandomSteepness
import Verif.Props.Defaults
import Verif.Props.Mirror
import Verif.Props.Interchange
import Verif.Props.HermiteSpot
import Verif.Props.LaguerreSpot
import Verif.Props.HologramSymmetry
import Verif.Props.Aperture
import Verif.Props.Frames
import Verif.Props.Aberration
import Verif.Props.Window
import Verif.Lemmas.DitherFrames
import Verif.Props.Exposure
import Verif.Spec.GaussianInput
import Verif.Props.GaussianInput
import Verif.Lemmas.SignedTarget
import Verif.Props.SignedTarget
import Verif.Spec.Scripts
import Verif.Props.Scripts
import Verif.Lemmas.DitherTail
import Verif.Props.Concentration
import Verif.Spec.Mraf
import Verif.Lemmas.Mraf
import Verif.Lemmas.MrafSpot
import Verif.Props.Mraf
import Verif.Props.Stability
import Verif.Model.DeviceScripts
import Verif.Props.DeviceScripts
import Verif.Props.Rotation
import Verif.Lemmas.ModeSampling
import Verif.Props.ModePower
import Verif.Lemmas.ZernikeBound
import Verif.Props.ZernikeBound
import Verif.Props.Strehl
import Verif.Props.Speckle
import Verif.Props.RoundTrip
import Verif.Props.FloatSim
import Verif.Props.IftaWindow
import Verif.Props.IftaClaims
import Verif.Props.LcosPhase
import Verif.Props.NegativePadding
import Verif.Props.Precision
import Verif.Model.FloatCalc
import Verif.Spec.FloatCalc
import Verif.Lemmas.FloatCalc
import Verif.Props.FloatCalc
import Verif.Model.Ranks
import Verif.Spec.Ranks
import Verif.Lemmas.Ranks
import Verif.Props.Ranks
import Verif.Model.Threads
import Verif.Spec.Threads
import Verif.Lemmas.Threads
import Verif.Props.Threads
import Verif.Model.Benchmarks
import Verif.Spec.Benchmarks
import Verif.Lemmas.Unreachable
import Verif.Props.EmptyWindow
import Verif.Props.Unreachable
import Verif.Props.Benchmarks
import Verif.Model.FloatHologram
import Verif.Spec.FloatHologram
import Verif.Lemmas.FloatHologram
import Verif.Props.FloatHologram
import Verif.Model.Interrupt
import Verif.Props.Interrupt
import Verif.Spec.ModeConversion
import Verif.Lemmas.ModeConversion
import Verif.Props.ModeConversion
import Verif.Model.Lifetime
import Verif.Spec.Lifetime
import Verif.Lemmas.Lifetime
import Verif.Props.Lifetime
import Verif.Model.FloatProfile
import Verif.Spec.FloatProfile
import Verif.Lemmas.FloatProfile
import Verif.Props.FloatProfile
import Verif.Model.TornCalls
import Verif.Spec.TornCalls
import Verif.Lemmas.TornCalls
import Verif.Props.TornCalls
import Verif.Model.Attributes
import Verif.Spec.Attributes
import Verif.Lemmas.Attributes
import Verif.Props.Attributes
import Verif.Model.Traced
import Verif.Spec.Traced
import Verif.Lemmas.Traced
import Verif.Props.Traced
import Verif.Model.SharedDmd
import Verif.Spec.SharedDmd
import Verif.Lemmas.SharedDmd
import Verif.Props.SharedDmd
import Verif.Model.SharedSim
import Verif.Spec.SharedSim
import Verif.Lemmas.SharedSim
import Verif.Props.SharedSim
import Verif.Model.SharedRead
import Verif.Spec.SharedRead
import Verif.Lemmas.SharedRead
import Verif.Props.SharedRead
import Verif.Model.FloatPatch
import Verif.Props.FloatPatch
import Verif.Model.SharedProfile
import Verif.Props.SharedProfile
import Verif.Spec.Spectral
import Verif.Lemmas.Poisson
import Verif.Props.Spectral
import Verif.Props.RepoTests
import Verif.Model.FloatRange
import Verif.Spec.FloatRange
import Verif.Props.FloatRange
import Verif.Props.FloatVortex
import Verif.Model.Nan
import Verif.Spec.Nan
import Verif.Props.Nan
import Verif.Props.VanishingTarget
import Verif.Props.AnalysisFlat
import Verif.Spec.ZernikeSeries
import Verif.Lemmas.ZernikeSeries
import Verif.Lemmas.ZernikeSeries2
import Verif.Props.ZernikeSeries
import Verif.Model.SimRead
import Verif.Spec.SimRead
import Verif.Lemmas.SimRead
import Verif.Props.SimRead
import Verif.Model.FloatAnalysis
import Verif.Spec.FloatAnalysis
import Verif.Lemmas.FloatAnalysis
import Verif.Props.FloatAnalysis
import Verif.Model.FloatIfta
import Verif.Spec.FloatIfta
import Verif.Lemmas.FloatIfta
import Verif.Props.FloatIfta
import Verif.Model.NanIfta
import Verif.Props.NanIfta
import Verif.Props.BlockHistory
import Verif.Model.SharedLcos
import Verif.Spec.SharedLcos
import Verif.Props.SharedLcos
import Verif.Model.SharedLux
import Verif.Spec.SharedLux
import Verif.Props.SharedLux
import Verif.Model.FloatCalcIfta
import Verif.Spec.FloatCalcIfta
import Verif.Props.FloatCalcIfta
import Verif.Model.SharedAlp
import Verif.Spec.SharedAlp
import Verif.Props.SharedAlp
import Verif.Model.VortexTarget
import Verif.Props.VortexTarget
import Verif.Model.OpenAlp
import Verif.Props.OpenAlp
import Verif.Model.OpenLux
import Verif.Props.OpenLux
import Verif.Model.FloatSuper
import Verif.Spec.FloatSuper
import Verif.Props.FloatSuper
import Verif.Model.FloatHermite
import Verif.Props.FloatHermite
