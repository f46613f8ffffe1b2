import Verif.Model.Base
import Verif.Model.Zernike
import Verif.Model.Numpy
import Verif.Model.Aperture
import Verif.Model.Fl
import Verif.Model.Illum
import Verif.Spec.Zernike
import Verif.Props.Zernike
import Verif.Props.Wavefront
import Verif.Model.Telgeometry
import Verif.Props.Aperture
import Verif.Props.Illumination
import Verif.Props.Geometry
import Verif.Model.MathFn
import Verif.Props.MathFn
import Verif.Props.Rms
import Verif.Model.Params
import Verif.Model.Residual
import Verif.Props.Params
import Verif.Props.Residual
import Verif.Model.Text
import Verif.Model.Fs
import Verif.Model.Store
import Verif.Model.Fit
import Verif.Lemmas.Text
import Verif.Lemmas.Fs
import Verif.Lemmas.Store
import Verif.Props.Names
import Verif.Props.RunDir
import Verif.Props.FitFiles
import Verif.Lemmas.Hoare
import Verif.Props.FitRun
import Verif.Props.FitStart
import Verif.Lemmas.Sys
import Verif.Props.Concurrent
import Verif.Model.AuxFn
import Verif.Props.FitsPath
import Verif.Props.Latex
import Verif.Props.Table
import Verif.Props.Contents
import Verif.Model.Simulate
import Verif.Props.SimTrim
import Verif.Props.Simulate
import Verif.Props.Actuator
import Verif.Props.Lookup
import Verif.Props.Surface
import Verif.Props.Gravity
import Verif.Model.Mpi
import Verif.Props.Mpi
import Verif.Props.ActFit
import Verif.Lemmas.ZernikeUnique
import Verif.Props.Unique
import Verif.Props.Optics
import Verif.Props.PathLength
import Verif.Props.ActRecover
import Verif.Model.Plot
import Verif.Props.PlotVar
import Verif.Props.PlotBeam
import Verif.Props.PlotFit
import Verif.Props.Header
import Verif.Props.Rings
import Verif.Props.NewTable
import Verif.Props.Symmetry
import Verif.Props.Ambiguity
import Verif.Props.Scaling
import Verif.Props.Stability
import Verif.Props.BadPixel
import Verif.Props.Singular
import Verif.Model.FitPlots
import Verif.Props.FitPlots
import Verif.Model.ResidualCast
import Verif.Props.IntMaps
import Verif.Model.ActPlot
import Verif.Props.ActPlot
import Verif.Model.Units
import Verif.Lemmas.Units
import Verif.Props.Units
import Verif.Props.FitLimits
import Verif.Model.CreateLookup
import Verif.Props.Observations
import Verif.Props.Pipeline
import Verif.Model.Batch
import Verif.Props.Batch
import Verif.Model.Csv
import Verif.Props.Csv
import Verif.Props.MpiRun
import Verif.Model.Double
import Verif.Props.Double
import Verif.Props.SimConcurrent
import Verif.Lemmas.Riemann
import Verif.Props.Converge
import Verif.Props.Noise
import Verif.Props.BestFit
import Verif.Model.DoubleZernike
import Verif.Props.DoubleZernike
import Verif.Props.Ruze
import Verif.Props.Nested
import Verif.Props.RmsLimit
import Verif.Props.Motion
import Verif.Props.Errors
import Verif.Model.Yaml
import Verif.Model.Config
import Verif.Lemmas.Yaml
import Verif.Props.Config
import Verif.Model.InfoText
import Verif.Props.InfoText
import Verif.Props.ActLinear
import Verif.Props.ActUnits
import Verif.Props.SimUnits
import Verif.Props.Killed
import Verif.Lemmas.ZernikeSpan
import Verif.Props.Complete
import Verif.Props.Excluded
import Verif.Props.LookupPlots
import Verif.Props.Remains
import Verif.Props.Watch
import Verif.Props.Offgrid
import Verif.Props.Loop
import Verif.Props.Docs
import Verif.Props.DoublePhase
import Verif.Props.Derivative
import Verif.Props.Angle
import Verif.Props.Consistency
import Verif.Props.DoubleField
import Verif.Props.DoublePattern
import Verif.Props.DoublePatternCase
import Verif.Model.DoubleResidual
import Verif.Props.DoubleResidual
import Verif.Props.DoubleResidualCase
import Verif.Model.DoubleOptics
import Verif.Props.DoubleOptics
import Verif.Props.DoubleIllum
import Verif.Props.DoubleOwn
import Verif.Props.DoubleOwnCase
import Verif.Model.DoubleEffelsberg
import Verif.Props.DoubleShade
import Verif.Props.DoubleEffelsberg
import Verif.Props.DoubleEffelsbergFar
import Verif.Props.DoubleEffelsbergCase
import Verif.Model.DoubleActuator
import Verif.Props.DoubleActuator
import Verif.Props.DoubleActuatorMap
import Verif.Props.DoubleLookup
import Verif.Lemmas.RiemannRate
import Verif.Lemmas.FineEdge
import Verif.Props.ConvergeRate
import Verif.Props.ConvergePackage
import Verif.Lemmas.RiemannBox
import Verif.Props.OffgridRate
import Verif.Model.DoubleRms
import Verif.Props.DoubleRms
import Verif.Props.DoubleRmsMap
import Verif.Props.DoubleRmsTable
import Verif.Props.HalfWrittenPhase
import Verif.Props.HalfWrittenLookup
import Verif.Props.Sampling
import Verif.Props.EvenOrders
import Verif.Props.OddOrders
import Verif.Props.FocusError
import Verif.Props.SampleOrder
import Verif.Props.OneMap
import Verif.Props.Pointing
import Verif.Props.HalfWrittenInfo
import Verif.Props.Jacobian
import Verif.Props.Slope
import Verif.Props.CutMaps
import Verif.Model.DoubleCov
import Verif.Props.DoubleCov
import Verif.Props.Shadow
import Verif.Model.DoubleSnr
import Verif.Props.DoubleSnr
import Verif.Props.SmallOffset
import Verif.Props.Field
import Verif.Props.SimField
import Verif.Props.FieldCast
import Verif.Model.DoublePolar
import Verif.Props.DoublePolar
import Verif.Model.DoubleRatio
import Verif.Props.DoubleRatio
import Verif.Model.MathUnits
import Verif.Props.MathUnits
