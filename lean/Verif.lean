import Verif.Model.Main
import Verif.Model.HST
import Verif.Model.FitsHeader
import Verif.Lemmas.Express
import Verif.Lemmas.InstantRun
import Verif.Lemmas.TrackTime
import Verif.Lemmas.SlowStep
import Verif.Lemmas.Conserve
import Verif.Props.Express
import Verif.Props.Readout
import Verif.Lemmas.MgrBounds
import Verif.Props.Managers
import Verif.Props.Watermarks
import Verif.Props.Clock
import Verif.Props.ClockMore
import Verif.Props.Causality
import Verif.Props.TimeSplit
import Verif.Props.Traps
import Verif.Props.Continuum
import Verif.Props.TrapLists
import Verif.Props.CCD
import Verif.Props.Remove
import Verif.Props.Charge
import Verif.Lemmas.Short
import Verif.Spec.Reference
import Verif.Spec.RefSystem
import Verif.Lemmas.RefIntegral
import Verif.Lemmas.RefStep
import Verif.Lemmas.RunCfg
import Verif.Lemmas.RefClock
import Verif.Lemmas.RefColumn
import Verif.Props.Total
import Verif.Props.Reference
import Verif.Model.Objects
import Verif.Props.EndToEnd
import Verif.Lemmas.RefLipschitz
import Verif.Lemmas.RefPass
import Verif.Lemmas.RefLift
import Verif.Lemmas.WellFill
import Verif.Props.Order
import Verif.Props.Converge
import Verif.Props.Work
import Verif.Model.RoeObject
import Verif.Props.RoeObject
import Verif.Lemmas.MgrRel
import Verif.Props.Species
import Verif.Spec.TrapSpec
import Verif.Lemmas.SpecRun
import Verif.Props.TrackImage
import Verif.Spec.RefClocks
import Verif.Props.RefClocks
import Verif.Spec.RefSlow
import Verif.Props.RefSlow
import Verif.Props.FewTraps
import Verif.Spec.Units
import Verif.Lemmas.Scale
import Verif.Props.Units
import Verif.Props.UnitsClocks
import Verif.Lemmas.Capacity
import Verif.Lemmas.Prefix
import Verif.Props.Corner
import Verif.Model.Float
import Verif.Model.Binary64
import Verif.Lemmas.FloatExact
import Verif.Lemmas.FloatSafe
import Verif.Lemmas.FloatBudget
import Verif.Lemmas.FloatRun
import Verif.Lemmas.FloatShape
import Verif.Lemmas.FloatCausal
import Verif.Lemmas.Binary64
import Verif.Lemmas.FloatFill
import Verif.Props.Float
import Verif.Model.FloatRoe
import Verif.Lemmas.FloatRoeExact
import Verif.Lemmas.Binary64Error
import Verif.Lemmas.FloatExpress
import Verif.Props.FloatExpress
import Verif.Model.FloatMain
import Verif.Props.FloatMain
import Verif.Lemmas.OkRel
import Verif.Props.GroupOrder
import Verif.Model.Arrays
import Verif.Props.Arrays
import Verif.Model.TrapObjects
import Verif.Props.TrapObjects
import Verif.Spec.Trail
import Verif.Props.Trail
import Verif.Model.Windows
import Verif.Props.Windows
import Verif.Props.TimeWindow
import Verif.Conformance
import Verif.Model.Failures
import Verif.Props.Failures
import Verif.Props.Pumping
import Verif.Lemmas.Binary64Order
import Verif.Lemmas.FloatSum
import Verif.Lemmas.FloatBlock
import Verif.Lemmas.FloatCapture
import Verif.Props.Rounding
import Verif.Props.CaptureTime
import Verif.Lemmas.RefError
import Verif.Props.TrapErrors
import Verif.Lemmas.ExpressError
import Verif.Props.ExpressAccuracy
import Verif.Props.Injection
import Verif.Props.PixelChange
import Verif.Props.Delay
import Verif.Props.ZeroDensity
import Verif.Props.NoEffect
import Verif.Props.Notch
import Verif.Lemmas.Saturation
import Verif.Props.Saturation
import Verif.Lemmas.Shield
import Verif.Props.Shield
import Verif.Lemmas.RefContract
import Verif.Props.Contract
import Verif.Lemmas.Invert
import Verif.Props.Invert
import Verif.Props.Background
import Verif.Lemmas.RoundLevy
import Verif.Lemmas.RoundTidy
import Verif.Lemmas.RoundCapture
import Verif.Lemmas.RoundShape
import Verif.Lemmas.RoundStep
import Verif.Lemmas.RoundGroups
import Verif.Lemmas.RoundPass
import Verif.Lemmas.RoundColumn
import Verif.Lemmas.RoundMatrix
import Verif.Props.RoundImage
import Verif.Props.RoundSize
import Verif.Model.PairwiseSum
import Verif.Lemmas.FloatOrder
import Verif.Lemmas.RoundRemove
import Verif.Props.RoundRemove
import Verif.Lemmas.Superpose
import Verif.Props.Superpose
import Verif.Lemmas.Stretch
import Verif.Props.Brightness
import Verif.Spec.Ieee
import Verif.Props.Ieee
import Verif.Props.CcdErrors
import Verif.Props.InvertExpress
import Verif.Props.CarryOver
import Verif.Spec.RefMixed
import Verif.Lemmas.SlowLip
import Verif.Lemmas.Gentle
import Verif.Lemmas.MixGentle
import Verif.Lemmas.StepColumn
import Verif.Props.InvertSlow
import Verif.Lemmas.MixOrder
import Verif.Props.OrderSlow
import Verif.Spec.RefFull
import Verif.Lemmas.ClockLip
import Verif.Lemmas.FullGentle
import Verif.Lemmas.StepColumnOn
import Verif.Props.InvertFull
import Verif.Props.OrderFull
import Verif.Lemmas.StepExpress
import Verif.Props.ExpressFull
import Verif.Lemmas.SuperposeStep
import Verif.Props.SuperposeFull
import Verif.Lemmas.StepSaturation
import Verif.Props.SaturationFull
import Verif.Props.LeftOut
import Verif.Lemmas.GentleError
import Verif.Lemmas.FullError
import Verif.Lemmas.FullKin
import Verif.Props.ErrorsFull
import Verif.Lemmas.FillCongr
import Verif.Lemmas.StepColumnFrom
import Verif.Lemmas.BackFull
import Verif.Props.BackgroundFull
import Verif.Props.CcdErrorsFull
import Verif.Props.TimeUnits
import Verif.Props.BinnedLifetimes
import Verif.Props.BackgroundErrors
import Verif.Lemmas.NotchLaw
import Verif.Props.NotchBackground
import Verif.Props.NotchErrors
import Verif.Lemmas.LawLip
import Verif.Props.LawErrors
import Verif.Props.AllErrors
import Verif.Props.ParallelErrors
import Verif.Props.DwellErrors
import Verif.Props.NoiseErrors
import Verif.Props.LeftOutNotch
import Verif.Props.OrderNotch
import Verif.Props.ReachNotch
import Verif.Props.PassNotch
