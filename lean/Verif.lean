import Verif.Lemmas.CStep
import Verif.Lemmas.CellDelta
import Verif.Lemmas.CellMCD
import Verif.Lemmas.CellStep
import Verif.Lemmas.Gauss
import Verif.Lemmas.LinAlg
import Verif.Lemmas.LinReg
import Verif.Lemmas.MCD
import Verif.Lemmas.Median
import Verif.Lemmas.Power
import Verif.Lemmas.Qn
import Verif.Lemmas.Qn2
import Verif.Lemmas.Select
import Verif.Lemmas.Sort
import Verif.Lemmas.Stats
import Verif.Lemmas.WLS
import Verif.Lemmas.Weighted
import Verif.Lemmas.WeightedMedian
import Verif.Model.Basics
import Verif.Model.Boxplot
import Verif.Model.CellMCD
import Verif.Model.CellMap
import Verif.Model.CellPlot
import Verif.Model.Covariance
import Verif.Model.DDC
import Verif.Model.DDCW
import Verif.Model.DataCleaner
import Verif.Model.DetMCD
import Verif.Model.GlobalRng
import Verif.Model.LTS
import Verif.Model.LinAlg
import Verif.Model.MCD
import Verif.Model.MMArrays
import Verif.Model.Objects
import Verif.Model.OneStepM
import Verif.Model.PCA
import Verif.Model.PCAMap
import Verif.Model.PowerFit
import Verif.Model.PowerTransform
import Verif.Model.Qn
import Verif.Model.RegMap
import Verif.Model.Rho
import Verif.Model.RobustScale
import Verif.Model.SReg
import Verif.Model.ScalerEst
import Verif.Model.Scaling
import Verif.Model.Tau
import Verif.Model.UnivariateMCD
import Verif.Model.Utils
import Verif.Model.Verbosity
import Verif.Model.WeightedMedian
import Verif.Props.BoxBreakdown
import Verif.Props.Boxplot
import Verif.Props.CellAnnotation
import Verif.Props.CellColumns
import Verif.Props.CellColumnsSteps
import Verif.Props.CellFit
import Verif.Props.CellMCD
import Verif.Props.CellMCDWitness
import Verif.Props.CellMap
import Verif.Props.CellOrder
import Verif.Props.CellPlot
import Verif.Props.CellPredict
import Verif.Props.CleanerOrder
import Verif.Props.Cleaning2
import Verif.Props.ColumnOrder
import Verif.Props.CovBreakdown
import Verif.Props.CovEquiv
import Verif.Props.CovFit
import Verif.Props.Covariance
import Verif.Props.DDC
import Verif.Props.DDCColumns
import Verif.Props.DDCFar
import Verif.Props.DDCFarCol
import Verif.Props.DDCFarRun
import Verif.Props.DDCMask
import Verif.Props.DDCMissing
import Verif.Props.DDCOrder
import Verif.Props.DDCPred
import Verif.Props.DDCReal
import Verif.Props.DDCRefit
import Verif.Props.DDCSlopes
import Verif.Props.DDCUnits
import Verif.Props.DDCW
import Verif.Props.DDCWCov
import Verif.Props.DDCWOrder
import Verif.Props.DDCWRun
import Verif.Props.DDCWShape
import Verif.Props.DDCWWitness
import Verif.Props.DDCWitness
import Verif.Props.DataCleaner
import Verif.Props.DetBreakdown
import Verif.Props.DetMCD
import Verif.Props.DetOrder
import Verif.Props.DetOrderRun
import Verif.Props.DetSets
import Verif.Props.DetSym
import Verif.Props.DetTotal
import Verif.Props.DetWitness
import Verif.Props.FarValues
import Verif.Props.GlobalRng
import Verif.Props.Implosion
import Verif.Props.L1Breakdown
import Verif.Props.L1Median
import Verif.Props.LTS
import Verif.Props.LTSBreakdown
import Verif.Props.LTSCorr
import Verif.Props.LTSEquiv
import Verif.Props.LTSExact
import Verif.Props.LTSOrder
import Verif.Props.LTSReweight
import Verif.Props.LTSWitness
import Verif.Props.LinAlg
import Verif.Props.LocBreakdown
import Verif.Props.MCD
import Verif.Props.MCD2
import Verif.Props.MCDAffine
import Verif.Props.MCDBreakdown
import Verif.Props.MCDOrder
import Verif.Props.MCDPost
import Verif.Props.MCDZeroSteps
import Verif.Props.MM
import Verif.Props.MMArrays
import Verif.Props.MMOrder
import Verif.Props.OGKBreakdown
import Verif.Props.Objects
import Verif.Props.Outlyingness
import Verif.Props.PCA
import Verif.Props.PCAFit
import Verif.Props.PCALocantore
import Verif.Props.PCAMap
import Verif.Props.PCAOptimal
import Verif.Props.PCAOrder
import Verif.Props.PCARobpca
import Verif.Props.PCARotation
import Verif.Props.PCATotal
import Verif.Props.PCAUnits
import Verif.Props.PowerFit
import Verif.Props.PowerLik
import Verif.Props.PowerTransform
import Verif.Props.Qn
import Verif.Props.Rectified
import Verif.Props.RegMap
import Verif.Props.Rho
import Verif.Props.RobpcaRotation
import Verif.Props.RobpcaUnits
import Verif.Props.RobustScale
import Verif.Props.RowOrder
import Verif.Props.SBreakWitness
import Verif.Props.SBreakdown
import Verif.Props.SDBreakdown
import Verif.Props.SEquiv
import Verif.Props.SEquivReg
import Verif.Props.SOrder
import Verif.Props.SReg
import Verif.Props.SRegWitness
import Verif.Props.SScale
import Verif.Props.SUnits
import Verif.Props.ScalerEst
import Verif.Props.Scaling
import Verif.Props.TauOneStep
import Verif.Props.TauWrapping
import Verif.Props.Truncated
import Verif.Props.UnivariateMCD
import Verif.Props.Verbosity
import Verif.Props.ZeroScale
import Verif.Spec.Gauss
import Verif.Spec.Order
import Verif.Spec.Stats
