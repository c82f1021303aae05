import Verif.Model.Py
import Verif.Model.Bunch
import Verif.Model.Options
import Verif.Model.Time
import Verif.Lemmas.Dict
import Verif.Lemmas.Options
import Verif.Props.BunchProps
import Verif.Props.OptionProps
import Verif.Props.TimeProps
import Verif.Model.Table
import Verif.Model.ConstTable
import Verif.Model.Constants
import Verif.Model.Astronomy
import Verif.Model.Harmonics
import Verif.Model.Selection
import Verif.Lemmas.Astronomy
import Verif.Lemmas.Harmonics
import Verif.Lemmas.Basis
import Verif.Lemmas.Selection
import Verif.Props.AstroProps
import Verif.Props.HarmonicProps
import Verif.Props.SelectionProps
import Verif.Model.Ellipse
import Verif.Model.SlvInit
import Verif.Model.Num
import Verif.Model.Robust
import Verif.Model.Periodogram
import Verif.Model.Confidence
import Verif.Model.Solve
import Verif.Model.Reconstruct
import Verif.Lemmas.Ellipse
import Verif.Lemmas.SlvInit
import Verif.Lemmas.Solve
import Verif.Lemmas.Lstsq
import Verif.Props.EllipseProps
import Verif.Lemmas.Total
import Verif.Lemmas.Reorder
import Verif.Lemmas.Signal
import Verif.Lemmas.Result
import Verif.Lemmas.KernelRfl
import Verif.Lemmas.Order
import Verif.Lemmas.Requested
import Verif.Props.SlvInitProps
import Verif.Props.ResultProps
import Verif.Props.OrderProps
import Verif.Props.RecProps
import Verif.Lemmas.Fit
import Verif.Lemmas.TotalInfer
import Verif.Props.FitProps
import Verif.Lemmas.Named
import Verif.Lemmas.Mirror
import Verif.Props.Twin
import Verif.Props.RecoverProps
import Verif.Props.RelProps
import Verif.Props.AxesProps
import Verif.Props.RelExamples
import Verif.Model.Contracts
import Verif.Lemmas.Ideal
import Verif.Lemmas.Robust
import Verif.Lemmas.Median
import Verif.Props.RobustProps
import Verif.Props.RobustFalse
import Verif.Props.QuadExample
import Verif.Props.RobustOls
import Verif.Props.RobustEqs
import Verif.Props.ConfProps
import Verif.Props.CiProps
import Verif.Props.LinciProps
import Verif.Lemmas.Gram
import Verif.Lemmas.White
import Verif.Lemmas.Band
import Verif.Lemmas.Dft
import Verif.Props.BandProps
import Verif.Props.GridProps
import Verif.Props.PsdProps
import Verif.Props.CrossProps
import Verif.Props.SpdProps
import Verif.Lemmas.Blue
import Verif.Props.WhiteProps
import Verif.Props.AvailProps
import Verif.Props.PentExample
import Verif.Props.ColourProps
import Verif.Props.SwapProps
import Verif.Props.ApproxProps
import Verif.Lemmas.Accept
import Verif.Props.TextbookProps
import Verif.Props.ReturnProps
import Verif.Lemmas.LstsqAdd
import Verif.Props.SuperProps
import Verif.Props.SuperExamples
import Verif.Props.ShuffleProps
import Verif.Props.ShuffleExamples
import Verif.Props.BoundProps
import Verif.Lemmas.RobustEquiv
import Verif.Props.RobustScale
import Verif.Props.SixExample
import Verif.Lemmas.CiScale
import Verif.Lemmas.SpecScale
import Verif.Props.UnitsProps
import Verif.Props.DriftProps
import Verif.Props.PrintProps
import Verif.Props.InferCiProps
import Verif.Props.OctExample
import Verif.Props.OctRun
import Verif.Props.InferCiAny
import Verif.Props.TiedCiProps
import Verif.Props.NodalProps
import Verif.Props.ComponentProps
import Verif.Props.NestedProps
import Verif.Props.ConstitProps
import Verif.Lemmas.Lomb
import Verif.Props.LombProps
import Verif.Props.CasesA
import Verif.Props.CasesB
import Verif.Props.CasesC
import Verif.Props.SplitProps
import Verif.Props.MirrorProps
import Verif.Props.NyquistProps
import Verif.Props.NyquistExample
import Verif.Model.Output
import Verif.Props.OutputProps
import Verif.Props.OutputExample
import Verif.Props.FillProps
import Verif.Props.FillExample
import Verif.Props.StableProps
import Verif.Props.StableExample
import Verif.Model.Args
import Verif.Props.ArgProps
import Verif.Props.ValueFreeProps
import Verif.Props.RepeatProps
import Verif.Props.ReduceProps
import Verif.Props.ReduceExample
import Verif.Lemmas.McCov
import Verif.Props.McProps
import Verif.Props.McFail
import Verif.Props.RobustTurn
import Verif.Props.NineExample
import Verif.Props.ZeroProps
import Verif.Props.ZeroExample
import Verif.Props.ZeroCi
import Verif.Props.RepeatCi
import Verif.Props.RepeatExample
import Verif.Lemmas.RobustTotal
import Verif.Props.RobustReturn
import Verif.Props.PerfectFit
import Verif.Props.InferReturn
import Verif.Props.RayleighProps
import Verif.Props.SmoothProps
import Verif.Props.ConvertProps
import Verif.Props.DocWeights
import Verif.Lemmas.Noise
import Verif.Props.NoiseProps
import Verif.Props.NoiseExamples
import Verif.Props.WithheldProps
import Verif.Props.WithheldExample
import Verif.Props.EmptyProps
import Verif.Props.TruncProps
import Verif.Props.JoinProps
import Verif.Props.OrthoProps
import Verif.Props.OrthoExample
import Verif.Props.FourierProps
import Verif.Props.FourierExample
import Verif.Lemmas.MeanSquare
import Verif.Props.EnergyProps
import Verif.Props.EnergyHourly
import Verif.Props.EnergyExample
import Verif.Props.ReverseCi
import Verif.Props.ReverseCiExample
import Verif.Lemmas.CatalogueFreq
import Verif.Props.CatalogueProps
import Verif.Props.CatalogueExample
import Verif.Props.ListedProps
import Verif.Props.ListedExample
import Verif.Props.AliasProps
import Verif.Props.AliasExample
import Verif.Props.NyquistHourly
import Verif.Props.HourlyExample
import Verif.Props.LinearTime
import Verif.Props.LinearNodal
import Verif.Props.BackwardProps
import Verif.Props.MoreData
import Verif.Props.MoreExample
import Verif.Props.PredictAgain
import Verif.Props.PredictExample
import Verif.Lemmas.Weighted
import Verif.Props.RobustCi
import Verif.Props.RobustAvail
import Verif.Props.ResolveProps
import Verif.Props.BunchBuild
import Verif.Props.ErrorProps
import Verif.Model.PyFile
import Verif.Props.PyFileProps
import Verif.Props.InterpProps
import Verif.Model.EllipseCall
import Verif.Props.CallProps
import Verif.Props.RobustCi2
import Verif.Props.AxesCi
import Verif.Lemmas.RobustReorder
import Verif.Props.RobustOrder
import Verif.Props.RobustShuffle
import Verif.Props.InferNone
import Verif.Model.LombCall
import Verif.Props.OversampleProps
import Verif.Props.WindowProps
import Verif.Props.ApplyProps
import Verif.Props.NeedProps
import Verif.Props.ShiftProps
import Verif.Props.LineProps
import Verif.Props.AverageProps
import Verif.Props.PeriodProps
import Verif.Props.ThresholdProps
import Verif.Props.SpacingProps
import Verif.Props.LeakProps
import Verif.Props.UnicodeProps
import Verif.Props.MillisecondProps
import Verif.Props.LeakBeside
import Verif.Props.SpringProps
import Verif.Props.RegressionProps
import Verif.Props.KeywordProps
import Verif.Props.ShiftFits
