import Verif.Coord.Props
import Verif.Space.Props
import Verif.Space.MultiProps
import Verif.Space.AxesMulti
import Verif.Space.CombineProps
import Verif.Dim.Props
import Verif.Param.Props
import Verif.Param.AssignProps
import Verif.Param.GraphProps
import Verif.Data.Props
import Verif.Data.WeightProps
import Verif.Data.ConcatProps
import Verif.Binned.ObsProps
import Verif.Binned.FillProps
import Verif.Binned.LinearProps
import Verif.Pdf.Props
import Verif.Pdf.Extend
import Verif.Functor.SumProps
import Verif.Functor.ProductProps
import Verif.Functor.TruncProps
import Verif.Functor.CachedProps
import Verif.Functor.CondProps
import Verif.Functor.OpsProps
import Verif.BinPdf.IntProps
import Verif.BinPdf.PointProps
import Verif.BinPdf.HookProps
import Verif.BinPdf.HistProps
import Verif.Loss.Props
import Verif.Loss.Stat
import Verif.Loss.Stirling
import Verif.Sample.Props
import Verif.Sample.LawSpec
import Verif.Sample.LawLemmas
import Verif.Sample.LawFlow
import Verif.Sample.LawHeart
import Verif.Sample.LawProps
import Verif.Sample.LawViolated
import Verif.Sample.LawPieces
import Verif.Sample.LawLimits
import Verif.Sample.Inverse
import Verif.Dist.Law
import Verif.Run.CacheProps
import Verif.Run.Cachable
import Verif.Run.ModeProps
import Verif.Min.EvalProps
import Verif.Min.LoopProps
import Verif.Min.SupModel
import Verif.Min.SupProps
import Verif.Sub.Model
import Verif.Sub.Props
import Verif.Res.FlagProps
import Verif.Res.CovProps
import Verif.Res.CorrProps
import Verif.Res.WithProps
import Verif.Res.ErrProps
import Verif.Num.SimpsonProps
import Verif.Num.McProps
import Verif.Num.AnalyticProps
import Verif.Num.AutoModel
import Verif.Num.AutoProps
import Verif.Num.PolyProps
import Verif.Num.BernProps
import Verif.Num.ExpProps
import Verif.Io.SerialProps
import Verif.Io.SeedProps
import Verif.Io.OptProps
import Verif.Phys.Props
import Verif.Root.Props
import Verif.Lm.Props
import Verif.Lm.EdmProps
import Verif.Constr.Props
import Verif.Dill.Props
import Verif.Kde.Props
import Verif.Kde.Density
import Verif.Kde.Binning
import Verif.Kde.FftModel
import Verif.Kde.FftProps
import Verif.Kde.IsjModel
import Verif.Kde.IsjProps
import Verif.Kde.RulesViolated
import Verif.Kde.Quantile
import Verif.Dist.Model
import Verif.Dist.Spec
import Verif.Dist.Props
import Verif.Dist.Sample
import Verif.Spline.Model
import Verif.Spline.Lemmas
import Verif.Spline.Spec
import Verif.Spline.Props
import Verif.Spline.Cases
import Verif.Spline.Definite
import Verif.Spline.Pdf
import Verif.Diff.Model
import Verif.Diff.Props
import Verif.Diff.Central
import Verif.Diff.Loss
import Verif.Conv.Model
import Verif.Conv.Spec
import Verif.Conv.Lemmas
import Verif.Conv.Props
import Verif.Conv.Cases
import Verif.Conv.Sampling
import Verif.Wrap.Props
import Verif.Wrap.Minuit
import Verif.Wrap.Edm
import Verif.Convert.Model
import Verif.Convert.Lemmas
import Verif.Convert.Props
import Verif.Convert.UnbProps
import Verif.Convert.SampleProps
import Verif.Args.Compose
import Verif.Args.ComposeProps
import Verif.Args.Object
import Verif.Args.ObjectProps
import Verif.Args.Auto
import Verif.Args.AutoProps
import Verif.Args.Eval
import Verif.Args.EvalProps
import Verif.Unc.Model
import Verif.Unc.Props
import Verif.Unc.ProfileProps
import Verif.Part.Props
import Verif.Part.McProps
import Verif.Draw.Cases
import Verif.Draw.ProductProps
import Verif.Fun.Props
import Verif.Fun.IntProps
import Verif.Smp.Model
import Verif.Smp.Spec
import Verif.Smp.Props
import Verif.Smp.UProps
import Verif.Smp.HistProps
import Verif.Start.Model
import Verif.Start.Spec
import Verif.Start.Lemmas
import Verif.Start.Convert
import Verif.Start.Props
import Verif.Start.OptProps
import Verif.Hs3.Model
import Verif.Hs3.Lemmas
import Verif.Hs3.Props
import Verif.Hs3.DocModel
import Verif.Hs3.DocProps
import Verif.Acc.Model
import Verif.Acc.Props
import Verif.Acc.FreezeProps
import Verif.Acc.ApproxModel
import Verif.Acc.ApproxProps
import Verif.Pdf.ExtLog
import Verif.Own.CallModel
import Verif.Own.CallProps
import Verif.Own.ClassModel
import Verif.Own.ClassProps
import Verif.Own.MakeModel
import Verif.Own.MakeProps
import Verif.Frame.Model
import Verif.Frame.Props
import Verif.Space.CombineMulti
import Verif.Limit.Model
import Verif.Limit.Props
import Verif.Limit.ArgProps
import Verif.Plot.Model
import Verif.Plot.Props
import Verif.Phys.Voigt
import Verif.Phys.VoigtProps
import Verif.Own.IntegralModel
import Verif.Own.IntegralProps
import Verif.Run.WarnModel
import Verif.Run.WarnProps
import Verif.Run.CpuModel
import Verif.Run.CpuProps
import Verif.Loss.NewModel
import Verif.Loss.NewProps
import Verif.Num.GradModel
import Verif.Num.GradProps
import Verif.Diff.TapeModel
import Verif.Diff.TapeLemmas
import Verif.Diff.TapeProps
import Verif.BinPdf.AtModel
import Verif.BinPdf.AtProps
import Verif.BinPdf.DrawModel
import Verif.BinPdf.DrawLaw
import Verif.BinPdf.DrawProps
import Verif.Space.NormModel
import Verif.Space.NormProps
import Verif.Functor.ToTruncModel
import Verif.Functor.ToTruncProps
import Verif.Space.MultiEqModel
import Verif.Space.MultiEqProps
import Verif.Zh.Model
import Verif.Zh.Props
import Verif.Kde.BwModel
import Verif.Kde.BwProps
import Verif.Kde.AdaptProps
import Verif.Label.Model
import Verif.Label.Lemmas
import Verif.Label.Sim
import Verif.Label.Props
import Verif.Wrap.Budget
import Verif.Kde.IsjNorm
import Verif.Param.FloatProps
import Verif.Data.SaveModel
import Verif.Data.SaveProps
import Verif.Constr.SaveModel
import Verif.Constr.SaveProps
import Verif.Hs3.LossModel
import Verif.Hs3.LossProps
import Verif.Functor.GroupModel
import Verif.Functor.GroupProps
import Verif.Functor.ProdGroupModel
import Verif.Functor.ProdGroupProps
import Verif.Functor.CondObsModel
import Verif.Functor.CondObsProps
import Verif.Pdf.UnitModel
import Verif.Pdf.UnitProps
import Verif.Loss.UnitProps
import Verif.Data.ConcatObsModel
import Verif.Data.ConcatObsProps
import Verif.Acc.PrintModel
import Verif.Acc.PrintProps
import Verif.Loss.DataLinkModel
import Verif.Loss.DataLink
import Verif.Space.OrderModel
import Verif.Space.OrderProps
import Verif.Unc.ReparamProps
import Verif.Convert.ChangeProps
import Verif.Run.EnvModel
import Verif.Run.EnvProps
import Verif.Unc.ProfileReparam
import Verif.Args.ContainerModel
import Verif.Args.ContainerProps
import Verif.Functor.UnitProps
import Verif.Functor.ProdUnitProps
import Verif.Functor.ParamOpsModel
import Verif.Functor.ParamOpsProps
