import Verif.Fp.Format
import Verif.Fp.Round
import Verif.Fp.Value
import Verif.Fp.RoundFns
import Verif.Fp.Split
import Verif.IntModel
import Verif.IntLemmas
import Verif.Model.Basic
import Verif.Model.Const
import Verif.Model.Elem
import Verif.Model.Trig
import Verif.Model.Quad
import Verif.Model.Special
import Verif.Props.Integer
import Verif.Props.IntegerPow
import Verif.Props.Rounding
import Verif.Props.Fmod
import Verif.Fp.Calc
import Verif.Analysis.Newton
import Verif.Props.PowFloat
import Verif.Analysis.Sqrt
import Verif.Analysis.SqrtScale
import Verif.Props.Sqrt
import Verif.Props.InvSqrt
import Verif.Props.Hypot
import Verif.Props.Exp
import Verif.Analysis.LogSplit
import Verif.Props.Log
import Verif.Fp.Sum
import Verif.Props.Pow
import Verif.Props.Trig
import Verif.Props.Atan
import Verif.Props.Hyper
import Verif.Fp.Exact
import Verif.Props.Versions
import Verif.Props.Erf
import Verif.Props.Gamma
import Verif.Props.Incomplete
import Verif.Props.NaN
import Verif.Analysis.Consts
import Verif.Fp.Err
import Verif.Analysis.ExpCf
import Verif.Analysis.ExpReal
import Verif.Props.ExpAcc
import Verif.Props.ConstsAcc
import Verif.Analysis.CfRic
import Verif.Analysis.LogReal
import Verif.Analysis.LogCf
import Verif.Props.LogAcc
import Verif.Props.SmallArg
import Verif.Props.Expm1Acc
import Verif.Props.Log2Acc
import Verif.Props.Quad
import Verif.Props.AtanAcc
import Verif.Analysis.TanReal
import Verif.Analysis.TanCf
import Verif.Analysis.TanNear
import Verif.Analysis.TanRed
import Verif.Props.TrigAcc
import Verif.Props.HypAcc
import Verif.Props.PowAcc
import Verif.Analysis.ArctanReal
import Verif.Props.AsinAcc
import Verif.Analysis.TanhReal
import Verif.Props.TanhAcc
import Verif.Props.InvHypAcc
import Verif.Analysis.ErfSeries
import Verif.Analysis.ErfSmall
import Verif.Analysis.ErfTail
import Verif.Analysis.ErfLarge
import Verif.Props.ExpTail
import Verif.Props.ErfAcc
import Verif.Props.ErfBig
import Verif.Analysis.Lanczos
import Verif.Analysis.LanczosFp
import Verif.Props.LgammaTerm
import Verif.Props.LgammaAcc
import Verif.Props.TgammaAcc
import Verif.Props.BetaAcc
import Verif.Props.LmgammaAcc
import Verif.Props.TgammaNeg
import Verif.Analysis.UpperGamma
import Verif.Props.IgammaTail
import Verif.Analysis.Kummer
import Verif.Props.IgammaLow
import Verif.Props.IgammaFail
import Verif.Analysis.IncBeta
import Verif.Analysis.IbetaTable
import Verif.Props.IbetaCf
import Verif.Props.IbetaLentz
import Verif.Props.IbetaLoop
import Verif.Props.IbetaAcc
import Verif.Props.IbetaTop
import Verif.Props.RoundTrip
import Verif.Props.ErfInvAcc
import Verif.Model.Mixed
import Verif.Model.Narrow
import Verif.Props.Mixed
import Verif.Props.MixedBeta
import Verif.Props.MixedInt
import Verif.Props.Narrow
import Verif.Model.Depth
import Verif.Props.Depth
import Verif.Analysis.SqrtExact
import Verif.Props.SqrtExact
import Verif.Props.IgammaInv
import Verif.Props.IgammaInvTop
import Verif.Props.IbetaInv
import Verif.Props.Order
import Verif.Props.Cross
import Verif.Props.Range
import Verif.Props.Scale
import Verif.Props.Whole
import Verif.Props.Dist
import Verif.Props.IgammaSmall
import Verif.Props.Decades
import Verif.Props.IgammaInvFail
import Verif.Props.IgammaInvSteps
import Verif.Props.IgammaInvEvery
