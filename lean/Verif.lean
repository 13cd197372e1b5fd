import Verif.AdaptConv
import Verif.AdaptiveModel
import Verif.AdaptiveProps
import Verif.ApproxModel
import Verif.ApproxProps
import Verif.BetaAcc
import Verif.BetaIncLemmas
import Verif.BetaIncProps
import Verif.BetaProps
import Verif.CGProps
import Verif.CastModel
import Verif.CastProps
import Verif.CdfProps
import Verif.CgModel
import Verif.CholProps
import Verif.ColLemmas
import Verif.ComplexInvProps
import Verif.ComplexLemmas
import Verif.ComplexModel
import Verif.ComplexProps
import Verif.ContModel
import Verif.ContProps
import Verif.ConvProps
import Verif.CxFnModel
import Verif.DigammaModel
import Verif.DigammaProps
import Verif.DiscreteModel
import Verif.DiscreteProps
import Verif.DisplayModel
import Verif.DisplayProps
import Verif.DistBeta
import Verif.DistChi
import Verif.DistGamma
import Verif.DistModel
import Verif.DistT
import Verif.DistTCdf
import Verif.EigenProps
import Verif.ElemDistModel
import Verif.ErfAcc
import Verif.ErrorProps
import Verif.FixedProps
import Verif.FloatAdapt
import Verif.FloatBeta
import Verif.FloatCg
import Verif.FloatChol
import Verif.FloatConv
import Verif.FloatCx
import Verif.FloatCxFn
import Verif.FloatDigamma
import Verif.FloatDist
import Verif.FloatDist2
import Verif.FloatErf
import Verif.FloatGamma
import Verif.FloatGrad
import Verif.FloatHess
import Verif.FloatImplicit
import Verif.FloatIncGamma
import Verif.FloatLU
import Verif.FloatLemmas
import Verif.FloatLnGamma
import Verif.FloatModel
import Verif.FloatMs
import Verif.FloatMsConv
import Verif.FloatNewton
import Verif.FloatOdeLemmas
import Verif.FloatOdeProps
import Verif.FloatOptim
import Verif.FloatPoly
import Verif.FloatProps
import Verif.FloatQR
import Verif.FloatQuant
import Verif.FloatRK
import Verif.FloatSolve
import Verif.FloatStat
import Verif.FloatSubst
import Verif.FloatSvd
import Verif.FloatTest
import Verif.GammaFnModel
import Verif.GammaProps
import Verif.GammaUseModel
import Verif.HouseholderProps
import Verif.HyperAcc
import Verif.HyperAn
import Verif.HyperConn
import Verif.HyperEuler
import Verif.HyperProps
import Verif.HyperSpec
import Verif.IeeeArgs
import Verif.IeeeFnModel
import Verif.IeeeLoops
import Verif.IeeeModel
import Verif.IeeeProps
import Verif.ImplicitConv
import Verif.ImplicitModel
import Verif.IncGammaAcc
import Verif.IncGammaFrac
import Verif.IncGammaInt
import Verif.IncGammaLemmas
import Verif.IncGammaProps
import Verif.IncGammaRounds
import Verif.LMProps
import Verif.LUDominant
import Verif.LULemmas
import Verif.LUModel
import Verif.LUProps
import Verif.LanczosLemmas
import Verif.LanczosPoly
import Verif.LanczosPolyDk
import Verif.LanczosProps
import Verif.LapackExists
import Verif.LapackLemmas
import Verif.LapackModel
import Verif.LapackProps
import Verif.LapackRExists
import Verif.LapackReal
import Verif.LnGammaModel
import Verif.LogNormalProps
import Verif.Loop
import Verif.MatLemmas
import Verif.MatModel
import Verif.MatProps
import Verif.MsConv
import Verif.MsConvProps
import Verif.MultistepModel
import Verif.MultistepProps
import Verif.NewtonConv
import Verif.NewtonIe
import Verif.NewtonIeModel
import Verif.NewtonMinConv
import Verif.NewtonModel
import Verif.NewtonProps
import Verif.NormProps
import Verif.NormalProps
import Verif.NormalQuantModel
import Verif.OdeLemmas
import Verif.OdeModel
import Verif.OptimConv
import Verif.OptimLemmas
import Verif.OptimModel
import Verif.OptimProps
import Verif.OrthModel
import Verif.PinvProps
import Verif.PolyCheck
import Verif.PolyDivModel
import Verif.PolyLemmas
import Verif.PolyModel
import Verif.PolyProps
import Verif.ProblemModel
import Verif.ProblemProps
import Verif.QRProps
import Verif.QuantCore
import Verif.QuantErf
import Verif.QuantNormal
import Verif.QuantTabE1
import Verif.QuantTabE2
import Verif.QuantTabE3
import Verif.QuantTabN1
import Verif.QuantTabN2
import Verif.QuantTabN3
import Verif.RKConv
import Verif.RKEmbProps
import Verif.RKOrder
import Verif.RKPert
import Verif.RKProps
import Verif.RandomModel
import Verif.RandomProps
import Verif.RcosProps
import Verif.RealFnModel
import Verif.RealFnProps
import Verif.RowColLemmas
import Verif.RowColModel
import Verif.SpecialLemmas
import Verif.SpecialModel
import Verif.SpectralModel
import Verif.StabilityProps
import Verif.StatFnModel
import Verif.SubstLemmas
import Verif.SvdConv
import Verif.SvdProps
import Verif.TestModel
import Verif.TestPValue
import Verif.TestProps
import Verif.TransposeLemmas
import Verif.TransposeModel
import Verif.UrInvFail
import Verif.UrInvProps
import Verif.VecLemmas
import Verif.VecModel
import Verif.VecProps
