import Verif.Model.Num
import Verif.Model.Utils
import Verif.Spec.Circle
import Verif.Lemmas.Circle
import Verif.Props.Utils
import Verif.Model.Descriptive
import Verif.Spec.Sample
import Verif.Lemmas.Descriptive
import Verif.Props.Resultant
import Verif.Props.Moments
import Verif.Model.Dist
import Verif.Lemmas.Dist
import Verif.Props.Dist
import Verif.Lemmas.Lists
import Verif.Model.Median
import Verif.Lemmas.Median
import Verif.Props.Median
import Verif.Props.MedianGrouped
import Verif.Props.MedianGroupedHalf
import Verif.Model.Interval
import Verif.Model.Range
import Verif.Lemmas.Arc
import Verif.Spec.Quantile
import Verif.Props.MeanCi
import Verif.Props.Range
import Verif.Props.Hdi
import Verif.Props.Studentize
import Verif.Props.MedianCi
import Verif.Props.Kappa
import Verif.Props.KappaMle
import Verif.Lemmas.McRank
import Verif.Model.RaoSim
import Verif.Props.McValid
import Verif.Props.Kde
import Verif.Props.Quantile
import Verif.Model.HypOne
import Verif.Model.HypMulti
import Verif.Lemmas.Samples
import Verif.Props.Rayleigh
import Verif.Props.VTest
import Verif.Props.Omnibus
import Verif.Props.WatsonWilliams
import Verif.Props.Anova
import Verif.Spec.Rank
import Verif.Lemmas.Ranks
import Verif.Props.WatsonU2
import Verif.Props.Wheeler
import Verif.Props.Wallraff
import Verif.Model.HypUnif
import Verif.Lemmas.Spline
import Verif.Props.Kuiper
import Verif.Props.WatsonOne
import Verif.Props.RaoSpacing
import Verif.Props.RangeTest
import Verif.Props.Binomial
import Verif.Model.HypHomog
import Verif.Lemmas.Groups
import Verif.Props.Concentration
import Verif.Props.RaoHomog
import Verif.Props.ChangePoint
import Verif.Props.HarrisonKanji
import Verif.Props.EqualKappa
import Verif.Props.CommonMedian
import Verif.Model.Correlation
import Verif.Lemmas.FinSums
import Verif.Spec.MeanDir
import Verif.Lemmas.MeanDir
import Verif.Props.CorrFl
import Verif.Props.CorrJs
import Verif.Props.CorrNp
import Verif.Props.CorrCl
import Verif.Model.Regression
import Verif.Spec.LeastSquares
import Verif.Lemmas.LeastSquares
import Verif.Lemmas.CCReg
import Verif.Lemmas.NestedLS
import Verif.Props.CCReg
import Verif.Props.CLReg
import Verif.Props.CLPredict
import Verif.Props.CLScore
import Verif.Props.CLBessel
import Verif.Model.Clustering
import Verif.Props.EM
import Verif.Lemmas.Mixture
import Verif.Props.Mixture
import Verif.Props.MixtureB
import Verif.Props.Ascent
import Verif.Lemmas.HAC
import Verif.Props.HAC
import Verif.Props.KMeans
import Verif.Props.KMeansDescent
import Verif.Props.Silhouette
import Verif.Model.Base
import Verif.Lemmas.Base
import Verif.Props.Base
import Verif.Props.BaseB
import Verif.Props.BaseC
import Verif.Props.Axial
import Verif.Model.Distn
import Verif.Model.DistSimple
import Verif.Spec.Distribution
import Verif.Lemmas.Distn
import Verif.Lemmas.CdfIntegral
import Verif.Lemmas.DistSimple
import Verif.Props.Distn
import Verif.Props.DistnB
import Verif.Props.DistSimple
import Verif.Props.DistSimpleB
import Verif.Model.DistCauchy
import Verif.Lemmas.Poisson
import Verif.Props.DistCauchy
import Verif.Props.DistCauchyB
import Verif.Model.Bessel
import Verif.Lemmas.Bessel
import Verif.Lemmas.BesselDeriv
import Verif.Lemmas.FourierCos
import Verif.Model.Solver
import Verif.Props.Solver
import Verif.Model.DistVonMises
import Verif.Lemmas.VonMises
import Verif.Props.DistVonMises
import Verif.Props.DistVonMisesB
import Verif.Spec.Families
import Verif.Model.DistKatoJones
import Verif.Lemmas.KatoJones
import Verif.Props.DistKatoJones
import Verif.Props.DistKatoJonesB
import Verif.Props.DistKatoJonesC
import Verif.Model.DistJonesPewsey
import Verif.Lemmas.JonesPewsey
import Verif.Props.DistJonesPewsey
import Verif.Lemmas.FourierGrid
import Verif.Lemmas.CosSeries
import Verif.Lemmas.JPSeries
import Verif.Props.DistJonesPewseyB
import Verif.Lemmas.TrapAnalytic
import Verif.Model.Pchip
import Verif.Lemmas.Pchip
import Verif.Model.DistTable
import Verif.Lemmas.DistTable
import Verif.Lemmas.TableError
import Verif.Lemmas.TableQuantile
import Verif.Model.DistFlat
import Verif.Lemmas.DistFlat
import Verif.Lemmas.FlatFloor
import Verif.Props.DistFlat
import Verif.Spec.Likelihood
import Verif.Props.Likelihood
import Verif.Props.DistFlatB
import Verif.Props.LikelihoodB
import Verif.Props.LikelihoodC
import Verif.Model.DistInvBat
import Verif.Lemmas.InvBat
import Verif.Lemmas.InvBatCode
import Verif.Lemmas.InvBatState
import Verif.Lemmas.Unimodal
import Verif.Props.DistInvBat
import Verif.Props.DistInvBatB
import Verif.Model.DistCartwright
import Verif.Lemmas.Cartwright
import Verif.Lemmas.CartwrightCdf
import Verif.Props.DistCartwright
import Verif.Props.DistCartwrightB
import Verif.Model.DistWrapNorm
import Verif.Lemmas.WrapNorm
import Verif.Lemmas.WrapNormCdf
import Verif.Lemmas.WrapNormPdf
import Verif.Lemmas.WrapNormLik
import Verif.Props.DistWrapNorm
import Verif.Props.DistWrapNormB
import Verif.Lemmas.InvBatTable
import Verif.Props.DistInvBatC
import Verif.Model.HypSym
import Verif.Lemmas.SignedRank
import Verif.Props.Symmetry
import Verif.Props.ChiSquare
import Verif.Spec.Stable
import Verif.Model.DistWrapStable
import Verif.Lemmas.WrapStable
import Verif.Lemmas.WrapStableB
import Verif.Lemmas.WrapStableC
import Verif.Props.DistWrapStable
import Verif.Props.DistWrapStableB
import Verif.Props.DistWrapStableC
import Verif.Lemmas.WrapStableD
import Verif.Lemmas.WrapStableE
import Verif.Props.DistWrapStableD
import Verif.Model.DistJPAsym
import Verif.Lemmas.JPAsym
import Verif.Props.DistJPAsym
import Verif.Props.DistJPAsymB
import Verif.Props.DistJPAsymC
import Verif.Model.RegressionSE
import Verif.Spec.Regression
import Verif.Lemmas.Fisher
import Verif.Props.CLStdErr
import Verif.Lemmas.BestFisher
import Verif.Props.DistVonMisesC
import Verif.Model.ClusterKJ
import Verif.Props.ClusterKJ
import Verif.Model.ClusterPredict
import Verif.Props.ClusterPredict
import Verif.Model.TextInput
import Verif.Model.Plot
import Verif.Props.TextInput
import Verif.Props.Plot
import Verif.Model.DistCall
import Verif.Props.DistCall
import Verif.Lemmas.PchipB
import Verif.Lemmas.InvBatHistory
import Verif.Model.DistInvBatFit
import Verif.Props.DistInvBatD
import Verif.Props.LikelihoodInvBat
import Verif.Model.DistJPSample
import Verif.Props.DistJPSample
import Verif.Model.ClusterMethod
import Verif.Props.ClusterMethod
import Verif.Props.ClusterMethodB
import Verif.Model.RegressionSummary
import Verif.Lemmas.NormalTail
import Verif.Props.CLSummary
import Verif.Props.CCSummary
import Verif.Model.BaseReport
import Verif.Props.BaseReport
import Verif.Model.TestStars
import Verif.Props.TestStars
import Verif.Model.DistDerived
import Verif.Model.Dendrogram
import Verif.Props.DistDerived
import Verif.Props.HACHeights
import Verif.Props.ClusterSym
import Verif.Props.MixtureSym
import Verif.Spec.UniformLaw
import Verif.Lemmas.Gaps
import Verif.Props.RangeExact
import Verif.Props.CountLevel
import Verif.Lemmas.NoAtoms
import Verif.Props.DistFlatC
import Verif.Props.PlotB
import Verif.Props.NullMean
import Verif.Props.MixInit
import Verif.Props.WatsonMean
import Verif.Model.ClusterScore
import Verif.Props.MixScore
import Verif.Props.RaoMean
import Verif.Props.VMean
import Verif.Props.RangeMean
import Verif.Props.SeriesP
import Verif.Props.KdeArea
