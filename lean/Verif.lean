import Verif.Props.FloatGBMTrees
import Verif.Props.FloatMLPTrees
import Verif.Props.FloatRerun
import Verif.Spec.FloatRerun
import Verif.Props.FloatMLP
import Verif.Lemmas.FloatMLPRun
import Verif.Lemmas.FloatMLPEntropy
import Verif.Lemmas.FloatMLP
import Verif.Spec.FloatMLP
import Verif.Model.FloatMLP
import Verif.Props.FloatObjective
import Verif.Lemmas.FloatObjective
import Verif.Spec.FloatObjective
import Verif.Model.FloatObjective
import Verif.Props.FileFloatBoost
import Verif.Props.FloatCERLPTrees
import Verif.Lemmas.FloatProjectRep
import Verif.Model.FloatTreeEq
import Verif.Props.FloatCERLPCap
import Verif.Lemmas.FloatCERLPCapRun
import Verif.Lemmas.FloatCERLPCapRound
import Verif.Lemmas.FloatCERLPCap
import Verif.Props.FloatCERLP
import Verif.Lemmas.FloatCERLPStep
import Verif.Lemmas.FloatCERLPRun
import Verif.Lemmas.FloatCERLPRound
import Verif.Lemmas.FloatCERLP
import Verif.Spec.FloatCERLP
import Verif.Model.FloatCERLP
import Verif.Props.FloatLineSearch
import Verif.Props.FloatGBMFit
import Verif.Lemmas.FloatMedian
import Verif.Props.FloatGBMGrows
import Verif.Props.FloatGBM
import Verif.Lemmas.FloatGBMGrows
import Verif.Lemmas.FloatGBM
import Verif.Spec.FloatGBM
import Verif.Model.FloatGBM
import Verif.Props.GBMSquared
import Verif.Model.RegTreeBoost
import Verif.Props.FloatRegTree
import Verif.Lemmas.FloatRegTree
import Verif.Lemmas.FloatRegLeaf
import Verif.Spec.FloatRegTree
import Verif.Model.FloatRegTree
import Verif.Props.FloatMadaTrees
import Verif.Props.FloatMadaPanic
import Verif.Props.FloatMada
import Verif.Lemmas.FloatMadaRun
import Verif.Lemmas.FloatMadaLoop
import Verif.Lemmas.FloatMadaDist
import Verif.Lemmas.FloatMada
import Verif.Spec.FloatMada
import Verif.Model.FloatMada
import Verif.Props.FloatSmoothTrees
import Verif.Props.FloatSmooth
import Verif.Lemmas.FloatSmoothVote
import Verif.Lemmas.FloatSmoothRun
import Verif.Lemmas.FloatSmoothPot
import Verif.Lemmas.FloatSmoothBound
import Verif.Lemmas.FloatSmooth
import Verif.Spec.FloatSmooth
import Verif.Model.FloatSmooth
import Verif.Props.ERLPAccurate
import Verif.Props.SoftAccurate
import Verif.Lemmas.GammaAccurate
import Verif.Props.MLPAnySolver
import Verif.Props.MLPAccurate
import Verif.Lemmas.MLPAnySolver
import Verif.Props.LPAccurate
import Verif.Lemmas.Accurate
import Verif.Spec.Accurate
import Verif.Props.FloatVTrees
import Verif.Props.FloatAdaBoostV
import Verif.Lemmas.FloatAdaBoostVRun
import Verif.Lemmas.FloatAdaBoostV
import Verif.Spec.FloatAdaBoostV
import Verif.Model.FloatAdaBoostV
import Verif.Props.FloatGiniSep
import Verif.Props.FloatGini
import Verif.Lemmas.FloatGiniTree
import Verif.Lemmas.FloatGiniScan
import Verif.Lemmas.FloatGini
import Verif.Props.FileFloat
import Verif.Props.SetTarget
import Verif.Props.FloatGraphSep
import Verif.Lemmas.FloatGraphSep
import Verif.Model.FloatGraphSep
import Verif.Props.TreeCalibrated
import Verif.Props.TreeBoosters
import Verif.Props.FileBoosters
import Verif.Props.FloatEdge
import Verif.Lemmas.FloatStump
import Verif.Lemmas.FloatScan
import Verif.Lemmas.FloatMeans
import Verif.Lemmas.FloatLeaf
import Verif.Lemmas.FloatEdge
import Verif.Spec.FloatEdge
import Verif.Props.ResearchBoosters
import Verif.Props.Research
import Verif.Spec.Research
import Verif.Model.Research
import Verif.Props.TreesByName
import Verif.Props.Provenance
import Verif.Spec.Provenance
import Verif.Props.Frame
import Verif.Props.Display
import Verif.Spec.Frame
import Verif.Model.Frame
import Verif.Model.Display
import Verif.Props.OtherSample
import Verif.Spec.OtherSample
import Verif.Props.FileBoost
import Verif.Props.NeuralWrong
import Verif.Props.MLPBlended
import Verif.Props.FloatProjectEx
import Verif.Props.FloatProject
import Verif.Lemmas.FloatProjectSum
import Verif.Lemmas.FloatProjectRun
import Verif.Lemmas.FloatProject
import Verif.Lemmas.FloatMono
import Verif.Spec.Projection
import Verif.Model.FloatProject
import Verif.Props.ReturnsV
import Verif.Props.FloatTreeBoost
import Verif.Model.FloatTreeBoost
import Verif.Props.FloatTree
import Verif.Lemmas.FloatSum
import Verif.Lemmas.FloatSplit
import Verif.Lemmas.FloatPack
import Verif.Lemmas.FloatGrow
import Verif.Props.FloatCut
import Verif.Lemmas.FloatCut
import Verif.Model.FloatTree
import Verif.Props.Rounding
import Verif.Props.FloatSchedule
import Verif.Lemmas.RoundingVote
import Verif.Lemmas.RoundingRun
import Verif.Lemmas.RoundingBoost
import Verif.Lemmas.Rounding
import Verif.Lemmas.Float
import Verif.Spec.Float
import Verif.Model.Float
import Verif.Props.Schedule
import Verif.Lemmas.Rayon
import Verif.Lemmas.ParTreeFull
import Verif.Lemmas.ParTree
import Verif.Lemmas.ParMisc
import Verif.Lemmas.ParBoost
import Verif.Lemmas.HMapPerm
import Verif.Model.Rayon
import Verif.Model.ParTree
import Verif.Model.ParMisc
import Verif.Model.ParBoost
import Verif.Lemmas.MLPBoostAny
import Verif.Props.Strategies
import Verif.Props.ReturnsConic
import Verif.Props.Returns
import Verif.Props.Rerun
import Verif.Lemmas.FrankWolfeTotal
import Verif.Spec.Rerun
import Verif.Props.SampleStats
import Verif.Props.LearnerConfig
import Verif.Props.Compose
import Verif.Spec.LearnerConfig
import Verif.Model.LearnerConfig
import Verif.Props.Separable
import Verif.Props.Config
import Verif.Spec.Config
import Verif.Model.Config
import Verif.Props.TreePanic
import Verif.Props.LPBoostBound
import Verif.Props.TreeBoost
import Verif.Lemmas.TreeWeak
import Verif.Spec.TreeBoost
import Verif.Model.TreeBoost
import Verif.Props.ERLPMargin
import Verif.Props.Dummy
import Verif.Lemmas.ERLPStuck
import Verif.Lemmas.ERLPMargin
import Verif.Props.NaiveBayes
import Verif.Lemmas.NaiveBayes
import Verif.Spec.NaiveBayes
import Verif.Model.NaiveBayes
import Verif.Props.NeuralNetwork
import Verif.Lemmas.NNTrain
import Verif.Lemmas.NNGrad
import Verif.Lemmas.NNDescent
import Verif.Spec.NeuralNetwork
import Verif.Model.NeuralNetwork
import Verif.Props.BadLearner
import Verif.Props.BadLPBoost
import Verif.Spec.BadLearner
import Verif.Model.BadLearner
import Verif.Props.LoggerAdaBoost
import Verif.Props.Logger
import Verif.Spec.Logger
import Verif.Model.Logger
import Verif.Props.RegressionTree
import Verif.Lemmas.RegTree
import Verif.Lemmas.RegSplit
import Verif.Lemmas.RegPack
import Verif.Spec.RegTree
import Verif.Model.RegressionTree
import Verif.Props.DecisionTree
import Verif.Props.Bins
import Verif.Lemmas.Tree
import Verif.Lemmas.Criterion
import Verif.Lemmas.BestSplit
import Verif.Lemmas.Pack
import Verif.Lemmas.Bins
import Verif.Spec.Tree
import Verif.Model.DecisionTree
import Verif.Props.CrossValidation
import Verif.Lemmas.CrossValidation
import Verif.Props.Svmlight
import Verif.Props.Sample
import Verif.Props.Feature
import Verif.Lemmas.Svmlight
import Verif.Lemmas.Std
import Verif.Lemmas.Sample
import Verif.Lemmas.Feature
import Verif.Spec.Sample
import Verif.Model.Std
import Verif.Model.Sample
import Verif.Props.MLPBoost
import Verif.Lemmas.MLPBoost
import Verif.Props.SoftBoost
import Verif.Lemmas.SoftBoost
import Verif.Lemmas.Dist
import Verif.Props.ERLPBoost
import Verif.Lemmas.SmoothBoost
import Verif.Lemmas.Smooth
import Verif.Lemmas.Projection
import Verif.Lemmas.Minimax
import Verif.Lemmas.MadaBoost
import Verif.Lemmas.LPBoostOpt
import Verif.Lemmas.LPBoostExists
import Verif.Lemmas.LPBoost
import Verif.Lemmas.Hypothesis
import Verif.Lemmas.Hoeffding
import Verif.Lemmas.GraphSepBoost
import Verif.Lemmas.GammaExists
import Verif.Lemmas.Gamma
import Verif.Lemmas.FrankWolfe
import Verif.Lemmas.Entropy
import Verif.Lemmas.ERLPBoost
import Verif.Lemmas.ConicDual
import Verif.Lemmas.Conic
import Verif.Lemmas.CERLPBoost
import Verif.Lemmas.Basic
import Verif.Lemmas.AdaBoostV
import Verif.Lemmas.AdaBoostInv
import Verif.Lemmas.AdaBoostErr
import Verif.Lemmas.AdaBoost
import Verif.Spec.SoftMargin
import Verif.Spec.GraphSep
import Verif.Spec.Entropy
import Verif.Spec.Conic
import Verif.Spec.Basic
import Verif.Model.Utils
import Verif.Model.SoftBoost
import Verif.Model.SmoothBoost
import Verif.Model.Projection
import Verif.Model.Objective
import Verif.Model.MadaBoost
import Verif.Model.MLPBoost
import Verif.Model.Label
import Verif.Model.LPBoost
import Verif.Model.GraphSepBoost
import Verif.Model.GBM
import Verif.Model.FrankWolfe
import Verif.Model.ERLPBoost
import Verif.Model.Core
import Verif.Model.Conic
import Verif.Model.CERLPBoost
import Verif.Model.AdaBoostV
import Verif.Model.AdaBoost
import Verif.Props.Hypothesis
import Verif.Props.AdaBoost
import Verif.Props.AdaBoostV
import Verif.Props.MadaBoost
import Verif.Props.SmoothBoost
import Verif.Props.GraphSepBoost
import Verif.Props.Projection
import Verif.Props.Objective
import Verif.Props.GBM
import Verif.Props.GBMBoost
import Verif.Props.FrankWolfe
import Verif.Props.CERLPBoost
import Verif.Props.LPBoost
