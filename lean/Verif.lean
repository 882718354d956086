import Verif.Props.Tensor
import Verif.Props.NN
import Verif.Props.Graph
import Verif.Props.Serialization
import Verif.Props.DataLoader
import Verif.Props.Optimizer
import Verif.Props.Loss
import Verif.Props.Image
import Verif.Props.Print
import Verif.Props.Dense
import Verif.Props.Layout
import Verif.Props.BatchNorm
import Verif.Props.BatchNorm2d
import Verif.Props.Elementwise
import Verif.Props.Conv
import Verif.Props.MaxPool
import Verif.Props.Parallel
import Verif.Props.Contracts
import Verif.Props.ContractsNorm
import Verif.Props.ContractsImage
import Verif.Props.LayerSpec
import Verif.Lemmas.History
import Verif.Lemmas.Passes
import Verif.Lemmas.Typed
import Verif.Spec.Fits
import Verif.Props.Backend
import Verif.Lemmas.Complete
import Verif.Props.Complete
import Verif.Props.BackendRefute
import Verif.Props.SaveLoad
import Verif.Props.Rejected
import Verif.Props.Derivative
import Verif.Props.Applied
import Verif.Props.Train
import Verif.Lemmas.Chain
import Verif.Lemmas.Training
import Verif.Props.Training
import Verif.Props.Geometry
import Verif.Props.Descent
import Verif.Lemmas.OptModel
import Verif.Props.Loop
import Verif.Props.Reload
import Verif.Props.Batch
import Verif.Model.Validation
import Verif.Lemmas.Validation
import Verif.Props.Validation
import Verif.Lemmas.Again
import Verif.Model.Epochs
import Verif.Lemmas.Epochs
import Verif.Props.Epochs
import Verif.Spec.Running
import Verif.Lemmas.Running
import Verif.Props.Running
import Verif.Model.Samples
import Verif.Spec.Samples
import Verif.Lemmas.Samples
import Verif.Lemmas.SamplesImage
import Verif.Lemmas.SamplesPull
import Verif.Lemmas.SamplesLabel
import Verif.Props.Samples
import Verif.Model.SampleModels
import Verif.Spec.SampleModels
import Verif.Lemmas.SampleModels
import Verif.Lemmas.SampleNet
import Verif.Props.SampleModels
import Verif.Spec.Values
import Verif.Lemmas.Values
import Verif.Spec.SampleForward
import Verif.Lemmas.SampleForward
import Verif.Props.SampleForward
import Verif.Props.TestMode
import Verif.Lemmas.SampleSave
import Verif.Props.SampleSave
import Verif.Props.GradientDescent
import Verif.Props.SampleTrain
import Verif.Spec.Saved
import Verif.Props.EndToEnd
import Verif.Model.Floats
import Verif.Model.FloatTrain
import Verif.Model.FloatMean
import Verif.Lemmas.Binary32
import Verif.Props.FloatSoftmax
import Verif.Props.FloatLoss
import Verif.Props.FloatDot
import Verif.Spec.Int32
import Verif.Model.IntArith
import Verif.Lemmas.IntArith
import Verif.Props.IntArith
import Verif.Props.FloatGrad
import Verif.Props.FloatAccuracy
import Verif.Props.FloatTrain
import Verif.Props.FloatStep
import Verif.Model.FloatCount
import Verif.Props.FloatCount
import Verif.Model.FloatAct
import Verif.Props.FloatAct
import Verif.Model.FloatOptim
import Verif.Props.FloatMomentum
import Verif.Props.FloatAdam
import Verif.Lemmas.Logistic
import Verif.Lemmas.LogisticNoise
import Verif.Props.Converge
import Verif.Props.FloatAdamStep
import Verif.Model.FloatNet
import Verif.Props.FloatNorm
import Verif.Props.FloatNet
import Verif.Model.FloatImage
import Verif.Props.FloatImage
import Verif.Model.FloatBatchNorm
import Verif.Props.FloatBatchNorm
import Verif.Props.FloatBatchNormRun
import Verif.Model.FloatBack
import Verif.Props.FloatBackExact
import Verif.Props.FloatBack
import Verif.Props.FloatBackRun
import Verif.Props.FloatDeepStep
import Verif.Model.FloatImageBack
import Verif.Props.FloatImageExact
import Verif.Props.FloatImageBack
import Verif.Props.FloatImageBackRun
import Verif.Props.FloatImageStepRun
import Verif.Props.FloatBatchNormGrad
import Verif.Props.FloatImageRun
import Verif.Props.FloatConverge
import Verif.Props.FloatMean
import Verif.Props.FloatValidate
import Verif.Props.Bench
import Verif.Props.BenchTable
import Verif.Props.BenchRun
import Verif.Props.Exception
import Verif.Props.Progress
import Verif.Props.ImageRes
import Verif.Props.BenchArgs
import Verif.Props.BenchInfo
