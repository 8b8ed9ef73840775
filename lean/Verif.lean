import Verif.Params.Props
import Verif.Block.Props
import Verif.Stats.Props
import Verif.Loss.Props
import Verif.Loss.PropsScore
import Verif.Loss.PropsGauss
import Verif.Exec.Props
import Verif.Reg.Props
import Verif.Reg.PropsLoss
import Verif.Reg.PropsUses
import Verif.Reg.PropsFactor
import Verif.Opt.PropsDamping
import Verif.Opt.PropsPeriodic
import Verif.Opt.PropsUpdate
import Verif.Opt.PropsQmodel
import Verif.Opt.PropsReplica
import Verif.Opt.PropsConstruct
import Verif.Factor.PropsDense
import Verif.Factor.PropsSua
import Verif.Factor.PropsRnn
import Verif.Factor.PropsLag
import Verif.Reader.Props
import Verif.Match.Props
import Verif.Auto.Props
import Verif.Graph.Props
import Verif.Conv.Props
import Verif.Keras.PropsDecay
import Verif.Keras.PropsConfig
import Verif.Keras.PropsLayers
import Verif.Keras.PropsLossFn
import Verif.Grad.PropsDiag
import Verif.Grad.PropsScale
import Verif.Grad.PropsKfc
import Verif.Grad.PropsSample
import Verif.Grad.PropsSparse
import Verif.Grad.PropsNaive
import Verif.Block.PropsFull
import Verif.Block.PropsDepthwise
import Verif.Est.PropsModes
import Verif.Est.PropsTransform
import Verif.Factor.PropsMultiUse
import Verif.Grad.PropsFc
import Verif.Grad.PropsConvMulti
import Verif.Block.PropsSparse
import Verif.Exec.PropsAsync
import Verif.Est.PropsFirstOrder
import Verif.Match.Patterns
import Verif.Match.PatternLemmas
import Verif.Match.PropsPatterns
import Verif.Keras.RegLayer
import Verif.Keras.PropsRegLayer
import Verif.Keras.RegLoss
import Verif.Keras.PropsRegLoss
import Verif.Conv.Register
import Verif.Conv.PropsRegister
import Verif.Train.Model
import Verif.Train.Lemmas
import Verif.Train.PropsInvariance
import Verif.Train.Regression
import Verif.Train.PropsRegression
import Verif.Loss.Hessian
import Verif.Loss.PropsHessian
import Verif.Opt.Lists
import Verif.Opt.PropsLists
import Verif.Opt.PropsPairs
import Verif.Factor.Shared
import Verif.Factor.PropsShared
import Verif.Opt.PropsQuadratic
import Verif.Train.Fit
import Verif.Train.PropsFit
import Verif.Global.Model
import Verif.Global.PropsGlobal
import Verif.Train.Cluster
import Verif.Train.PropsCluster
import Verif.Keras.Saving
import Verif.Keras.PropsSaving
import Verif.Train.Periodic
import Verif.Train.PropsPeriodic
import Verif.Damping.Model
import Verif.Damping.PropsDamping
import Verif.Train.PropsDeep
import Verif.Loss.Register
import Verif.Loss.PropsRegister
import Verif.Auto.PropsShapes
import Verif.Train.Modes
import Verif.Train.PropsLinear
import Verif.Train.PropsSum
import Verif.Opt.PropsSmooth
import Verif.Shape.PropsX
import Verif.Shape.PropsNoticed
import Verif.Mix.Model
import Verif.Mix.Lemmas
import Verif.Mix.PropsMix
import Verif.Mix.PropsMomentum
import Verif.Grad.Extract
import Verif.Grad.ExtractLemmas
import Verif.Grad.PropsExtract
import Verif.Mix.PropsRate
import Verif.Mix.PropsStochastic
import Verif.Block.PropsSampling
import Verif.Stats.PropsConsistent
import Verif.Opt.PropsTrust
import Verif.Keras.Fit
import Verif.Keras.PropsFit
import Verif.Examples.Workers
import Verif.Examples.PropsWorkers
import Verif.Examples.Schedule
import Verif.Examples.PropsSchedule
import Verif.Examples.Loss
import Verif.Examples.PropsLoss
import Verif.Examples.Rnn
import Verif.Examples.PropsRnn
import Verif.Examples.Loops
import Verif.Examples.PropsLoops
import Verif.Examples.TrainOp
import Verif.Examples.PropsTrainOp
import Verif.Examples.Towers
import Verif.Examples.PropsTowers
import Verif.Opt.Report
import Verif.Opt.PropsReport
import Verif.Keras.PropsFixedMu
import Verif.Block.Support
import Verif.Block.PropsSupport
import Verif.Reg.Vars
import Verif.Reg.PropsVars
import Verif.Reg.Listing
import Verif.Reg.PropsListing
import Verif.Mix.PropsInterpolation
import Verif.Examples.Manual
import Verif.Examples.PropsManual
import Verif.Mix.PropsSchedule
import Verif.Mix.PropsDrawnMomentum
