import Verif.Props.BitTools
import Verif.Props.CircularBuffer
import Verif.Props.Crc
import Verif.Props.Time
import Verif.Props.Ubx
import Verif.Props.Satellite
import Verif.Props.Utils
import Verif.Props.Logging
import Verif.Props.Gps
import Verif.Props.Galileo
import Verif.Props.Glonass
import Verif.Props.Estimator
import Verif.Props.Lambda
import Verif.Props.QuatLog
import Verif.Props.DQuat
import Verif.Props.So3
import Verif.Props.LieConv
import Verif.Props.So3Log
import Verif.Props.LieJac
import Verif.Props.Se3Jac
import Verif.Props.DQuatTaylor
import Verif.Props.Ekf
import Verif.Props.EkfModels
import Verif.Props.Imu
import Verif.Props.LogDeriv
import Verif.Props.ImuJac
import Verif.Props.ImuRun
import Verif.Props.ImuCov
import Verif.Props.ImuBias
import Verif.Model.Factor
import Verif.Props.Factor
import Verif.Props.PoseError
import Verif.Model.Orbit
import Verif.Props.Rk4
import Verif.Props.Kepler
import Verif.Props.OrbitVel
import Verif.Props.GlonassOrbit
import Verif.Props.LightTime
import Verif.Model.Sim
import Verif.Props.Sim
import Verif.Model.Wgs84
import Verif.Props.Wgs84
import Verif.Props.Ned
import Verif.Props.Atm
import Verif.Model.Symb
import Verif.Spec.Symb
import Verif.Lemmas.Symb
import Verif.Props.Symb
import Verif.Props.SymbDense
import Verif.Props.SymbReduce
import Verif.Props.SymbGuard
import Verif.Props.SymbFail
import Verif.Model.EkfGen
import Verif.Spec.EkfGen
import Verif.Props.EkfGen
import Verif.Props.EkfGenProp
import Verif.Props.EkfGenFull
import Verif.Props.EkfGenFail
import Verif.Lemmas.SymbEq
import Verif.Lemmas.SymbTerms
import Verif.Props.EkfGenForm
import Verif.Props.EkfGenRed
import Verif.Props.EkfGenRedA
import Verif.Props.EkfGenPout
import Verif.Props.EkfGenRedP
import Verif.Props.EkfGenRedM
import Verif.Props.EkfGenAll
import Verif.Props.EkfGenMeas
import Verif.Props.EkfGenOk
import Verif.Spec.EkfPsd
import Verif.Props.EkfPsd
import Verif.Model.LogFormat
import Verif.Spec.LogFormat
import Verif.Lemmas.LogFormat
import Verif.Props.LogFormat
import Verif.Model.EkfDense
import Verif.Spec.EkfDense
import Verif.Lemmas.EkfDense
import Verif.Props.EkfDense
import Verif.Lemmas.TrigSeries
import Verif.Props.LieSeries
import Verif.Props.LieRound
import Verif.Model.Config
import Verif.Spec.Config
import Verif.Props.Config
import Verif.Model.PostProcess
import Verif.Spec.PostProcess
import Verif.Props.PostProcess
import Verif.Model.PostInit
import Verif.Props.PostInit
import Verif.Model.EkfState
import Verif.Spec.EkfState
import Verif.Props.EkfState
import Verif.Model.QuatMem
import Verif.Spec.QuatMem
import Verif.Props.QuatMem
import Verif.Model.Gather
import Verif.Spec.Gather
import Verif.Props.Gather
import Verif.Model.LogWriter
import Verif.Model.LogOpen
import Verif.Spec.LogWriter
import Verif.Spec.LogOpen
import Verif.Props.LogWriter
import Verif.Props.LogOpen
import Verif.Model.SimRun
import Verif.Spec.SimRun
import Verif.Props.SimRun
import Verif.Model.NumJac
import Verif.Spec.NumJac
import Verif.Props.NumJac
import Verif.Model.Messages
import Verif.Spec.Messages
import Verif.Props.Messages
import Verif.Model.Progress
import Verif.Props.Progress
import Verif.Model.Streams
import Verif.Props.Streams
import Verif.Model.ImuState
import Verif.Props.ImuState
import Verif.Props.Rest
import Verif.Spec.Calendar
import Verif.Model.Calendar
import Verif.Props.Calendar
import Verif.Model.Rtklib
import Verif.Props.Rtklib
import Verif.Model.RtkGal
import Verif.Props.RtkGal
import Verif.Model.Copies
import Verif.Props.Copies
import Verif.Model.Sdr
import Verif.Props.SdrTime
import Verif.Props.SdrOrbit
import Verif.Props.Sdr
import Verif.Model.Errors
import Verif.Props.Errors
import Verif.Model.Json
import Verif.Spec.Json
import Verif.Lemmas.Json
import Verif.Props.Json
import Verif.Spec.JsonText
import Verif.Props.JsonText
import Verif.Model.Args
import Verif.Props.Args
import Verif.Model.CrcLib
import Verif.Spec.CrcLib
import Verif.Lemmas.CrcLib
import Verif.Props.CrcLib
import Verif.Model.Evaluate
import Verif.Spec.Evaluate
import Verif.Lemmas.Evaluate
import Verif.Props.Evaluate
import Verif.Model.Graph
import Verif.Spec.Graph
import Verif.Props.Graph
import Verif.Props.GraphWindow
import Verif.Model.TestHelpers
import Verif.Spec.TestHelpers
import Verif.Props.TestHelpers
import Verif.Model.Plot
import Verif.Spec.Plot
import Verif.Props.Plot
import Verif.Props.PlotObs
import Verif.Model.TestRunner
import Verif.Spec.TestRunner
import Verif.Props.TestRunner
import Verif.Spec.Binary64
import Verif.Model.FloatTime
import Verif.Lemmas.Binary64
import Verif.Props.FloatTime
import Verif.Props.FloatCompare
import Verif.Model.Scale
import Verif.Spec.Scale
import Verif.Lemmas.Scale
import Verif.Props.Scale
import Verif.Model.FloatLambda
import Verif.Lemmas.FloatLambda
import Verif.Props.FloatLambda
import Verif.Props.FloatSearch
import Verif.Props.FloatSim
import Verif.Spec.RealRounding
import Verif.Lemmas.RealRounding
import Verif.Model.FloatLoops
import Verif.Props.FloatLoops
import Verif.Model.FloatQuat
import Verif.Props.FloatQuat
import Verif.Props.FloatExp
import Verif.Props.FloatExpAcc
import Verif.Model.GenNames
import Verif.Spec.GenNames
import Verif.Props.GenNames
import Verif.Spec.Gate
import Verif.Model.Gate
import Verif.Props.Gate
import Verif.Props.LightTimeSwitch
import Verif.Model.QuatInPlace
import Verif.Props.QuatInPlace
import Verif.Model.Jet
import Verif.Props.Jet
import Verif.Props.QuatShort
import Verif.Props.RtklibAccuracy
