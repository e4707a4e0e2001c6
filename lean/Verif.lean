import Verif.Lemmas.Aggregate
import Verif.Lemmas.Atomic
import Verif.Lemmas.AutoClose
import Verif.Lemmas.Calls
import Verif.Lemmas.Client
import Verif.Lemmas.ClientForward
import Verif.Lemmas.ClientObserve
import Verif.Lemmas.EndToEnd
import Verif.Lemmas.Executor
import Verif.Lemmas.ExecutorHist
import Verif.Lemmas.ExecutorWill
import Verif.Lemmas.Handle
import Verif.Lemmas.Hist
import Verif.Lemmas.Invocation
import Verif.Lemmas.Monitor
import Verif.Lemmas.MonitorAll
import Verif.Lemmas.MsgConnection
import Verif.Lemmas.MsgConnectionRun
import Verif.Lemmas.NamedPipe
import Verif.Lemmas.NamedPipeLog
import Verif.Lemmas.NamedPipeRun
import Verif.Lemmas.Network
import Verif.Lemmas.NetworkEnds
import Verif.Lemmas.NetworkInv
import Verif.Lemmas.NetworkLocks
import Verif.Lemmas.NetworkMoves
import Verif.Lemmas.NetworkProgress
import Verif.Lemmas.NetworkStep
import Verif.Lemmas.News
import Verif.Lemmas.Observable
import Verif.Lemmas.Processor
import Verif.Lemmas.ProcessorDispatch
import Verif.Lemmas.ProcessorEmission
import Verif.Lemmas.ProcessorHistory
import Verif.Lemmas.ProcessorLocks
import Verif.Lemmas.ProcessorMap
import Verif.Lemmas.ProcessorProgress
import Verif.Lemmas.ProcessorQueue
import Verif.Lemmas.ProcessorSignals
import Verif.Lemmas.Provider
import Verif.Lemmas.ProviderHist
import Verif.Lemmas.ProviderLocal
import Verif.Lemmas.Queue
import Verif.Lemmas.Receiver
import Verif.Lemmas.ReceiverProgress
import Verif.Lemmas.Release
import Verif.Lemmas.ReleaseLock
import Verif.Lemmas.Requester
import Verif.Lemmas.RequesterData
import Verif.Lemmas.RequesterHold
import Verif.Lemmas.RequesterLocal
import Verif.Lemmas.Router
import Verif.Lemmas.RouterHistory
import Verif.Lemmas.Section
import Verif.Lemmas.SendToAll
import Verif.Lemmas.SendToAllInv
import Verif.Lemmas.SendToAllSigs
import Verif.Lemmas.SendToAllTasks
import Verif.Lemmas.Serialize
import Verif.Lemmas.SerializeSafe
import Verif.Lemmas.Server
import Verif.Lemmas.ServerNotify
import Verif.Lemmas.Signal
import Verif.Lemmas.SignalThrow
import Verif.Lemmas.SignalTimer
import Verif.Lemmas.SingleSlot
import Verif.Lemmas.StatusCallback
import Verif.Lemmas.StatusPost
import Verif.Lemmas.StringBuf
import Verif.Lemmas.SyncTimer
import Verif.Lemmas.ThisProcessor
import Verif.Lemmas.ThreadPool
import Verif.Lemmas.Timer
import Verif.Lemmas.TimerCallback
import Verif.Lemmas.TimerCallbackInv
import Verif.Lemmas.TimerLive
import Verif.Lemmas.TimerThreads
import Verif.Lemmas.Upcoming
import Verif.Lemmas.Waitable
import Verif.Model.Address
import Verif.Model.Aggregate
import Verif.Model.Async
import Verif.Model.Atomic
import Verif.Model.AutoClose
import Verif.Model.Calls
import Verif.Model.Client
import Verif.Model.Closure
import Verif.Model.Compound
import Verif.Model.Dumper
import Verif.Model.EndToEnd
import Verif.Model.Endpoint
import Verif.Model.EnumText
import Verif.Model.ErrorObj
import Verif.Model.Executor
import Verif.Model.Factory
import Verif.Model.Framing
import Verif.Model.GeneratedObject
import Verif.Model.Guards
import Verif.Model.Handle
import Verif.Model.IDManager
import Verif.Model.IPCMessage
import Verif.Model.Invocation
import Verif.Model.JsonLoad
import Verif.Model.Logger
import Verif.Model.Monitor
import Verif.Model.MsgConnection
import Verif.Model.MsgThrow
import Verif.Model.NamedPipe
import Verif.Model.Network
import Verif.Model.News
import Verif.Model.ObsThrow
import Verif.Model.Observable
import Verif.Model.OperationId
import Verif.Model.Processor
import Verif.Model.ProcessorChain
import Verif.Model.Provider
import Verif.Model.Queue
import Verif.Model.Receiver
import Verif.Model.Reentry
import Verif.Model.Release
import Verif.Model.Requester
import Verif.Model.Router
import Verif.Model.Runnable
import Verif.Model.SendToAll
import Verif.Model.Serialize
import Verif.Model.Server
import Verif.Model.Shared
import Verif.Model.Signal
import Verif.Model.SignalThrow
import Verif.Model.SignalTimer
import Verif.Model.SingleSlot
import Verif.Model.SingleThrow
import Verif.Model.StatusCallback
import Verif.Model.StatusPost
import Verif.Model.StatusSignal
import Verif.Model.Stream
import Verif.Model.StreamObj
import Verif.Model.StringBuf
import Verif.Model.SyncTimer
import Verif.Model.ThisProcessor
import Verif.Model.ThreadPool
import Verif.Model.Timer
import Verif.Model.TimerCallback
import Verif.Model.TimerThreads
import Verif.Model.TimerThrow
import Verif.Model.Typed
import Verif.Model.Upcoming
import Verif.Model.Waitable
import Verif.Model.WireCodes
import Verif.Props.Address
import Verif.Props.Aggregate
import Verif.Props.Async
import Verif.Props.AsyncCalls
import Verif.Props.Atomic
import Verif.Props.AutoClose
import Verif.Props.Client
import Verif.Props.ClientRequester
import Verif.Props.ClientStatus
import Verif.Props.Closure
import Verif.Props.Compound
import Verif.Props.Dumper
import Verif.Props.EndToEnd
import Verif.Props.Endpoint
import Verif.Props.EnumText
import Verif.Props.ErrorObj
import Verif.Props.Executor
import Verif.Props.Factory
import Verif.Props.Framing
import Verif.Props.GeneratedObject
import Verif.Props.Guards
import Verif.Props.Handle
import Verif.Props.IDManager
import Verif.Props.IPC
import Verif.Props.Invocation
import Verif.Props.JsonLoad
import Verif.Props.Logger
import Verif.Props.Monitor
import Verif.Props.MsgConnection
import Verif.Props.MsgThrow
import Verif.Props.NamedPipe
import Verif.Props.Network
import Verif.Props.NetworkEnds
import Verif.Props.News
import Verif.Props.ObsThrow
import Verif.Props.Observable
import Verif.Props.OperationId
import Verif.Props.PoolSubmit
import Verif.Props.Processor
import Verif.Props.ProcessorChain
import Verif.Props.ProcessorProgress
import Verif.Props.Provider
import Verif.Props.ProviderAbort
import Verif.Props.ProviderAborts
import Verif.Props.ProviderListen
import Verif.Props.ProviderStatus
import Verif.Props.Queue
import Verif.Props.Receiver
import Verif.Props.Reentry
import Verif.Props.Release
import Verif.Props.Requester
import Verif.Props.Router
import Verif.Props.Runnable
import Verif.Props.SendToAll
import Verif.Props.Serialize
import Verif.Props.SerializeFailed
import Verif.Props.Server
import Verif.Props.ServerCalls
import Verif.Props.ServerOrder
import Verif.Props.ServerProvider
import Verif.Props.ServerStatus
import Verif.Props.Shared
import Verif.Props.Signal
import Verif.Props.SignalThrow
import Verif.Props.SignalTimer
import Verif.Props.SingleSlot
import Verif.Props.SingleThrow
import Verif.Props.StatusCallback
import Verif.Props.StatusPost
import Verif.Props.StatusSignal
import Verif.Props.StreamObj
import Verif.Props.StringBuf
import Verif.Props.StringBufSpec
import Verif.Props.SyncTimer
import Verif.Props.ThisProcessor
import Verif.Props.ThreadPool
import Verif.Props.Timer
import Verif.Props.TimerCallback
import Verif.Props.TimerThreads
import Verif.Props.TimerThrow
import Verif.Props.Typed
import Verif.Props.Upcoming
import Verif.Props.Waitable
import Verif.Props.WireCodes
import Verif.Spec.Address
import Verif.Spec.AutoClose
import Verif.Spec.Client
import Verif.Spec.Handle
import Verif.Spec.Invocation
import Verif.Spec.MsgThrow
import Verif.Spec.Network
import Verif.Spec.NetworkEnds
import Verif.Spec.ObsThrow
import Verif.Spec.Processor
import Verif.Spec.Provider
import Verif.Spec.Release
import Verif.Spec.Requester
import Verif.Spec.Router
import Verif.Spec.SendToAll
import Verif.Spec.Serialize
import Verif.Spec.Server
import Verif.Spec.Signal
import Verif.Spec.SignalThrow
import Verif.Spec.SignalTimer
import Verif.Spec.SingleSlot
import Verif.Spec.SingleThrow
import Verif.Spec.StatusPost
import Verif.Spec.ThisProcessor
import Verif.Spec.Timer
import Verif.Spec.TimerThreads
import Verif.Spec.TimerThrow
