import Verif.Lib.Fn
import Verif.Model.EventSlotStatus
import Verif.Proofs.EventSlotStatus
import Verif.Props.EventSlotStatus
import Verif.Model.EventCtrl
import Verif.Props.EventCtrl
import Verif.Props.EventCtrlSeq
import Verif.Props.Composite
import Verif.Props.SubCtrl
import Verif.Props.LogSet
import Verif.Props.LogRollback
import Verif.Props.PidMap
import Verif.Props.Ssm
import Verif.Props.Tracker
import Verif.Props.Small
import Verif.Props.Arith
import Verif.Props.TimedQueue
import Verif.Model.Client
import Verif.Model.ClientState
import Verif.Spec.Client
import Verif.Spec.ClientState
import Verif.Proofs.Client
import Verif.Proofs.ClientCalm
import Verif.Proofs.ClientTot
import Verif.Proofs.ClientMain
import Verif.Proofs.ClientState
import Verif.Props.Client
import Verif.Props.ClientState
import Verif.Model.UnixFrame
import Verif.Model.SizedSend
import Verif.Proofs.UnixFrame
import Verif.Proofs.LolaName
import Verif.Props.UnixFrame
import Verif.Model.GwSerial
import Verif.Model.GwFramer
import Verif.Spec.GwSerial
import Verif.Proofs.GwSerial
import Verif.Proofs.GwFramer
import Verif.Props.GwSerial
import Verif.Model.GwTransport
import Verif.Spec.GwTransport
import Verif.Proofs.GwTransport
import Verif.Props.GwTransport
import Verif.Model.GwApp
import Verif.Spec.GwApp
import Verif.Proofs.GwApp
import Verif.Props.GwApp
import Verif.Model.RegionTable
import Verif.Model.RegionVersions
import Verif.Model.Registry
import Verif.Spec.RegionTable
import Verif.Spec.RegionVersions
import Verif.Spec.Registry
import Verif.Proofs.RegionTable
import Verif.Proofs.RegionVersions
import Verif.Proofs.Registry
import Verif.Props.Regions
import Verif.Model.OffsetPtr
import Verif.Spec.OffsetPtr
import Verif.Proofs.OffsetPtr
import Verif.Props.OffsetPtr
import Verif.Model.ShmAlloc
import Verif.Spec.ShmAlloc
import Verif.Proofs.ShmAlloc
import Verif.Props.ShmAlloc
import Verif.Model.CallQueue
import Verif.Spec.CallQueue
import Verif.Proofs.CallQueue
import Verif.Props.CallQueue
import Verif.Model.MethodRes
import Verif.Spec.MethodRes
import Verif.Proofs.MethodRes
import Verif.Props.MethodRes
import Verif.Model.MethodSub
import Verif.Spec.MethodSub
import Verif.Proofs.MethodSub
import Verif.Props.MethodSub
import Verif.Model.NotifyFlag
import Verif.Spec.NotifyFlag
import Verif.Proofs.NotifyFlag
import Verif.Props.NotifyFlag
import Verif.Model.NotifyNodes
import Verif.Proofs.NotifyNodes
import Verif.Props.NotifyNodes
import Verif.Model.EventNotif
import Verif.Spec.EventNotif
import Verif.Proofs.EventNotif
import Verif.Proofs.RemoteReg
import Verif.Props.EventNotif
import Verif.Model.MethodReply
import Verif.Spec.MethodReply
import Verif.Proofs.MethodReply
import Verif.Props.MethodReply
import Verif.Model.Discovery
import Verif.Spec.Discovery
import Verif.Proofs.DiscoveryFs
import Verif.Proofs.DiscoveryCrawl
import Verif.Proofs.DiscoveryTables
import Verif.Proofs.DiscoveryDrop
import Verif.Proofs.DiscoveryContent
import Verif.Proofs.DiscoveryEvents
import Verif.Proofs.DiscoveryRun
import Verif.Proofs.DiscoveryStart
import Verif.Proofs.DiscoveryLog
import Verif.Props.Discovery
import Verif.Proofs.MethodServe
import Verif.Model.ProxyCalls
import Verif.Spec.ProxyCalls
import Verif.Proofs.ProxyCalls
import Verif.Props.ProxyCalls
import Verif.Model.Offer
import Verif.Spec.Offer
import Verif.Proofs.Offer
import Verif.Proofs.OfferOrderly
import Verif.Proofs.OfferAlone
import Verif.Props.Offer
import Verif.Props.Marker
import Verif.Props.ShmLife
import Verif.Props.Sizing
import Verif.Props.SkelOffer
import Verif.Props.Stamp
import Verif.Props.Paths
import Verif.Props.TraceSlots
import Verif.Props.TracePlan
import Verif.Props.TraceCall
import Verif.Props.ClientCache
import Verif.Props.ArgStore
import Verif.Props.UnixServer
import Verif.Props.Ident
import Verif.Props.Config
import Verif.Props.ConfigParse
import Verif.Props.Access
import Verif.Props.AllocPtr
import Verif.Props.Moving
import Verif.Props.Layout
import Verif.Props.SamplePtr
import Verif.Props.TraceFilter
import Verif.Props.TraceReg
import Verif.Props.QnxConn
import Verif.Props.QnxPoll
import Verif.Props.FieldRace
import Verif.Props.QnxServer
import Verif.Props.ShmFactory
import Verif.Props.UnixWrite
import Verif.Props.EngineClean
import Verif.Props.RustReceive
import Verif.Props.RustFind
import Verif.Props.RuntimeInit
import Verif.Props.FindCalls
import Verif.Props.GwConfig
import Verif.Props.EngineThread
import Verif.Props.RustSub
