import Verif.Base.AMap
import Verif.Base.Basic
import Verif.Base.BTree
import Verif.Model.Queue
import Verif.Model.QueueStore
import Verif.Spec.Queue
import Verif.Spec.QueueObs
import Verif.Proofs.QueueRefine
import Verif.Proofs.QueueStep
import Verif.Proofs.QueueSpec
import Verif.Proofs.QueueArrival
import Verif.Proofs.QueueStore
import Verif.Proofs.QueueView
import Verif.Proofs.QueueHist
import Verif.Props.Queue
import Verif.Proofs.QueueCrash
import Verif.Props.QueueStore
import Verif.Model.QueueManager
import Verif.Spec.QueueManager
import Verif.Proofs.QueueManager
import Verif.Props.QueueManager
import Verif.Model.QueueWait
import Verif.Proofs.QueueWait
import Verif.Props.QueueWait
import Verif.Model.Store
import Verif.Spec.Store
import Verif.Proofs.Store
import Verif.Props.Store
import Verif.Model.PubSub
import Verif.Spec.PubSub
import Verif.Proofs.PubSubTree
import Verif.Proofs.PubSub
import Verif.Proofs.PubSubHist
import Verif.Model.SdkPubSub
import Verif.Spec.SdkPubSub
import Verif.Proofs.SdkPubSub
import Verif.Props.PubSub
import Verif.Model.Wire
import Verif.Model.Command
import Verif.Model.Connection
import Verif.Spec.Wire
import Verif.Spec.Command
import Verif.Spec.Connection
import Verif.Proofs.Wire
import Verif.Proofs.Command
import Verif.Proofs.Connection
import Verif.Props.Wire
import Verif.Props.Session
import Verif.Props.Paths
import Verif.Model.StreamGroup
import Verif.Model.StreamLog
import Verif.Model.StreamDisk
import Verif.Model.StreamTopic
import Verif.Spec.StreamGroup
import Verif.Proofs.StreamGroup
import Verif.Proofs.StreamTopic
import Verif.Proofs.StreamView
import Verif.Proofs.StreamHist
import Verif.Proofs.StreamTrace
import Verif.Props.Stream
import Verif.Props.StreamGroups
import Verif.Spec.StreamDisk
import Verif.Proofs.StreamCodec
import Verif.Proofs.StreamFile
import Verif.Proofs.StreamRetain
import Verif.Proofs.StreamDurable
import Verif.Proofs.StreamCold
import Verif.Proofs.StreamLog
import Verif.Proofs.StreamStart
import Verif.Proofs.StreamPending
import Verif.Props.StreamFiles
import Verif.Proofs.StreamRead
import Verif.Props.StreamLog
import Verif.Proofs.StreamRestart
import Verif.Props.StreamRestart
import Verif.Proofs.StreamProgress
import Verif.Props.StreamProgress
import Verif.Model.StreamWait
import Verif.Proofs.StreamAny
import Verif.Proofs.StreamWait
import Verif.Props.StreamWait
import Verif.Proofs.StreamSaved
import Verif.Proofs.StreamKept
import Verif.Props.StreamSaved
import Verif.Model.SdkConnection
import Verif.Spec.SdkConnection
import Verif.Proofs.SdkConnection
import Verif.Props.SdkConnection
import Verif.Model.SdkQueue
import Verif.Spec.SdkQueue
import Verif.Proofs.SdkQueue
import Verif.Props.SdkQueue
import Verif.Model.SdkStream
import Verif.Spec.SdkStream
import Verif.Proofs.SdkStream
import Verif.Props.SdkStream
import Verif.Model.SdkSubs
import Verif.Spec.SdkSubs
import Verif.Proofs.SdkSubs
import Verif.Props.SdkSubs
import Verif.Model.PubSubRace
import Verif.Spec.PubSubRace
import Verif.Proofs.PubSubRace
import Verif.Props.PubSubRace
import Verif.Model.PubSubScan
import Verif.Spec.PubSubScan
import Verif.Proofs.PubSubScan
import Verif.Props.PubSubScan
import Verif.Spec.PubSubLeft
import Verif.Proofs.PubSubLeft
import Verif.Props.PubSubLeft
import Verif.Model.QueueWriter
import Verif.Spec.QueueWriter
import Verif.Proofs.QueueWriter
import Verif.Proofs.QueueFaults
import Verif.Props.QueueWriter
import Verif.Model.QueueLife
import Verif.Spec.QueueLife
import Verif.Proofs.QueueLife
import Verif.Props.QueueLife
import Verif.Model.StreamLife
import Verif.Spec.StreamLife
import Verif.Proofs.StreamLife
import Verif.Props.StreamLife
import Verif.Model.StreamFault
import Verif.Spec.StreamFault
import Verif.Proofs.StreamFault
import Verif.Proofs.StreamFlushFail
import Verif.Props.StreamFault
import Verif.Model.StoreScan
import Verif.Spec.StoreScan
import Verif.Proofs.StoreScan
import Verif.Props.StoreScan
import Verif.Model.QueueE2E
import Verif.Spec.QueueE2E
import Verif.Proofs.QueueE2E
import Verif.Props.QueueE2E
import Verif.Model.StreamE2E
import Verif.Spec.StreamE2E
import Verif.Proofs.StreamE2E
import Verif.Proofs.StreamE2E2
import Verif.Proofs.StreamE2E3
import Verif.Props.StreamE2E
import Verif.Model.Dashboard
import Verif.Props.Dashboard
import Verif.Model.PubSubE2E
import Verif.Spec.PubSubE2E
import Verif.Proofs.PubSubE2E
import Verif.Proofs.PubSubE2E2
import Verif.Props.PubSubE2E
import Verif.Model.Rpc
import Verif.Spec.Rpc
import Verif.Spec.StoreRpc
import Verif.Proofs.Rpc
import Verif.Proofs.Rpc2
import Verif.Proofs.Rpc3
import Verif.Proofs.Rpc4
import Verif.Proofs.Rpc5
import Verif.Proofs.Rpc6
import Verif.Proofs.Rpc7
import Verif.Proofs.StoreRpc
import Verif.Props.Rpc
import Verif.Props.StoreRpc
import Verif.Proofs.Rpc8
import Verif.Proofs.Rpc9
import Verif.Proofs.Rpc10
import Verif.Props.RpcLost
import Verif.Model.QueueWrap
import Verif.Props.QueueWrap
import Verif.Model.ConnBounded
import Verif.Spec.ConnBounded
import Verif.Proofs.ConnBounded
import Verif.Props.ConnBounded
import Verif.Model.QueueRpc
import Verif.Spec.QueueRpc
import Verif.Proofs.QueueFifo
import Verif.Proofs.QueueLives
import Verif.Proofs.QueueRpc
import Verif.Proofs.QueueRpc2
import Verif.Props.QueueRpc
import Verif.Model.StreamRpc
import Verif.Spec.StreamRpc
import Verif.Proofs.StreamRpc
import Verif.Proofs.StreamRpc2
import Verif.Proofs.StreamRpc3
import Verif.Proofs.StreamRpc4
import Verif.Proofs.StreamRpc5
import Verif.Proofs.StreamRpc6
import Verif.Props.StreamRpc
import Verif.Model.PubSubRpc
import Verif.Spec.PubSubRpc
import Verif.Proofs.PubSubRpc
import Verif.Proofs.PubSubRpc2
import Verif.Proofs.PubSubRpc3
import Verif.Proofs.PubSubRpc4
import Verif.Proofs.PubSubRpc5
import Verif.Proofs.PubSubRpc6
import Verif.Proofs.PubSubRpc7
import Verif.Proofs.PubSubRpc8
import Verif.Props.PubSubRpc
import Verif.Model.Engine
import Verif.Spec.Engine
import Verif.Props.Engine
import Verif.Spec.QueueShop
import Verif.Proofs.QueueShop
import Verif.Props.QueueShop
import Verif.Spec.StreamDesk
import Verif.Proofs.StreamDesk
import Verif.Proofs.StreamDesk2
import Verif.Proofs.StreamDesk3
import Verif.Proofs.StreamDesk4
import Verif.Proofs.StreamDesk5
import Verif.Proofs.StreamDesk6
import Verif.Props.StreamDesk
import Verif.Proofs.StreamUnlimited
import Verif.Spec.House
import Verif.Proofs.House
import Verif.Props.House
import Verif.Proofs.QueueEra
import Verif.Proofs.QueueStorm
import Verif.Props.QueueCrashRpc
import Verif.Model.Config
import Verif.Spec.Config
import Verif.Props.Config
import Verif.Model.StorePage
import Verif.Props.StorePage
import Verif.Model.StreamCrash
import Verif.Spec.StreamCrash
import Verif.Proofs.StreamStorm
import Verif.Proofs.StreamStorm2
import Verif.Proofs.StreamStorm3
import Verif.Proofs.StreamStorm4
import Verif.Props.StreamCrashRpc
import Verif.Props.Ids
import Verif.Props.StreamRefuse
import Verif.Spec.StreamSize
import Verif.Props.StreamSize
import Verif.Spec.Text
import Verif.Props.Text
import Verif.Spec.PubSubTerms
import Verif.Proofs.PubSubTerms
import Verif.Props.PubSubTerms
import Verif.Model.EngineCrash
import Verif.Spec.EngineCrash
import Verif.Props.EngineCrash
import Verif.Proofs.QueueOrder
import Verif.Props.QueueOrder
import Verif.Spec.QueueAgain
import Verif.Proofs.QueueOwed
import Verif.Props.QueueAgain
import Verif.Spec.StreamRetain
import Verif.Props.StreamRetain
import Verif.Props.PubSubClean
import Verif.Model.SdkExists
import Verif.Spec.Exists
import Verif.Props.Exists
import Verif.Model.SdkHandles
import Verif.Spec.SdkHandles
import Verif.Props.SdkHandles
import Verif.Model.DashboardUrl
import Verif.Spec.DashboardUrl
import Verif.Proofs.DashboardUrl
import Verif.Props.DashboardUrl
import Verif.Model.TopicDirs
import Verif.Spec.TopicDirs
import Verif.Proofs.TopicDirs
import Verif.Props.TopicDirs
import Verif.Props.PubSubAll
import Verif.Model.DashboardPages
import Verif.Spec.DashboardPages
import Verif.Proofs.DashboardPages
import Verif.Props.DashboardPages
import Verif.Model.DashboardValue
import Verif.Props.DashboardValue
import Verif.Spec.QueueTurns
import Verif.Proofs.QueueTurns
import Verif.Proofs.QueueTurns2
import Verif.Props.QueueTurns
import Verif.Model.DashboardWalk
import Verif.Proofs.DashboardWalk
import Verif.Props.DashboardWalk
import Verif.Spec.DashboardWalk
import Verif.Spec.DashboardMissed
import Verif.Proofs.DashboardMissed
import Verif.Props.PubSubConcrete
