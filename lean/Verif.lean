import Verif.Access
import Verif.AccessProps
import Verif.Bytes
import Verif.CacheCtx
import Verif.CacheCtxProps
import Verif.CandidateProps
import Verif.ChangeIter
import Verif.ChangeIterProps
import Verif.ChangeNotify
import Verif.ChangeNotifyLemmas
import Verif.ChangeNotifyProps
import Verif.ConfNotif
import Verif.ConfNotifProps
import Verif.ConnAlive
import Verif.ConnAliveLemmas
import Verif.ConnAliveProps
import Verif.CtxLock
import Verif.CtxLockLemmas
import Verif.CtxLockProps
import Verif.DbPath
import Verif.DbPathLemmas
import Verif.DbPathLemmas2
import Verif.DbPathLemmas3
import Verif.DbPathLemmas4
import Verif.DbPathProps
import Verif.DbUo
import Verif.DbUoLemmas
import Verif.DbUoLemmas2
import Verif.DbUoLemmas3
import Verif.DbUoLemmas4
import Verif.DbUoLemmas5
import Verif.DbUoProps
import Verif.Deps
import Verif.DepsLemmas
import Verif.DepsLemmas2
import Verif.DepsLemmas3
import Verif.DepsLemmas4
import Verif.DepsProps
import Verif.DsLock
import Verif.DsLockProps
import Verif.Edit
import Verif.EditAdd
import Verif.EditAddApplyLemmas
import Verif.EditAddInvLemmas
import Verif.EditAddLemmas
import Verif.EditAddLoopLemmas
import Verif.EditAddNewLemmas
import Verif.EditAddOldLemmas
import Verif.EditAddOneLemmas
import Verif.EditAddProps
import Verif.EditAddSeqLemmas
import Verif.EditAddStepLemmas
import Verif.EditDiff
import Verif.EditExact
import Verif.EditMerge
import Verif.EditMergeProps
import Verif.EditProps
import Verif.EditRefuse
import Verif.EnSub
import Verif.EnSubProps
import Verif.Enabled
import Verif.EnabledLemmas
import Verif.EnabledLemmas2
import Verif.EnabledLemmas3
import Verif.EnabledProps
import Verif.ErrInfo
import Verif.ErrInfoProps
import Verif.EvData
import Verif.EvDataProps
import Verif.ExtShm
import Verif.ExtShmLemmas
import Verif.ExtShmLemmas2
import Verif.ExtShmLemmas3
import Verif.ExtShmLemmas4
import Verif.ExtShmLemmas5
import Verif.ExtShmProps
import Verif.FactoryReset
import Verif.FactoryResetProps
import Verif.FutexCond
import Verif.FutexCondProps
import Verif.GetData
import Verif.GetDataLemmas
import Verif.GetDataProps
import Verif.Handler
import Verif.HandlerProps
import Verif.JsonStore
import Verif.JsonStoreProps
import Verif.Listener
import Verif.ListenerAbort
import Verif.ListenerCount
import Verif.ListenerLemmas
import Verif.ListenerProps
import Verif.LockOrder
import Verif.LockOrderProps
import Verif.ModOps
import Verif.ModOpsLemmas
import Verif.ModOpsLemmas2
import Verif.ModOpsLemmas3
import Verif.ModOpsLemmas4
import Verif.ModOpsProps
import Verif.ModShm
import Verif.ModShmProps
import Verif.ModXpath
import Verif.ModXpathProps
import Verif.Nacm
import Verif.NacmConf
import Verif.NacmConfProps
import Verif.NacmGroup
import Verif.NacmGroupProps
import Verif.NacmLemmas
import Verif.NacmPath
import Verif.NacmPathProps
import Verif.NacmProps
import Verif.Names
import Verif.NamesProps
import Verif.NetconfErr
import Verif.NetconfErrProps
import Verif.NextMod
import Verif.NextModProps
import Verif.NotifBuf
import Verif.NotifBufProps
import Verif.NotifEv
import Verif.NotifEvLemmas
import Verif.NotifEvProps
import Verif.NotifMod
import Verif.NotifModProps
import Verif.NtfJson
import Verif.NtfJsonLemmas
import Verif.NtfJsonProps
import Verif.NtfRec
import Verif.NtfRecProps
import Verif.OperAsk
import Verif.OperAskProps
import Verif.OperData
import Verif.OperDataProps
import Verif.OperFilter
import Verif.OperFilterLemmas
import Verif.OperFilterProps
import Verif.OperPoll
import Verif.OperPollLemmas
import Verif.OperPollProps
import Verif.OperPush
import Verif.OperPushProps
import Verif.OperSess
import Verif.OperSessLemmas
import Verif.OperSessProps
import Verif.OperTrim
import Verif.OperTrimProps
import Verif.Pipeline
import Verif.PipelineLemmas
import Verif.PipelineMods
import Verif.PipelineOut
import Verif.PipelinePath
import Verif.PipelineProps
import Verif.Plugind
import Verif.PlugindProps
import Verif.RWLock
import Verif.RWLockProps
import Verif.Replay
import Verif.ReplayProps
import Verif.ReplaySupp
import Verif.ReplaySuppProps
import Verif.Rotation
import Verif.RotationProps
import Verif.Rpc
import Verif.RpcLemmas
import Verif.RpcProps
import Verif.RunCache
import Verif.RunCacheLemmas
import Verif.RunCacheProps
import Verif.SnDispatch
import Verif.SnDispatchLemmas
import Verif.SnDispatchProps
import Verif.SnPipe
import Verif.SnPipeProps
import Verif.SnStream
import Verif.SnStreamProps
import Verif.SnTimer
import Verif.SnTimerProps
import Verif.Startup
import Verif.StartupLemmas
import Verif.StartupProps
import Verif.StopTime
import Verif.StopTimeProps
import Verif.SubCtx
import Verif.SubCtxLemmas
import Verif.SubCtxLemmas2
import Verif.SubCtxLemmas3
import Verif.SubCtxLemmas4
import Verif.SubCtxProps
import Verif.SubFilter
import Verif.SubFilterLemmas
import Verif.SubFilterLemmas2
import Verif.SubFilterProps
import Verif.SubTables
import Verif.SubTablesLemmas
import Verif.SubTablesProps
import Verif.Suspend
import Verif.SuspendProps
import Verif.Time
import Verif.TimeProps
import Verif.UserOrd
import Verif.UserOrdProps
import Verif.ValUtil
import Verif.ValUtilProps
import Verif.Values
import Verif.ValuesLemmas
import Verif.ValuesProps
import Verif.Writev
import Verif.WritevProps
import Verif.XPathIterProps
import Verif.XPathTrim
import Verif.XPathTrimProps
import Verif.XPathUtil
import Verif.XPathUtilProps
import Verif.YpChange
import Verif.YpChangeLemmas
import Verif.YpChangeProps
