import Verif.Buffer.Props
import Verif.Session.Props
import Verif.Startup.RuntimeProps
import Verif.Startup.ConfigProps
import Verif.Startup.KillProps
import Verif.Time.Props
import Verif.Flags.Props
import Verif.Upload.RetryProps
import Verif.App.Props
import Verif.Match.FilterProps
import Verif.Queue.Props
import Verif.Upload.BatchProps
import Verif.Upload.ContinuousProps
import Verif.Upload.TriggerProps
import Verif.Grpc.Props
import Verif.Grpc.Ends
import Verif.Grpc.EndsProps
import Verif.Grpc.Resync
import Verif.Api.StreamProps
import Verif.Net.Offline
import Verif.Net.OfflineProps
import Verif.Net.Props
import Verif.Log.MetaProps
import Verif.Mgr.Props
import Verif.Mgr.Uploader
import Verif.Mgr.UploaderProps
import Verif.Log.PipeProps
import Verif.Buffer.NVProps
import Verif.Buffer.Counters
import Verif.Buffer.CountersProps
import Verif.Buffer.Wait
import Verif.Buffer.WaitProps
import Verif.Buffer.LockProps
import Verif.Buffer.NVCorruptProps
import Verif.Buffer.NVCrashProps
import Verif.Buffer.Open
import Verif.Buffer.OpenProps
import Verif.Buffer.Crc32
import Verif.Buffer.Crc32Props
import Verif.Buffer.Drain
import Verif.Buffer.Aggregate
import Verif.Buffer.AggLemmas
import Verif.Buffer.AggInv
import Verif.Buffer.AggLedger
import Verif.Buffer.AggAlive
import Verif.Buffer.AggregateProps
import Verif.Stats.Store
import Verif.Stats.Task
import Verif.Stats.StoreProps
import Verif.Stats.Balance
import Verif.Stats.Bytes
import Verif.Stats.BytesProps
import Verif.Stats.Live
import Verif.Stats.Loss
import Verif.Stats.Same
import Verif.Stats.CollProps
import Verif.Stats.Props
import Verif.Stats.Progress
import Verif.Workflow.Config
import Verif.Workflow.Engine
import Verif.Workflow.EmitProps
import Verif.Workflow.EngineLemmas
import Verif.Workflow.ExclusiveProps
import Verif.Workflow.Flush
import Verif.Workflow.LimitProps
import Verif.Workflow.PendingProps
import Verif.Workflow.Run
import Verif.Workflow.RunLemmas
import Verif.Workflow.RunProps
import Verif.Workflow.SessionProps
import Verif.Workflow.StopProps
import Verif.Workflow.StreamProps
import Verif.Workflow.WfLemmas
import Verif.Workflow.SankeyProps
import Verif.Workflow.Intents
import Verif.Workflow.Negotiate
import Verif.Workflow.RestoreLemmas
import Verif.Workflow.RestoreProps
import Verif.Workflow.StoreProps
import Verif.Pgv.Model
import Verif.Pgv.Props
import Verif.Grpc.Call
import Verif.Grpc.CallProps
import Verif.Grpc.StreamProps
import Verif.Tasks.Model
import Verif.Tasks.Props
import Verif.Tasks.Progress
import Verif.Tasks.Again
import Verif.Tasks.Cycles
import Verif.Tasks.Shutdown
import Verif.Tasks.ShutdownInv
import Verif.Tasks.ShutdownProps
import Verif.Tasks.ShutdownMain
import Verif.Tasks.Reentry
import Verif.Tasks.ReentryProps
import Verif.Tasks.Switch
import Verif.Tasks.SwitchProps
import Verif.Conf.Model
import Verif.Conf.Props
import Verif.Api.Reconnect
import Verif.Api.ReconnectProps
import Verif.Api.Hyper
import Verif.Api.HyperProps
import Verif.Store.Model
import Verif.Store.Props
import Verif.Store.Device
import Verif.Errors.Model
import Verif.Errors.Props
import Verif.Proto.Hash
import Verif.Proto.HashProps
import Verif.Flow.Consent
import Verif.Flow.ConsentProps
import Verif.Flow.Model
import Verif.Flow.Props
import Verif.Flow.Progress
import Verif.Flow.Trigger
import Verif.Flow.TriggerProps
import Verif.Workflow.Meter
import Verif.Workflow.MeterProps
import Verif.Workflow.Snapshot
import Verif.Workflow.SnapshotProps
import Verif.Workflow.Writers
import Verif.Workflow.Staleness
import Verif.Workflow.StalenessProps
import Verif.Workflow.WritersProps
import Verif.Flow.Ring
import Verif.Flow.RingProps
import Verif.Buffer.Intrusive
import Verif.Buffer.IntrusiveProps
import Verif.Report.Listener
import Verif.Report.ListenerProps
import Verif.Report.Periodic
import Verif.Report.PeriodicProps
import Verif.Report.Internal
import Verif.Report.InternalProps
import Verif.Report.FileLoad
import Verif.Report.FileLoadProps
import Verif.Server.Labels
import Verif.Server.LabelsProps
import Verif.Server.Scope
import Verif.Server.ScopeProps
import Verif.Server.Rt
import Verif.Server.Serve
import Verif.Server.ServeProps
import Verif.Queue.Size
import Verif.Queue.SizeProps
import Verif.Log.Fb
import Verif.Log.FbProps
import Verif.Api.Ping
import Verif.Api.PingProps
import Verif.Proto.Handshake
import Verif.Proto.HandshakeProps
import Verif.Api.Sync
import Verif.Api.SyncProps
import Verif.Proto.Wire
import Verif.Proto.Tables
import Verif.Proto.Schema
import Verif.Proto.WireSpec
import Verif.Proto.WireProps
import Verif.Proto.WireFlow
import Verif.Proto.WireLast
import Verif.Proto.WireNewer
import Verif.Proto.WireTorn
import Verif.Startup.Files
import Verif.Startup.FilesProps
import Verif.Workflow.UpdateProps
import Verif.Workflow.LoneProps
import Verif.Workflow.Message
import Verif.Workflow.MessageProps
import Verif.Grpc.Streams
import Verif.Grpc.StreamsProps
import Verif.Upload.Service
import Verif.Upload.ServiceProps
import Verif.Session.Stamp
import Verif.Session.StampProps
import Verif.Session.StampFixed
