import Verif.Basic
import Verif.Dec
import Verif.Agg.Model
import Verif.Agg.Conserve
import Verif.Agg.Series
import Verif.Agg.Props
import Verif.Agg.HistProps
import Verif.Agg.LabelProps
import Verif.Agg.Cumulative
import Verif.Agg.AllLabels
import Verif.Agg.Exact
import Verif.Net.Model
import Verif.Net.Merge
import Verif.Net.Refine
import Verif.Net.Props
import Verif.Net.Conc
import Verif.Net.ConcInv
import Verif.Net.ConcProps
import Verif.Net.Udp
import Verif.Net.UdpProps
import Verif.Net.Multi
import Verif.Proto.Readers
import Verif.Proto.ReaderProps
import Verif.Proto.Codec
import Verif.Proto.Dns
import Verif.Proto.DnsProps
import Verif.Proto.DnsMsg
import Verif.Tools.Text
import Verif.Tools.Ip
import Verif.Proto.Frame
import Verif.Proto.Redis
import Verif.Proto.RedisProps
import Verif.Tools.Url
import Verif.Tools.Trace
import Verif.Tools.Sql
import Verif.Proto.Http
import Verif.Proto.Mysql
import Verif.Proto.Dubbo
import Verif.Proto.Rocketmq
import Verif.Proto.Kafka
import Verif.Net.Cache
import Verif.Net.Dispatch
import Verif.Model.Event
import Verif.Model.Attr
import Verif.Net.Record
import Verif.Cpu.Window
import Verif.Cpu.Send
import Verif.Cpu.Expire
import Verif.Cpu.Signal
import Verif.Tcp.Connect
import Verif.Tcp.Proc
import Verif.K8s.Names
import Verif.K8s.Cache
import Verif.K8s.Pods
import Verif.K8s.PodLife
import Verif.K8s.Service
import Verif.K8s.Nodes
import Verif.Proc.K8s
import Verif.Ctl.Manager
import Verif.Ctl.Module
import Verif.Proc.Sampling
import Verif.Export.Sanitize
import Verif.Export.Labels
import Verif.Export.Adapter
import Verif.Export.Files
import Verif.Conn.Cache
import Verif.Conn.Lookup
import Verif.Conn.Decode
import Verif.Conn.Consumer
import Verif.Conn.Socket
import Verif.Conn.Dump
import Verif.K8s.Provider
import Verif.Cpu.Task
import Verif.Ctl.Receiver
import Verif.Tcp.Metric
import Verif.Export.Prom
import Verif.Export.Otel
import Verif.Proc.Aggregate
import Verif.Flow.Attrs
import Verif.Flow.Labels
import Verif.Flow.Spans
import Verif.Export.Documented
import Verif.Export.SpanLabels
import Verif.Net.ConcSeq
import Verif.Net.Limits
import Verif.Proc.K8sTable
import Verif.Model.Group
import Verif.Ctl.Api
import Verif.Cpu.Events
import Verif.Tcp.Report
import Verif.Flow.Meta
import Verif.Lock.Model
import Verif.K8s.Locks
import Verif.Cpu.Locks
import Verif.K8s.Stream
import Verif.K8s.Setup
import Verif.Flow.Refuse
import Verif.Flow.Choose
import Verif.Agg.Commute
import Verif.Agg.Conc
import Verif.Agg.ConcSeq
import Verif.Agg.ConcProps
import Verif.Export.PromConc
import Verif.Export.Server
import Verif.Conn.Start
import Verif.Conn.Stats
import Verif.Net.Pool
import Verif.Cpu.Session
import Verif.Flow.Queues
import Verif.Export.Json
import Verif.Export.TraceText
import Verif.Export.SegmentText
import Verif.Flow.CpuFile
import Verif.Agg.Machine
import Verif.Export.Float
import Verif.Export.FloatWrap
import Verif.Conn.Scanner
import Verif.Export.Builder
import Verif.Flow.Count
import Verif.Flow.Counted
import Verif.Flow.CpuTask
import Verif.Flow.Made
import Verif.Flow.DnsUdp
import Verif.Cpu.Timed
import Verif.Net.Wire
import Verif.Flow.Wire
import Verif.Model.Shown
import Verif.Cpu.Java
import Verif.K8s.Init
import Verif.Ctl.Logs
import Verif.Export.OtelStart
import Verif.K8s.WriteFlusher
import Verif.Ctl.App
