# Formal model of the kindling collector

## How to read this project

* `properties.jsonl`: what should be true of the code, in English, with the place in the source it is about.
* `lean/Verif/`: the model, one module per Go package or part of one, and the proofs. Every definition cites the file and
  the lines it models, and says in its comment where it is simpler than the code.
* `MANIFEST.json`: for each property the theorems that prove it (generated by `tools/manifest.py` from `tools/claims.txt`).
* `seeded/LOG.jsonl`: wrong programs the theorems were tested against.
* This file is generated by `tools/design.py` from `tools/design_head.md`, the claims, the comments of the Lean files and the
  output of `#print axioms`.

## Method

* The code is modelled function by function as total computable functions on plain data. A property is stated with its own
  specification — a fold over the history, a set of values, a mathematical function, an encoder written from the protocol's
  standard, a step machine without the data structures of the code — and proved for all inputs, states and executions, by
  induction, invariants or refinement.
* Go `panic` (index out of range, failed type assertion, nil dereference, division by zero, close of a closed channel) is an
  explicit outcome: `Res.panic`, or an `Option` whose `none` is documented as the panic. Theorems claim the result, so they also claim
  that there is no panic, unless they say when there is one.
* Byte slices and Go strings are lists of bytes (of code points or characters where the code works on those). Maps are association lists
  (`AMap`) or functions; where the order of iteration over a map can be observed, every order is covered.
* Integers are unbounded where overflow is out of reach (said in the comment), and have the width of the code where wrap-around
  matters.
* Goroutines are step relations or lists of actions over an explicit state; every list of actions is an interleaving. Memory shared
  through pointers is explicit (heaps of cells) where aliasing matters: attribute maps, metrics, parser cache, service objects.
* Where the code does not have the property, the negation is proved (a universal statement or a witness reachable from the initial state)
  and what does hold is proved under a name with the suffix `_partial`, or as theorems that say exactly when it holds.
* Beside the theorems, `example`s show non-trivial cases that satisfy their hypotheses.
* The theorems were tested against wrong programs: thousands of single edits of the definitions were rebuilt automatically; an edit that
  changes the meaning but breaks no theorem led to a stronger theorem.

## Trusted base

* The kernel of Lean 4.33.0.
* The axioms `propext`, `Classical.choice`, `Quot.sound`, as listed with each theorem below. No axioms of our own, no `sorry`, no
  `native_decide`, no `bv_decide`.
* That the definitions say what the Go code does. They were written by hand from the text of the source; the code was neither built nor run.
* What the definitions take as given, listed in the next section, behaves as described there.

## What is not modelled

* The Go runtime: scheduling below the granularity stated in the modules, the memory model (a data race is not undefined behaviour
  here, but an interleaving of the stated steps), garbage collection, running out of memory.
* Libraries: OpenTelemetry SDK, Prometheus client, client-go (lists, watches, informers), zap, viper, lumberjack, gin/net/http, netlink sockets,
  hashicorp LRU (modelled from its documentation where the cache depends on it), go-conntrack types. Regular expressions of the SQL tools are
  written out by hand.
* The probe (C++ and eBPF), except for the layout of the events it sends where a theorem is about decoding them.
* JSON encoding and decoding, except that parsers given the decoded value are modelled (RocketMQ headers, metadata provider, control API).
* Configuration files and the construction of the components (`internal/application`, factories), except for the defaults and the rules that
  decide behaviour (aggregation kinds, selectors, time limits, module options).
* `pkg/observability`, the self metrics of the components (except the counters of the receiver, the request monitor's gauge and the UDP cache's
  counter), `pkg/esclient` and `esexporter` (not registered anywhere), `noopanalyzer`, test utilities, texts for debugging
  (`TextKindlingEvent`, `String` methods).
* IPv6 beyond what the conntrack cache does with it: the collector itself keeps the first 32 bits of an address only.

## Modules

What each module models and where it is simpler than the code, from the heads of the files; more is said in the comment of each definition.

* `Basic.lean`: Shared vocabulary of the model: outcomes of Go calls and finite maps.
* `Dec.lean`: Decimal text: `strconv.FormatInt`, `strconv.ParseInt`, `strconv.FormatBool`,
  `strconv.ParseBool` and `fmt "%d"` of Go's standard library as used by the collector.
  Go strings are byte lists.
* `Agg/AllLabels.lean`: C05, identity of a cumulative series: the key of `GetLabelsKeys` (label_key.go:108-127) determines
  the label set and does not depend on the map iteration order.
* `Agg/Commute.lean`: The order in which values reach an accumulator: it matters for `last` only.
* `Agg/Conc.lean`: The aggregator used by several goroutines at once (aggregator/defaultaggregator): the steps of `Aggregate`, `Dump` and
  `DumpSingle` as they interleave.  `Verif.Agg.Model` has each call as one step; here every access to shared data is one.

  Simplified:
  * the mutex of the aggregator (default_aggregator.go:19) is derived from where the goroutines are: a reader enters when nobody
  has it for writing, a writer when nobody has it at all (that a waiting writer keeps new readers out is left out: this allows
  more executions);
  * one `calculate` or `merge` of an accumulator is one step: it is one atomic operation (sum, last, count) or a critical
  section of the accumulator's own mutex (max, avg, histogram), agg_values.go:178-342;
  * the body of `Dump`, done with the mutex held for writing, is one step;
  * recorders are never deleted (default_aggregator.go:46-58), so the name stands for the pointer; the values of a series are
  behind a pointer (`heap`), since `reset` drops them while goroutines might hold it;
  * int64 counters are unbounded.
* `Agg/ConcProps.lean`: C104: theorems about goroutines that use the aggregator at once.
* `Agg/ConcSeq.lean`: C104: what several goroutines that use the aggregator at once dump, compared with the same calls one after the other.
* `Agg/Conserve.lean`: lemmas for the modules that import it.
* `Agg/Cumulative.lean`: Model of collector/pkg/aggregator/defaultaggregator/cumulative_aggregator.go and C05.

  Simplifications: times are integers (nanoseconds); the zero `time.Time` of a series that was never
  updated is `none` and lies before every other time.  Each exported call is one atomic step.
* `Agg/Exact.lean`: C02: a dumped series carries exactly the configured outputs of the metrics of its first record, for
  any mixture of integer and histogram values, and the time of its last record.
* `Agg/HistProps.lean`: C03: histogram accumulators.
* `Agg/LabelProps.lean`: C04: label keys.
* `Agg/Machine.lean`: C115: the aggregator counts in 64 bits.

  `Verif.Agg.Model` and `Verif.Agg.Cumulative` add unbounded numbers.  Here the same functions are written down with the additions
  of the machine: an `int64` (sums, the count of an average, the value of a counter) wraps at 2^63, a `uint64` (the count and the
  buckets of a histogram) at 2^64.  It is proved that the machine's state is the state of the unbounded model taken modulo 2^64, at
  every moment of every history, and that the two are equal as long as the weight of all that was recorded is below 2^63.

  Simplified as in the two models, apart from the numbers: one call is one step.
* `Agg/Model.lean`: Model of collector/pkg/aggregator and collector/pkg/aggregator/defaultaggregator.

  Simplifications used throughout this file:
  * int64/uint64 counters are unbounded `Int`/`Nat` (no overflow); `Verif.Agg.Machine` has them in 64 bits: C115;
  * each of `Aggregate`, `Dump`, `DumpSingle` is one atomic step.  In the code `Dump` and
  `DumpSingle` hold the write lock; `Aggregate` holds the read lock and updates every
  accumulator with an atomic operation or under its mutex.  `Verif.Agg.Conc` has the single accesses of
  goroutines that interleave; that they can be taken for steps is C104.
* `Agg/Props.lean`: C01, C02, C03, C04: property theorems about the aggregator.
* `Agg/Series.lean`: lemmas for the modules that import it.
* `Conn/Cache.lean`: Cache of address translations.  metadata/conntracker/internal/conntracker.go:292-386 (conntrackCache) over
  github.com/hashicorp/golang-lru/simplelru.  One lock guards every operation, so operations are steps.
* `Conn/Consumer.lean`: The netlink consumer: the circuit breaker, the receive loop, and the way from messages to lookups.
  metadata/conntracker/internal/circuit_breaker.go, consumer.go, message.go, conntracker.go.
* `Conn/Decode.lean`: Decoding of conntrack messages.  metadata/conntracker/internal/attribute_scanner.go, decoding.go, encoding.go, align.go.
* `Conn/Dump.lean`: Which network namespaces are dumped, on which thread, and what becomes of their handles.
  metadata/conntracker/internal/consumer.go:220-317, 340-345, utils.go:25-141.
* `Conn/Lookup.lean`: Registration and lookup of address translations.  metadata/conntracker/internal/conntracker.go:132-154, 193-252, 333-368, 388-440,
  internal/address.go:23-34, conntracker_linux.go:56-95, utils.go:9-24.
* `Conn/Scanner.lean`: The scanner the decoder keeps from message to message.  metadata/conntracker/internal/attribute_scanner.go:30-214,
  decoding.go:53-174.  `Conn/Decode.lean` decodes each message from its bytes; here are the frames that are never made anew, the level of
  nesting, and what is left in them by earlier messages.
* `Conn/Socket.lean`: Reading the netlink socket: from the datagrams of the kernel to messages, namespaces, connections and lookups.
  metadata/conntracker/internal/socket.go, align.go, `syscall.ParseNetlinkMessage` of Go, and their use in consumer.go and
  conntracker.go.
* `Conn/Start.lean`: C107: which connections the connection tracker knows after its start.

  Model of metadata/conntracker/internal/conntracker.go:84-130 `NewConntracker`, `newConntrackerOnce`, 214-217 `Close`, 219-232
  `loadInitialState`, 254-278 `run`, consumer.go:143-162 `Events`, 220-280 `DumpTable`, 331-336 `Stop`, with the kernel's table of
  connections beside it: connections come and go at any time, between any two steps of the start.

  Simplifications: a dump of a family delivers all connections that were there during the whole dump, none that was never there, and
  any choice of the others; one namespace; the events of a connection are delivered in order or dropped when they arrive (ENOBUFS,
  sampling); the breaker's effect on the socket is in Conn/Consumer.lean; the two goroutines of consumer and tracker are one
  receiver.  The wire format, the cache and the lookups are in Conn/Socket.lean, Conn/Cache.lean and Conn/Lookup.lean.
* `Conn/Stats.lean`: The statistics of the connection tracker and the metrics made of them: metadata/conntracker/internal/conntracker.go:132-290,
  333-386 (the counters), 156-191 (`GetStats`), internal/consumer.go:320-328, metadata/conntracker/conntracker_linux.go:20-52, 97-101,
  conntrakcer.go:9-32, self_metrics.go:35-77.
* `Cpu/Events.lean`: What the CPU analyzer makes of an event of the probe: component/analyzer/cpuanalyzer/cpu_analyzer.go:83-121, 167-263, model.go, and
  the events as the probe writes them (probe/src/converter/cpu_converter.cpp:45-166, probe/src/cgo/kindling.cpp:466-665).
* `Cpu/Expire.lean`: Forgetting exited threads and old traces: trimExitedThread (cpuanalyzer/cpu_analyzer.go:366-373),
  delete_tid.go, delete_javatrace.go, analyzerJavaTraceTime (cpu_analyzer.go:121-164),
  StartProfile / StopProfile (module_control.go:14-46), Start (cpu_analyzer.go:72-77).

  Both queues have the same code; here once, for any key.  Times are naturals and the clock of the
  operations does not go back (`time.Now()` carries a monotonic reading).
  Simplified: each operation holds its locks for its whole length, as the thread queue does.  The trace
  queue does not: it is appended to under `jtlock` (cpu_analyzer.go:122-125) but popped under
  `queueMutex` as well as `jtlock` (delete_javatrace.go:46-67), while `GetFront` reads it under
  `queueMutex` alone; this data race is outside the model.
* `Cpu/Java.lean`: Transactions that the Java agent reports: `ConsumeTransactionIdEvent` and `analyzerJavaTraceTime`
  (cpuanalyzer/cpu_analyzer.go:104-165), with the expiry of delete_javatrace.go, up to the signal (send_trigger.go:24-41).

  Simplified: an event is one step, so is a sweep (the queue of the transactions is raced for, see Cpu/Locks.lean, C100); the lookup of
  the container is given with the event.
* `Cpu/Locks.lean`: The mutexes of the CPU analyzer.  analyzer/cpuanalyzer/cpu_analyzer.go, delete_tid.go, delete_javatrace.go, send_trigger.go,
  module_control.go.
* `Cpu/Send.lean`: Sending the recent seconds of a process when a slow request was seen:
  `sendEvents` (cpuanalyzer/send_trigger.go:162-214) and `SendEventsTask.run` (122-130).

  Simplified: what is sent is the segment itself (the label set `toDataGroup` makes of it, model.go:88-122,
  and the merged key elements are functions of it); `Consume` of the next consumers is the output list.
* `Cpu/Session.lean`: The CPU analyzer's channels across starts and stops of the profile: `StartProfile`, `StopProfile`
  (cpuanalyzer/module_control.go:14-44), the senders `ReceiveDataGroupAsSignal` (send_trigger.go:25-59) and
  `sampleSend` (134-160), the readers `ReadTraceChan` (69-78) and `ReadTriggerEventChan` (81-110), the check at the
  head of `PutEventToSegments` (cpu_analyzer.go:267-272).

  The channels `traceChan`, `triggerEventChan` and `stopProfileChan` are variables.  Both start and stop replace
  the first two, start replaces the third; every goroutine looks the variables up again in each turn of its loop,
  and a goroutine that is inside a channel operation stays on the channel it looked up.

  Simplified: `StartProfile` and `StopProfile` are one step each (`StopProfile` holds the lock that
  `PutEventToSegments` takes, nobody else does); a data group is a number; which groups are sent where is
  decided in `Cpu/Signal.lean`, here the caller says it; the keys of the sample map are left out (same place), a
  tick of the sampler takes all samples at once; what `ReadTriggerEventChan` does with a trigger (consumers, task)
  is `sent`.  A second `StartProfile` while the profile runs is left out: `DefaultModule.Start` refuses it (C46).
* `Cpu/Signal.lean`: Which requests make the CPU analyzer send its recent seconds: `ReceiveDataGroupAsSignal`
  (cpuanalyzer/send_trigger.go:24-58) and `sampleSend` (132-160).

  Simplified: a drain of the sample map is one step; the two channels are lists (their bounds, 3e5 and
  1e4, block the sender in the code).
* `Cpu/Task.lean`: The routine that sends the events around a trigger for some time
  (`collector/pkg/component/analyzer/cpuanalyzer/scheduled_task.go`): its loop, `Start`, `Stop` and
  the timer, in any interleaving.
* `Cpu/Timed.lean`: C84, C35: when a scheduled task runs.  scheduled_task.go with a clock in nanoseconds: the ticker and the timer put into their
  channels of one slot (Go's `time` package: a tick that finds the slot full is dropped), and the loop takes from them when
  it gets to run.  `Stop` is left out (nobody calls it, see Cpu/Task.lean).
* `Cpu/Window.lean`: The window of recent seconds the CPU analyzer keeps per thread:
  `PutEventToSegments` (cpuanalyzer/cpu_analyzer.go:267-364), circle_queue.go, model.go:11-88.

  Times are nanoseconds, unbounded naturals: seconds since 1970 times 10^9 stay far below 2^64, and the
  signed differences the code takes (`int(a-b)` of two unsigned second counts, cpu_analyzer.go:282, 288)
  are then the exact integer differences.
* `Ctl/Api.lean`: The control interface: component/controller/controller.go, http_controller.go and the requests of profile_module.go; the module itself
  is `Ctl/Module.lean`.

  Outside the model: the JSON decoder (its result is given), `time.ParseDuration` (its result is given), the probe behind
  `startAttachAgent`, `stopAttachAgent`, `startDebug`, `stopDebug` (its answer is given), and the HTTP server, which calls the handler of
  a path with the body and turns a panic of a handler into a closed connection.
* `Ctl/App.lean`: The life of the agent: collector/cmd/kindling-collector/main.go:15-43, `Run` and `Shutdown` of internal/application/application.go:61-76 and
  `StartAll` and `ShutdownAll` of component/analyzer/manager.go:57-80.

  Inputs: whether `New` succeeds, what each analyzer and the receiver answer to `Start` and `Shutdown`, and when the first signal comes.  Not
  modelled: the texts of errors, the server of pprof, handlers of signals that the C probe sets, calls that panic or never return.
* `Ctl/Logs.lean`: Which lines the agent logs and where its own metrics go: observability/logger/logger.go, console.go and lumberjack.go,
  component/telemetry.go, observability/telemetry.go and config.go, and the tools the components are given
  (internal/application/application.go:59-76, 96-147).

  Given: zap (a core writes the entries at its level or above; a tee is several cores; `Panic` panics whatever is written),
  viper and mapstructure (the decoded configuration is an input), the exporters of OpenTelemetry.
* `Ctl/Manager.lean`: Which analyzers get an event (component/analyzer/manager.go) and which events are requests
  (model/kindling_event_helper.go).

  Simplified: analyzers are elements of an arbitrary type with a list of event names (`ConsumableEvents`).  The slices
  of the map are values: `append(value, a)` in lines 46-48 may write into the same array several times, but the written
  element is always the last one of the slice stored afterwards.
* `Ctl/Module.lean`: Start and stop of a module and the timers that stop it (component/controller/module.go), requests of the control API
  (component/controller/profile_module.go).

  `Start` and `Stop` hold the mutex throughout, so each is one step.  A timer or stop signal is a goroutine: created by
  `Start` (128, 141), it evaluates `c.ClearSignal()` when it first runs (132, 145: no lock is held), then waits for its
  timer or for the channel it has read; when the timer is chosen it calls `Stop`.  Closing a channel wakes the goroutines
  that wait for it, and they return; if the timer has already expired when `select` is reached, it can be chosen whether
  or not the channel is closed.  Every interleaving of these steps is a history.

  Simplified: channels are numbered by the run that made them; the sub-modules are registered before the first request;
  the order of the loops over `subStarts` and `subStops` is that of the list, the same for both.
* `Ctl/Receiver.lean`: The receiver of the probe's events (`collector/pkg/component/receiver/cgoreceiver/cgoreceiver.go`,
  `self_metrics.go`): the copy of an event out of the C structure, the two goroutines and their channel,
  `Shutdown`, and the counters per event name.
* `Export/Adapter.lean`: The adapter of network groups.  component/consumer/exporter/tools/adapter/net_adapter.go, net_dict.go and
  model/constnames/relabel_metric_const.go.
* `Export/Builder.lean`: How the converters of the network adapter are built.  component/consumer/exporter/tools/adapter/label_converter.go:26-39, 59-68, 104-282,
  336-349 and net_adapter.go:160-236.
* `Export/Documented.lean`: The labels of exported metrics as documented in docs/prometheus_metrics.md, and what the adapter of network groups
  exports.  Adds the model of the labels computed from the metrics of a single record (net_dict.go:331-409).
* `Export/Files.lean`: Trace files of the camera exporter.  component/consumer/exporter/cameraexporter/filewriter.go, datehelper.go and
  pkg/filepathhelper/filepath.go.
* `Export/Float.lean`: C116: what Prometheus gets are floats.

  `Verif.Export.Prom` hands the integers of the aggregator to the Prometheus client.  The code converts them to `float64`
  (collector.go:41, 51, 58), and its aggregator counts in 64 bits (`Verif.Agg.Machine`).  Here the exporter is written down with both.

  Simplified as in the two models.  A `float64` that comes from an integer is an integer again (at most 2^64), so floats are
  integers here; the conversion rounds to the nearest number of 53 significant binary digits, the even one of two (the language
  specification refers to IEEE 754).  The client keeps the float it is given; how it is printed is not modelled.
* `Export/FloatWrap.lean`: C116 without the bound: what the Prometheus exporter serves after any history, however large the totals.  The code is that of
  `Verif.Export.Float` (collector/pkg/component/consumer/exporter/prometheusexporter) and `Verif.Agg.Machine`
  (collector/pkg/aggregator/defaultaggregator); nothing is defined here.
* `Export/Json.lean`: JSON text as `json.Marshal` of Go's standard library writes it, and a reader of JSON text after RFC 8259.  The collector writes
  data groups with it (model/data_group.go:11-16, model/attribute_map.go:20-22, 207-209, 235-237, 259-261; the camera exporter's
  filewriter.go:105, 193).

  Assumed of the library (encoding/json, not part of the repository): strings are written with `"`, `\`, control characters, `<`, `>`,
  `&`, U+2028 and U+2029 escaped and every byte that is not part of a UTF-8 character replaced by `\ufffd`; numbers are written in
  decimal; nothing is written between tokens.
* `Export/Labels.lean`: Labels of exported metrics and spans.  component/consumer/exporter/tools/adapter/label_converter.go, net_dict.go.

  Simplified: the labels of a group are three functions, the results of `GetStringValue`, `GetIntValue` and
  `GetBoolValue` for each name.
* `Export/Otel.lean`: The OpenTelemetry exporter (component/consumer/exporter/otelexporter/{consume,instrument,agg_kind,otelexporter}.go)
  on top of the default aggregator.

  Simplified:
  * the adapters are not part of this file: a call of `Consume` is given the adapted results (`Verif.Export.Adapter`);
  * the OpenTelemetry library is its calls: a batch of measurements, a span, an observed value; the callback of a
  registered gauge observer runs once per collection (`observe`);
  * `Consume` holds the exporter's mutex and the callback's `DumpSingle` holds the aggregator's lock: both are atomic steps;
  * the `debug` messages and the self-metrics are not modelled.
* `Export/OtelStart.lean`: The start of the OpenTelemetry exporter: otelexporter/otelexporter.go:70-239 `NewExporter`, 246-302 `newExporters`, 355-369
  `registerResetSchedule`, helper.go and config.go.

  Given: the library (whether an exporter or a controller can be made is an input), viper and mapstructure (the decoded configuration is an
  input).  What the exporter then does with data is in `Verif.Export.Otel`, the restarts of its server in `Verif.Export.Server`.
* `Export/Prom.lean`: The Prometheus exporter (component/consumer/exporter/prometheusexporter/{consume,collector,prometheus}.go) on top of the
  cumulative aggregator, with the simple adapter (tools/adapter/simple_adapter.go).

  Simplified:
  * `float64(...)` conversions keep the integer and sums do not overflow; `Verif.Export.Float` has the floats and the 64 bits: C116;
  * `Consume` and `Collect` are atomic steps and read the clock once each (`now`);
  * metric names are lists of code points where `sanitize` works on them;
  * the client library's checks in `NewConstMetric` / `NewConstHistogram` are an arbitrary predicate `valid` on the
  sanitized name and the labels; the registry that gathers the samples is not modelled;
  * the results of the network adapter (`Verif.Export.Adapter`) are an arbitrary function `net`.
* `Export/PromConc.lean`: C105: scrapes while requests are recorded.

  Model of one histogram of the Prometheus exporter: the goroutines that record into it
  (cumulative_aggregator.go:59-72, 25-37, 102-116 with agg_values.go:302-313 and 330-345) and those that collect it
  (collector.go:18-65 with cumulative_aggregator.go:74-87 and agg_values.go:315-324).  `histogramValue.get` hands out the very
  slice of bucket counts into which the recorders go on counting (agg_values.go:322), and `Collect` reads it when all mutexes have
  been released (collector.go:48-52).

  Steps: every mutex operation, every addition to a field and every reading of a bucket is one step of a goroutine, and the
  steps of all goroutines interleave in any order (sequentially consistent memory).

  Simplifications: one series with one histogram, which exists already; bucket counts do not overflow; a mutex is given to any
  goroutine that asks while it is free (no preference for writers); records that are refused because of other boundaries
  (agg_values.go:334-336), and those that panic because they have more buckets than boundaries, do not occur.
* `Export/Sanitize.lean`: Names of Prometheus labels (component/consumer/exporter/prometheusexporter/sanitize.go).

  Simplified: strings are lists of code points (`strings.Map` decodes them; invalid bytes decode to U+FFFD, which is
  replaced).  `unicode.IsLetter` and `unicode.IsDigit` are arbitrary predicates that are right below 256.
* `Export/SegmentText.lean`: What a stored group of CPU events contains: JSON texts inside a JSON text.  component/analyzer/cpuanalyzer/model.go,
  cpu_analyzer.go:333-339, 360-365, send_trigger.go:196-211, component/consumer/exporter/cameraexporter/exporter.go:75-87.
* `Export/Server.lean`: C106: the metrics endpoint of the OpenTelemetry exporter across restarts.

  Model of otelexporter/prometheus.go:18-44 `StartServer`, otelexporter.go:156-166 (the first start), 316-353 `NewMeter` and
  355-369 (the schedule that calls it), with the parts of `net/http.Server` they use: `ListenAndServe` checks whether the server
  was shut down, binds the port and then registers the listener, unless the server was shut down in the meantime; `Shutdown` marks
  the server, closes the registered listeners and waits until no request is under way.

  Every numbered step below is one step of a goroutine; goroutines interleave in any order.  Simplifications: the creation of an
  exporter and the stop of the old controller succeed (otelexporter.go:333-341); a request reaches a server only once its listener is
  registered; the port is free when the collector starts and nobody else binds it.
* `Export/SpanLabels.lean`: Attributes of an exported span, by protocol: the dictionaries of
  `collector/pkg/component/consumer/exporter/tools/adapter/net_dict.go:98-113, 229-284, 317-356` against a table of what a reader of a
  span finds under each name.
* `Export/TraceText.lean`: What the trace files of the camera exporter contain.  component/consumer/exporter/cameraexporter/filewriter.go, exporter.go,
  model/data_group.go, metric.go and attribute_map.go.
* `Flow/Attrs.lean`: What the parsers write.  The record of an exchange (`Net/Record.lean`) relies on the parsers leaving its own labels
  alone and setting `is_error` and `error_type` together; here this is proved of the modelled parsers, for all payloads.
* `Flow/Choose.lean`: Which parser reports what is on the wire (C103): `parseProtocol` of network_analyzer.go:554-650 with the parsers of the
  repository instead of arbitrary ones, and the list of parsers as `Start` builds it.

  Simplified: the clustering of URLs and the JSON reader are parameters; the attributes of DNS messages are not kept.
* `Flow/Count.lean`: From a record to the counters of Prometheus: the aggregation processor, the adapter of network groups and the Prometheus
  exporter together.
* `Flow/Counted.lean`: From what the analyzers hand to the aggregation processor to what Prometheus sees: `AggregateProcessor.Consume` in front of
  Verif/Flow/Count.lean, with the adapters as the Prometheus exporter makes them.
* `Flow/CpuFile.lean`: From the events of a thread to the lines of the trace files: `PutEventToSegments` (cpuanalyzer/cpu_analyzer.go:267-370), `sendEvents`
  (send_trigger.go:162-214), `toDataGroup` (model.go:88-117) and the file writer of the camera exporter, put together.
* `Flow/CpuTask.lean`: The task that sends the CPU events of a slow trace (cpuanalyzer/send_trigger.go:77-130) on the window of a thread and into
  the file of the trace: Verif/Cpu/Send.lean (the spans of the runs) and Verif/Flow/CpuFile.lean (windows and files) together.
* `Flow/DnsUdp.lean`: C121: DNS over UDP from the payloads to the record.  The parsers (`Proto/Dns.lean`), the store of queries (`Net/Udp.lean`)
  and the record (`Net/Record.lean`) put together as network_analyzer.go does.
* `Flow/Labels.lean`: From the bytes on the wire to the labels of the exported metrics: parsers, record, aggregation and adapter together.
* `Flow/Made.lean`: From the records of the network analyzer (Verif/Net/Pool.lean) to what Prometheus counts (Verif/Flow/Counted.lean): the
  records the analyzer hands on are what the theorems there ask for, however often they went through the pool.
* `Flow/Meta.lean`: Who talks to whom: from the record of a request and the Kubernetes cache to the labels of the exported metrics.
  Analyzer, metadata processor, aggregation and adapter together.
* `Flow/Queues.lean`: From the receiver's channel to the analyzers and through `Application.Shutdown`: `consumeEvents` and
  `sendToNextConsumer` (collector/pkg/component/receiver/cgoreceiver/cgoreceiver.go:106-120, 176-192), the queues of the
  network analyzer (analyzer/network/network_analyzer.go:165-193) and of the connect analyzer
  (analyzer/tcpconnectanalyzer/analyzer.go:67-90, 238-241), `Manager.ShutdownAll` (analyzer/manager.go:68-78) and
  `Application.Shutdown` (collector/internal/application/application.go:74-76).

  Simplified: what an analyzer does with an event is one step that puts it behind the events it has handled; the tick of
  the connect analyzer (analyzer.go:72-73) is left out; which analyzers want an event is a predicate (the table built by
  `NewManager` is `Ctl/Manager.lean`); the goroutine that fetches events is the environment (`Ctl/Receiver.lean`); errors
  of analyzers, which are only logged (cgoreceiver.go:186-189), are left out. `shutdownWG.Add(1)`, which `consumeEvents` does
  itself (cgoreceiver.go:107), has been done before `Shutdown` waits. Channels of size 0 (a configured size of 0) would be
  rendezvous and are excluded by the hypothesis `0 < cap` where it matters.
* `Flow/Refuse.lean`: What each of the request parsers refuses, in terms of the first bytes of the payload.  Used by `Choose.lean` (C103).
* `Flow/Spans.lean`: From the bytes on the wire to the attributes of the exported span: parsers, record and adapter together.
* `Flow/Wire.lean`: From the wire to the counters of Prometheus: what the network analyzer reports (network_analyzer.go:302-478) is what the
  aggregation processor, the adapter and the Prometheus exporter count (see Flow/Counted.lean).
* `K8s/Cache.lean`: The lookup tables of pods and services: metadata/kubernetes/k8scache.go and hostport_map.go.

  Simplified: pointers to pod infos are values here, so a cache entry carries the pod as it was when registered;
  the service of a pod is modelled apart (Service.lean).  Ports are natural numbers.
* `K8s/Init.lean`: How the agent and the metadata provider connect to Kubernetes: metadata/kubernetes/initk8s.go:20-110, 132-214, config.go,
  processor/k8sprocessor/kubernetes_processor.go:33-79, helper.go, config.go, metaprovider/service/service.go:60-122.

  Given: loading a file of credentials, the credentials of the pod and the making of a client from them (client-go).  A goroutine that was
  started is an entry of a list; what the watchers do is modelled in Nodes, ReplicaSets, Services, Pods and Provider.
* `K8s/Locks.lean`: The mutexes of the metadata caches.  metadata/kubernetes/k8scache.go, hostport_map.go, pod_watch.go, pod_delete.go,
  service_watch.go, replicaset_watch.go, node_watch.go, initk8s.go, metadata/metaprovider/service/service.go.
* `K8s/Names.lean`: Small tools of the Kubernetes metadata: compare/int32_slice.go, compare/string_slice.go, container ids,
  workload names and label selectors (metadata/kubernetes/pod_watch.go, service_watch.go, helper.go).
  Go strings are byte lists.
* `K8s/Nodes.lean`: Nodes and replica sets.  metadata/kubernetes/node_watch.go and replicaset_watch.go.
* `K8s/PodLife.lean`: The life of a pod's entries over whole histories of events and sweeps.
* `K8s/Pods.lean`: Pods: registration, update and delayed deletion.  metadata/kubernetes/pod_watch.go and pod_delete.go.

  Simplified: the maps by namespace and name are one map with pairs as keys; workload kind and name of a pod
  (getControllerKindName, see Names.lean) are part of the object; events and sweeps are atomic (see
  Cache.add_lost_to_sweep for interleavings); ports are natural numbers.
* `K8s/Provider.lean`: The metadata provider: snapshot, broadcast and replay.  metadata/metaprovider/service/service.go, handler.go,
  metadata/metaprovider/client/client.go, unwrapper_handler.go, metadata/kubernetes/initk8s.go.
* `K8s/Service.lean`: Services and the pods they select.  metadata/kubernetes/service_watch.go, pod_watch.go:148-168, 199-221.

  `K8sServiceInfo` objects are shared by pointers: they are in a heap here, a pointer is an index.  Simplified: the
  maps by namespace and name have pairs as keys; a pod is its labels and its service pointer, and `AddService` reaches
  a selected pod directly rather than through its container ids and ports (service_watch.go:131-145); the workload
  fields of a service are left out; nodes are a list of addresses.
* `K8s/Setup.lean`: The caches that a client of the metadata provider builds from the provider's list.  metaprovider/service/service.go
  `ListAndWatch` sends the caches as JSON, metadata/kubernetes/k8scache.go `SetupCache` installs what was decoded.

  Two things do not survive JSON: fields whose names begin with a small letter, and the sharing of objects by pointers.
  Both are modelled here; that the other fields come back unchanged is trusted (encoding/json).
* `K8s/Stream.lean`: The stream between the metadata provider and its clients.  metadata/metaprovider/service/service.go and handler.go,
  client/client.go and unwrapper_handler.go, ioutil/writeflusher.go.
* `K8s/WriteFlusher.lean`: The writer of the metadata stream: collector/pkg/metadata/metaprovider/ioutil/writeflusher.go.

  Goroutines call `Write`, `Flush` and `Close` in any interleaving; every step below is one step of one goroutine.  Simplified: the writer
  underneath takes all bytes without an error; `sync.Once.Do` is one step (its body only closes a channel).
* `Lock/Model.lean`: Goroutines that take read-write mutexes (`sync.RWMutex`, `sync.Mutex`) one inside the other and use shared variables.
* `Model/Attr.lean`: Attribute maps with the memory they share.

  `collector/pkg/model/attribute_map.go`: a map from names to *pointers* to typed values.  `Add...`
  stores a new pointer, `UpdateAdd...` writes through the stored one, `Clone` copies the values and
  `Merge` copies the pointers.  The memory cells are therefore explicit.  A map is known by its
  number, as a Go variable of type `*AttributeMap` would; a dead one (`none`) is a map no variable
  refers to any more.

  Simplified: integers are unbounded (they are only stored and read back), the JSON methods are not
  modelled.
* `Model/Event.lean`: Kindling events and the splitting of a `sendmmsg` event into its messages.

  `collector/pkg/model/event_converter.go`, `kindling_event_helper.go`, `kindling_event.go`.
* `Model/Group.lean`: Model of collector/pkg/model/data_group.go and metric.go: the metrics of a record, held by pointers, with the operations the analyzers
  use and `Clone`.

  Simplifications, for the whole file:
  * the labels are those of `Model/Attr.lean` and are left out;
  * a slice of a histogram is a reference to its whole array (the code never cuts these slices);
  * memory is never freed.
* `Model/Shown.lean`: The text of an event in the debug log: model/kindling_event.go:541-614, called for every event at
  receiver/cgoreceiver/cgoreceiver.go:177-179 when the level of the log is debug.

  Simplified: the text of the context (`%+v` of a structure) and the text of a float (`%f`), are given.
* `Net/Cache.lean`: The per-port cache of protocol parsers, with the memory it shares.

  `collector/pkg/component/analyzer/network/protocol/factory/factory.go`.  The cache keeps one Go
  slice of parser pointers per port, edits it in place with `append`, and hands the slice itself
  to readers that go through it without the lock.  Backing arrays are therefore explicit: a slice
  is an array number and a length (all slices here start at cell 0), `append` writes into the
  array when its capacity allows and allocates a new array otherwise.  How much spare capacity the
  Go run time gives a new array is a parameter of every theorem.

  Simplified: parsers are values of an arbitrary type compared for equality, as the code compares
  pointers; the methods run one at a time (they hold `mutex`), only the readers of
  `GetCachedParsersByPort` are outside the lock.
* `Net/Conc.lean`: The exchange monitor with its two goroutines interleaved at the granularity of the atomic operations
  of the code: the event consumer (network_analyzer.go:180-193, 350-435) and the timeout scanner
  (301-321).  An execution is a list of actions; every list is allowed.

  Simplifications:
  * an exchange is an identifier with its contents in `cont`; contents are changed by the consumer only
  (the scanner only reads them: HTTP 100-continue, where it would put a request back, is left out);
  * the key under which an exchange is stored (`getKey`) is fixed when it is created (`home`; for the
  atomic model this is proved in `gauge_is_number_of_exchanges_partial`);
  * the scanner may pick any stored exchange at any time (`sync.Map.Range` promises no more).
* `Net/ConcInv.lean`: lemmas for the modules that import it.
* `Net/ConcProps.lean`: C06 and C07 for every interleaving of the consumer and the timeout scanner.
* `Net/ConcSeq.lean`: The interleaved monitor (Conc.lean) and the atomic one (Model.lean) are the same program: every run of the
  atomic monitor is the run of the interleaved one in which each event, and each exchange the scanner visits,
  is finished before anything else starts.  What is proved about the atomic monitor is therefore proved about
  some schedule of the two goroutines.  (HTTP 100-continue is left out of Conc.lean; the atomic monitor is
  taken with parsers that never attach it.)
* `Net/Dispatch.lean`: Which parser reports an exchange: `parseProtocols`, network_analyzer.go:494-552, over the parser
  cache of `Cache.lean` and the per-port counters of protocol_parser.go:484-498.

  A parser is a value of an arbitrary type; what the model keeps of a request is its port and which
  parsers accept it (`parseProtocol` returns something other than nil: the request and, when there
  is one, the response parse).  Simplified: one exchange at a time, as in one goroutine of the
  analyzer.
* `Net/Limits.lean`: What the time limits and the times of an exchange are in numbers: the defaults of the configuration, the
  limit between two connect events, the times and sizes of exchanges that lack a side.
* `Net/Merge.lean`: C08 and C09: merging fragments and the latency components.
* `Net/Model.lean`: Model of collector/pkg/component/analyzer/network/message_pair.go and of the TCP part of
  network_analyzer.go, each exported step taken atomically (interleavings: Verif/Net/Conc.lean).

  Simplifications, for the whole file:
  * byte counts (`resVal`) are unbounded integers instead of int64;
  * slices are values: `append` never overwrites memory that another slice shares;
  * conntrack (network_analyzer.go:459-470) only adds a label to the exchange and is left out;
  * `isSend` is not needed when steps are atomic: a distributed exchange is no longer stored.
* `Net/Multi.lean`: C14: several DNS queries and answers on one TCP socket (network_analyzer.go:584-650, dns_parser.go:47-57).
* `Net/Pool.lean`: The records that are used again and again, by all the goroutines at once.

  datagroup_pool.go, data_group.go, `distributeRecords` (network_analyzer.go:480-492) and
  `ReceiveDataGroupAsSignal` (send_trigger.go:25-58).  A goroutine takes a record out of the pool,
  writes into it, merges the parser's attributes, hands it to the consumers and puts it back; the
  consumer of the CPU analyzer keeps a clone of it.  The values are behind pointers and nothing is
  locked: what a goroutine reads in its record, and what a clone says later, depends on nobody else
  having a pointer to the same value.  The memory is that of `Model/Attr.lean`, so a record is two
  maps of pointers (labels and metrics), a name and a time.

  Simplified: an action is one call on one record or map, and the actions of different goroutines
  come in any order; `sync.Pool` gives out any record that is in it, or a new one, and may forget
  records (`gc`); a record that a goroutine neither frees nor uses again (the early `return nil` of
  `parseMultipleRequests`) just stays with it.  Metrics are integers, as in all records of this pool.
* `Net/Props.lean`: C06 (atomic steps), C07, C10, C11: the exchange monitor of the network analyzer.
* `Net/Record.lean`: The record of an exchange, and the pool the records come from.

  `getRecords`, `getRecordWithSinglePair`, `getConnectFailRecords` (network_analyzer.go:652-803),
  `addProtocolPayload` (830-838), `GetPayloadString` (protocol_parser.go:500-520) and
  datagroup_pool.go.  Labels are the plain maps of `Model/Attr.lean`; its theorem `attribute_maps_partial`
  is what allows this (`Merge` gives up the parser's map).

  Simplified: labels only (the seven times and sizes are `latency_parts_reported` and
  `merged_counts_exact`); Go strings made of payload bytes go through a function `text` of which
  nothing is assumed; the two record functions set the labels in the same way, so one function
  models both, with the slow flag they compute differently as input.
* `Net/Refine.lean`: The exchange monitor refines, socket by socket, a machine that keeps plain event lists.
  Helper file for C06, C07, C10, C11 (stated in Verif/Net/Props.lean).
* `Net/Udp.lean`: Model of udp_cache.go and of the UDP part of network_analyzer.go (DNS over UDP), the steps of the event
  consumer and the passes of the scanner taken atomically.  What the parsers do with the payload is modelled in
  Verif/Proto/Dns.lean; here a request or response event carries the transaction id they found.
  `κ` is the type of socket keys (udp_cache.go:80-98, a comparable struct).
* `Net/UdpProps.lean`: C13, and the UDP half of C14: DNS over UDP.
* `Net/Wire.lean`: What is on the wire of a connection, and what the network analyzer reports of it.
  network_analyzer.go:302-478, message_pair.go.
* `Proc/Aggregate.lean`: Configuration of the aggregation (component/consumer/processor/aggregateprocessor/processor.go, config.go), and the
  labels of the exported metrics after aggregation: the selectors of the processor together with the dictionaries of the
  exporter.
* `Proc/K8s.lean`: Kubernetes labels of data groups.  component/consumer/processor/k8sprocessor/kubernetes_processor.go.

  Simplified: a label has one type in all groups, so labels are three typed maps and the type assertions of
  `UpdateAdd...Value` do not fail; label names are an enumeration (`SL.text` gives the strings, which are distinct).
  The lookups are arbitrary functions (`Meta`); `metaOf` takes them from a cache.
* `Proc/K8sTable.lean`: All Kubernetes labels of a data group as a table: who the source and the destination are, and the value of
  every label.  kubernetes_processor.go, model in K8s.lean.
* `Proc/Sampling.lean`: Sampling and aggregation of records (component/consumer/processor/aggregateprocessor/processor.go) and traffic between
  nodes (component/consumer/processor/nodemetricprocessor/node_metric_processor.go).
* `Proto/Codec.lean`: C16, C17: round trips of the variable-length integers and of the Kafka strings.  The encoders are written from
  the Kafka protocol guide, independently of the readers.
* `Proto/Dns.lean`: Model of collector/pkg/component/analyzer/network/protocol/dns.

  Simplifications, for the whole file: offsets are natural numbers (they are never negative where they are used);
  a returned error carries no offset (every caller drops it).
* `Proto/DnsMsg.lean`: C19, C61: DNS messages.  The encoders are written from RFC 1035, section 4.1.
* `Proto/DnsProps.lean`: C18, C19: decoding of DNS names and answers.  The specification below is RFC 1035, sections 3.1, 4.1.3, 4.1.4 and
  5.1, written independently of the code.
* `Proto/Dubbo.lean`: Model of collector/pkg/component/analyzer/network/protocol/dubbo.
  Properties C24 (status), C65 (service and method), and the Dubbo part of C21.
* `Proto/Frame.lean`: Model of collector/pkg/component/analyzer/network/protocol/protocol_parser.go:373-482: the parser trees.

  Simplifications, for the whole file:
  * a tree has a root and leaves only (none of the parsers in the repository nests deeper);
  * the attribute map is a finite map from byte strings; the L4 protocol of the message is not kept.
* `Proto/Http.lean`: Model of collector/pkg/component/analyzer/network/protocol/http.
  Properties C22 (responses), C31 (trace headers of whole requests), C62 (requests), and the HTTP part of C21.
* `Proto/Kafka.lean`: Model of collector/pkg/component/analyzer/network/protocol/kafka.
  Properties C23 (headers), C67 (topics and error codes).
* `Proto/Mysql.lean`: Model of collector/pkg/component/analyzer/network/protocol/mysql.
  Property C64 (statements and error codes) and the MySQL part of C21.
* `Proto/ReaderProps.lean`: C15, C16, C17: payload readers.
* `Proto/Readers.lean`: Model of collector/pkg/component/analyzer/network/protocol/protocol_parser.go: the payload readers.

  Simplifications, for the whole file:
  * Go `int` is unbounded (offsets and lengths are far below 2^63);
  * an error result carries no offset (the code returns -1 with every error);
  * slicing beyond `len` counts as a panic even where the capacity would allow it.
* `Proto/Redis.lean`: Model of collector/pkg/component/analyzer/network/protocol/redis.
* `Proto/RedisProps.lean`: C20 (and the Redis part of C21): RESP payloads.
* `Proto/Rocketmq.lean`: Model of collector/pkg/component/analyzer/network/protocol/rocketmq.
  Properties C66, the RocketMQ parts of C24 and C21.

  Simplifications, for the whole file:
  * `encoding/json` is a parameter: from bytes to a header or failure;
  * the two tables of texts (rocketmq_api.go:16-112, 115-160) are parameters; the proofs hold for any tables.
* `Tcp/Connect.lean`: TCP connect attempts: tcpconnectanalyzer/internal/connection_stats.go, state_machine.go,
  connect_monitor.go and analyzer.go.

  Simplified: events are given after their attributes have been read (an event with a missing attribute is
  answered with an error and changes nothing, connect_monitor.go:43-46, 118-127, 169-181; the decoding is in
  `Verif.Tcp.Report`).  The content of /proc/<pid>/net/tcp is an input of the sweep.
* `Tcp/Metric.lean`: The TCP metrics: `collector/pkg/component/analyzer/tcpmetricanalyzer/tcp_analyzer.go`, the numbers in event parameters
  (`model/kindling_event_helper.go:56-75, 316-342`), and what the probe puts into the events
  (`probe/src/cgo/kindling.cpp:357-370, 388-427, 764-797`).
* `Tcp/Proc.lean`: /proc/<pid>/net/tcp as read by the TCP connect sweep: tcpconnectanalyzer/internal/net_ip_socket.go and
  the address text of events, model/kindling_event_helper.go.

  Simplified: a line is given as its fields (strings.Fields); an address is the list of its bytes rather than
  their dotted text (net.IP.String of a 4-byte address is the same function on both sides).
* `Tcp/Report.lean`: From the events of the probe to the reports on connect attempts: the decoding of
  `tcpconnectanalyzer/internal/connect_monitor.go:41-216, 299-340`, the filter and the dispatch of
  `tcpconnectanalyzer/analyzer.go:92-157`, and the data groups of `analyzer.go:159-234`.  The life of the attempts is in
  `Verif.Tcp.Connect`.
* `Tools/Ip.lean`: Model of the IPv4 text conversions and property C27.
* `Tools/Sql.lean`: Model of collector/pkg/component/analyzer/network/protocol/mysql/tools/sql_merger.go (property C63).

  The regular expressions are written out by hand:
  * `(?i)(^\s*)T(.*)` matches iff the text starts with white space and then `T`, letters compared without case;
  * `(?i)(?m)(K1|K2..)(\s+(\S*)\s*|\n)`: the leftmost occurrence of a key word that is followed by white space, and
  the longest run of other characters after the longest run of white space (Go's matching is leftmost and greedy).
  Letters are ASCII letters; Go also lets two characters outside ASCII stand for `k` and `s`.
* `Tools/Text.lean`: Model of collector/pkg/component/analyzer/tools/ascii.go and utf8.go, and the properties C28, C29.
* `Tools/Trace.lean`: Model of collector/pkg/component/analyzer/tools/traceid_parser.go.
* `Tools/Url.lean`: Model of collector/pkg/urlclustering and property C30.

## Properties

For each property its status, what is proved and what is not, and the theorems with the axioms they depend on (p: propext, c: Classical.choice, q: Quot.sound, -: none).

### C01 Aggregation conserves sums and counts across dumps (partial)

For a metric aggregated with kind `sum` or `count`, adding up the values of that metric in every series of every dump, plus what the next dump would return, gives exactly the total (or number) of the values handed to Aggregate for that group: nothing is lost or counted twice, however Aggregate and Dump calls alternate.

*Holds for every history in which each record of a series carries the metrics of its first record; the negation without that condition is proved with a witness.*

* `Kindling.Agg.sum_conserved_partial` [cpq] (Agg/Props.lean): Take any history of Aggregate / Dump / DumpSingle calls that ends with a Dump and does not crash. If the configuration produces output `o` from metric `m` with kind `sum` (and from nothing else) and every record of group `name` carries `m`, then the values of `o` over all dumped series of the group add up to exactly the values recorded. (Missing: without the condition that every record carries `m` the claim is false, `sum_not_conserved_when_metric_appears_later`.)
* `Kindling.Agg.count_conserved_partial` [cpq] (Agg/Props.lean): same for kind `count`; what is conserved is the number of recorded values (missing: the same).
* `Kindling.Agg.sum_not_conserved_when_metric_appears_later` [cpq] (Agg/Props.lean): The hypothesis "every record carries `m`" is needed: when the first record of a series lacks a metric, later values of this metric are dropped (value_recorder.go:26-27 documents this), so full conservation is false of the code.

### C02 Each dumped series equals its aggregation function (partial)

For every series in a dump, the value reported under an output name equals the configured function (sum, max, avg, last, count) applied to the list of all values recorded for this series since the previous dump, in order.

*The maximum of negative values is exported as 0; all other functions and the maximum of values of which one is non-negative are proved.*

* `Kindling.Agg.dump_series_values_partial` [cpq] (Agg/Props.lean): After any history, a Dump returns exactly one group per series with records since its last dump, and this group carries the specified aggregate of exactly these records. Partial only in the `max` kind, which is claimed when the largest value is not negative: see `max_of_negative_values_is_zero`.
* `Kindling.Agg.dump_series_exact_partial` [cpq] (Agg/Exact.lean): After any history, a Dump returns exactly one group per series with records since its last dump, and this group is exactly as configured (`Exact`). (Missing: `max` over negative values, see `max_of_negative_values_is_zero`; histograms with other boundaries, see `histogram_other_boundaries_merged`.)
* `Kindling.Agg.max_of_negative_values_is_zero` [cpq] (Agg/Props.lean): The code violates C02 for kind `max`: the accumulator starts at 0 (agg_values.go:172-176), so the maximum of negative values is reported as 0.
* `Kindling.Agg.int_history_never_panics` [cpq] (Agg/Props.lean): integer records alone never crash the aggregator: every history whose metrics are integers and whose configured kinds are arbitrary runs to completion.
* `Kindling.Agg.avg_without_value_panics` [cpq] (Agg/Props.lean): A metric without data configured as `avg` makes the next Dump crash (integer division by zero, agg_values.go:238), so the hypothesis of `int_history_never_panics` cannot be dropped.

### C03 Histogram buckets count values below each boundary (proved)

After any sequence of recorded values and merged histograms with the same boundaries, bucket i equals the number of values less than or equal to boundary i, `count` is the number of values, `sum` their sum; with ascending boundaries the buckets are non-decreasing and never exceed count.  Merging two histograms gives the histogram of the concatenated values.

*Merging histograms with other boundaries of the same length is a finding, shown by a witness.*

* `Kindling.Agg.histogram_of_all_values` [cpq] (Agg/HistProps.lean): whatever mixture of single values and merged histograms is recorded, in any order and grouping, the accumulator is the histogram of all the values, and nothing crashes.
* `Kindling.Agg.histogram_buckets_monotone` [cpq] (Agg/HistProps.lean): with ascending boundaries, the reported buckets are non-decreasing and never exceed the reported count.
* `Kindling.Agg.histogram_mismatch_ignored` [p] (Agg/HistProps.lean): a histogram over a different number of boundaries is rejected and changes nothing.
* `Kindling.Agg.histogram_other_boundaries_merged` [-] (Agg/HistProps.lean): Disagreement: only the number of boundaries is compared (agg_values.go:333), so a histogram over other boundaries is merged and the buckets no longer count the values below their boundaries.

### C04 Records share a series exactly when the selected labels agree (proved)

With at most 37 label selectors, two records fall into the same series if and only if they agree on the value of every selected label (absent or mistyped labels reading as the zero value), and the labels of a dumped series are exactly these values.

*Up to 37 selectors; the bound is shown sharp.*

* `Kindling.Agg.same_series_iff` [cpq] (Agg/LabelProps.lean): with at most 37 selectors, two label sets get the same key iff they agree on every selected label.
* `Kindling.Agg.series_labels` [cpq] (Agg/LabelProps.lean): the labels of a dumped series are exactly the selected labels with the values they were recorded with.
* `Kindling.Agg.label_keys_shape` [cpq] (Agg/Exact.lean): The key always has 37 entries: those of the first 37 selectors, then blank ones (label_key.go:31-59).
* `Kindling.Agg.selector_38_is_ignored` [cpq] (Agg/LabelProps.lean): The bound 37 is sharp: a 38th selector is ignored, so records that differ in it share a series.

### C05 Cumulative aggregator keeps live series and drops expired ones (partial)

After any history, the exported value of a cumulative series equals the aggregate of all records for this series since it was last created, and a DumpAndRemoveExpired at time t removes exactly the series whose last update is older than the expiration duration.

*For label sets of at most 37 labels; more labels panic, proved.*

* `Kindling.Agg.cumulative_tracks_live_series_partial` [cpq] (Agg/Cumulative.lean): after any history, a series is tracked iff it has live records (recorded, and never left without update for longer than the expiration at a dump since), and it then holds exactly the accumulation of all of them, not only of those since the last dump. (Missing: histories that panic, which is what a record of more than 37 labels does, `cumulative_panics_beyond_37_labels`.)
* `Kindling.Agg.dump_removes_exactly_expired` [cpq] (Agg/Cumulative.lean): `DumpAndRemoveExpired` at time `now` removes exactly the series whose last update is older than the expiration and leaves all others untouched.
* `Kindling.Agg.cumulative_dump_exports_all` [cpq] (Agg/Cumulative.lean): every tracked series is exported by every dump, including the one that expires it.
* `Kindling.Agg.all_labels_same_series_iff` [cpq] (Agg/AllLabels.lean): two label sets of at most 37 named labels share a cumulative series iff they hold the same labels with the same typed values.
* `Kindling.Agg.all_labels_key_canonical` [cpq] (Agg/AllLabels.lean): whatever order the sort works in, the key is the same: every permutation of the filled slots that is ordered by name equals the modelled one.
* `Kindling.Agg.cumulative_panics_beyond_37_labels` [cpq] (Agg/Cumulative.lean): A label set with more than 37 entries crashes the cumulative aggregator (label_key.go:112-124 indexes a 37-element array without a bound check).

### C06 A message pair is reported at most once (partial)

Whatever the interleaving of the event consumer and the timeout scanner, a request/response exchange kept by the network analyzer produces its records at most once, and it is never removed from the monitor without being reported.

*Every interleaving of consumer and scanner. Findings proved beside it: a request racing with the scanner is lost before it is stored, a flushed exchange can be stored again and blocks its socket for ever, an HTTP 100-continue exchange is lost on timeout.*

* `Kindling.Net.Conc.reported_at_most_once` [cpq] (Net/ConcProps.lean): whatever the interleaving, no exchange is handed to the next consumer twice.
* `Kindling.Net.Conc.stored_exchange_reported_or_pending_partial` [cpq] (Net/ConcProps.lean): an exchange that was ever stored in the monitor is, whenever both goroutines are between events, either still stored under its socket (and not yet reported) or it has been reported exactly once. (Missing: "reported" means handed to `distributeTraceMetric`; an exchange of an HTTP 100-continue response yields no record there, `continue_exchange_lost_on_timeout`.)
* `Kindling.Net.Conc.only_stored_exchanges_reported` [cpq] (Net/ConcProps.lean): nothing is reported that was not stored before.
* `Kindling.Net.monitor_never_panics` [cpq] (Net/Props.lean): No sequence of events and scans makes the monitor dereference nil.
* `Kindling.Net.each_request_in_one_exchange` [cpq] (Net/Props.lean): every request event of a socket is in exactly one exchange, in order: the exchanges that left the monitor and the one still stored, taken together, hold exactly the request events of the socket. Each exchange is the merge of its event lists.
* `Kindling.Net.Conc.request_lost_in_race` [cpq] (Net/ConcProps.lean): one whose arrival coincides with the flush of the previous exchange is neither stored nor reported (network_analyzer.go:446-449).
* `Kindling.Net.Conc.stuck_socket_never_reports` [cpq] (Net/ConcProps.lean): Once an already reported exchange is stored again, its socket is lost for good: in every continuation the same exchange stays stored and nothing on that socket is ever reported again.
* `Kindling.Net.Conc.socket_can_be_lost` [cpq] (Net/ConcProps.lean): Such a state is reachable: after `zombieRun` no continuation ever reports anything on the socket.
* `Kindling.Net.continue_exchange_lost_on_timeout` [p] (Net/Props.lean): an HTTP 100-continue exchange that runs into the timeout scan disappears without any record, request included.
* `Kindling.Net.Conc.atomic_run_is_schedule` [cpq] (Net/ConcSeq.lean): whatever the atomic monitor does with a list of events and scans, some schedule of the two goroutines does: it ends between events with the same stored exchanges, the same gauge, and has reported the same exchanges in the same order.
* `Kindling.Net.Limits.connect_split` [cpq] (Net/Limits.lean): two connect events of a socket belong to different attempts exactly if the second one is later than the start of the first by more than the limit or comes from another port; an event from before the start belongs to the same attempt.
* `Kindling.Net.Limits.connect_event` [pq] (Net/Limits.lean): what becomes of a connect event: a new exchange if the socket has none; if the exchange of the socket has nothing but a connect of the same attempt, the event takes the place of that connect; otherwise that exchange is reported and the event starts a new one.

### C07 Message-pair gauge equals the number of stored exchanges (partial)

At every quiescent point the published tcp message-pair size equals the number of exchanges that are in the request monitor.

*The claim holds when events are handled atomically; under interleaving the gauge counts the stored exchanges not yet reported, and the full claim is refuted by a reachable state.*

* `Kindling.Net.Conc.gauge_counts_unreported_partial` [cpq] (Net/ConcProps.lean): between events the gauge is the number of stored exchanges not yet reported. (Missing from the full claim: `gauge_disagrees_with_map` — the map can also hold an exchange that was already reported.)
* `Kindling.Net.gauge_is_number_of_exchanges_partial` [cpq] (Net/Props.lean): with atomic steps the published size is the number of stored exchanges, one per socket.
* `Kindling.Net.Conc.gauge_nonneg` [cpq] (Net/ConcProps.lean): the gauge is never negative between events.
* `Kindling.Net.Conc.gauge_disagrees_with_map` [cpq] (Net/ConcProps.lean): between events the gauge can be 0 while the monitor stores an exchange.
* `Kindling.Net.Conc.atomic_run_is_schedule` [cpq] (Net/ConcSeq.lean): whatever the atomic monitor does with a list of events and scans, some schedule of the two goroutines does: it ends between events with the same stored exchanges, the same gauge, and has reported the same exchanges in the same order.

### C08 Merged payload is a bounded prefix, byte counts are exact (proved)

After merging any sequence of fragments of one direction, the kept payload is a prefix of the concatenation of the fragments and at most the configured snap length (or the first fragment, if longer), the reported byte total is the exact sum of syscall results, and the kept event list starts with the first fragment.

*All fragment sequences and snap lengths.*

* `Kindling.Net.merged_payload_prefix` [pq] (Net/Merge.lean): the kept payload of a direction is a prefix of the concatenated fragments, its length is exactly what fits: everything, or the larger of the snap length and the first fragment.
* `Kindling.Net.merged_counts_exact` [pq] (Net/Merge.lean): byte total exact, events kept in order from the first one (at most ten), the exchange ends at its last fragment.
* `Kindling.Net.request_bytes_conserved` [cpq] (Net/Props.lean): when no exchange is an HTTP 100-continue, request bytes reported plus bytes of the stored exchange equal the bytes of all request events of the socket.

### C09 Latency components add up (proved)

For an exchange whose request precedes its response, request-sent time, time to first byte, content download time add up to the total request duration reported.

*Modulo 2^64 always, as integers for ordered time stamps.*

* `Kindling.Net.latency_parts_add_up` [cpq] (Net/Merge.lean): sent, waiting and download time always add up to the duration modulo 2^64, whatever the timestamps.
* `Kindling.Net.latency_parts_reported` [cpq] (Net/Merge.lean): for an exchange in time order (request first, syscalls start before they end, all before 2^63 ns) the three reported components are non-negative and add up to the reported duration, which is the end of the response minus the start of the request.
* `Kindling.Net.Limits.unanswered_times` [p] (Net/Limits.lean): an exchange without a response: no time to wait for, to download or in total, no bytes received.
* `Kindling.Net.Limits.connect_only_times` [p] (Net/Limits.lean): an exchange without a request: no time to send, no bytes sent.
* `Kindling.Net.Limits.no_connect_time` [p] (Net/Limits.lean): an exchange without a connect event took no time to connect.

### C10 Exchanges on different sockets do not interfere (proved)

Processing an event for one (pid, fd) leaves the stored exchange of every other (pid, fd) unchanged, and the records produced for a socket depend only on the sub-sequence of events of this socket.

*Refinement of the monitor to independent per-socket machines.*

* `Kindling.Net.other_socket_untouched` [cpq] (Net/Props.lean): an event of another socket changes nothing for this socket and reports nothing for it.
* `Kindling.Net.socket_depends_on_own_events` [cpq] (Net/Props.lean): what is stored and reported for a socket depends only on its own events and on the scans.

### C11 Timeout scan flushes exactly the expired exchanges (proved)

A timeout scan reports an exchange iff it has a response and is at least FdReuseTimeout seconds old, or it is at least NoResponseThreshold seconds old; every other exchange remains stored, unchanged.

*Per scan, for every reachable monitor state.*

* `Kindling.Net.scan_flushes_exactly_expired` [cpq] (Net/Props.lean): a scan takes an exchange out iff it is old enough, outputs it, and leaves every other one as it is. `age` counts whole seconds; exchanges at time 0 (no timestamp) are never taken.
* `Kindling.Net.Limits.default_flush` [pq] (Net/Limits.lean): with nothing configured a scan flushes an answered exchange 15 seconds after its last event, and any exchange after 120 seconds.
* `Kindling.Net.Limits.configured_flush` [p] (Net/Limits.lean): a configured limit is used as it is.

### C12 Slow flag follows the configured threshold (proved)

A request is labelled slow iff its duration is at least the threshold in milliseconds configured for its protocol, or else the global default threshold; a non-positive configured threshold falls back to the default.

*All durations and tables.*

* `Kindling.Net.slow_iff` [cpq] (Net/Merge.lean): the slow label follows the threshold configured for the protocol, else the global one, else 500 ms; durations below 2^63 ns.

### C13 DNS-over-UDP cache counts its outstanding queries (partial)

For a UDP socket, the outstanding counter always equals the number of queries stored, so that the socket's cache is dropped exactly when no query is outstanding.

*The counter is exact when no query repeats an outstanding id; otherwise the cache of the socket is never dropped again, proved for every continuation.*

* `Kindling.Net.Udp.udp_counter_exact_partial` [cpq] (Net/UdpProps.lean): the counter of a socket is the number of its outstanding queries, and the socket has a cache exactly while a query is outstanding. (Without the condition the claim is false: `repeated_id_leaks_cache`.)
* `Kindling.Net.Udp.repeated_id_leaks_cache` [cpq] (Net/UdpProps.lean): once a query repeats the id of an outstanding query, the counter of the socket is too large for ever, so that the cache of the socket is never dropped, whatever happens later.
* `Kindling.Net.Udp.udp_each_id_on_its_own` [cpq] (Net/UdpProps.lean): the whole UDP monitor is, for each socket and transaction id, a one-place cell: a query fills it (replacing an unanswered one), the next response with this id or the timeout empties it and reports the query. Both what is stored and what is reported agree with this, for every history.
* `Kindling.Net.Udp.repeated_query_not_reported` [p] (Net/UdpProps.lean): The first of two queries with the same id is never reported.
* `Kindling.Net.Udp.Conc.udp_query_lost_in_race` [-] (Net/UdpProps.lean): A query sent while the scanner drops the empty cache of its socket is lost: not stored, not reported.
* `Kindling.Net.Limits.udp_given_up` [p] (Net/Limits.lean): a DNS query over UDP is given up 120 seconds after it was sent, or after the configured time.
* `Kindling.Net.Udp.Conc.act_agrees` [pq] (Net/Limits.lean): queries and answers do to the cache of one socket what they do in the monitor of all sockets.

### C14 DNS response is attributed to the query with its id (partial)

For several DNS queries and responses on one socket, every reported response is attributed to a query with the same transaction id, each query is reported exactly once, and a query without response is reported as having no response.

*Attribution holds always; exactly-once reporting needs distinct answers, refuted otherwise. UDP queries can be reported twice when the scanner interleaves.*

* `Kindling.Net.Multi.dns_responses_attributed` [pq] (Net/Multi.lean): when the exchange is recognised, every response, in order, yields one record, attributed to a query with the same transaction id and domain; the other records have no response and are exactly one per query that got no response.
* `Kindling.Net.Multi.dns_no_response` [pq] (Net/Multi.lean): with no response at all each query is reported exactly once, without response, in order.
* `Kindling.Net.Multi.dns_each_query_once_partial` [cpq] (Net/Multi.lean): each query is reported exactly once. (Otherwise a query can be reported twice: `dns_query_reported_twice`.)
* `Kindling.Net.Multi.dns_recognised_iff` [pq] (Net/Multi.lean): The exchange is recognised as DNS exactly when every message parses and every response answers one of the queries.
* `Kindling.Net.Multi.dns_query_reported_twice` [pq] (Net/Multi.lean): the query is reported twice.
* `Kindling.Net.Multi.dns_repeated_query_unanswered` [pq] (Net/Multi.lean): A repeated query is reported as unanswered although there is an answer for each copy.
* `Kindling.Net.Udp.udp_response_attributed` [cpq] (Net/UdpProps.lean): a reported response is attributed to a query that was sent on the same socket with the same transaction id, and a report without response concerns a query that was sent.
* `Kindling.Net.Udp.Conc.udp_query_reported_twice` [-] (Net/UdpProps.lean): A query answered while the scanner times it out is reported twice.

### C15 Payload readers never read outside the payload (partial)

The fixed-width, string, array-size and until-delimiter readers given any payload and any non-negative offset either return an error or return data inside the payload with a new offset that is not smaller than the old one and at most the payload length; they never panic.

*Every reader, every payload and offset. ReadUntilBlankWithLength and ReadUntilBlank need a start within the payload and panic otherwise, proved.*

* `Kindling.Proto.number_readers_safe` [pq] (Proto/ReaderProps.lean): the number readers, for every payload and every offset: an error, or the new offset lies behind the old one and inside the payload.
* `Kindling.Proto.string_readers_safe` [cpq] (Proto/ReaderProps.lean): the string and byte readers, for every payload, offset and length.
* `Kindling.Proto.readUntilCRLF_safe` [cpq] (Proto/ReaderProps.lean): reading up to CR LF, for every payload and offset.
* `Kindling.Proto.readUntilBlank_safe_partial` [cpq] (Proto/ReaderProps.lean): reading up to a blank. Beyond the payload these two readers panic: `readUntilBlank_panics`.
* `Kindling.Proto.readUntilBlank_panics` [pq] (Proto/ReaderProps.lean): reading up to a blank panics there, for every payload.
* `Kindling.Proto.getData_piece` [cpq] (Proto/Codec.lean): a piece of the payload: the bytes from the offset on, as many as asked for and available.

### C16 Variable-length integers decode what was encoded (proved)

For every 32-bit value, decoding its LEB128 encoding (at any position of a payload, followed by any bytes) yields this value and advances by the length of the encoding; signed values round-trip via zigzag; at most five bytes are consumed.

*All 35-bit numbers, all surrounding bytes.*

* `Kindling.Proto.varint_roundtrip` [cpq] (Proto/Codec.lean): every 35-bit number (in particular every 32-bit one), encoded anywhere in a payload, is decoded, and the offset moves by the length of the encoding, which is at most five bytes.
* `Kindling.Proto.varint_signed_roundtrip` [cpq] (Proto/Codec.lean): signed numbers, through zigzag.
* `Kindling.Proto.varint_at_most_five` [cpq] (Proto/Codec.lean): whatever the payload, at most five bytes are consumed.

### C17 Kafka strings decode what was encoded (partial)

A Kafka string / nullable string / compact string encoded at an offset of a payload is decoded to exactly the encoded bytes, with the offset moved behind it.

*Compact strings followed by exactly one byte swallow it, proved for all such strings.*

* `Kindling.Proto.string_roundtrip` [cpq] (Proto/Codec.lean): strings.
* `Kindling.Proto.nullable_string_roundtrip` [cpq] (Proto/Codec.lean): nullable strings.
* `Kindling.Proto.compact_string_roundtrip_partial` [cpq] (Proto/Codec.lean): (In that case the reader takes this byte as part of the string: `compact_string_off_by_one`.)
* `Kindling.Proto.compact_nullable_roundtrip_partial` [cpq] (Proto/Codec.lean)
* `Kindling.Proto.compact_string_off_by_one` [cpq] (Proto/Codec.lean): that byte is added to the string.

### C18 DNS name decoding is total, bounded and correct (proved)

Decoding a DNS name terminates without panic on every message, follows at most 126 compression pointers, yields a presentation name of bounded length, and inverts the uncompressed wire encoding of every list of legal labels.

*Decoding succeeds exactly on names encoded per the relational spec NameAt (pointers included), for every message and offset.*

* `Kindling.Proto.Dns.unpack_iff` [cpq] (Proto/DnsProps.lean): decoding a name succeeds exactly when a name is encoded at the offset, with at most 126 pointers and within 255 octets; the result is its presentation and the offset behind its encoding. In every other case the result is an error: there is no panic, whatever the message and offset.
* `Kindling.Proto.Dns.unpack_inverts_wire` [cpq] (Proto/DnsProps.lean): every legal name, written without compression anywhere in a message, is decoded to its presentation.
* `Kindling.Proto.Dns.unpack_bounded` [cpq] (Proto/DnsProps.lean): the text never exceeds the 1004 bytes (`maxDomainNamePresentationLength`) allocated for it.
* `Kindling.Proto.Dns.nameText_inj` [cpq] (Proto/DnsProps.lean): the text determines the name (labels are not empty), so decoding loses nothing.

### C19 All A records of a DNS answer are reported (partial)

For a well-formed answer section with n A records, the reported ip list contains all n addresses in order.

*The code skips two bytes too many after an A record: with two A records only the first is reported, proved.*

* `Kindling.Proto.Dns.first_address_reported_partial` [cpq] (Proto/DnsMsg.lean): if the answer section holds exactly one A record, as the last of any number of records (aliases and so on), its address is what is reported; the first A record is in any case reported first, whatever follows it. Missing: further A records, see `second_address_lost`.
* `Kindling.Proto.Dns.no_address_reported` [pq] (Proto/DnsMsg.lean): nothing is reported.
* `Kindling.Proto.Dns.second_address_lost` [cpq] (Proto/DnsMsg.lean): of two A records (time to live of the second below 65536 seconds) only the first address is reported, whatever the addresses and the rest of the message.

### C20 Redis request decoding inverts RESP encoding (partial)

For every non-empty list of bulk strings, the RESP array encoding is parsed completely, consuming exactly the encoding; the reported command is built from the first strings; every frame parser makes progress so parsing terminates.

*Any list of frames without CR in texts. Strings with CR, strings cut by the capture, and the choice of the first command fail of the code: each negation is proved for all such payloads.*

* `Kindling.Proto.Redis.redis_request_parsed_partial` [cpq] (Proto/RedisProps.lean): every non-empty list of client frames without carriage returns in their texts is parsed completely; the command reported (also as content key) is the last of the strings that names a command.
* `Kindling.Proto.Redis.redis_response_parsed_partial` [cpq] (Proto/RedisProps.lean): parsed completely; an error iff some error frame carries a text, the first one being reported. But a string of the response that names a command replaces the command of the request.
* `Kindling.Proto.Redis.redis_terminates` [cpq] (Proto/RedisProps.lean): on every non-empty payload the loops end, without panic, with success or failure.
* `Kindling.Proto.Redis.string_with_cr_not_recognised` [cpq] (Proto/RedisProps.lean): RESP strings are binary safe, but a request with a carriage return in any of its strings is not recognised.
* `Kindling.Proto.Redis.truncated_string_not_recognised` [cpq] (Proto/RedisProps.lean): if the capture ends inside a bulk string (before the last byte of its text), the request is not recognised as Redis, whatever came before.
* `Kindling.Proto.Redis.later_command_wins` [cpq] (Proto/RedisProps.lean): `CONFIG GET key` and the like are reported as `GET`: the two-word commands of the table never match, and a later string that names a command wins.
* `Kindling.Proto.Redis.isCommand_iff` [cpq] (Proto/RedisProps.lean): a string is taken for a command iff, in capitals, it is one of the documented names.
* `Kindling.Proto.Redis.upper_letters` [p] (Proto/RedisProps.lean): The letters only: `a` to `z` become `A` to `Z`, every other byte stays.
* `Kindling.Proto.Redis.two_word_command_lost` [cpq] (Proto/RedisProps.lean): a command of two words is reported under an argument, or not at all: `CONFIG GET x` is reported as `GET`, and `CLIENT LIST` has no command.

### C21 Protocol parsers do not panic on arbitrary payloads (partial)

Fast-fail checks and parsers of MySQL, Redis, Dubbo, HTTP and RocketMQ return success or failure for every payload, including empty and truncated ones; none of them indexes outside the payload.

*HTTP, RocketMQ and Kafka never panic. The negations are proved universally: MySQL error packets of 6 or 7 bytes, empty Redis payloads, Dubbo JSON requests with a one-byte second line.*

* `Kindling.Proto.Http.http_never_panics` [cpq] (Proto/Http.lean): no payload makes either parser panic.
* `Kindling.Proto.Mysql.mysql_never_panics_partial` [cpq] (Proto/Mysql.lean): no other payload makes the parsers panic.
* `Kindling.Proto.Mysql.mysql_short_error_panics` [cpq] (Proto/Mysql.lean): an error packet cut before the text makes the response parser panic.
* `Kindling.Proto.Redis.redis_terminates` [cpq] (Proto/RedisProps.lean): on every non-empty payload the loops end, without panic, with success or failure.
* `Kindling.Proto.Redis.redis_empty_panics` [cpq] (Proto/RedisProps.lean): the empty payload panics (the analyzer drops events without data before).
* `Kindling.Proto.Dubbo.dubbo_never_panics_partial` [cpq] (Proto/Dubbo.lean): no response, and no request in another serialisation than JSON, makes the parser panic.
* `Kindling.Proto.Dubbo.dubbo_json_panics` [cpq] (Proto/Dubbo.lean): a two-way JSON request whose second line has a single byte makes the parser panic.
* `Kindling.Proto.Rocketmq.rocketmq_never_panics` [cpq] (Proto/Rocketmq.lean): no payload makes the parsers panic, and the loop over the fields ends.
* `Kindling.Proto.Kafka.kafka_never_panics` [cpq] (Proto/Kafka.lean): no payload makes the parsers panic.

### C22 HTTP status decides the error label (proved)

A well-formed HTTP/1.x response with status code s sets http_status_code to s, marks the record as error iff s >= 400, and as a continue response iff s = 100.

*Every three-digit code followed by a blank; without that blank the response is not recognised (RFC 7230 requires the blank).*

* `Kindling.Proto.Http.http_response_parsed` [cpq] (Proto/Http.lean): of every response with a status line `HTTP/1.x code reason` the code is reported; the record is an error iff the code is at least 400, and a continue response iff it is 100.
* `Kindling.Proto.Http.no_reason_not_recognised` [cpq] (Proto/Http.lean): A status line without the blank after the code (no reason phrase; RFC 7230 asks for the blank) is read together with the line break and two more bytes, and not recognised.
* `Kindling.Proto.Http.http_status_range` [cpq] (Proto/Http.lean): of a status of at most five digits only those from 99 to 999 are reported, any other as 0.
* `Kindling.Proto.Http.split_get` [cpq] (Proto/Http.lean): what is left of a GET whose first byte was in another packet is taken for it exactly if a blank and a slash follow.

### C23 Kafka request and response are matched by correlation id and version (partial)

A Kafka request header is accepted iff its api key is known and its version lies in the supported range; the reported api, version and correlation id are the encoded ones.

*Requests with a client id; a null client id, which the wire format allows, is refused, proved.*

* `Kindling.Proto.Kafka.kafka_header_iff_partial` [cpq] (Proto/Kafka.lean): a request is refused if its header is not acceptable; a request other than Produce and Fetch is recognised iff its header is acceptable, and key, version and correlation id are reported.
* `Kindling.Proto.Kafka.valid_iff` [pq] (Proto/Kafka.lean)
* `Kindling.Proto.Kafka.response_run` [cpq] (Proto/Kafka.lean): a response is refused unless the record carries its correlation id.
* `Kindling.Proto.Kafka.kafka_response_matched` [cpq] (Proto/Kafka.lean): responses to requests other than Produce and Fetch are accepted iff the correlation ids agree.
* `Kindling.Proto.Kafka.null_client_refused` [cpq] (Proto/Kafka.lean): A request whose client id is null (length -1, as the wire format allows) is not recognised.

### C24 Dubbo and RocketMQ status codes decide the error label (proved)

A Dubbo response is labelled as error iff its status byte is above 20 (and unparsable headers give no code); a RocketMQ response is labelled as error iff its code is positive.

*Every status byte and every code.*

* `Kindling.Proto.Dubbo.dubbo_response_parsed` [cpq] (Proto/Dubbo.lean): the status byte of a response is reported, and the record is an error iff it is above 20. Heartbeats count as status 20.
* `Kindling.Proto.Dubbo.dubbo_not_response` [cpq] (Proto/Dubbo.lean): a request, or a header without serialisation id, gives no status.
* `Kindling.Proto.Rocketmq.rocketmq_response_parsed` [cpq] (Proto/Rocketmq.lean): a response is accepted for a record that carries the same identification; its code is reported, and the record is an error iff the code is positive.

### C25 Cached protocol parsers: no duplicates, generic last (partial)

After any sequence of additions and removals of cached parsers for a port, no parser occurs twice, the generic parser (if present) is the last tried, and exactly the parsers added and not removed since are present.

*Sequential histories hold in full; a reader holding a list from before an addition sees the new parser in place of the generic one, proved.*

* `Kindling.Net.Cache.add_refines` [cpq] (Net/Cache.lean): Adding is the list operation, on this port only.
* `Kindling.Net.Cache.remove_refines` [pq] (Net/Cache.lean): Removing never fails and is the list operation, on this port only.
* `Kindling.Net.Cache.cache_history_partial` [cpq] (Net/Cache.lean): Whatever parsers are added to and removed from whatever ports, and however the run time sizes arrays: no operation fails, no parser is listed twice for a port, the generic parser is the last of its list when it is in it, and a parser is listed for a port exactly when the latest operation naming the two was an addition.
* `Kindling.Net.Cache.reader_sees_add` [pq] (Net/Cache.lean): The list a reader goes through is not the list it was given: a reader that fetched the slice of a port ending with the generic parser sees, after the next new parser is added to the port with the same array large enough or not, that parser in the place of the generic one. (The `TODO` at network_analyzer.go:519 admits it.) So the reader can finish its list without trying the generic parser.
* `Kindling.Net.Cache.reader_keeps_on_remove` [pq] (Net/Cache.lean): Removing the generic parser — the only removal the analyzer does (network_analyzer.go:528) — does not disturb a reader holding the slice.

### C26 sendmmsg payloads are split into the original messages (partial)

For every list of messages encoded as size-prefixed fragments (the last one possibly truncated), the split events carry exactly these messages in order, each with its own size as result value, and keep all other event attributes.

*Everything except an empty last message, which is lost: proved.*

* `Kindling.Model.sendmmsg_partial` [cpq] (Model/Event.lean): A `sendmmsg` event whose data are messages, the last one possibly cut, becomes one event per message in order; each carries its message as data and its length as result, and has every other parameter and every other part of the event.
* `Kindling.Model.split_encode` [pq] (Model/Event.lean): Complete messages, the last of which is not empty, come back as they were.
* `Kindling.Model.split_truncated` [pq] (Model/Event.lean): The messages the probe captured of a call: complete ones, then possibly one of which the announced size and only a part of the bytes fitted in the buffer.
* `Kindling.Model.split_drops_empty_last` [pq] (Model/Event.lean): An empty message at the end is lost: the loop stops as soon as a size field ends the data.
* `Kindling.Model.resVal_signed` [pq] (Model/Event.lean): the result of a system call is its 8 bytes read as a signed number, least significant byte first; negative results are errors of the call.

### C27 IPv4 text form round-trips (proved)

Converting a 32-bit address to dotted text and parsing it back for conntrack gives the same address, for all addresses; distinct addresses have distinct texts.

*All 32-bit addresses.*

* `Kindling.Ip.ip_text_roundtrip` [cpq] (Tools/Ip.lean): the text form of every address is read back as this address.
* `Kindling.Ip.ip_bytes_roundtrip` [pq] (Tools/Ip.lean): the byte form too.
* `Kindling.Ip.ip_text_injective` [cpq] (Tools/Ip.lean): distinct addresses have distinct texts.
* `Kindling.Ip.ip_text_of_bytes` [pq] (Tools/Ip.lean): the first text element is the lowest byte: the code prints addresses in network order.
* `Kindling.Ip.ip_mapped` [pq] (Tools/Ip.lean): an IPv4 address in the form of an IPv6 address is the same address; any other address counts as none.
* `Kindling.Ip.ip_text_malformed` [cpq] (Tools/Ip.lean): a text with less than three dots is no address, and a part that is not a number counts as zero.
* `Kindling.Ip.ip_text_no_number` [pq] (Tools/Ip.lean)
* `Kindling.Ip.ip_text_spills` [cpq] (Tools/Ip.lean): a part above 255 is not refused but spills into the next part.

### C28 ASCII sanitising (proved)

The ASCII form of a payload has the same length, contains only printable ASCII, and keeps every byte that was printable.

*Every byte string.*

* `Kindling.Text.ascii_sanitised` [cpq] (Tools/Text.lean): same length; every byte is printable; printable bytes are kept, the others become `.`.
* `Kindling.Text.ascii_idempotent` [pq] (Tools/Text.lean): sanitising twice changes nothing more.

### C29 UTF-8 trimming returns valid text (partial)

Formatting a payload as UTF-8 returns a prefix of the input; the whole input if it is valid UTF-8; and the result is always valid UTF-8.

*Prefix proved for every input; valid text is cut at a two-byte character followed by ASCII, and the result may be invalid: both proved.*

* `Kindling.Text.utf8_prefix` [cpq] (Tools/Text.lean): the result is a prefix of the input, for every payload.
* `Kindling.Text.utf8_valid_kept_partial` [cpq] (Tools/Text.lean): nothing is cut. (Missing: the condition, see `two_byte_character_cut`.)
* `Kindling.Text.two_byte_character_cut` [cpq] (Tools/Text.lean): valid text is cut before the first two-byte character (Latin, Greek, Cyrillic, ...) that is followed by an ASCII character, whatever comes after.
* `Kindling.Text.utf8_truncated_partial` [cpq] (Tools/Text.lean): text cut in the middle of a character loses exactly the incomplete character (three-byte and four-byte characters, and any text before it as in `utf8_valid_kept_partial`, of which the last character must not be a two-byte one).
* `Kindling.Text.utf8_result_may_be_invalid` [cpq] (Tools/Text.lean): the result need not be valid UTF-8.

### C30 URL clustering is stable (proved)

Alphabetic clustering ignores query string, replaces every non-alphabetic or over-long path segment by one `*`, keeps every other segment, keeps the number of segments, and is idempotent.

*Every URL. The refinement of the readable version and the method noparam for URLs without white space (TrimSpace is modelled for ASCII space only).*

* `Kindling.Url.clustering_spec` [pq] (Tools/Url.lean): query string and blanks are dropped, every segment is shown as itself or, if it is longer than 25 bytes or contains a byte that is not alphabetical, as one star.
* `Kindling.Url.clustering_segments` [pq] (Tools/Url.lean): the number of segments is kept, each one being shown in its place.
* `Kindling.Url.clustering_bytes` [pq] (Tools/Url.lean): nothing but letters, `-`, `_`, `/` and `*` appears: no digit of an identifier gets through.
* `Kindling.Url.clustering_idempotent` [pq] (Tools/Url.lean): clustering a clustered URL changes nothing.
* `Kindling.Url.clustering_ignores_query` [pq] (Tools/Url.lean): two URLs with the same path and different queries fall into one cluster.
* `Kindling.Url.clustering_refines_baseline` [pq] (Tools/Url.lean): on URLs without white space the loop computes what `ClusteringBaseline` documents.
* `Kindling.Url.clustering_differs_on_blank` [cpq] (Tools/Url.lean): The readable version is a different function on blanks inside: `/a b` is `/ab` for one and `/*` for the other.
* `Kindling.Url.noParam_spec` [pq] (Tools/Url.lean): no query is left, and applying it again changes nothing, if there is no white space.
* `Kindling.Url.letters` [cpq] (Tools/Url.lean): the characters that may stay in a segment, and the white space, by their texts.

### C31 Trace headers are recognised by priority (partial)

The trace id reported for an HTTP request is taken from the first present header in the documented order.

*Priority and ids hold; a header with an empty value ends header parsing, and an unreadable sw8 header hides the other trace headers: both proved.*

* `Kindling.Trace.trace_priority` [cpq] (Tools/Trace.lean): of several trace headers the first in the order sw8, apm-transactionid, x-b3-traceid, uber-trace-id, traceparent, traceresponse decides; the last two only count with at least 35 bytes.
* `Kindling.Trace.skywalking_id` [pq] (Tools/Trace.lean): the trace id of a SkyWalking header `1-<id>-...` is the encoded one.
* `Kindling.Trace.base64_roundtrip` [pq] (Tools/Trace.lean): Decoding inverts encoding for every byte string.
* `Kindling.Proto.Http.headers_read` [cpq] (Proto/Http.lean): the headers seen are those of the message, up to the first line that is not a header: by default the empty line that ends the header section.
* `Kindling.Proto.Http.http_request_trace_partial` [cpq] (Proto/Http.lean): the trace attributes of a request with these header fields are decided by these fields alone.
* `Kindling.Proto.Http.zipkin_request` [cpq] (Proto/Http.lean): a request whose only trace header is `X-B3-TraceId: id`.
* `Kindling.Proto.Http.empty_header_hides_later` [cpq] (Proto/Http.lean): the rest is not read, for every request.
* `Kindling.Trace.bad_sw8_hides_others` [cpq] (Tools/Trace.lean): an unreadable `sw8` header hides every other one.
* `Kindling.Trace.base64_line_breaks` [cpq] (Tools/Trace.lean): line breaks inside the encoded id are skipped.
* `Kindling.Proto.Http.http_response_trace` [cpq] (Proto/Http.lean): the trace of an exchange is the one its request carries; only if that has none, the header fields of the response decide, as those of a request do.
* `Kindling.Flow.http_span` [cpq] (Flow/Spans.lean): the span of every exchange shows the method and the path of the request, the trace its header fields carry (or else those of the response), and the status of the response; it is a protocol error exactly from status 400 on.
* `Kindling.Proto.Http.lower_letters` [cpq] (Proto/Http.lean): field names are compared without case: of the 26 letters the small ones stand for both, all other bytes are themselves.
* `Kindling.Proto.Http.nameless_header_hides_later` [cpq] (Proto/Http.lean): a header line that starts with a colon ends the headers, too.

### C32 CPU window: segment i covers second base+i (partial)

After any sequence of events for a thread, the thread has exactly SegmentSize segments and the i-th segment covers second base+i, where base never decreases.

*Holds for every even segment size and for 1; for odd sizes above 1 the order of seconds is lost after a half shift: proved.*

* `Kindling.Cpu.put_known` [cpq] (Cpu/Window.lean): For an even window size (or size 1): putting an event never fails; the window still has one segment per second, in order; its base does not go back; a second in the new window holds what it held before (nothing if it was not in the window), and in addition the event exactly if the event's span meets this second. An event that ended before the window is ignored.
* `Kindling.Cpu.thread_history_partial` [cpq] (Cpu/Window.lean): After any history of events of a thread, with any start and end times: the window has one segment per second from its base on, and the segment of a second holds, per kind and in order of arrival, exactly the events whose span meets this second and that arrived while the second was in the window.
* `Kindling.Cpu.odd_size_breaks` [cpq] (Cpu/Window.lean): With an odd window size above 1 the order is lost: every time the first half is dropped, the last segment stays where it is although it should now be for a later second.

### C33 CPU window: each event is filed under every second it covers (partial)

When an event is put, it is filed under each segment in the window whose second it overlaps, and in no other; earlier events of surviving seconds stay.

*Filing is exact except where events start before a new window or span more than it; these are proved to be missing from seconds they cover.*

* `Kindling.Cpu.put_known` [cpq] (Cpu/Window.lean): For an even window size (or size 1): putting an event never fails; the window still has one segment per second, in order; its base does not go back; a second in the new window holds what it held before (nothing if it was not in the window), and in addition the event exactly if the event's span meets this second. An event that ended before the window is ignored.
* `Kindling.Cpu.put_new` [cpq] (Cpu/Window.lean): The same for the first event of a thread, for every size.
* `Kindling.Cpu.thread_history_partial` [cpq] (Cpu/Window.lean): After any history of events of a thread, with any start and end times: the window has one segment per second from its base on, and the segment of a second holds, per kind and in order of arrival, exactly the events whose span meets this second and that arrived while the second was in the window.
* `Kindling.Cpu.event_kept` [cpq] (Cpu/Window.lean): No event that ends after the window's base is dropped altogether (sizes above 1).
* `Kindling.Cpu.size_one_drops` [cpq] (Cpu/Window.lean): With window size 1 an event of the next second is dropped (the base stays): the size of the window must not be 1.
* `Kindling.Cpu.long_event_missing` [pq] (Cpu/Window.lean): An event longer than the window is missing from the seconds it covers beyond the window.

### C34 Trigger sends exactly the requested window, once (partial)

A signal for [start-edge, end+edge] sends precisely the non-empty segments overlapping this interval which are in the window, and marks them sent.

*Exactly the wanted segments are sent and marked; segments already sent are sent again by the next signal, and the last edge second can be missing: both proved.*

* `Kindling.Cpu.send_thread_partial` [cpq] (Cpu/Send.lean): exactly the non-empty segments of the seconds that meet the requested span and are in the window are sent, in order, each once; they are marked as sent and nothing else changes.
* `Kindling.Cpu.send_proc` [cpq] (Cpu/Send.lean): every thread is treated this way.
* `Kindling.Cpu.resent` [cpq] (Cpu/Send.lean): "Once" fails for every history: a second that was sent, got no event since and is still in the window is sent again by the next overlapping request, with the same events, but labelled as sent before.
* `Kindling.Cpu.event_clears_mark` [cpq] (Cpu/Send.lean): A second that gets an event is labelled as not sent.
* `Kindling.Cpu.quiet_keeps` [cpq] (Cpu/Send.lean): A second that gets no event keeps its events, and its mark once it has one.
* `Kindling.Cpu.mem_wanted` [cpq] (Cpu/Send.lean)
* `Kindling.Cpu.task_covers` [cpq] (Cpu/Send.lean): The seconds covered by `m` runs together.
* `Kindling.Cpu.last_edge_second_missing` [cpq] (Cpu/Send.lean): The drawing at send_trigger.go:116-121 asks for the seconds up to `edge` seconds after the end of the request; the task ends after `edge` runs (one per second, 102-104), so the last of these seconds is never sent.

### C35 Exited threads are removed after the delay, in order (partial)

A queued thread or trace key is removed no earlier than the expiry delay after enqueueing, and is removed by the first sweep after the delay.

*Removal after the delay and not before, proved for monotone clocks; a reused thread id is removed by the old exit, a late event leaks, pid entries stay, and the Java sweeper is not restarted: proved.*

* `Kindling.Cpu.Expire.sweep_spec` [pq] (Cpu/Expire.lean): the elements older than the delay leave the queue, all others stay; exactly the keys of the former are removed from the map.
* `Kindling.Cpu.Expire.exited_are_removed_partial` [pq] (Cpu/Expire.lean): In every reachable state: a sweep removes a key that has been queued for the delay, and no key that has not.
* `Kindling.Cpu.Expire.living_kept` [pq] (Cpu/Expire.lean): "No earlier than the delay": a key put into the map and never reported as exited is never removed.
* `Kindling.Cpu.Expire.queue_from_exits` [p] (Cpu/Expire.lean): The queue holds, for each exit of the history after the last sweep that was late enough, its key and time; every element comes from an exit of the history.
* `Kindling.Cpu.Expire.reused_key_removed` [pq] (Cpu/Expire.lean): Reuse of a key. A thread number (or trace) that is used again before the sweep loses what was put since: the delay counts from the earlier exit.
* `Kindling.Cpu.Expire.late_event_stays` [pq] (Cpu/Expire.lean): An event of a thread that arrives after the thread was removed brings it back for good: without another exit no history of sweeps and other operations removes it.
* `Kindling.Cpu.Expire.process_entry_stays` [pq] (Cpu/Expire.lean): The entry of the process itself is never removed, not even when its last thread is gone: the map grows by one entry for every process ever seen while a profile runs.
* `Kindling.Cpu.Expire.sweeper_dies_with_first_stop` [p] (Cpu/Expire.lean): The claim for traces fails after the first stop of the profile: in every later history, however often the profile is started again, nothing removes old traces any more.
* `Kindling.Cpu.Expire.double_stop_panics` [-] (Cpu/Expire.lean): Stopping a profile that is not running panics (close of a nil or closed channel); the module controller prevents this (C46).

### C36 Each TCP connect attempt is reported at most once with its final state (partial)

For every event sequence, a connection attempt is reported at most once, and the reported state is success iff the first terminal event for it was an established/send/exit-ok event; after reporting it is no longer tracked.

*For every connection with a source port; outcomes of connections with source port 0 are dropped on events (not in the sweep), proved.*

* `Kindling.Tcp.attempts_reported_once_partial` [cpq] (Tcp/Connect.lean): For every connection with a source port, whatever happens on all connections: the reports on it are those of the simple life of attempts above — each attempt is reported at most once, by the first event with an outcome, with this outcome — and it is tracked exactly while its attempt is under way.
* `Kindling.Tcp.reports_at_most_opens` [cpq] (Tcp/Connect.lean): In particular the reports on a connection and the attempt under way never outnumber its `tcp_connect` events.
* `Kindling.Tcp.report_code` [pq] (Tcp/Connect.lean): The error number of a report: 0 for every success; a failure has a non-zero number unless it was found by the sweep.
* `Kindling.Tcp.port_zero_suppressed` [p] (Tcp/Connect.lean): An event of a connection with source port 0 is judged but not reported; one ended by the sweep is.

### C37 Stale TCP connect attempts are eventually dropped (partial)

After a trim later than the wait interval, every connection attempt still tracked is younger than the interval or really still connecting.

*Holds for attempts whose process is known; attempts seen only by tcp_connect are never swept, proved for every sequence of sweeps.*

* `Kindling.Tcp.swept_partial` [cpq] (Tcp/Connect.lean): After a sweep every attempt with a known process that is still tracked is younger than the waiting time or still connecting (SYN_SENT or SYN_RECV).
* `Kindling.Tcp.unknown_process_never_swept` [cpq] (Tcp/Connect.lean): The full claim fails: an attempt whose process is not known (only `tcp_connect` was seen for it) is kept by every sweep, however late.
* `Kindling.Tcp.unknown_process_leaks` [cpq] (Tcp/Connect.lean): Such attempts are reachable: one `tcp_connect`, and they outlive every sequence of sweeps.
* `Kindling.Tcp.short_wait_panics` [pq] (Tcp/Connect.lean): So the analyzer crashes at start exactly if the configured waiting time is below three seconds.

### C38 Pod cache answers by container id, ip:port and host port as last registered (partial)

After any sequence of cache additions and deletions, a lookup by container id, ip and port, host ip and port returns the entry added last under this key and not deleted since, falling back from (ip, port) to (ip, 0).

*Exact for every sequence of atomic operations. An unknown port falls back to any container of the address; ClearAll keeps host ports; an add that races with a sweep of the same address is lost: all proved.*

* `Kindling.K8s.Cache.last_registered_partial` [cpq] (K8s/Cache.lean): After any sequence of operations each table answers for a key with what was registered last under that very key and not deleted since.
* `Kindling.K8s.Cache.step_spec` [cpq] (K8s/Cache.lean)
* `Kindling.K8s.Cache.getContainer_spec` [pq] (K8s/Cache.lean): the entry of this very port; else the entry without a port, if it is not on the host network; and only if neither exists, some container of this address that is not on the host network.
* `Kindling.K8s.Cache.run_inner` [cpq] (K8s/Cache.lean)
* `Kindling.K8s.Cache.hostKey_inj` [cpq] (K8s/Cache.lean): Host port keys do not collide, whatever the address text (IPv6 included).
* `Kindling.K8s.Cache.clear_keeps_host_ports` [pq] (K8s/Cache.lean): Clearing the cache leaves the host port table as it was: its entries outlive it.
* `Kindling.K8s.Cache.add_lost_to_sweep` [pq] (K8s/Cache.lean): A pod registered for an address while the last old port of this address is being swept is lost: it cannot be found although nothing deleted it.
* `Kindling.K8s.Cache.add_kept_without_interleaving` [pq] (K8s/Cache.lean): Without interleaving nothing is lost.
* `Kindling.K8s.Cache.uninterrupted_calls_exact` [pq] (K8s/Cache.lean): as long as no call interrupts another, the container found under an address and port is the one of the last call for it, if this was no deletion.

### C39 Deleted pods stay resolvable for the grace period and no longer (partial)

A deleted pod's entries stay resolvable until the grace period has passed and are then removed unless the key has been taken over by another pod.

*Not before, not later and not others', for every history with a clock that does not run backwards. A key lost and regained within the grace period is removed, a pod re-created under the same name is forgotten, and a workload is dropped with the first of its pods: proved.*

* `Kindling.K8s.Pods.add_registers` [cpq] (K8s/Pods.lean): after a pod is added every key it has leads to this pod, all others are as before, and no deletion is planned.
* `Kindling.K8s.Pods.sweep_spec` [cpq] (K8s/PodLife.lean): exactly the requests whose grace period has passed are served, and they remove exactly the entries that are theirs.
* `Kindling.K8s.Pods.run_inv` [cpq] (K8s/PodLife.lean): The queue is in order after every history.
* `Kindling.K8s.Pods.kept_for_grace` [cpq] (K8s/PodLife.lean): A key that leads to pod `u` at time `t`, with no deletion planned that concerns it, still leads to `u` as long as less than the grace period has passed, whatever is deleted and updated meanwhile, if no other pod takes the key.
* `Kindling.K8s.Pods.gone_after_grace_partial` [cpq] (K8s/PodLife.lean): The first sweep at least the grace period after the delete event removes all keys of the pod, whatever happened in between, unless the pod itself was registered again.
* `Kindling.K8s.Pods.others_kept` [cpq] (K8s/PodLife.lean): The addresses of a pod for which no event was received but registrations are never removed, whatever happens to other pods that had the same address.
* `Kindling.K8s.Pods.update_requests_stale` [cpq] (K8s/PodLife.lean): An update plans the deletion of exactly the keys the old object had and the new one has not.
* `Kindling.K8s.Pods.regained_key_removed` [cpq] (K8s/PodLife.lean): Finding. A key that a pod loses and gets back within the grace period is removed although the pod has it.
* `Kindling.K8s.Pods.recreated_pod_forgotten` [cpq] (K8s/PodLife.lean): Finding. A pod that is created again under the same name within the grace period (a stateful set's pod) is forgotten in the map of pods: the old pod's request removes the entry by name.
* `Kindling.K8s.Pods.forgotten_pod_leaks` [cpq] (K8s/PodLife.lean): … after which its own updates plan no deletions any more: what it loses stays.
* `Kindling.K8s.Pods.workload_dropped` [cpq] (K8s/PodLife.lean): Finding. The deletion of one pod removes its workload although another pod of the workload still runs on the node.

### C40 Service selection (proved)

A service is reported for a pod iff the service has selectors in the pod's namespace and all of them occur in the pod's labels.

*For every history of service events. A node that joins later is not registered for existing node port services, proved.*

* `Kindling.K8s.selectorsMatch_iff` [pq] (K8s/Names.lean)
* `Kindling.K8s.Service.reported_iff` [cpq] (K8s/Service.lean): After every history the services reported for a namespace and labels are exactly the services that exist in that namespace, have selectors, and have only selectors that occur in the labels.
* `Kindling.K8s.Service.selected_pods_iff` [pq] (K8s/Service.lean): exactly the pods of the namespace whose labels have all selectors; none if there are no selectors.
* `Kindling.K8s.Service.service_address` [cpq] (K8s/Service.lean): A node port service of one port is found under the service address and under all nodes known.
* `Kindling.K8s.Service.late_node_not_registered` [cpq] (K8s/Service.lean): Finding. A node that joins after a node port service was added is not registered for it: the service is not found under that node's address.
* `Kindling.K8s.Service.added_service_found` [cpq] (K8s/Service.lean): A service with an address is found under exactly the addresses and ports it has; one without changes nothing.

### C41 Deleted objects disappear from the lookup maps (partial)

After the delete event of a node or replica set (no later add), the lookup for it fails; other objects are not affected.

*Holds for replica sets. For nodes it fails: a deleted node stays in the map because the deletion uses the name as key, proved for every node.*

* `Kindling.K8s.Nodes.replica_set_lookup_partial` [cpq] (K8s/Nodes.lean): After every history the lookup gives the controller of the replica set as it is in the cluster, nothing if it was deleted or has no controller; events of others do not matter.
* `Kindling.K8s.Nodes.node_of_address` [cpq] (K8s/Nodes.lean): `getNodeName` after any history in which no node is named like the address: the last node that came with the address, deleted or not.
* `Kindling.K8s.Nodes.internalIp_spec` [cpq] (K8s/Nodes.lean): The last internal address counts.
* `Kindling.K8s.Nodes.deleted_node_found` [cpq] (K8s/Nodes.lean): Finding (C41 fails for nodes). A deleted node is found for ever: its entry is under the address, the deletion looks for the name.
* `Kindling.K8s.Nodes.old_address_found` [cpq] (K8s/Nodes.lean): Finding. So does the old address of a node whose address changes.
* `Kindling.K8s.Service.deleted_service_gone` [cpq] (K8s/Service.lean): A deleted service is not found under any of its addresses; all others stay.
* `Kindling.K8s.Nodes.controller_first` [pq] (K8s/Nodes.lean): the owner that counts is the first that is marked as controller, and there is none if none is marked.

### C42 Container diff (proved)

The reported removed elements are exactly the old elements not in the new list and the added elements are exactly the new elements not in the old list, in order.

*For all lists.*

* `Kindling.K8s.diff_exact` [pq] (K8s/Names.lean): The removed elements are exactly the old ones that are not new, the added ones exactly the new ones that are not old, in their order and with repetitions.

### C43 Container id truncation (proved)

The short container id is the first 12 characters of the part after the runtime prefix, and empty iff the id has no runtime prefix or is too short.

*For all strings.*

* `Kindling.K8s.truncate_spec` [cpq] (K8s/Names.lean): The short id is the first twelve bytes (all, if fewer) of what follows the first `://`, and empty exactly if there is no `://` or nothing follows the first one.

### C44 Port folding keeps one service port (proved)

After k8s enrichment of TCP metrics at most one of the two ports is kept, the ephemeral one is always dropped, and DNAT replaces the destination.

*For all labels and lookup results. Lookups are arbitrary functions; metaOf instantiates them with the cache of C38.*

* `Kindling.Proc.K8s.one_port_left` [cpq] (Proc/K8s.lean): Of the two ports at most one is left, never one in the ephemeral range; it is the smaller one, the source port if they are equal, or the one that is not ephemeral.
* `Kindling.Proc.K8s.nat_replaces_destination` [cpq] (Proc/K8s.lean): A translated address is the destination reported; the labels of the translation are gone.

### C45 Destination found in the cluster keeps its namespace (partial)

When the destination of a TCP flow is found as a container, pod, host-port or service, the namespace label reported is the one of the object found.

*Holds for services, containers behind services, containers and pods. For host ports the namespace is overwritten by "not found" (a return is missing), proved for every cache in which no pod has the address.*

* `Kindling.Proc.K8s.destination_labels_partial` [cpq] (Proc/K8s.lean): The destination of a TCP flow that is found as a service, as the container behind a service, as a container or as a pod has exactly the labels of that object, in particular its namespace; otherwise the namespace says that nothing was found. Host ports are left out (see below).
* `Kindling.Proc.K8s.host_port_namespace_lost` [cpq] (Proc/K8s.lean): Finding (C45 fails for host ports). A destination found as a host port gets the pod's name but not the pod's namespace: the namespace is overwritten by "not found", for no pod is registered under a node's address.
* `Kindling.Proc.K8s.Table.connection_labels` [cpq] (Proc/K8sTable.lean): every label of a TCP metric.

### C46 Module start and stop alternate (partial)

For every history of start/stop requests the module is running iff the last successful operation was a start; a start of a running module and a stop of a stopped one fail and change nothing.

*Starts and stops alternate in every history. A start that reports the error of a sub-module leaves the module running, and stopping a module that was started by configuration closes a nil channel: both proved.*

* `Kindling.Ctl.Module.starts_and_stops_alternate_partial` [cpq] (Ctl/Module.lean): For every history of requests and timers, no operation panics, every sub-module has been called start, stop, start, … in this order, all equally often, and the module is running exactly if the last of these calls was a start.
* `Kindling.Ctl.Module.request_outcome` [cpq] (Ctl/Module.lean): a start is refused exactly if the module is running and otherwise leaves it running; a stop is refused exactly if it is stopped and otherwise leaves it stopped; a refused request changes nothing.
* `Kindling.Ctl.Module.responses_tell_status` [cpq] (Ctl/Module.lean): What requests report: a start that succeeds leaves the module running, a stop that succeeds leaves it stopped, and `status` tells which.
* `Kindling.Ctl.Module.failed_start_is_running` [pq] (Ctl/Module.lean): Finding: a start that reports an error of a sub-module leaves the module running, so that the next start is refused.
* `Kindling.Ctl.Module.initially_started_panics` [p] (Ctl/Module.lean): Finding: a module made with status `Started` panics at its first stop (the channel is nil).

### C47 A stop timer stops only the run it was set for (partial)

A timer attached to a run never stops a later run.

*Holds for schedules in which a cancelled timer goroutine runs before its timer fires. Otherwise a timer stops a later run, proved.*

* `Kindling.Ctl.Module.timer_stops_own_run_partial` [p] (Ctl/Module.lean): whenever a timer stops a run, it is the run the timer was set for.
* `Kindling.Ctl.Module.timer_stops_any_run` [p] (Ctl/Module.lean): Finding (C47 fails in general): a goroutine about to call `Stop` stops whatever run is on, whichever run it was set for.

### C48 Every analyzer gets every event it asked for (partial)

For any list of analyzers, an event is given to exactly the analyzers that subscribe to its name or to all events.

*Exact for at most one analyzer of all events. With two, an event somebody lists by name reaches only the last of them, proved.*

* `Kindling.Ctl.Manager.analyzers_of_event` [cpq] (Ctl/Manager.lean): An event somebody lists by name goes to these analyzers and to the last of those that take all events; any other event goes to all of those that take all events.
* `Kindling.Ctl.Manager.event_reaches_subscribers_partial` [cpq] (Ctl/Manager.lean): an event is given to exactly the analyzers that list it or take all events, once if they list it once.
* `Kindling.Ctl.Manager.consume_all_analyzer_skipped` [cpq] (Ctl/Manager.lean): Finding (C48 fails with two analyzers that take all events): as soon as anybody lists an event by name, only the last of them gets it.
* `Kindling.Ctl.Manager.refused_iff` [cpq] (Ctl/Manager.lean): A manager is refused only when there is no analyzer at all.

### C49 Adapter keeps every metric (proved)

Splitting a network group into results keeps every metric exactly once: count metrics and other metrics are separated, none is lost.

*For all metrics and labels. A metric that is not in the name table is kept but loses its name, proved.*

* `Kindling.Export.Adapter.metrics_kept` [cpq] (Export/Adapter.lean): Every metric is in exactly one result, in order; the request counts are alone and carry `is_slow`; no result is empty.
* `Kindling.Export.Adapter.group_metrics` [cpq] (Export/Adapter.lean): Every metric of a group is exported by the side it was seen on; requests from outside seen by the server also as topology.
* `Kindling.Export.Adapter.group_converters` [cpq] (Export/Adapter.lean): Every converter of an aggregated group is one of those with distinct keys.
* `Kindling.Export.Adapter.single_record` [cpq] (Export/Adapter.lean): A single record is exported as a trace with the total time iff it has one.
* `Kindling.Export.Adapter.names_distinct` [cpq] (Export/Adapter.lean): Known metrics keep distinct names, named after the side that reports them.
* `Kindling.Export.Adapter.unknown_metric_unnamed` [cpq] (Export/Adapter.lean): Finding: every other metric loses its name.

### C50 Exported attributes are sorted and complete (proved)

The exported attribute list is sorted by key and contains for every dictionary entry the value computed from the labels, for all dictionaries with distinct keys.

*For all dictionaries with distinct keys and all lists the pool may hold. The dictionary of Redis spans has a duplicate key: the command name of every Redis span is overwritten with the response payload, proved for all labels.*

* `Kindling.Export.Labels.converted_list` [cpq] (Export/Labels.lean): For dictionaries with distinct keys, whatever list the pool gives, the converted list is sorted by key and consists of exactly the wanted attributes; it can go back to the pool.
* `Kindling.Export.Labels.duplicate_goes_to_first` [pq] (Export/Labels.lean): Finding (C50 fails for duplicate keys): the value of an entry whose key occurred before is written to the first attribute of the list, whatever that is.
* `Kindling.Export.Adapter.exported_labels` [cpq] (Export/Adapter.lean): Whatever was converted before, the exported list is sorted by key and consists of exactly the entries of the dictionary for the protocol, the value labels and the constant labels, each with its final value.
* `Kindling.Export.Adapter.metric_dictionaries` [cpq] (Export/Adapter.lean): The dictionaries of the code have distinct keys, for all protocols, ...
* `Kindling.Export.Adapter.span_dictionaries` [cpq] (Export/Adapter.lean): ... and those of spans for all protocols but Redis.
* `Kindling.Export.Adapter.redis_span_comm` [cpq] (Export/Adapter.lean): Finding: the request and the response payload of Redis spans have the same key, so that the command name of every Redis span is replaced by the response payload.

### C51 Status grades are monotone (proved)

Duration grades 1/2/3 are monotone in the duration with the documented thresholds.

*For all durations.*

* `Kindling.Export.Labels.grades` [cpq] (Export/Labels.lean): grade 1 up to 800 ms, 3 from 1.5 s, 2 between (200 ms and 1 s for stages); a longer duration never has a better grade.
* `Kindling.Export.Labels.grades_monotone` [cpq] (Export/Labels.lean)

### C52 Sanitised label names are valid (partial)

The sanitised form of any non-empty label name starts with no digit and contains only letters, digits and underscores; it never panics.

*Names consist of letters, digits and underscores and start with no digit, but letters and digits outside ASCII are kept. It panics exactly for one-character names that become an underscore when label sanitising is skipped.*

* `Kindling.Export.Sanitize.sanitized_name_partial` [cpq] (Export/Sanitize.lean): For every non-empty name the result exists, consists of letters, digits and underscores, and does not start with an ASCII digit or an underscore.
* `Kindling.Export.Sanitize.sanitize_panics_iff` [cpq] (Export/Sanitize.lean): Finding (C52 fails with `skipSanitizeLabel`): every name of one character that is no letter or digit, such as "_" or "-", panics; no other does.
* `Kindling.Export.Sanitize.foreign_letters_kept` [cpq] (Export/Sanitize.lean): Finding: the result keeps letters and digits outside ASCII, which Prometheus does not allow in label names; a name that starts with such a digit keeps it in front.
* `Kindling.Export.Sanitize.sanitize_exact` [cpq] (Export/Sanitize.lean): The whole result: every other character becomes an underscore, then a name that starts with an ASCII digit gets "key_" in front, one that starts with an underscore "key"; with `skipSanitizeLabel` only one that starts with two.

### C53 File rotation bounds the number of files and keeps the newest (partial)

After any sequence of writes for a process, at most MaxFileCount files exist and files removed are older than those kept.

*For limits of two and more. A limit of one panics, and a file written again under an old name is removed although it is new; both proved.*

* `Kindling.Export.Files.files_bounded_partial` [cpq] (Export/Files.lean): For a limit of at least 2, at every moment the files that no goroutine is about to remove are at most as many as the limit; so are all files whenever the goroutines are done.
* `Kindling.Export.Files.oldest_removed` [pq] (Export/Files.lean): A rotation marks the oldest files, all but `max / 2 - 1`, and the new file.
* `Kindling.Export.Files.few_kept` [pq] (Export/Files.lean): Below the limit nothing is removed.
* `Kindling.Export.Files.only_marked_removed` [pq] (Export/Files.lean): A file disappears only when a goroutine that has its name removes it.
* `Kindling.Export.Files.limit_one_panics` [pq] (Export/Files.lean): Finding: a limit of 1 crashes the process at the second trace.
* `Kindling.Export.Files.rewritten_file_lost` [pq] (Export/Files.lean): Finding: a file written under a name that still waits for its removal is removed too.

### C54 Trace file path elements survive the label round trip (partial)

Writing path elements to labels and reading them back gives the same elements.

*Proved for labels that carry the process id. Missing: the process id itself is not among the attributes written, proved as a finding.*

* `Kindling.Export.Files.elements_survive_partial` [cpq] (Export/Files.lean): The elements read from a trace are those read from the CPU events that carry them, for events of this process.
* `Kindling.Export.Files.names_read` [cpq] (Export/Files.lean): Names that are missing are replaced, others kept.
* `Kindling.Export.Files.pid_not_in_attributes` [cpq] (Export/Files.lean): The attributes alone do not carry the process: without the label of the events it is lost.

### C55 Conntrack cache: orphan list and cache agree (proved)

After any sequence of cache operations every orphan entry belongs to a live cache entry with this key and vice versa, so the orphan sweep terminates and removes exactly the expired never-read translations; the cache never exceeds its size.

*Refinement of a flat list of entries with expiry, for all histories with a monotone clock.*

* `Kindling.Conn.Cache.history_refines` [pq] (Conn/Cache.lean): Every operation succeeds, the sweep included; orphans and entries stay linked one to one; the size is bounded; and the translations are those of the specification.
* `Kindling.Conn.Cache.register_refines` [pq] (Conn/Cache.lean): Registering refines putting.
* `Kindling.Conn.Cache.get_refines` [pq] (Conn/Cache.lean): Reading refines reading.
* `Kindling.Conn.Cache.remove_refines` [pq] (Conn/Cache.lean): Removing refines forgetting.
* `Kindling.Conn.Cache.sweep_refines` [pq] (Conn/Cache.lean): With agreeing lists the sweep ends, and removes exactly the expired translations nobody read.
* `Kindling.Conn.Cache.evicts_iff` [pq] (Conn/Cache.lean): Something is evicted exactly if a new key arrives while the cache is full.
* `Kindling.Conn.Cache.dangling_orphan_never_ends` [-] (Conn/Cache.lean): An orphan without an entry would make the sweep run forever.

### C56 DNAT lookup returns only real destination translations (proved)

A DNAT tuple is returned iff a translation exists and its reply source differs from the requested destination; the tuple is the reply source.

*For all histories of registrations, lookups and deletions. Findings proved: a later connection without translation leaves the old translation in place, a limit that is not positive crashes, and so does a tuple without address.*

* `Kindling.Conn.Lookup.dnat_sound` [cpq] (Conn/Lookup.lean): After every history of the tracker a lookup succeeds; what it returns is the translation of the last translated connection seen with these addresses, and only if that changes the destination.
* `Kindling.Conn.Lookup.dnat_found` [cpq] (Conn/Lookup.lean): A translated connection is found by its original addresses (in either form) as long as fewer than `limit - 1` other directions are used, and its time (two minutes, before the first lookup) is not over.
* `Kindling.Conn.Lookup.addr_eq_iff` [p] (Conn/Lookup.lean): Addresses are equal as keys exactly if they are equal as IP addresses: an IPv4 address and its IPv6 form are one.
* `Kindling.Conn.Lookup.ip_round_trip` [pq] (Conn/Lookup.lean): Events and translations agree on the byte order of addresses.
* `Kindling.Conn.Lookup.isNAT_iff` [pq] (Conn/Lookup.lean): Only connections whose reply does not run opposite are stored.
* `Kindling.Conn.Lookup.register_nat` [pq] (Conn/Lookup.lean): Registering a translated connection stores both directions.
* `Kindling.Conn.Lookup.register_plain` [pq] (Conn/Lookup.lean): Connections without translation, and protocols other than TCP and UDP, change nothing.
* `Kindling.Conn.Lookup.stale_translation` [pq] (Conn/Lookup.lean): Finding: a translation that was looked up stays until it is evicted; a later connection with the same addresses that is not translated does not replace it.
* `Kindling.Conn.Lookup.no_cache_panics` [pq] (Conn/Lookup.lean): Finding: with a limit of 0 or less the first translated connection crashes the process.
* `Kindling.Conn.Lookup.missing_address_panics` [p] (Conn/Lookup.lean): Finding: a message with ports but without the original source address crashes the process.
* `Kindling.Conn.Lookup.incomplete_ignored` [p] (Conn/Lookup.lean): a message that lacks a tuple, a protocol or a port is no translation: it changes nothing.
* `Kindling.Conn.Lookup.mapped_address` [pq] (Conn/Lookup.lean): the sixteen bytes ::ffff:a.b.c.d are the address a.b.c.d, and no other sixteen bytes are.

### C57 Attribute maps behave like typed maps and clones are independent (partial)

Reads return the last written value of the right type and the zero value otherwise; later updates of a map do not change an earlier clone of it, nor the reverse.

*Maps are independent as long as the merged map is given up, as all callers do; otherwise Merge makes two maps share values, proved.*

* `Kindling.Model.Attr.attribute_maps_partial` [cpq] (Model/Attr.lean): Every program over attribute maps — any number of maps, in any order adding, updating, removing, clearing, resetting, cloning and merging maps that are given up — does exactly what the same program does on plain maps from names to typed values, and panics exactly when that program updates a name holding a value of another type or uses a map that is gone.
* `Kindling.Model.Attr.other_map_unchanged` [cpq] (Model/Attr.lean): A clone is independent: an operation on another map — the original, or a clone of it — leaves what a map holds as it is.
* `Kindling.Model.Attr.clone_same` [cpq] (Model/Attr.lean): A clone holds what the original holds.
* `Kindling.Model.Attr.read_after_add` [cpq] (Model/Attr.lean): Reads return the last value written, in its type.
* `Kindling.Model.Attr.merge_shares` [pq] (Model/Attr.lean): Keeping both maps after `Merge` makes them share values: updating a name in one changes what the other holds.

### C58 Sampling never drops the aggregate (proved)

Every network record is aggregated whether or not it is sampled; with rates 0/100/100 exactly slow or error records are forwarded as single records.

*For all records, draws and rates.*

* `Kindling.Proc.Sampling.sampled_iff` [pq] (Proc/Sampling.lean)
* `Kindling.Proc.Sampling.sampling_rate` [cpq] (Proc/Sampling.lean): of the 100 possible draws, exactly the configured number forwards the record; for a record that is slow and an error, the larger of the two.
* `Kindling.Proc.Sampling.sampling_never_drops` [cpq] (Proc/Sampling.lean): For every history of records and draws, every record is aggregated, exactly once and in order, whether or not it is forwarded; exactly the sampled network records are forwarded.
* `Kindling.Proc.Sampling.default_rates` [pq] (Proc/Sampling.lean): exactly slow and error records are forwarded.
* `Kindling.Proc.Sampling.error_type_only_never_forwarded` [pq] (Proc/Sampling.lean): Finding: a record with an error type but neither flag is never forwarded, whatever the rates.
* `Kindling.Proc.Sampling.groups_and_selectors` [cpq] (Proc/Sampling.lean): names and selectors. A network record is aggregated under the name of aggregated network records and, if it is sampled, handed on under the name of single ones; the three groups of TCP states and the connections are aggregated by their own labels.

### C59 Node traffic direction (proved)

Request bytes are attributed source to destination and response bytes in the reverse direction, and only when both node addresses are known.

*For all records.*

* `Kindling.Proc.Sampling.traffic_direction` [cpq] (Proc/Sampling.lean): Request bytes go from the source node to the destination node, response bytes back; each is reported once, and only if both addresses are known.
* `Kindling.Proc.Sampling.node_no_panic` [cpq] (Proc/Sampling.lean): It fails only on a histogram where a number is expected.
* `Kindling.Proc.Sampling.getMetric_first` [pq] (Proc/Sampling.lean): the metric of a name is the first of that name, and there is none if no metric has it.

### C60 Read/write direction decides request or response (proved)

For every syscall event, a read-like call on the server side and a write-like call on the client side is a request, the other two a response, and every other event is rejected.

*For all event names and roles.*

* `Kindling.Ctl.Manager.request_direction` [cpq] (Ctl/Manager.lean): Requests are what a server (role true) reads and a client writes; responses are what a server writes and a client reads; nothing else is accepted.

### C61 DNS messages: id, name and response code are reported (proved)

For every DNS request or response with one question for a legal name, over UDP or TCP framing, the parser reports the transaction id and the presentation of the name; of a response also the response code, marked as error iff the code is not 0 (code 3 only if not configured to be ignored). No payload makes the DNS parsers panic.

*Messages with one question, any legal name, UDP and TCP framing.*

* `Kindling.Proto.Dns.dns_request_parsed` [cpq] (Proto/DnsMsg.lean): of every request message with one question, the transaction id and the name are reported, over UDP (`pre = []`) and TCP (`pre` the two length bytes).
* `Kindling.Proto.Dns.dns_response_parsed` [cpq] (Proto/DnsMsg.lean): of every response to one question, the id, the name and the response code are reported; it is an error exactly for a non-zero code, 3 (no such name) being excepted if so configured.
* `Kindling.Proto.Dns.dns_parsers_never_panic` [cpq] (Proto/DnsMsg.lean): no payload makes the DNS parsers panic.
* `Kindling.Proto.Dns.dns_message_tried` [pq] (Proto/DnsMsg.lean): a payload is looked at iff it is longer than a header: every message with a question is.

### C62 HTTP requests: method, URL and content key are reported (proved)

For every request line of a known method with a URL starting with '/', the parser reports method and URL, and as content key the clustering of the URL; a payload that starts with no known method is not recognised.

*PATCH is not among the methods the code knows.*

* `Kindling.Proto.Http.http_request_parsed` [cpq] (Proto/Http.lean): of every request line `method url version` the method and the URL are reported, and the content key is the clustered URL, `*` if that is empty.
* `Kindling.Proto.Http.not_http_request` [cpq] (Proto/Http.lean): a payload that starts neither with a method and a blank nor with `ET /` is not an HTTP request.

### C63 SQL statements are reduced to verb and table (partial)

The content key of a SQL statement is its verb and the table that follows its key word (from, into, update ...), for every table name and every rest of the statement; a statement of no known verb gives no key.

*For every statement in which the first key word is the real one. Missing: a column whose name ends in the key word is taken for the key word, proved for every such column.*

* `Kindling.Sql.checkType_iff` [cpq] (Tools/Sql.lean): `checkType` decides `IsType`, for the types in use.
* `Kindling.Sql.statement_table_partial` [cpq] (Tools/Sql.lean): a statement of a known type is reported as the type and the word after the first key word of this type (`from`, `into`, ...), if this word consists of letters, `_` and `-`; as the type and `*` otherwise.
* `Kindling.Sql.statement_shape` [cpq] (Tools/Sql.lean): the key is `type *` or `type word *` for every statement, so it never contains a literal of the statement other than one word of letters; it is empty iff the statement is of no known type.
* `Kindling.Sql.column_mistaken_for_key` [cpq] (Tools/Sql.lean): the word after the column is taken for the table, whatever table the statement names later.
* `Kindling.Sql.letters` [cpq] (Tools/Sql.lean): white space is what `\s` means, the letters of a table name are those of the pattern, and letters compare without case.
* `Kindling.Sql.kinds_of_statement` [cpq] (Tools/Sql.lean): the kinds of statement and the key words before the table, as in sql_merger.go:26-34.

### C64 MySQL statements and error codes are reported (partial)

Of a COM_QUERY or COM_STMT_PREPARE packet with a statement the SQL text and its key are reported; an error packet gives its 16-bit error code and message and is marked as error; any other response is not an error.

*Codes hold; the SQL state is never separated from the message and the first byte of a message without state is lost, both proved.*

* `Kindling.Proto.Mysql.mysql_statement_parsed` [cpq] (Proto/Mysql.lean): the text of a query or of a statement to prepare is reported, and the content key is the merged statement.
* `Kindling.Proto.Mysql.mysql_other_text` [cpq] (Proto/Mysql.lean): other texts are not taken for MySQL.
* `Kindling.Proto.Mysql.mysql_error_code_partial` [cpq] (Proto/Mysql.lean): the code of an error packet is reported, and the record is an error iff the code is not zero.
* `Kindling.Proto.Mysql.mysql_state_not_separated` [p] (Proto/Mysql.lean): of an error packet of the 4.1 protocol (`#`, five characters of SQL state, text) the state is not separated from the text by a colon as intended: the marker is looked for one byte too late.
* `Kindling.Proto.Mysql.mysql_text_loses_first` [p] (Proto/Mysql.lean): without SQL state (older protocol) the first character of the text is lost.
* `Kindling.Proto.Mysql.mysql_other_response` [cpq] (Proto/Mysql.lean): after a statement every response of at least six bytes is taken; without a statement only error, OK and EOF packets.
* `Kindling.Proto.Mysql.mysql_quit` [cpq] (Proto/Mysql.lean): a payload whose command byte is 1 (`COM_QUIT`) is taken whatever its length byte and whatever follows, and marked as needing no answer.

### C65 Dubbo requests: service and method are reported (proved)

For every two-way Dubbo request serialised with Hessian 2 or JSON the content key is service#method, for all names (Hessian: fewer than 1024 bytes, short and long encoding; JSON: without line feed).

*All names as stated.*

* `Kindling.Proto.Dubbo.dubbo_request_parsed` [cpq] (Proto/Dubbo.lean): of every two-way request in Hessian 2 or JSON serialisation the service and the method are reported.

### C66 RocketMQ requests and responses: operation, topic and identification (partial)

Of every RocketMQ request, with JSON or binary header, the operation, the identification and the topic (or the operation if there is none) are reported; a response is accepted exactly for a record with the same identification.

*Binary headers without remark and all JSON headers; a remark hides the topic, proved.*

* `Kindling.Proto.Rocketmq.rocketmq_request_parsed_partial` [cpq] (Proto/Rocketmq.lean): of every request, JSON or binary, the operation, the identification and the topic (or, without a topic, the operation) are reported.
* `Kindling.Proto.Rocketmq.rocketmq_response_parsed` [cpq] (Proto/Rocketmq.lean): a response is accepted for a record that carries the same identification; its code is reported, and the record is an error iff the code is positive.
* `Kindling.Proto.Rocketmq.rocketmq_matched` [cpq] (Proto/Rocketmq.lean): the response is matched with its request: after a request with identification `o`, a response is accepted iff it has the same identification.
* `Kindling.Proto.Rocketmq.remark_hides_topic` [cpq] (Proto/Rocketmq.lean): Finding: if a binary request has a remark, its topic is not reported.
* `Kindling.Proto.Rocketmq.rocketmq_unreadable_refused` [cpq] (Proto/Rocketmq.lean): a payload no header can be read of is neither a request nor a response, and leaves the attributes as they are.

### C67 Kafka topics and error codes are reported (partial)

Of Produce and Fetch requests and responses in all versions the code claims to support, the name of the first topic is reported, of responses also the error code.

*All versions before the flexible ones (Produce 9, Fetch 12), whose headers the code misreads: proved.*

* `Kindling.Proto.Kafka.kafka_produce_topic_partial` [cpq] (Proto/Kafka.lean): the topic of a Produce request of versions 0 to 8 is reported.
* `Kindling.Proto.Kafka.kafka_fetch_topic_partial` [cpq] (Proto/Kafka.lean): the topic of a Fetch request of versions 0 to 11 is reported.
* `Kindling.Proto.Kafka.kafka_response_parsed` [cpq] (Proto/Kafka.lean): topic and error code of a response are reported (versions before the flexible ones).
* `Kindling.Proto.Kafka.flexible_produce_misread` [cpq] (Proto/Kafka.lean): Finding: the parser does not skip the tagged fields that end the header of the flexible versions. Of a Produce request of version 9 without transactional id and with one topic it reports the length byte of the name as topic.
* `Kindling.Proto.Kafka.flexible_fetch_misread` [cpq] (Proto/Kafka.lean): Finding: for the same reason no topic is reported of a Fetch request of version 12 whose session epoch is a multiple of 256 (the first request of a session has epoch 0).
* `Kindling.Proto.Kafka.kafka_empty_response` [cpq] (Proto/Kafka.lean): a Produce response without topics is recognised: no topic, code 0; one whose first topic has no partitions has the topic and the code 0.
* `Kindling.Proto.Kafka.supported_versions` [pq] (Proto/Kafka.lean): the versions that count as supported are exactly those up to the highest of the kind.
* `Kindling.Proto.array_size_roundtrip` [pq] (Proto/Codec.lean): the size of an array: of the four bytes of a size the number, 0 of the null array (-1), and an error below.
* `Kindling.Proto.compact_array_size_roundtrip` [cpq] (Proto/Codec.lean): a compact array of `n` elements is sent as `n + 1`, and the null array as 0, which is read as no elements.

### C68 Which protocol reports an exchange on a port (partial)

On a port without configured protocol an exchange is offered to the parsers remembered for the port, in the order they first matched, and then to the others; a recognised exchange is reported by a parser that recognises it, an unrecognised one as generic.

*Order and fallback hold; a port where generic is remembered no longer tries protocols not remembered, until the generic counter is exhausted: proved.*

* `Kindling.Net.Dispatch.cache_is_history` [cpq] (Net/Dispatch.lean): After any sequence of exchanges, no matter which parsers accept them: nothing failed, and a parser is tried first on a port exactly when it reported fifty exchanges there (the generic one: fifty since its last multiple of five thousand), each such parser once, the generic one last.
* `Kindling.Net.Dispatch.recognised_partial` [pq] (Net/Dispatch.lean): As long as the generic parser is not remembered for the port, an exchange that some named parser accepts is reported by a parser that accepts it and is not the generic one.
* `Kindling.Net.Dispatch.static_port` [cpq] (Net/Dispatch.lean): A port fixed by configuration: the configured parser if it accepts, otherwise a record with the configured protocol name; a connect failure when nothing was sent. The cache and the counters play no part and do not change.
* `Kindling.Net.Dispatch.masked_by_generic` [cpq] (Net/Dispatch.lean): Recognition depends on what else used the port: once the generic parser is remembered there, an exchange whose parser has not itself been remembered is reported as unknown — although the parser accepts it — until the generic parser has reported five thousand.
* `Kindling.Net.Dispatch.masked_example` [cpq] (Net/Dispatch.lean)

### C69 The record of an exchange says what happened (proved)

Identity of the socket, side, protocol, slow flag, end time, payloads and translated destination in a record are those of the exchange; it is an error exactly if the protocol says so or no response came, and the error type tells which; everything the parser found is in it.

*As stated, for well-typed recycled records; see C71 for short Dubbo payloads.*

* `Kindling.Net.Record.record_labels` [cpq] (Net/Record.lean): The record of an exchange: on any record the pool hands out, with any attributes a parser produces, making the labels does not fail (short Dubbo payloads apart, see `short_dubbo_payload_panics`), and: the socket's identity, the slow flag, the side and the protocol are those of the exchange; it is an error exactly when the protocol says so or there is no response, and the error type tells which; the destination is the translated one when there is a translation; the end time is the response's; and every attribute of the parser is in the record.
* `Kindling.Net.Record.connect_fail_labels` [cpq] (Net/Record.lean): A connect failure is an error of type 1, whatever the pool hands out.
* `Kindling.Net.Record.slowOf_iff` [p] (Net/Record.lean): A request without response is never slow, and a response is slow by its duration.

### C70 Recycled records carry nothing over (partial)

A record made of a recycled one has the labels of its own exchange and no others.

*Values read are the same; names of earlier uses stay with zero values, proved.*

* `Kindling.Net.Record.recycled_reads_alike_partial` [cpq] (Net/Record.lean): A record made of a recycled one reads like a record made of a new one: for every name and every type the values read are the same.
* `Kindling.Net.Record.recycled_keeps_names` [cpq] (Net/Record.lean): The full claim — the record has the labels of its own exchange and no others — fails: every name of an earlier use that is not one of the analyzer's own and that this exchange does not set is in the record, with a zero value.
* `Kindling.Net.Record.pooled_zero` [cpq] (Net/Record.lean): Every map in the pool is well typed and holds only zero values.

### C71 Reporting the payload never fails (partial)

For every configured payload length, protocol and payload the payload text of a record can be computed.

*Holds except for Dubbo payloads shorter than 16 bytes (a port configured as Dubbo), which panic: proved.*

* `Kindling.Net.Record.payload_ok_partial` [cpq] (Net/Record.lean): Only Dubbo payloads shorter than the Dubbo header can fail.
* `Kindling.Net.Record.short_dubbo_payload_panics` [cpq] (Net/Record.lean): And they do: a payload of less than 16 bytes reported as Dubbo panics the analyzer.

### C72 Which slow requests trigger sending of CPU events (partial)

Between two ticks of the sampler, a slow trace becomes a trigger exactly if it is the first candidate (from the APM agent, or server side of a process the agent never reported) of its URL and process and has a duration; slow client-side traces, and only they, are handed to the trace channel in order; nothing is recorded while no profile runs.

*As stated, except that two URLs can collide on one candidate key: proved.*

* `Kindling.Cpu.Signal.triggers_spec_partial` [cpq] (Cpu/Signal.lean): Between two ticks, whatever traces arrive (`l`, after those of `before`): the tick makes a trace a trigger exactly if it is the first candidate of its key since the last tick and has a duration; no key gets two triggers. The slow client-side traces, and only they, go to the trace channel, in order.
* `Kindling.Cpu.Signal.receives_spec` [pq] (Cpu/Signal.lean)
* `Kindling.Cpu.Signal.disabled_ignores` [p] (Cpu/Signal.lean): Without a running profile nothing is recorded.
* `Kindling.Cpu.Signal.keys_collide` [pq] (Cpu/Signal.lean): The key is a plain concatenation, so different requests share one: of `(key ++ "1", pid 2)` and `(key, pid 12)` only the first in an interval triggers.

### C73 A Java trace is slow exactly if it took longer than the threshold (partial)

A trace with entry and exit times is reported as slow exactly if exit - entry exceeds the threshold in milliseconds.

*The decision is exact; a trace whose clock ran backwards counts as slow, proved.*

* `Kindling.Cpu.Expire.slowTrace_iff_partial` [cpq] (Cpu/Expire.lean): For an end after the start this is the comparison of the real times.
* `Kindling.Cpu.Expire.backwards_is_slow` [pq] (Cpu/Expire.lean): An end that carries an earlier time than the start (events of different CPUs) is always reported as slow, with a negative duration, unless the two are centuries apart.

### C74 Sockets of /proc/net/tcp are found under the key of their events (proved)

For every kernel socket table, reading /proc/<pid>/net/tcp succeeds and a connection observed in events (addresses as 32-bit words) is found under its own key with the state of its socket, and no other connection shares the key.

*For every IPv4 table in the kernel's format. One malformed line makes the whole table unreadable, proved.*

* `Kindling.Tcp.Proc.proc_table_read` [pq] (Tcp/Proc.lean): Every kernel table is read, and a connection seen in events is found in it under the same key, with its state.
* `Kindling.Tcp.Proc.ipLong_injective` [pq] (Tcp/Proc.lean): Different 32-bit addresses have different bytes, so different connections have different keys.
* `Kindling.Tcp.Proc.listed_has_state` [p] (Tcp/Proc.lean): A table that contains a socket has a state for it.
* `Kindling.Tcp.Proc.bad_line_fails` [p] (Tcp/Proc.lean): One unreadable line spoils the whole table: the sweep then takes every attempt of the process as expired.
* `Kindling.Tcp.Proc.parseUint_exact` [pq] (Tcp/Proc.lean): a number is read exactly when its text is not empty, has only hexadecimal digits and fits 64 bits; it is then the number of the text.
* `Kindling.Tcp.Proc.hexVal_digits` [cpq] (Tcp/Proc.lean): The value of a hexadecimal digit of either case.

### C75 Workload of a pod (proved)

A pod controlled by a replica set shows the workload that controls the replica set in the cluster, after every history of replica set events; if the replica set is not known, the deployment its name was derived from; otherwise the pod's own controller.

*Names of one line; namespaces without a slash.*

* `Kindling.K8s.workload_of_pod` [cpq] (K8s/Names.lean): The workload of a pod: that of its first controlling owner, where a replica set stands for what owns it, or for the deployment in its name if the replica set is not known; none without such an owner.
* `Kindling.K8s.deployment_of_replicaset` [cpq] (K8s/Names.lean): A replica set named by Kubernetes (deployment, dash, hash) yields the name of its deployment.
* `Kindling.K8s.deployment_of_other` [cpq] (K8s/Names.lean): Any other name yields the empty name.
* `Kindling.K8s.mapKey_inj` [cpq] (K8s/Names.lean): Namespaces contain no slash, so the key of a replica set determines it.
* `Kindling.K8s.Nodes.pod_workload` [cpq] (K8s/Nodes.lean): So a pod owned by a replica set shows what controls the replica set in the cluster.
* `Kindling.K8s.completeGVK_iff` [cpq] (K8s/Names.lean): Kinds of groups that are not built in are shown with the group.
* `Kindling.K8s.isHash_iff` [cpq] (K8s/Names.lean)

### C76 Pod references to services stay current (proved)

After every history of service and pod events the service a pod refers to is empty or exists in the cluster, in the pod's namespace, and selects the pod.

*References are never stale. A pod selected by two services is left without one when the service added last is deleted, proved.*

* `Kindling.K8s.Service.pod_service_current` [cpq] (K8s/Service.lean): After every history the service a pod refers to is empty, or it is a service that exists in the pod's namespace and selects the pod: a deleted or changed service is never seen through a pod.
* `Kindling.K8s.Service.orphaned_pod` [cpq] (K8s/Service.lean): Finding. A pod selected by two services refers to the one added last; when that one is deleted the pod has no service, although the other still exists and selects it.

### C77 Kubernetes labels of requests (proved)

Source and destination of a request carry the labels of one pod, found by the first lookup that succeeds in the documented order (container id or address; service, container, host port, node); if nothing is found, the namespace says so. A request to the loopback address is attributed to the requesting pod.

*For all labels and lookup results.*

* `Kindling.Proc.K8s.request_source` [cpq] (Proc/K8s.lean): Source of a request. For a client: the container of the event if it is known, else the own node; without a container, and for servers: the pod of the address, else the node of the address, else external.
* `Kindling.Proc.K8s.request_destination` [cpq] (Proc/K8s.lean): Destination of a client's request, by the first lookup that succeeds: service, container, host port, node.
* `Kindling.Proc.K8s.loopback_to_own_pod` [cpq] (Proc/K8s.lean): A request of a container to itself through the loopback address is found under the address of its pod.
* `Kindling.Proc.K8s.server_destination` [cpq] (Proc/K8s.lean): Destination of a server's request: the container of the event, or the own node.
* `Kindling.Proc.K8s.Table.request_labels` [cpq] (Proc/K8sTable.lean): every label of a request: those of the source as the table of the source says, those of the destination as the table of the destination says, the others are not touched.
* `Kindling.Proc.K8s.Table.request_ports` [cpq] (Proc/K8sTable.lean): and the ports of a request.
* `Kindling.Proc.K8s.Table.connection_labels` [cpq] (Proc/K8sTable.lean): every label of a TCP metric.

### C78 List and map attributes agree (proved)

For every group, the attributes exported as a list and as a map have the same keys and values, after the adjustments for translated addresses and for destinations in the cluster.

*For all dictionaries with distinct keys and all lists and maps of the pools. In a map a value label without a value keeps the one of an earlier group, proved.*

* `Kindling.Export.Labels.transformed_map` [cpq] (Export/Labels.lean): The map of a group consists of exactly the wanted attributes, whatever map the pool gives.
* `Kindling.Export.Labels.list_and_map_agree` [cpq] (Export/Labels.lean): The list and the map of a group carry the same attributes.
* `Kindling.Export.Labels.missing_value_keeps_old` [cpq] (Export/Labels.lean): Finding: in a map a value label without a value keeps the value of an earlier group.
* `Kindling.Export.Adapter.exported_map` [cpq] (Export/Adapter.lean): The map for the same group has the same labels.
* `Kindling.Export.Span.span_attributes_partial` [cpq] (Export/SpanLabels.lean): the attributes of a span are exactly those of the table for its protocol, with the values of the record, the times of the record and the constant ones; `PoolList` holds of every list the pool may give (it has the keys of this protocol and the values of earlier spans). Missing for Redis: its entries have a key twice, see `redis_span_comm`.
* `Kindling.Export.Span.span_flags` [cpq] (Export/SpanLabels.lean): the rest of a span: who was asked, whether it failed or was slow, and its time in milliseconds.

### C79 Trace files of different traces do not collide (proved)

Directories of different processes and file names of different traces (content key, timestamp, encoded path) are different, and the encoded names contain no path separator.

*For all path elements that meet the stated conditions. long_key_long_name is a finding: the content key is not cut, so with 180 bytes or more the file cannot be created on Linux.*

* `Kindling.Export.Files.dirs_distinct` [cpq] (Export/Files.lean): Different processes have different directories (Kubernetes names have no underscore).
* `Kindling.Export.Files.files_distinct` [cpq] (Export/Files.lean): Different traces have different files: time, protocol, content key and role can be read back from the name.
* `Kindling.Export.Files.dates_distinct` [cpq] (Export/Files.lean): Different civil times or nanoseconds give different dates.
* `Kindling.Export.Files.traces_distinct` [cpq] (Export/Files.lean): two traces of one process share a file only if they agree in time, protocol, content key and role.
* `Kindling.Export.Files.encode64_inj` [pq] (Export/Files.lean)
* `Kindling.Export.Files.date_clean` [cpq] (Export/Files.lean): Dates have no underscore.
* `Kindling.Export.Files.encode64_value` [pq] (Export/Files.lean): Base 64 writes the bytes as one number: three bytes are four digits, of two or one bytes the bits are filled up with zeros and the digits with padding.
* `Kindling.Export.Files.name_has_no_separator` [cpq] (Export/Files.lean): a name of a file has no path separator, whatever the content key is.
* `Kindling.Export.Files.long_key_long_name` [cpq] (Export/Files.lean): the content key is in the name at four thirds of its length and nothing cuts it. With a content key of 180 bytes the name is longer than the 255 bytes a name may have on Linux, so that the file cannot be created.

### C80 Conntrack circuit breaker trips exactly on overload (partial)

A load within the limit never opens the breaker, a sustained load above it opens it, and once open it stays open until it is reset. Every time it opens, the share of messages the socket passes is lowered; the filter passes exactly that share of all random numbers, and the socket never stops passing messages for good.

*For all histories, with exact fractions for the float64 arithmetic. A load of at most four events per second above the limit may never open it because the rate is rounded down, proved. The share of messages is never raised again, so after 433 openings none passes (worn_out).*

* `Kindling.Conn.Consumer.stays_open` [p] (Conn/Consumer.lean): An open breaker stays open until it is reset.
* `Kindling.Conn.Consumer.opened_by_update` [p] (Conn/Consumer.lean): Only updates open it, and a reset closes it.
* `Kindling.Conn.Consumer.first_interval` [cpq] (Conn/Consumer.lean): The first interval after a reset is judged by its own rate: the breaker opens iff more than `limit` events per second (rounded down) came, over an interval of at least one second.
* `Kindling.Conn.Consumer.calm_stays_closed` [pq] (Conn/Consumer.lean): A load that stays within the limit never opens the breaker.
* `Kindling.Conn.Consumer.busy_opens_partial` [pq] (Conn/Consumer.lean): A load of at least five events per second above the limit opens it, after at most `limit + 2` updates.
* `Kindling.Conn.Consumer.slight_overload_never_opens` [pq] (Conn/Consumer.lean): Finding: the rate is rounded down, so a breaker whose rate is at the limit never opens under a load of up to four events per second above it, however long it lasts.
* `Kindling.Conn.Consumer.resample_lower` [pq] (Conn/Consumer.lean): After every trip the rate is strictly lower; nothing in the code raises it again.
* `Kindling.Conn.Consumer.share_after_trips` [pq] (Conn/Consumer.lean): whatever was read and whenever the rates were updated, after `n` trips of the breaker the socket lets at most the share `0.95 ^ n` of the messages pass, and the filter is always a valid program.
* `Kindling.Conn.Consumer.passes_iff` [pq] (Conn/Consumer.lean): the filter passes the messages whose random number is below the share of all 32-bit numbers.
* `Kindling.Conn.Consumer.passed_share` [pq] (Conn/Consumer.lean): of all 32-bit numbers, exactly the share `num / den` (rounded down to a whole number of them) lets a message pass.
* `Kindling.Conn.Consumer.worn_out` [cpq] (Conn/Consumer.lean): the share is never raised again. After 433 trips, over whatever time, the socket passes no message at all.

### C81 Conntrack messages decode to the connections the kernel sent (partial)

For every connection of the kernel with any further attributes before, between and after, decoding gives exactly the addresses, ports and protocol; encoding then decoding is the identity; malformed messages are skipped without crashing.

*For all connections and further attributes. Protocol attributes that are too short crash the process, proved; nothing else in the decoder does.*

* `Kindling.Conn.Decode.message_decodes` [pq] (Conn/Decode.lean): A message of the kernel (family and version header) decodes to its connection, whatever other attributes it contains.
* `Kindling.Conn.Decode.all_decoded` [pq] (Conn/Decode.lean): Events with several messages: all connections, in order.
* `Kindling.Conn.Decode.encode_decode` [cpq] (Conn/Decode.lean): Decoding undoes encoding, up to the form of the addresses.
* `Kindling.Conn.Decode.scan_wire` [pq] (Conn/Decode.lean)
* `Kindling.Conn.Decode.no_other_panic_partial` [pq] (Conn/Decode.lean): Nothing else panics: any bytes for the addresses, and any attributes of the protocol that are long enough.
* `Kindling.Conn.Decode.short_proto_panics` [pq] (Conn/Decode.lean): Finding: the data of the attributes of a protocol is read without checking its length. An empty protocol number or a port of less than two bytes crashes the process.
* `Kindling.Conn.Consumer.event_runs` [pq] (Conn/Consumer.lean): The messages of an event act on the cache exactly as the connections they carry, so that the results on lookups (`dnat_sound`, `dnat_found`) apply to what the kernel sends.
* `Kindling.Conn.Decode.too_short_refused` [pq] (Conn/Decode.lean): a message of less than two bytes, and the four bytes of the header alone, are errors.

### C82 Conntrack dump and stream deliver every message (partial)

All messages without an error code reach the decoder in order, and a dump ends with its end message.

*An error code in a read drops the whole read, and a dump then does not end; both proved.*

* `Kindling.Conn.Consumer.all_received_partial` [pq] (Conn/Consumer.lean): Without errors and end messages every message arrives, in order, as one event per read.
* `Kindling.Conn.Consumer.dump_received` [pq] (Conn/Consumer.lean): A dump ends at its end message, and everything before it arrives.
* `Kindling.Conn.Consumer.error_drops_read` [pq] (Conn/Consumer.lean): Finding: "Messages with error codes are simply skipped", says the code, but all messages of the read are.
* `Kindling.Conn.Consumer.dump_with_error_never_ends` [pq] (Conn/Consumer.lean): Finding: so a dump whose last read contains an error does not end: the loop waits for further reads.

### C83 Metadata provider and its clients agree (partial)

A client that lists and watches has, for every resource type, received every change exactly as the provider's cache saw it, whatever the interleaving of changes, listings and broadcasts; the resulting node and replica set maps equal those of the provider.

*For all interleavings; pods and services are abstract and an update of the cache is one step. Changes of different types may arrive in another order, a deletion the informer only infers is lost, and the retry loop allows only two attempts after a success, all proved.*

* `Kindling.K8s.Provider.client_complete_partial` [pq] (K8s/Provider.lean): Between broadcasts of a type of resources, every connected client has got, as snapshot and stream, exactly the events of this type applied to the cache of the provider, in order; only the last event of the snapshot may come again.
* `Kindling.K8s.Provider.client_nearly_complete` [pq] (K8s/Provider.lean): During a broadcast at most the event being sent is missing.
* `Kindling.K8s.Provider.client_state` [pq] (K8s/Provider.lean): A client that never got an event twice in a row differently from once: applying the snapshot and then the stream gives the state of the provider, for resources whose state depends on their own events only.
* `Kindling.K8s.Provider.client_nodes` [cpq] (K8s/Provider.lean): Between broadcasts a client finds the same node for every address as the provider.
* `Kindling.K8s.Provider.client_replica_sets` [cpq] (K8s/Provider.lean)
* `Kindling.K8s.Provider.watcher_size` [cpq] (K8s/Provider.lean): The watcher size that is logged is the number of registered clients, however often clients are removed.
* `Kindling.K8s.Provider.types_reordered` [pq] (K8s/Provider.lean): Finding: events of different types may reach a client in another order than the cache of the provider saw them.
* `Kindling.K8s.Provider.tombstone_lost` [-] (K8s/Provider.lean): Finding: a client deletes what the provider deletes unless the informer missed the deletion itself; then it deletes the empty pod and keeps the real one.
* `Kindling.K8s.Provider.three_attempts` [p] (K8s/Provider.lean): Without a success there are three attempts.
* `Kindling.K8s.Provider.two_attempts_after_success` [p] (K8s/Provider.lean): Finding: after a success there are only two before the pause.

### C84 A scheduled task ends once and can be stopped (partial)

The expiry callback runs exactly once per start, the task never runs after its end, a Stop before the expiry is served, and a Stop racing with the expiry returns.

*A Stop racing with the timer never returns, proved. Cpu/Timed.lean adds the clock: a loop that is never kept waiting for half a period runs the task on time and ends in time, after all its runs or one less (last_run_is_luck); without that condition it may end without a run. Stop is left out there.*

* `Kindling.Cpu.Task.callback_once` [cpq] (Cpu/Task.lean): the callback runs exactly once for every start: never more often, and for every routine that is no longer in its loop and has nothing left to do it has run.
* `Kindling.Cpu.Task.one_loop` [pq] (Cpu/Task.lean): The routine of the code, which nobody starts again: at most one loop, at most one callback.
* `Kindling.Cpu.Task.no_run_after_end` [p] (Cpu/Task.lean): once a loop was left, by the timer or by `Stop`, the task never runs again, whatever is called.
* `Kindling.Cpu.Task.end_stops_ticks` [-] (Cpu/Task.lean)
* `Kindling.Cpu.Task.stop_served_partial` [pq] (Cpu/Task.lean): until the timer fires, every `Stop` that is waiting can be served, and a `Stop` of a running routine ends a loop.
* `Kindling.Cpu.Task.at_most_one_stuck` [pq] (Cpu/Task.lean): In every state at most one `Stop` waits for a loop that is not there.
* `Kindling.Cpu.Task.routine_size` [pq] (Cpu/Task.lean): The gauge is the number of routines whose callback has not run, less those just created.
* `Kindling.Cpu.Task.stop_hangs` [pq] (Cpu/Task.lean): if the timer fires between the two steps of `Stop`, the compare-and-swap and the send, the call never returns, unless somebody starts the routine again: in any state of a running routine those two steps lead to one in which the call waits, and it waits in every later state.
* `Kindling.Cpu.Task.runs_are_ticks` [pq] (Cpu/Task.lean): the task runs exactly once for every tick a loop received.
* `Kindling.Cpu.Timed.runs_on_time` [pq] (Cpu/Timed.lean): a routine whose loop is never kept waiting longer than `d`, less than half the period, runs its task on time, the `i`-th run within `d` of the `i`-th tick, and never more than `n` times, `n` periods and a nanosecond being the expiry.
* `Kindling.Cpu.Timed.ends_after_n` [pq] (Cpu/Timed.lean): when such a routine ends, at the expiry or up to `2 d` later, it has run its task `n` times or once less.
* `Kindling.Cpu.Timed.ends_in_time` [pq] (Cpu/Timed.lean): it ends: it cannot go on longer than that.
* `Kindling.Cpu.Timed.last_run_is_luck` [cpq] (Cpu/Timed.lean): the timer fires one nanosecond after the last tick. If the loop gets to run a nanosecond late, it finds both, and `select` may take the timer: the last run is left out, however long the edge is; and it may not be.
* `Kindling.Cpu.Timed.kept_waiting_no_run` [pq] (Cpu/Timed.lean): without the condition on `d` nothing is certain: a loop that is kept from running until the expiry may end without having run the task at all.

### C85 The receiver passes every event on once and in order, and shuts down (partial)

Events reach the analyzers exactly once in the probe's order with all parameters intact, every event is counted under its name, nothing is fetched after a shutdown, and Shutdown returns.

*For all interleavings. Shutdown never returns if the consumer leaves first with more events in flight than the channel holds, and an event claiming more than 16 parameters crashes the collector; both proved.*

* `Kindling.Ctl.Receiver.converted_attr` [pq] (Ctl/Receiver.lean): for every event the probe sends with at most 16 parameters, looking a parameter up gives exactly the first one of that name among those in use, with its type and its bytes.
* `Kindling.Ctl.Receiver.in_order` [pq] (Ctl/Receiver.lean): every event of the probe is passed on exactly once and in order: at any time the events handed over are those consumed, then those in the channel, then those left of the batch; and the channel never exceeds its capacity.
* `Kindling.Ctl.Receiver.all_consumed_partial` [pq] (Ctl/Receiver.lean): When nothing is in flight, everything the probe handed over has been consumed.
* `Kindling.Ctl.Receiver.drains` [p] (Ctl/Receiver.lean): while the receiver is not shut down it never gets stuck with a capacity of at least one: whatever is in flight can be consumed, by steps that keep it open.
* `Kindling.Ctl.Receiver.no_fetch_after_close` [-] (Ctl/Receiver.lean): after `Shutdown` closed the channel nothing more is asked from the probe.
* `Kindling.Ctl.Receiver.shutdown_can_return` [pq] (Ctl/Receiver.lean): `Shutdown` returns when both goroutines are done (`shutdownWG.Wait`, cgoreceiver.go:121); it can as long as the consumer is running, or the rest of the batch fits into the channel.
* `Kindling.Ctl.Receiver.lost_at_shutdown` [p] (Ctl/Receiver.lean): Once the consumer is gone, the number of events that did not reach the analyzers does not change: they are lost.
* `Kindling.Ctl.Receiver.stats_exact` [cpq] (Ctl/Receiver.lean): the counter of every subscribed name is exactly the number of events of that name, and `other` counts the rest.
* `Kindling.Ctl.Receiver.stats_once` [cpq] (Ctl/Receiver.lean): Every event is counted exactly once: by its own name or by `other`.
* `Kindling.Ctl.Receiver.too_many_params` [pq] (Ctl/Receiver.lean): an event that claims more than 16 parameters crashes the collector.
* `Kindling.Ctl.Receiver.shutdown_hangs` [pq] (Ctl/Receiver.lean): if the consumer returns first and more events are in flight than the channel holds, the other goroutine waits for room for ever and `Shutdown` never returns.
* `Kindling.Ctl.Receiver.shutdown_hang_reachable` [pq] (Ctl/Receiver.lean): Such a state is reached with any batch larger than the room left.
* `Kindling.Ctl.Receiver.rawName_spec` [p] (Ctl/Receiver.lean): the name without a dash is counted as it is; of others, what stands between the first dash and the second or the end.

### C86 TCP metrics are exactly what the kernel reported (proved)

Every non-zero round trip time, drop and retransmission of an IPv4 connection gives exactly one metric with its value and the dotted addresses, ports and translation of the connection; incomplete events give none.

*For all events the probe can send; parameters shorter than their type, which the probe does not send, would crash it, proved.*

* `Kindling.Tcp.Metric.labels_exact` [pq] (Tcp/Metric.lean): the labels of every event about an IPv4 connection are the dotted addresses and the ports the kernel saw, and the translation the conntracker has for exactly that connection.
* `Kindling.Tcp.Metric.rtt_reported` [pq] (Tcp/Metric.lean): a round-trip time that is not zero is reported, exactly once, with its value; zero is not reported.
* `Kindling.Tcp.Metric.drop_reported` [pq] (Tcp/Metric.lean): every drop is counted once, whatever else the event says.
* `Kindling.Tcp.Metric.retransmit_reported` [pq] (Tcp/Metric.lean): a retransmission is counted with the number of segments the kernel gave, or as one without it.
* `Kindling.Tcp.Metric.other_events` [pq] (Tcp/Metric.lean): events of other names give nothing.
* `Kindling.Tcp.Metric.incomplete_events` [pq] (Tcp/Metric.lean): an event without one of the four parameters of the connection gives nothing and does not crash.
* `Kindling.Tcp.Metric.short_param_panics` [cpq] (Tcp/Metric.lean): an event with a parameter shorter than its type says crashes the collector.
* `Kindling.Tcp.Metric.later_config_ignored` [p] (Tcp/Metric.lean): a configuration that enables tracking has no effect if any analyzer asked for the tracker before without one.
* `Kindling.Tcp.Metric.uint_read` [pq] (Tcp/Metric.lean): an unsigned number of any of the four widths reads back as it was written, whatever bytes follow; a parameter of any other type counts as zero; too few bytes crash. The type codes are those of the probe (model/kindling_event.go:104-119).
* `Kindling.Tcp.Metric.int_read` [pq] (Tcp/Metric.lean): the same for signed numbers, in two's complement.
* `Kindling.Tcp.Metric.unusual_parameters` [pq] (Tcp/Metric.lean): a retransmission whose number of segments is not a 32-bit integer counts as one; a round trip event without a time is not reported.
* `Kindling.Tcp.Metric.tracker_ports` [pq] (Tcp/Metric.lean): the conntracker is asked about the ports as 16-bit numbers.

### C87 The Prometheus exporter reports the accumulated value of every live label set (partial)

At every collection the Prometheus exporter reports, for each label set recorded since its start that was updated within the last five minutes, exactly one sample per metric: counters with the sum of all values recorded, the round-trip time with its last value, the two request-time histograms with the exact sum, count and cumulative bucket counts; the labels of a sample are the labels of the records in text, and its time is that of the last record. Nothing else is reported, and neither consuming nor collecting panics.

*Proved for the metrics of the first record of a label set. The full claim is false: all groups share one series per label set, so a retransmit group with the labels of an existing round-trip series is ignored (later_group_ignored); two kinds of groups are dropped (other_groups_dropped); labels that differ only in type collide (typed_labels_collide); the round-trip time is exported as a counter that falls.*

* `Kindling.Export.Prom.counter_exported_partial` [cpq] (Export/Prom.lean): whatever was consumed and collected before, a collection exports every metric of a live label set that is not specially configured as a counter with the total of everything recorded for it while the label set was alive, the labels as text, and the time of the last record.
* `Kindling.Export.Prom.rtt_exported` [cpq] (Export/Prom.lean): the round-trip time is exported with the last recorded value.
* `Kindling.Export.Prom.histogram_exported` [cpq] (Export/Prom.lean): the request time histograms are exported with the number and the sum of all recorded values and, at every boundary, the number of values up to it, whether the values came one by one or as histograms over the same boundaries.
* `Kindling.Export.Prom.only_live_exported` [cpq] (Export/Prom.lean): nothing else is exported. Every sample belongs to a live label set, to a metric of its first record, and carries the configured aggregate of exactly the values recorded for that metric while the label set was alive.
* `Kindling.Export.Prom.labels_restored` [cpq] (Export/Prom.lean): the exported labels of a series are exactly the labels its records came with.
* `Kindling.Export.Prom.no_panic` [cpq] (Export/Prom.lean): as long as every adapted result has at most 37 labels, histograms with a count per boundary, and no name that is a single symbol, neither `Consume` nor `Collect` ever crashes.
* `Kindling.Export.Prom.later_group_ignored` [cpq] (Export/Prom.lean): Finding (C87 fails): all groups are recorded under one name, so a label set keeps only the metrics of its first group. The TCP groups carry the same labels (aggregateprocessor/processor.go `newTcpLabelSelectors`): once a round-trip time was exported for a connection, its retransmissions and drops are ignored as long as the series lives.
* `Kindling.Export.Prom.other_groups_dropped` [cpq] (Export/Prom.lean): Finding: the default adapter is the simple one, which accepts the three TCP groups only. Every other group, such as the TCP connect metrics or the Kubernetes workload metrics, is dropped without a message.
* `Kindling.Export.Prom.rtt_counter_falls` [cpq] (Export/Prom.lean): Finding: a round-trip time is a counter for Prometheus, but it follows the last value and falls.
* `Kindling.Export.Prom.typed_labels_collide` [cpq] (Export/Prom.lean): Finding: labels that differ only in their type are different series with the same exported labels; Prometheus rejects a collection with such a pair.
* `Kindling.Export.Prom.other_histogram_flattened` [pq] (Export/Prom.lean): Finding: a histogram that is not configured becomes a counter of its sum; its buckets are lost.
* `Kindling.Export.Prom.five_minutes` [cpq] (Export/Prom.lean): a collection forgets exactly the label sets whose last update is more than five minutes back.
* `Kindling.Export.Prom.added_up_as` [p] (Export/Prom.lean): How the exporter adds up each metric, whatever its name: the round-trip time keeps the last value, the two request times are counted between fourteen boundaries from 10 ms to 30 s, everything else is summed.
* `Kindling.Export.Prom.routed_as` [p] (Export/Prom.lean): Which groups go where, whatever the name: the requests to the network adapter, the connections' three groups through unchanged, the rest nowhere.

### C88 The OpenTelemetry exporter records every configured value once and observes the last value of every gauge series (partial)

Every integer metric whose name is configured as a counter or histogram is recorded exactly once, with its value and the labels of its result, on an instrument of the configured kind; every trace result becomes one span. An observation of a gauge reports each label set that got a value since the last observation exactly once, with its last value and its selected labels plus the custom labels. The observer of a gauge is registered once. Every label computed for a single request is selected. The exporter panics only on a gauge result without label map.

*Proved for every history. Partial because the full claim fails for gauges other than the three supported (never reported, one more observer per value), for histogram metrics (dropped) and across a meter renewal (values waiting are lost); three selected labels are computed by no converter.*

* `Kindling.Export.Otel.batches_exact_partial` [cpq] (Export/Otel.lean): in every history, the batches and spans given to the library are exactly these: one batch per metric result, in order, with the result's labels and one measurement per integer metric with a configured kind other than gauge, on a histogram if so configured and on a counter otherwise; one span per trace result if the exporter has a tracer.
* `Kindling.Export.Otel.gauge_observed` [cpq] (Export/Otel.lean): an observation of a gauge reports every label set that got a value since the last observation (or restart) exactly once, with the last such value, the labels of the set in text and the custom labels.
* `Kindling.Export.Otel.panics_iff` [cpq] (Export/Otel.lean): the exporter panics exactly when a metric result without label map carries an integer of a supported gauge.
* `Kindling.Export.Otel.observer_once` [cpq] (Export/Otel.lean): the observer of a supported gauge is registered at most once per start of the exporter, and it is registered once a value waits to be observed.
* `Kindling.Export.Otel.observed_labels` [cpq] (Export/Otel.lean): the labels of an observation are the selected labels of the result with the values it had; absent or mistyped ones read as zero values.
* `Kindling.Export.Otel.gauge_series_iff` [cpq] (Export/Otel.lean): two results feed the same series iff they agree on all selected labels.
* `Kindling.Export.Otel.trace_labels_kept` [cpq] (Export/Otel.lean): every label that the network adapter computes for a single slow or failed request, for any protocol, is selected with its type, so that (`observed_labels`) none of them is lost in the gauge.
* `Kindling.Export.Otel.trace_labels_blank` [cpq] (Export/Otel.lean): Finding: three selected labels are computed for no protocol: the gauge always reports them empty.
* `Kindling.Export.Otel.unsupported_gauge` [cpq] (Export/Otel.lean): Finding: a metric configured as a gauge that is none of the three supported ones is never reported, and each of its values registers one more observer.
* `Kindling.Export.Otel.histograms_dropped` [cpq] (Export/Otel.lean): Finding: histogram metrics never reach the library.
* `Kindling.Export.Otel.restart_loses_values` [cpq] (Export/Otel.lean): Finding: values of gauges recorded but not yet observed are lost when the meter is renewed: nothing more is reported.
* `Kindling.Export.Otel.fits_iff` [cpq] (Export/Otel.lean): `fits` says what it should: the value computed is of the type of the selector, whatever the labels are.

### C89 The configured aggregation is carried out as asked and the exported metrics describe the request (partial)

Every metric configured for aggregation is aggregated in exactly the configured kinds, in their order, under the configured output name or its own; histograms use the configured boundaries or the default ones. The aggregated labels of a record contain every selected label with its value and nothing else. The labels of the metrics exported from an aggregated record are those that would be exported from the record itself: aggregation loses no label the exporter reads.

*Configuration and labels are proved in full; the exported labels for every label except two. The full claim is false: dubbo_error_code and error_type are not selected, so the exported Dubbo code is always 0 (dubbo_code_lost) and the exported Redis content always says no error (redis_error_lost). The built-in default aggregates no connection metrics (default_drops_connections).*

* `Kindling.Proc.Aggregate.configured_kinds` [pq] (Proc/Aggregate.lean): a metric is aggregated iff it is configured, and then in exactly the configured ways, in order.
* `Kindling.Proc.Aggregate.default_kinds` [p] (Proc/Aggregate.lean): with the built-in configuration durations are summed, averaged and counted, sizes and TCP events are summed and the round trip time is the last one; all under the names the exporters know.
* `Kindling.Proc.Aggregate.aggregated_labels` [cpq] (Proc/Aggregate.lean): the aggregated group has the selected labels of the record and no others, for the three lists of the processor. The list for requests has no room for another selector.
* `Kindling.Proc.Aggregate.aggregated_export_partial` [cpq] (Proc/Aggregate.lean): From the record to the exported metric: for every record, every converter of aggregated groups and whatever was converted before, the exported labels are those the record itself would give, each with its final value; only the error codes of Dubbo and Redis are excepted (see `dubbo_code_lost`, `redis_error_lost`).
* `Kindling.Proc.Aggregate.exported_entry` [cpq] (Proc/Aggregate.lean): A label the adjustments leave alone is exported with the value its entry has in the aggregated group.
* `Kindling.Proc.Aggregate.dubbo_code_lost` [cpq] (Proc/Aggregate.lean): Finding: the error code of Dubbo is not selected (`constlabels.DubboErrorCode` is missing at processor.go:145-187), so the aggregated metrics of Dubbo requests always report the code 0.
* `Kindling.Proc.Aggregate.redis_error_lost` [cpq] (Proc/Aggregate.lean): Finding: the type of an error is not selected either, so the aggregated metrics of Redis requests never show an error, whatever the record says.
* `Kindling.Proc.Aggregate.default_drops_connections` [pq] (Proc/Aggregate.lean): Finding: with the built-in configuration the metrics of TCP connections are recorded nowhere: whatever the record of a connection holds under these two names, the aggregated values do not change.

### C90 The exported metrics of an exchange show what was on the wire (partial)

For every well-formed request and response of a supported protocol, the labels of the exported metrics show the request (clustered path, statement key, topic, domain, service and method, command) and the code of the response that were in the payloads, whatever was parsed, recorded, recycled or converted before. The parsers write no label of another protocol or of the record itself, and set the two error labels only together.

*Proved from bytes to exported labels for HTTP, MySQL, DNS and RocketMQ, and for the request side of Kafka, Dubbo and Redis. The full claim is false for the response side of those three: the code of Kafka is not exported, that of Dubbo is always 0 and an error of Redis is never shown in aggregated metrics (the theorems state these values). The well-formedness conditions are those of the parser theorems.*

* `Kindling.Flow.parsed_kept` [cpq] (Flow/Attrs.lean): for all payloads, an exchange parsed by one protocol has only labels of that protocol; the two error labels are absent or say protocol error, both.
* `Kindling.Flow.parsed_attrs` [cpq] (Flow/Attrs.lean): the condition of `record_labels` holds of every parsed exchange.
* `Kindling.Flow.exported_attr_partial` [cpq] (Flow/Labels.lean): The aggregated metrics: an entry that reads a label of the parser is exported with the value the parser gave it (the empty text or 0 if it gave none), whatever record, pool and metadata there were before; the code of Dubbo is the exception (`Aggregate.dubbo_code_lost`).
* `Kindling.Flow.exported_single` [cpq] (Flow/Labels.lean): The single requests, as metric or as span: the same for every entry that reads a label of the parser, Dubbo's included.
* `Kindling.Flow.http_metrics` [cpq] (Flow/Labels.lean): the metrics of every exchange of a well-formed request and response show the clustered path of the request and the status of the response.
* `Kindling.Flow.http_metrics_no_response` [cpq] (Flow/Labels.lean): the code is shown as 0.
* `Kindling.Flow.mysql_metrics` [cpq] (Flow/Labels.lean): the statement's key, and the code of an error packet.
* `Kindling.Flow.dns_metrics` [cpq] (Flow/Labels.lean): the first name asked for and the response code.
* `Kindling.Flow.rocketmq_metrics` [cpq] (Flow/Labels.lean): the topic or the name of the operation, and the response code.
* `Kindling.Flow.kafka_metrics` [cpq] (Flow/Labels.lean): the topic of the response; the code is never shown.
* `Kindling.Flow.dubbo_metrics` [cpq] (Flow/Labels.lean): service and method of the request; the code is always 0, whatever the status of the response (`Aggregate.dubbo_code_lost`).
* `Kindling.Flow.redis_metrics` [cpq] (Flow/Labels.lean): the last command of the request; never an error, whatever the response (`Aggregate.redis_error_lost`).
* `Kindling.Flow.exchange_exists` [cpq] (Flow/Labels.lean): The conditions of `Exchange` can always be met.
* `Kindling.Flow.http_span` [cpq] (Flow/Spans.lean): the span of every exchange shows the method and the path of the request, the trace its header fields carry (or else those of the response), and the status of the response; it is a protocol error exactly from status 400 on.
* `Kindling.Flow.mysql_span` [cpq] (Flow/Spans.lean): the statement, the code and the text of an error packet; a protocol error exactly if the code is not 0.
* `Kindling.Flow.dubbo_span` [cpq] (Flow/Spans.lean): the status of the response, which the metrics lose; a protocol error exactly above 20.
* `Kindling.Flow.rocketmq_span` [cpq] (Flow/Spans.lean): the name of the operation, and the text of the error if the code is above 0.
* `Kindling.Flow.dns_span` [cpq] (Flow/Spans.lean): the first name asked for and the response code; a protocol error exactly if the code is neither 0 nor an ignored 3.
* `Kindling.Flow.error_label` [cpq] (Flow/Spans.lean): the labels of an exchange tell a protocol error from a missing response by the type: it is 3 exactly if the parser wrote `is_error`, and such an exchange is an error.
* `Kindling.Flow.joined_ips_split` [cpq] (Flow/Attrs.lean): the addresses of a DNS response can be read back from their text.
* `Kindling.Flow.all_read` [cpq] (Flow/Labels.lean): Every label an exporter reads is one of the parser's, one of the record's own or one of the metadata's; the other entries read nothing.

### C91 The documented labels (partial)

Every exported network metric carries exactly the labels documented for it in docs/prometheus_metrics.md, each with the documented value: service metrics the labels of the server, topology metrics those of both ends with the destination after address translation, traces exported as metrics also the colours of their times; request_content, response_content and status_code hold what is documented for the protocol; is_slow comes only with the documented metric; the metrics have the documented names.

*is_slow is also exported with the number of requests of the topology, where it is not documented, and the contents of gRPC requests are exported although documented as empty; everything else agrees.*

* `Kindling.Export.Documented.service_metrics_documented` [cpq] (Export/Documented.lean): Requests seen by the server: every metric is exported with exactly the labels documented for service metrics, `is_slow` only with the number of requests.
* `Kindling.Export.Documented.topology_metrics_documented_partial` [cpq] (Export/Documented.lean): Requests seen by the client: exactly the labels documented for topology metrics; but `is_slow`, which is not documented there, is exported with the number of requests.
* `Kindling.Export.Documented.external_metrics_documented_partial` [cpq] (Export/Documented.lean): Requests from outside seen by the server are exported twice: as topology with all labels of the pods, and as service.
* `Kindling.Export.Documented.trace_metric_documented` [cpq] (Export/Documented.lean): A trace exported as a metric has the duration as its value and exactly the documented labels: those of the group and the colours of its times and of its parts.
* `Kindling.Export.Documented.names_documented` [cpq] (Export/Documented.lean): The metrics have their documented names; a server sends the bytes of responses and receives those of requests.
* `Kindling.Export.Documented.span_times` [cpq] (Export/Documented.lean): A span has the times of the record in its attributes, a time that is missing has none.
* `Kindling.Export.Documented.topology_total_has_is_slow` [cpq] (Export/Documented.lean): Disagreement: `is_slow` is documented for `kindling_entity_request_total` only, but every `kindling_topology_request_total` has it.
* `Kindling.Export.Documented.grpc_content_exported` [cpq] (Export/Documented.lean): Disagreement: the contents of gRPC requests are documented as empty, but they are exported.

### C92 The metrics of a record and of its clone are independent (partial)

Looking up, setting, removing and clearing metrics of a record does to its list of values exactly what the names of the operations say, setting a metric replaces the first value of that name or adds one and keeps names unique, removing removes every metric of that name and nothing else. A clone shows the same metrics as the record, and afterwards no operation on either, in any order, shows in the other.

*Independence is proved for every operation the records offer. It is false for the bucket arrays of histograms, which a clone shares (clone_shares_buckets); no code in the repository writes into them.*

* `Kindling.Model.Group.getMetric_first` [p] (Model/Group.lean): the metric found under a name is the first one of this name.
* `Kindling.Model.Group.op_step` [pq] (Model/Group.lean): One operation on a record: it does to the values what the specification says, and nothing to another record that shares no metric.
* `Kindling.Model.Group.update_read` [pq] (Model/Group.lean): the values of a name after setting it: the first is the new one, the others stay.
* `Kindling.Model.Group.update_unique` [pq] (Model/Group.lean): setting a name that occurs once or not at all keeps the names unique; a name that occurs twice keeps its second value.
* `Kindling.Model.Group.remove_exact` [pq] (Model/Group.lean): removing a name removes all metrics of this name and nothing else.
* `Kindling.Model.Group.clone_step` [cpq] (Model/Group.lean)
* `Kindling.Model.Group.clone_independent_partial` [cpq] (Model/Group.lean): a clone shows what the record showed, and from then on the two are independent: whatever is done to either, in any order, each shows exactly what was done to it.
* `Kindling.Model.Group.clone_shares_buckets` [pq] (Model/Group.lean): the histogram of a clone is not a copy: a bucket counted in place is counted in both records. (No code in the repository writes the elements of these slices.)

### C93 The control interface answers what happened (partial)

A control request for the profile module is answered with success iff the module and all submodules were started or stopped, the state afterwards is the one asked for, the status is answered as it is, operations that are not documented are refused without effect, and the probe is asked exactly for what the request names. The duration given in the request ends the run after that time. With the configuration given, the path of every listed module is served, and no configuration or request panics.

*The full claim is false: a plain number as duration counts nanoseconds, options that cannot be read are ignored, watching a file panics, and so does a configuration without http section or with a module listed twice; the flag enable is ignored.*

* `Kindling.Ctl.Api.status_answer` [cpq] (Ctl/Api.lean): whatever has happened before, the status is answered as it is and stays as it is.
* `Kindling.Ctl.Api.unknown_operation` [cpq] (Ctl/Api.lean): an operation that is not documented is refused with code 4 and has no effect.
* `Kindling.Ctl.Api.start_answer_partial` [cpq] (Ctl/Api.lean): a start without a file to watch: it succeeds (code 1) iff the module was stopped and every submodule starts without error, otherwise the code is 2; afterwards the module is running, the refused request having changed nothing; and the number of timers of the new run is one iff a positive duration was given.
* `Kindling.Ctl.Api.stop_answer` [cpq] (Ctl/Api.lean): a stop, after any history of the module: it succeeds (code 1) iff the module was running and every submodule stops without error, otherwise the code is 3; afterwards the module is stopped.
* `Kindling.Ctl.Api.probe_operations` [cpq] (Ctl/Api.lean): the probe is asked exactly for the operations of this name and with the numbers of the request, and the module is left alone.
* `Kindling.Ctl.Api.timers_asked` [p] (Ctl/Api.lean): the timers asked for: one of the given length iff a duration that can be read is positive.
* `Kindling.Ctl.Api.set_up` [cpq] (Ctl/Api.lean): with an `http` section and the module listed once, its path is served and its submodules are registered; with the module not listed, nothing is served.
* `Kindling.Ctl.Api.body_status` [cpq] (Ctl/Api.lean): a body that is not JSON is answered 500 and changes nothing; any other body is answered 200.
* `Kindling.Ctl.Api.plain_number_is_nanoseconds` [p] (Ctl/Api.lean): the duration is documented in seconds, but a plain number counts nanoseconds: a run asked to last `n` seconds gets a timer of `n` nanoseconds.
* `Kindling.Ctl.Api.unreadable_options_ignored` [cpq] (Ctl/Api.lean): a start whose options cannot be read is answered with success, and the run has no end.
* `Kindling.Ctl.Api.file_watch_panics` [cpq] (Ctl/Api.lean): a request to watch a file panics in the handler; the module is not started.
* `Kindling.Ctl.Api.no_http_section_panics` [cpq] (Ctl/Api.lean): without an `http` section the program panics while it starts up.
* `Kindling.Ctl.Api.enable_ignored` [cpq] (Ctl/Api.lean): the flag `enable` does not matter.
* `Kindling.Ctl.Api.module_twice_panics` [cpq] (Ctl/Api.lean): a module listed twice panics while the program starts up.

### C94 Profile events reach the thread's timeline as the probe wrote them (partial)

Every event the probe sends to the CPU profile (on/off-CPU times, JVM locks, transactions, spans, ends of threads) is put to the timeline of its thread with the times, rows of numbers and texts that were written, in whatever order the parameters come; a request is put from its start to its end; other events and events while the profile is off change nothing; and no event panics the analyzer.

*Round trips for every kind of event; for locks and spans the end must have 19 digits (2001 to 2286), because the probe copies 19 bytes. The full claim is false: an event whose end cannot be read is in no second of the timeline, and a time with too few bytes panics (cpu_panics).*

* `Kindling.Cpu.Events.parseUint_exact` [pq] (Cpu/Events.lean): a number in text is read as the number, whatever zeros stand before it; a text that does not fit gives the largest number, and any other text 0.
* `Kindling.Cpu.Events.words_encode` [pq] (Cpu/Events.lean): a row of 64-bit numbers comes back as it was, a rest of less than eight bytes is ignored.
* `Kindling.Cpu.Events.cpu_last` [cpq] (Cpu/Events.lean): of several parameters of a name the last counts, whatever stands between them; without one the field is empty. The rest is ignored.
* `Kindling.Cpu.Events.cpu_panics` [cpq] (Cpu/Events.lean): the analyzer panics only on a time with too few bytes.
* `Kindling.Cpu.Events.cpu_event_roundtrip` [cpq] (Cpu/Events.lean): a CPU event of the probe is put to the segments of its thread as it was, in whatever order its parameters come.
* `Kindling.Cpu.Events.dispatch` [cpq] (Cpu/Events.lean): what is done with an event, by its name; nothing while the profile is off.
* `Kindling.Cpu.Events.futex_event_roundtrip_partial` [cpq] (Cpu/Events.lean): a lock event of the JVM that ends after 2001-09-09 and before 2286-11-20 (19 digits) is put to its thread as it was.
* `Kindling.Cpu.Events.span_event_roundtrip` [cpq] (Cpu/Events.lean): the same for a span of the tracing agent.
* `Kindling.Cpu.Events.tx_event_roundtrip` [cpq] (Cpu/Events.lean): the same for the start or end of a transaction (kindling.cpp:564-592); `is_enter` is one digit.
* `Kindling.Cpu.Events.unreadable_end_lost` [cpq] (Cpu/Events.lean): an event whose end cannot be read counts as ended in 1970 and is in no second of the window of its thread (from the second second of 1970 on).
* `Kindling.Cpu.Events.trace_put` [pq] (Cpu/Events.lean): a request with its duration is put to its thread from its start to its end.
* `Kindling.Cpu.Events.trace_ids` [pq] (Cpu/Events.lean): whatever the labels hold, thread and process are their lower 32 bits.
* `Kindling.Cpu.Events.cpu_absent` [cpq] (Cpu/Events.lean): what the probe did not send is zero or empty.
* `Kindling.Cpu.Events.no_end_time` [pq] (Cpu/Events.lean): an event without an end counts as ended in 1970 (cpu_analyzer.go:166-197 leave the field at zero).

### C95 Connect attempts are reported with their outcome, errno, process and addresses (partial)

Every event of the probe about a connect attempt - whether it carries the connection as parameters of a kernel function or as the descriptor of a system call - is counted to the same connection, and the data group passed on for an attempt says exactly how it ended: success or failure, the error number, the time it took when it succeeded, the process and container, the addresses and ports, and their translation. Other events change nothing.

*The groups are exactly the reports in the life of the attempts, for every sequence of events. The full claim is false: a connection established before connect returns is reported without process and container (process_lost), an attempt that timed out has error number 0 (timeout_without_errno), and a parameter with too few bytes panics.*

* `Kindling.Tcp.Report.told_is_understood` [pq] (Tcp/Report.lean): whatever the probe tells of a connection — by the parameters of a kernel function or by the descriptor of a system call — is taken as an event of that connection, with the result, the time and the process it was sent with.
* `Kindling.Tcp.Report.key_injective` [cpq] (Tcp/Report.lean): different connections never share an entry.
* `Kindling.Tcp.Report.reports_exact_partial` [cpq] (Tcp/Report.lean): for any sequence of events about any connections, sweeps, and other events, the data groups passed on about a connection (with a source port) are, in order, exactly the descriptions of the reports in the life of its attempts: one group for each attempt that ended, with its outcome, its error number, the process last seen with it, its addresses and ports, and their translation.
* `Kindling.Tcp.Report.noise_ignored` [pq] (Tcp/Report.lean): events that say nothing of an attempt have no effect: other events, connects that are not TCP, events without their tuple or result, and data sent on anything but a TCP socket.
* `Kindling.Tcp.Report.process_lost` [pq] (Tcp/Report.lean): a connection that is established before the system call `connect` returns — the usual case — is reported by the change of its state, without its process, command and container; the system call comes too late and says nothing.
* `Kindling.Tcp.Report.timeout_without_errno` [pq] (Tcp/Report.lean): an attempt that ran into its time limit is reported as a failure with error number 0.
* `Kindling.Tcp.Report.short_result_panics` [pq] (Tcp/Report.lean): a parameter with too few bytes crashes the collector.
* `Kindling.Tcp.Report.tupleKey_ports` [pq] (Tcp/Report.lean): the ports of a key are 32-bit numbers, whatever the probe sent.

### C96 Datagrams of the netlink socket are read exactly (partial)

For every list of netlink messages that the kernel packs into a datagram of at most the receive buffer, whatever its padding and whatever earlier datagrams left in the buffer, the read returns exactly these messages with all header fields and data; the namespace of a datagram is that of its control message; and loading a dump or following the stream registers exactly the connections of all datagrams, in order, the dump ending at its end message.

*Round trip of datagrams for all messages, paddings and leftovers (receive_exact_partial), and the converse that nothing is invented (parse_sound); composed with decoding and registering up to the cache on which dnat_sound and dnat_found speak (load_runs, stream_runs). Findings: a datagram beyond 32 KB loses all its messages (cut_lost); the namespace is read but not used as part of the key (namespaces_collide). Partial: stream without throttling and compaction in between, little endian machines, the Go parser of netlink messages as in its source.*

* `Kindling.Conn.Socket.receive_exact_partial` [cpq] (Conn/Socket.lean): Reading gives exactly the messages of the datagram, with all header fields and data, whatever bytes earlier datagrams have left in the receive buffer, if the datagram fits into the buffer.
* `Kindling.Conn.Socket.parse_sound` [pq] (Conn/Socket.lean): The messages of a read are a prefix of what was read: nothing is invented, and less than a header is left over.
* `Kindling.Conn.Socket.netns_exact` [pq] (Conn/Socket.lean): The namespace of a datagram is that of its control message, wherever among others it stands, and 0 without one.
* `Kindling.Conn.Socket.load_runs` [cpq] (Conn/Socket.lean): The dump of a table, from the bytes on the socket to the cache: it ends at its end message, whatever comes after it, and the cache is as if exactly the connections of all its datagrams had been registered in order, so that `dnat_sound` and `dnat_found` speak of lookups after a dump.
* `Kindling.Conn.Socket.stream_runs` [cpq] (Conn/Socket.lean): The same for the stream: every connection of every datagram is registered, in order, and the loop goes on.
* `Kindling.Conn.Socket.cut_lost` [cpq] (Conn/Socket.lean): Finding: a datagram larger than the receive buffer of 32 KB, cut within the data of a message: all its messages are lost, also those that were received whole.
* `Kindling.Conn.Socket.namespaces_collide` [cpq] (Conn/Socket.lean): Finding: the namespace of a connection is read but is not part of the key of the cache. If the tables of two namespaces have a connection between the same addresses and ports, a lookup for the one dumped first gets the translation of the other: whatever `earlier` says.
* `Kindling.Conn.Socket.netns_first_four` [p] (Conn/Socket.lean): Of the data of the control message only the first four bytes count.

### C97 Every namespace is dumped once, and the thread and its handles come back (partial)

A dump of the conntrack tables visits the root namespace first and every other namespace of a process that is a peer exactly once, sends all events of each table that can be read, goes on over namespaces that cannot be dumped, closes its channel, returns the thread to its namespace, and leaves no handle open.

*Proved: each namespace once, root first, failures skipped, channel closed, thread back if it may go back. Refuted: handles. WithNS never closes the handle of the previous namespace, WithRootNS that of the root (handles_leak, throttling_leaks: two per throttling, without bound; list_leaks); a thread that cannot go back is released in the wrong namespace (thread_stranded); one endless dump blocks the others (endless_dump_blocks). The protocol of isPeerNS is an oracle.*

* `Kindling.Conn.Dump.dumped_exactly_partial` [pq] (Conn/Dump.lean): A dump of all namespaces: every namespace that a process lives in, that is a peer and that can be dumped, and the root namespace, is dumped exactly once, with all the events of its table, the root namespace first; the channel is closed; and the thread is back in its namespace. Namespaces that cannot be dumped do not keep others from it.
* `Kindling.Conn.Dump.root_only` [pq] (Conn/Dump.lean): Without the option, only the root namespace is dumped.
* `Kindling.Conn.Dump.handles_leak` [pq] (Conn/Dump.lean): Finding: `netns.Get` opens a handle that `WithNS` never closes, so each dump leaves as many handles open as it has visited namespaces, whether they could be dumped or not.
* `Kindling.Conn.Dump.list_leaks` [pq] (Conn/Dump.lean): Finding: an unreadable root namespace leaves all handles of the list open.
* `Kindling.Conn.Dump.thread_stranded` [p] (Conn/Dump.lean): Finding: a thread that may not go back stays in the namespace it has dumped, and is given back to the scheduler there.
* `Kindling.Conn.Dump.endless_dump_blocks` [p] (Conn/Dump.lean): Finding: a namespace whose dump has no end keeps all later ones from being dumped, and the channel open.
* `Kindling.Conn.Dump.throttling_leaks` [pq] (Conn/Dump.lean): Finding: each time the stream is throttled two handles are lost, for as long as the process lives: with the limit `limit` and a load just above it, any number of them.
* `Kindling.Conn.Dump.one_handle_each` [pq] (Conn/Dump.lean): However the dump of a namespace goes, one more handle stays open once the current namespace could be had; the thread is in the dumped namespace exactly if it got there and the dump never ends or the way back is barred.
* `Kindling.Conn.Dump.socket_opened` [pq] (Conn/Dump.lean): The socket is opened exactly if the root namespace can be had and the thread is in it or can get there; the thread stays where it was unless the way back is barred.

### C98 Metrics name who talks to whom (proved)

For every parsed request, whatever record the pool hands out, whatever is in the Kubernetes cache, whatever constant labels and earlier conversions: each of the eight kinds of request metrics carries exactly the documented labels, each once; server metrics name the container, pod, workload, namespace and node of the serving process and, if it is in no known container, the own node; client metrics name the pod of the calling container as source and, for a service, the pod behind the translated address, else the service, node or host port the address belongs to, or the outside.  Request and response contents are the parsed ones.  A single request exported as a metric has the same labels.

*Composition of the record (C69), the tables of the metadata processor (C77), the aggregation (C89) and the adapter (C91).  The code of Dubbo and the kind of error, which the result of Redis is taken from, are lost in the aggregation (`kept`, findings of C89); the statement is exact with that.  Excluded: the protocol name grpc, which no parser has.  The records of the pool hold texts under the names of the metadata processor.*

* `Kindling.Flow.Who.metric_labels` [cpq] (Flow/Meta.lean): The metrics of requests, from the record and the Kubernetes cache: with every choice of constant labels and after whatever earlier conversions, each of the eight kinds of metrics has exactly the documented labels, the ends named by the tables of C77 on what the record says, request and response as parsed; only the code of Dubbo and the result of Redis are lost in the aggregation.
* `Kindling.Flow.Who.trace_labels` [cpq] (Flow/Meta.lean): A single request exported as a metric: the same labels with nothing lost, and those of its times.
* `Kindling.Flow.Who.server_named` [cpq] (Flow/Meta.lean): Metrics of a server in a known container: they name the container and the pod it belongs to.
* `Kindling.Flow.Who.server_unknown` [cpq] (Flow/Meta.lean): Metrics of a server in no known container: the own node, inside the cluster, no pod; the id of the container as seen.
* `Kindling.Flow.Who.client_named` [cpq] (Flow/Meta.lean): Metrics of a client in a known container: the source is the pod of the container.
* `Kindling.Flow.Who.service_named` [cpq] (Flow/Meta.lean): Metrics of a client that calls a service: the service, and behind it the pod that the translated address belongs to; the detailed metrics show the translated address.
* `Kindling.Flow.Who.outside_named` [cpq] (Flow/Meta.lean): Metrics of a client whose destination nothing is known of: outside the cluster, the address as seen and neither pod nor service.
* `Kindling.Flow.Who.handled_exists` [cpq] (Flow/Meta.lean): The conditions can always be met: every parsed exchange has a record that is handled, whatever is in the cache.

### C99 The mutexes of the metadata caches (partial)

The informers, the deletion loop, the queries, the answers of the provider and the setup from the provider take the mutexes of the caches in one order, so that no set of goroutines waits for each other and every operation completes under every schedule, for any number of goroutines; and every map of the caches is used only under its mutex, and every field of a pod or service that others can reach likewise, so that no goroutine uses one while another writes it.

*Holds for deadlocks, and for the maps of containers, addresses, services by address, nodes, pods, replica sets and the queue; for all maps when the collector watches the API server. Fails otherwise: the provider lists the map of services without its mutex (services_race), SetupCache writes the host ports and the workloads without theirs (host_ports_race, workloads_race), and AddPod writes the HostPortMap of a container that is already in the maps (container_ports_race); the Go runtime aborts the process in the first and last case. The provider writes its list to a client while it holds eight mutexes, so one client that does not read blocks the informers and then the queries (stalled_client_blocks). The fields of pods and services have no mutex: AddPod writes the workload of a service and DeleteService empties it while a request to it is labelled (service_workload_race, service_deleted_race), AddService writes the service of a pod while a request of the pod is labelled (pod_service_race), AddPod appends to the lists of a pod that the provider already lists (pod_lists_race); a string read half old and half new is read beyond its end.*

* `Kindling.K8s.Locks.no_deadlock` [cpq] (K8s/Locks.lean): Whatever the goroutines do and however they are scheduled, as long as one has something to do one of them steps: no set of them waits for each other, none waits for itself, and none gives back a mutex it does not hold.
* `Kindling.K8s.Locks.all_complete` [cpq] (K8s/Locks.lean): Every state can be continued until all operations are done, and no execution takes more steps than twice the number of actions.
* `Kindling.K8s.Locks.guarded` [pq] (K8s/Locks.lean): A variable is never used by two goroutines at once with one of them writing, if only it has a mutex and no operation of the program uses it without.
* `Kindling.K8s.Locks.api_server_guarded` [pq] (K8s/Locks.lean): The operations of a collector that watches the API server (initk8s.go:93-110), and of the provider (service.go:58-121) but for the answers to its clients, use every map under its mutex.
* `Kindling.K8s.Locks.caches_guarded_partial` [pq] (K8s/Locks.lean): Everything but the map of services, the `HostPortMap` of containers, the fields of pods and services, the host ports and the workloads is always used under its mutex.
* `Kindling.K8s.Locks.services_race` [pq] (K8s/Locks.lean): The provider lists the services while its informer adds one, whatever the service: the Go runtime aborts the process at the iteration of a map that is being written.
* `Kindling.K8s.Locks.workloads_race` [pq] (K8s/Locks.lean): A collector that gets a new list from the provider while it reports the workloads.
* `Kindling.K8s.Locks.host_ports_race` [pq] (K8s/Locks.lean): A collector that gets a new list from the provider while it looks up a host port.
* `Kindling.K8s.Locks.container_ports_race` [pq] (K8s/Locks.lean): A pod is added whose first container has two host ports, while a request to the first of them is labelled: the Go runtime aborts the process at the read of a map that is being written.
* `Kindling.K8s.Locks.container_ports_race_list` [pq] (K8s/Locks.lean): The same while the provider answers a client.
* `Kindling.K8s.Locks.service_workload_race` [pq] (K8s/Locks.lean): A pod is added that a service selects, while a request to the service is labelled with its workload.
* `Kindling.K8s.Locks.service_deleted_race` [pq] (K8s/Locks.lean): A service is deleted, its fields emptied, while a request to it is labelled with them: the mutex of the map of services does not help, since the query does not take it.
* `Kindling.K8s.Locks.pod_service_race` [pq] (K8s/Locks.lean): A service is added that selects a pod, while a request of that pod is labelled with its service.
* `Kindling.K8s.Locks.pod_lists_race` [pq] (K8s/Locks.lean): A pod of two containers is added, while the provider answers a client: the pod is in the map with its first ID.
* `Kindling.K8s.Locks.stalled_client_blocks` [cpq] (K8s/Locks.lean): While the provider writes the list to a client that does not read, whatever else goes on: nobody gets one of these mutexes for writing, so none of the informers changes the caches, and no other client gets its list.
* `Kindling.K8s.Locks.stalled_client_blocks_readers` [cpq] (K8s/Locks.lean): And once one of them waits for the mutex, nobody gets it for reading either.
* `Kindling.K8s.Locks.delete_writes` [pq] (K8s/Locks.lean): Deleting a pod changes the map of addresses exactly if one of its ports is there, of that pod, and its address still in the map.

### C100 The mutexes of the CPU analyzer (partial)

The goroutines that file events, remove exited threads and expired transactions, send segments and start or stop the profile take the mutexes of the CPU analyzer in one order, so that no set of them waits for each other and every operation completes under every schedule; the segments, the queues, the maps, the flag and the channel variables are used only under a mutex or not replaced while they are read; and a slow exporter does not keep events from being filed.

*Holds for deadlocks, the segments, the queue of exited threads and the map of transactions. Fails otherwise: analyzerJavaTraceTime pushes to the queue of transactions without its mutex while the sweep pops (java_queue_race), isInstallApm is written under jtlock and read by the goroutines of the network analyzer without any mutex, at which the Go runtime aborts the process (apm_race), two sending tasks write the marks of one segment under a read lock (marks_race), and an exporter that does not return keeps every event from being filed (slow_exporter_blocks). enableProfile and the three channel variables have no mutex: they are only read between a start and a stop (guarded_between), but start and stop replace them while other goroutines read them (flag_race, trace_channel_race, trigger_channel_race, stop_channel_race).*

* `Kindling.Cpu.Locks.no_deadlock` [cpq] (Cpu/Locks.lean): Whatever the goroutines of the analyzer do and however they are scheduled, as long as one has something to do one of them steps.
* `Kindling.Cpu.Locks.all_complete` [cpq] (Cpu/Locks.lean): Every state can be continued until all operations are done.
* `Kindling.Cpu.Locks.guarded_partial` [pq] (Cpu/Locks.lean): The segments, the queue of exited threads and the map of transactions are never used by two goroutines at once with one of them writing.
* `Kindling.Cpu.Locks.guarded_jts` [pq] (Cpu/Locks.lean): Without the sampling of Java traces the same holds for the queue of transactions.
* `Kindling.Cpu.Locks.java_queue_race` [pq] (Cpu/Locks.lean): A transaction ID arrives while expired transactions are removed: both change the queue. What one of them wrote is lost.
* `Kindling.Cpu.Locks.apm_race` [pq] (Cpu/Locks.lean): The exit of a slow transaction while a slow trace of the network analyzer arrives: the Go runtime aborts the process at the read of a map that is being written.
* `Kindling.Cpu.Locks.marks_race` [p] (Cpu/Locks.lean): Two tasks that send segments of one process write the marks at once: `sendEvents` takes the mutex only for reading.
* `Kindling.Cpu.Locks.slow_exporter_blocks` [pq] (Cpu/Locks.lean): While an exporter has not taken a segment, whatever else goes on: no goroutine files an event, removes a thread or stops the profile.
* `Kindling.Cpu.Locks.guarded_between` [pq] (Cpu/Locks.lean): As long as the profile is neither started nor stopped, the flag and the variables of the channels, which have no mutex, are only read.
* `Kindling.Cpu.Locks.flag_race` [pq] (Cpu/Locks.lean): The profile is started while an event arrives: `enableProfile` is read without a mutex while it is written.
* `Kindling.Cpu.Locks.trace_channel_race` [pq] (Cpu/Locks.lean): The profile is stopped, with the mutex held, while a slow trace of a client arrives: the channel is replaced while it is read to send to it. The sender has seen the profile running.
* `Kindling.Cpu.Locks.trigger_channel_race` [pq] (Cpu/Locks.lean): The same with the channel of triggers, which the sampler sends to.
* `Kindling.Cpu.Locks.stop_channel_race` [pq] (Cpu/Locks.lean): The profile is started again while a goroutine of the former run, or the sweep of transactions, which lives longer than a run, reads which channel to wait on.

### C101 Clients of the metadata provider see the events in order and complete (partial)

What a client applies is what was put into its stream, in order: a line is one message whatever way the body is cut into reads; each operation calls the handler of its kind with the decoded objects; a client is dropped only if it has not taken an event for the time set, and a dropped client's connection ends.

*Holds for order, completeness and the cutting into reads, given that the JSON codec is lossless on the messages. Fails otherwise: an operation the client does not know makes it panic, an object that is null is added as an empty one, pods are shrunk only when they are deleted, statuses other than 500 are read as events, and a timer that was set for an earlier event can drop a client that keeps up (healthy_client_dropped), after which the client stays connected and gets nothing (dropped_silent).*

* `Kindling.K8s.Stream.call_forwarded` [cpq] (K8s/Stream.lean): Every notification leads to the same call with the same objects in the same order at the provider and at the client.
* `Kindling.K8s.Stream.client_apply_spec` [cpq] (K8s/Stream.lean): What a client does with any message whatsoever.
* `Kindling.K8s.Stream.readBytes_flat` [pq] (K8s/Stream.lean): Reading does not depend on how the body is cut into pieces.
* `Kindling.K8s.Stream.client_reads` [pq] (K8s/Stream.lean): Wherever the connection ends and in whatever pieces the body arrives: a list that did not arrive completely is an error and leaves the cache alone; otherwise the cache is set up from exactly that list, and exactly the messages that arrived completely are applied, in their order, none in part.
* `Kindling.K8s.Stream.client_reads_all_partial` [cpq] (K8s/Stream.lean): The whole stream.
* `Kindling.K8s.Stream.written_in_order` [pq] (K8s/Stream.lean): What a client has been sent is always a beginning of the messages for it, in their order; while its request lasts the rest is in the channel, at most ten messages.
* `Kindling.K8s.Stream.nothing_after_drop` [-] (K8s/Stream.lean): A client that is given up is written nothing more.
* `Kindling.K8s.Stream.dropped_ends` [-] (K8s/Stream.lean): If messages are left in its channel when it is given up, its goroutine ends the request at the next one, without waiting for anything.
* `Kindling.K8s.Stream.offer_step` [-] (K8s/Stream.lean): Each offer is a step of that client.
* `Kindling.K8s.Stream.fresh_timer_fair` [-] (K8s/Stream.lean): As long as no value is left in the timer, only a client whose channel is full is given up, and its request will end: its channel is not empty.
* `Kindling.K8s.Stream.unknown_operation_panics` [cpq] (K8s/Stream.lean): Finding: a message of a known type with an operation that is not known ends the client process.
* `Kindling.K8s.Stream.null_object_added` [cpq] (K8s/Stream.lean): Finding: the test for a missing object does not see `null`; the empty object is added.
* `Kindling.K8s.Stream.shrunk_only_on_delete` [cpq] (K8s/Stream.lean): Finding: pods are sent to the clients with their volumes, conditions and managed fields when they are added or updated; only at their deletion these are removed.
* `Kindling.K8s.Stream.status_not_checked` [pq] (K8s/Stream.lean): Finding: only the status 500 is looked at: the body of any other answer is read as a list.
* `Kindling.K8s.Stream.dropped_silent` [-] (K8s/Stream.lean): Finding: if its channel is empty the goroutine waits: as long as the client itself or the provider does not end the request, it stays connected and is sent nothing.
* `Kindling.K8s.Stream.healthy_client_dropped` [-] (K8s/Stream.lean): Finding: a client that comes after a slow one may be given up though its channel is empty. It then stays connected, is sent neither this message nor any later one, and does not learn of it.
* `Kindling.K8s.Stream.all_written` [p] (K8s/Stream.lean): A client that reads gets everything: whatever the messages, there is a course of its request in which all have been written to it, in order, and it is still listed.

### C102 A client of the metadata provider answers like the provider (partial)

The caches that a client builds from the provider's list answer every lookup as the provider's own do, and they still do after any events and sweeps that follow: containers by id, address and host port, pods by address and name, services of pods, addresses and names; the workloads are those of the client's node.

*Holds for all lookups under the very key, and altogether if the provider is quiet when the list is taken (faithful_partial). Fails otherwise: isHostNetwork is not exported, so that for an unregistered port of a node's address the client names a pod of the host network where the provider answers nothing (host_network_exposed); deletions that the provider has planned but not done are never done by the client (deleted_pod_stays); a pod without a container id is not known by name and its old addresses stay (pod_without_ids_leaks); services are not shared any more, so that pods go on showing a deleted service (deleted_service_stays).*

* `Kindling.K8s.Setup.entries_same` [pq] (K8s/Setup.lean): Under a container id, an address with its very port, and a host port the client finds what the provider has, but for the mark of the host network.
* `Kindling.K8s.Setup.lookups_same` [pq] (K8s/Setup.lean): At an address without pods on the host network the client's answers are the provider's, whatever the port.
* `Kindling.K8s.Setup.client_answers` [pq] (K8s/Setup.lean): nothing only where nothing at all is registered for the address.
* `Kindling.K8s.Setup.pods_known` [cpq] (K8s/Setup.lean): The client knows by name exactly the pods of which a container is known by its id.
* `Kindling.K8s.Setup.workloads_local` [pq] (K8s/Setup.lean): The workloads the client reports are those of its own node's containers, whatever node the provider runs on.
* `Kindling.K8s.Setup.services_same` [pq] (K8s/Setup.lean): Right after the list the client's pods, addresses and names lead to the services of the provider.
* `Kindling.K8s.Setup.faithful_partial` [cpq] (K8s/Setup.lean): A client that lists while the provider is quiet stays equal to it: whatever events and sweeps follow, if both get them, every lookup gives the same answer on both sides.
* `Kindling.K8s.Setup.host_network_exposed` [pq] (K8s/Setup.lean): Finding. An address where all pods are on the host network, the address of a node for example: for a port that none of them has registered the provider answers nothing, the client names one of these pods. The same for the lookup by address only.
* `Kindling.K8s.Setup.pod_without_ids_leaks` [cpq] (K8s/Setup.lean): Finding. A pod without a container id, as before its containers have started, is not known by name to the client. Its next update plans no deletion there: an address that it gives up stays registered, whereas the provider plans to remove it.
* `Kindling.K8s.Setup.deleted_pod_stays` [cpq] (K8s/Setup.lean): Finding. A pod is deleted; before the grace period is over a client lists. The provider removes the addresses of the pod; the client, whose queue begins empty and who has missed the event, keeps them for ever, as long as no other pod takes them and no event about the pod itself comes.
* `Kindling.K8s.Setup.deleted_service_stays` [cpq] (K8s/Setup.lean): Finding. A service that was there when the client listed is deleted. At the provider its pods show no service any more, as they share the emptied object; at the client they go on showing the deleted service.
* `Kindling.K8s.Setup.shown_until_registered` [cpq] (K8s/Setup.lean): … and it does so whatever else happens to services, until a service that selects the pod is added or the pod itself is registered again.
* `Kindling.K8s.Setup.client_pods_free` [pq] (K8s/Setup.lean): The pointers of pods in a client are under no name, so that the theorem above applies right after the list.

### C103 An exchange is reported by the parser of its own protocol (partial)

Whatever protocols are configured and in whatever order they are tried, a well-formed request on a port that is not configured is reported by the parser of its own protocol, with what it says, and by no other: HTTP request lines, MySQL statements, Redis commands, Kafka Fetch and Produce requests, two-way Dubbo requests, RocketMQ requests and DNS queries over TCP.

*Holds within the sizes the theorems name (DNS reads the number of its questions where others have text, so that a payload must be shorter than five bytes per such question) and for Kafka clients whose id starts with a letter. Fails otherwise: MySQL's parser takes every request whose fifth byte is 1 for COM_QUIT, without looking at the length, and if no response was seen nothing at all is reported (quit_swallows): unanswered RocketMQ requests in the binary form (rocketmq_binary_lost) and unanswered DNS queries over TCP that ask for recursion (dns_unanswered_lost) are lost when MySQL is tried first, as in the shipped configuration. After fifty unknown exchanges on a port everything else there is reported as unknown until the generic parser is forgotten (dispatched_unknown). What a JSON reader accepts is a parameter: it must refuse the empty text and texts that start with a zero byte.*

* `Kindling.Flow.Choose.mem_named` [pq] (Flow/Choose.lean): A parser is tried iff its name is configured and not disabled.
* `Kindling.Flow.Choose.only_of_alone` [cpq] (Flow/Choose.lean)
* `Kindling.Flow.Choose.http_alone` [cpq] (Flow/Choose.lean): a request line is taken by no parser other than HTTP's.
* `Kindling.Flow.Choose.http_reported` [cpq] (Flow/Choose.lean): an HTTP request is reported as such, with its method, URL and content key, whatever other parsers are configured and whatever their order.
* `Kindling.Flow.Choose.mysql_alone` [cpq] (Flow/Choose.lean): a statement of at most 1600 bytes is taken by no parser other than MySQL's.
* `Kindling.Flow.Choose.mysql_reported` [cpq] (Flow/Choose.lean): a MySQL statement is reported as such.
* `Kindling.Flow.Choose.redis_alone` [cpq] (Flow/Choose.lean): a command, an array of at least one string, is taken by no parser other than Redis'.
* `Kindling.Flow.Choose.redis_reported` [cpq] (Flow/Choose.lean): a Redis command is reported as such.
* `Kindling.Flow.Choose.kafka_alone` [cpq] (Flow/Choose.lean): a request whose version is 0 or whose client id starts with a letter or an underscore, of fewer than 2^24 bytes and with a correlation id below 2^24, is taken by no parser other than Kafka's.
* `Kindling.Flow.Choose.kafka_reported` [cpq] (Flow/Choose.lean): a Fetch or Produce request is reported as Kafka's with its topic.
* `Kindling.Flow.Choose.dubbo_alone` [cpq] (Flow/Choose.lean): a request with an identification below 2^32 is taken by no parser other than Dubbo's.
* `Kindling.Flow.Choose.dubbo_reported` [cpq] (Flow/Choose.lean): a two-way Dubbo request is reported as such with its service and method.
* `Kindling.Flow.Choose.rocketmq_alone` [cpq] (Flow/Choose.lean): a request with a JSON header of 13 to 65535 bytes and a body of at most four times its length is taken by no parser other than RocketMQ's.
* `Kindling.Flow.Choose.rocketmq_reported` [cpq] (Flow/Choose.lean): a RocketMQ request with a JSON header is reported as such with its operation.
* `Kindling.Flow.Choose.rocketmq_binary_alone` [cpq] (Flow/Choose.lean): a RocketMQ exchange in the binary form with its response, the header length being zero modulo 65536 or large enough against the payload, is taken by no parser other than RocketMQ's.
* `Kindling.Flow.Choose.dns_reported` [cpq] (Flow/Choose.lean): a DNS query over TCP with its answer is reported as such if the parsers tried before are among HTTP's, MySQL's, Redis' and Dubbo's.
* `Kindling.Flow.Choose.dns_unanswered_reported` [cpq] (Flow/Choose.lean): so is an unanswered query that does not ask for recursion.
* `Kindling.Flow.Choose.dispatched_partial` [cpq] (Flow/Choose.lean): until the generic parser is remembered for the port, whatever the others remembered, the exchange is reported by the one parser that takes it.
* `Kindling.Flow.Choose.quit_swallows` [cpq] (Flow/Choose.lean): a request without a response whose fifth byte is 1 is taken by MySQL's parser for the end of a session, and nothing is reported; no parser behind MySQL's sees it.
* `Kindling.Flow.Choose.rocketmq_binary_lost` [cpq] (Flow/Choose.lean): So every RocketMQ request in the binary form that is not answered is lost if MySQL's parser comes first.
* `Kindling.Flow.Choose.dns_unanswered_lost` [cpq] (Flow/Choose.lean): an unanswered query that asks for recursion, as those of every resolver library, is lost if MySQL's parser comes first.
* `Kindling.Flow.Choose.dispatched_unknown` [cpq] (Flow/Choose.lean): while the generic parser is remembered and `n` is not, every exchange of `n` is reported as unknown.
* `Kindling.Flow.Choose.starts_merge` [pq] (Flow/Choose.lean)
* `Kindling.Flow.Choose.dns_sees_ten` [pq] (Flow/Choose.lean): the DNS parser sees the events that make up the merged message one by one, the first ten of them.
* `Kindling.Flow.Choose.disabled_iff` [cpq] (Flow/Choose.lean): A protocol is not recognised iff the last entry of the configuration for it says so.

### C104 Goroutines that use the aggregator at once dump what some order of their calls dumps (partial)

However the goroutines that aggregate and dump interleave, down to single mutex operations, single series and single atomic writes, the groups they dump, with their values and times, are up to their order those of the same calls made one after the other, in an order that keeps the program order of every goroutine, and a panic is one of that order too; so sums and counts are conserved, no call is stuck and dumps exclude all other calls.

*Proved for the values of sums, counts, maxima, averages and histograms: the goroutines are interleaved at every mutex operation, every lookup and insertion of a series and every update of an accumulator, and the result is that of one order of the calls, which is also what the sequential theorems (C01 and others) speak about. Fails for the time of a series and for accumulators of the kind last: a series is not locked as a whole, so that two goroutines can leave the value of one record with the time of the other, which no order gives (concurrent_records_tear). Missing besides these: the memory is taken to be sequentially consistent.*

* `Kindling.Agg.Conc.calls_in_program_order` [cpq] (Agg/ConcProps.lean): However goroutines that use the aggregator at once interleave, the order in which their calls took effect has the calls of every goroutine in its order: those that took effect, then the one under way that has not, then those to come.
* `Kindling.Agg.Conc.concurrent_calls_have_an_order_partial` [cpq] (Agg/ConcProps.lean): However goroutines interleave, there is one order of their calls (`calls_in_program_order`) such that the calls, made one after the other, dump the same groups up to their order, and panic if the goroutines did: no record is lost, none is counted twice, every dump has all records that took effect before it and none after. (Missing: the time of a group and the values of outputs of kind `last`, see `concurrent_records_tear`.)
* `Kindling.Agg.Conc.finished_calls_have_an_order_partial` [cpq] (Agg/ConcProps.lean)
* `Kindling.Agg.Conc.concurrent_sum_conserved_partial` [cpq] (Agg/ConcProps.lean): when they are through and a dump came last, the values of a `sum` output over all dumps of all goroutines add up to what all of them recorded. (Missing: records that lack the metric, as in `sum_conserved_partial`.)
* `Kindling.Agg.Conc.concurrent_count_conserved_partial` [cpq] (Agg/ConcProps.lean): the same for the number of recorded values.
* `Kindling.Agg.Conc.concurrent_ints_never_panic` [cpq] (Agg/ConcProps.lean): goroutines that record integers never panic, however they interleave.
* `Kindling.Agg.Conc.dumped_groups_have_sources` [cpq] (Agg/ConcProps.lean): whatever goroutines do at once, every dumped group with metrics has the time of one record of its series, and the value of an output of kind `last` is zero or was recorded for the series.
* `Kindling.Agg.Conc.concurrent_records_tear` [cpq] (Agg/ConcProps.lean): the time of a series is stored by itself after its accumulators (agg_values.go:116), so two goroutines that record the same series at once can leave the value of one with the time of the other; made one after the other, in any order their goroutines allow, the calls never dump such a group.
* `Kindling.Agg.Conc.dumps_exclude_all` [cpq] (Agg/ConcProps.lean): while a goroutine dumps, all others are between two calls.
* `Kindling.Agg.Conc.aggregator_never_stuck` [cpq] (Agg/ConcProps.lean): goroutines that use the aggregator never wait for each other for ever: as long as one of them is not through, one of them can step.

### C105 A scrape of the Prometheus exporter sees one state of a histogram (partial)

However recording and scraping goroutines interleave, no record is lost, and what a scrape exports for a histogram, its sum, its count and all its buckets, is the histogram of one and the same set of records, which has all that were complete when the scrape began.

*Holds for the histogram itself (recorded_exactly), for the sum and the count of a scrape, and for the buckets if nothing is recorded during the scrape (quiet_scrape_exact); else a bucket lies between its value at the dump and the present one (bucket_bounds), and a wider bucket falls behind a narrower one by at most one record (buckets_almost_cumulative). Fails otherwise: the dumped histogram shares its slice of buckets with the live one, and Collect reads it without a mutex, so that exported buckets exceed the exported count (bucket_exceeds_count) and are not cumulative (buckets_fall). The time of the last update is written under a mutex held for reading (update_races). One series with one histogram; sequentially consistent memory.*

* `Kindling.Export.PromConc.recorded_exactly` [cpq] (Export/PromConc.lean): However the goroutines interleave, no record is lost or added twice: when all calls have returned the histogram is that of all records, whatever was collected in between.
* `Kindling.Export.PromConc.scrape_within_partial` [cpq] (Export/PromConc.lean): A scrape that begins after `is` gets a sum and a count that belong together and have all records that were complete when it began; each bucket has the records of the sum and the count, and perhaps some that came later, up to the moment it was copied. (Missing: that the buckets have the same records as the count, see `bucket_exceeds_count` and `buckets_fall`.)
* `Kindling.Export.PromConc.quiet_scrape_exact` [cpq] (Export/PromConc.lean): if nobody begins to add to the histogram between the beginning and the end of a scrape, and nobody was adding to it, then the export is the histogram of all records.
* `Kindling.Export.PromConc.bucket_bounds` [cpq] (Export/PromConc.lean): An exported bucket is never below that of the records in the exported count and never above that of all records.
* `Kindling.Export.PromConc.buckets_almost_cumulative` [cpq] (Export/PromConc.lean): Of two exported buckets the wider one is smaller by at most one record: the one that was being added.
* `Kindling.Export.PromConc.bucket_exceeds_count` [pq] (Export/PromConc.lean): the buckets have a record that is not in the count, whatever the records are. A scrape dumps the histogram after `d0`, and before it copies the buckets `d1` is added (agg_values.go:322, collector.go:48-52).
* `Kindling.Export.PromConc.buckets_fall` [pq] (Export/PromConc.lean): a wider bucket is smaller than a narrower one. The scrape copies the first bucket after `d1` was added to it and the second bucket before.
* `Kindling.Export.PromConc.update_races` [p] (Export/PromConc.lean): two goroutines write the time of the last update at once, because it is guarded by the aggregator's mutex held for reading only (cumulative_aggregator.go:61, 114); the time is then that of either, so that a series can be as old as an earlier record.
* `Kindling.Export.PromConc.dump_excludes` [cpq] (Export/PromConc.lean): While a goroutine dumps, no other dumps and none is between the beginning and the end of a record.
* `Kindling.Export.PromConc.dump_never_waits` [cpq] (Export/PromConc.lean): So a dump never waits for the histogram.

### C106 The metrics endpoint survives restarts of the exporter (partial)

However the goroutines of the start and of the restarts interleave with requests: at most one server answers on the port, the one started last; and whenever no restart is under way the port is served, by the exporter of the last restart.

*At most one server answers, always the last one started (one_server). If each restart begins after the one before is through, the port is served at rest by the newest exporter (spaced_restarts_served_partial), and a restart can always be completed if no request is running (restart_completes_partial). Fails otherwise: a request that does not end keeps the port closed and all restarts waiting, since Shutdown has no time limit and runs under the mutex (hung_request_closes_port); a restart while the listener is being registered can leave nobody listening until the next restart (restart_loses_port); the goroutines of two restarts can take the mutex in the other order, and then the old exporter serves (restarts_swap). The shipped configuration disables the restarts. The behaviour of net/http.Server is modelled from its documentation.*

* `Kindling.Export.Server.one_server` [cpq] (Export/Server.lean): Whatever the schedule of starts, restarts and requests: the server that answers on the port is the one started last, it was not shut down, and nobody is about to replace it; all others were shut down and answer nothing.
* `Kindling.Export.Server.answers_not_newer` [cpq] (Export/Server.lean): No request is answered by an exporter that does not exist yet.
* `Kindling.Export.Server.spaced_restarts_served_partial` [cpq] (Export/Server.lean): When each restart comes only after the one before is through, then whenever nothing is being restarted the port is served, and by the exporter of the last restart.
* `Kindling.Export.Server.restart_completes_partial` [cpq] (Export/Server.lean): A restart can always be brought to its end, and the new exporter then serves, as long as no request to an old server is running.
* `Kindling.Export.Server.rest_stays` [cpq] (Export/Server.lean): What serves the port at rest serves it until the next restart.
* `Kindling.Export.Server.hung_request_closes_port` [cpq] (Export/Server.lean): `Shutdown(context.Background())` waits for the requests in progress without a limit, and does so with the port closed and `mu` held. A restart while one request is running: until that request ends nobody answers on the port and no request is answered, whatever else happens, further restarts included.
* `Kindling.Export.Server.restart_loses_port` [cpq] (Export/Server.lean): A restart that comes while the server is starting can leave a process that serves nothing: at rest, no goroutine of a server is left, and no request is answered until the next restart.
* `Kindling.Export.Server.restarts_swap` [cpq] (Export/Server.lean): Two restarts whose goroutines take `mu` in the other order: until the next restart all requests are answered by the exporter of the first restart, which no meter writes to any more.

### C107 The started connection tracker knows every translated connection (partial)

Whatever connections the kernel adds and removes during the start, and however its goroutines interleave with them: a translated connection that exists is known to the tracker that the caller gets, or its event is waiting in the socket; and a start that fails or takes too long leaves nothing running.

*Holds for connections that last from the beginning of the start to its end (lasting_connection_known_partial) and for those made after the receiver joined the group of new connections, as long as their events are not dropped (streamed_connection_known_partial). Fails in between: the table is dumped before the group is joined, so that a connection made after the dump of its family is never known (gap_connection_never_known), even one made after the caller got the tracker, since the group is joined in a goroutine (gap_after_start, gap_reached), or all later ones if joining fails, which nobody notices (failed_join_blinds), and all lookups for it say that it is not translated (gap_connection_untranslated). A start that fails or takes too long leaves the goroutine of the breaker and the ticker running (failed_start_leaks); after a time-out the goroutine of the start is stuck in its send for ever, and a receiver that it started goes on with an open socket (late_start_never_ends). A dump is taken to be complete but for connections that come or go meanwhile; one namespace.*

* `Kindling.Conn.Start.lasting_connection_known_partial` [pq] (Conn/Start.lean): A connection that is there when the start begins and lasts until the caller has a tracker is known to the tracker.
* `Kindling.Conn.Start.streamed_connection_known_partial` [pq] (Conn/Start.lean): A connection made after the receiver joined the group, whose event is not dropped, is known or in the socket as long as the tracker is not closed, and reading the socket makes it known.
* `Kindling.Conn.Start.gap_connection_never_known` [pq] (Conn/Start.lean): The table is dumped before the receiver joins the group of new connections. A connection that the kernel adds after the dump of its family and before the receiver has joined is never known, whatever happens afterwards.
* `Kindling.Conn.Start.gap_after_start` [pq] (Conn/Start.lean): The gap does not end when the caller gets the tracker: the receiver joins the group in its own goroutine.
* `Kindling.Conn.Start.gap_reached` [pq] (Conn/Start.lean): The start of every collector has that gap: the caller can have the tracker before the receiver has joined.
* `Kindling.Conn.Start.failed_join_blinds` [pq] (Conn/Start.lean): If joining the group fails, nobody notices and no later connection is ever known.
* `Kindling.Conn.Start.gap_connection_untranslated` [cpq] (Conn/Start.lean): No lookup ever finds the translation of a connection of the gap, unless another connection with the same addresses is registered.
* `Kindling.Conn.Start.failed_start_leaks` [pq] (Conn/Start.lean): A start that fails or takes too long is not cleaned up: the breaker's goroutine and the ticker go on for ever.
* `Kindling.Conn.Start.late_start_never_ends` [pq] (Conn/Start.lean): When the caller has given up, the goroutine of the start never ends: it is stuck in its send for ever; and if it got as far as the receiver, the receiver goes on for ever, with its socket open, for a tracker that nobody has.

### C108 The metrics of the connection tracker are its counters, and the counters add up (proved)

After any history of connections, lookups, deletions and sweeps, the counters are the numbers of lookups, translated and plain connections, and of translations pushed out and removed; the size of the cache is what came minus what went; every exported series has the value of the counter it is named after; and all calls of NewConntracker get the tracker of the first one.

*The counters are exact at every moment up to lookups and sweeps that have left the lock but are not counted yet (counters_exact, sizes_bounded), and every series of a collection is its counter (metrics_exact) provided the library calls the callbacks in the order of registration (other_order_is_stale shows what happens otherwise). Statistics taken while the tracker works are not those of one moment: each counter is between its values at the beginning and the end of the call and nothing that came is missing (report_between), but a translation deleted meanwhile counts as stored and as removed (report_counts_twice). A disabled tracker reports a sampling rate of zero (noop_reports_zero). Counters are natural numbers: wrapping of int64 is not modelled*

* `Kindling.Conn.Stats.counters_exact` [cpq] (Conn/Stats.lean): For every history of connections, lookups, deletions and sweeps, with counting as late as it can be: the tracker does not panic, its cache is the one that histories without counters have, and the counters are the numbers of lookups, of translated and of plain connections, of translations pushed out, and of translations deleted or expired; the size is what came minus what went.
* `Kindling.Conn.Stats.sizes_bounded` [cpq] (Conn/Stats.lean): No more leaves than came: what is stored, what was pushed out and what was removed is at most two translations for every registered connection; the stored translations are at most as many as configured, and the orphans are among them.
* `Kindling.Conn.Stats.metrics_exact` [cpq] (Conn/Stats.lean): Every series of a collection has the value of the counter it is named after, whatever the previous collection left behind: a counter left out of the statistics because it is zero reads as zero, and no entry of the consumer hides one of the tracker.
* `Kindling.Conn.Stats.other_order_is_stale` [p] (Conn/Stats.lean): In another order a callback before that of the sizes observes what the previous collection took: the metrics rely on the order of registration.
* `Kindling.Conn.Stats.noop_reports_zero` [-] (Conn/Stats.lean): A tracker that is disabled, or could not be started, reports zeros: also a sampling rate of zero, as does one whose filter lets no message through.
* `Kindling.Conn.Stats.report_between` [cpq] (Conn/Stats.lean): While the tracker goes on, the statistics are not those of one moment; but every counter lies between its value when the call begins and when it ends, and the statistics never miss a translation that had come when the sizes were taken: it is counted as stored, as pushed out, or as removed, unless a sweep has not counted it yet.
* `Kindling.Conn.Stats.report_counts_twice` [cpq] (Conn/Stats.lean): And a translation deleted between the reads is counted twice: as stored and as removed.
* `Kindling.Conn.Stats.first_call_decides` [pq] (Conn/Stats.lean): Every call returns what the first one returned, whatever its own configuration: a later call cannot enable the tracker, and an error of the first start is returned for ever.

### C109 Recycled records do not mix requests, and clones outlive them (proved)

The network analyzer takes records out of a pool, writes labels and metrics through pointers, merges the parser's map by copying its pointers, hands the record on and puts it back, from several goroutines at once; the CPU analyzer keeps a clone. Whatever the goroutines do in whatever order: a record is held by one goroutine at most and is then neither in the pool nor kept; it comes out of the pool with zero values only; what it says to its holder is what it said when it came out with the holder's own changes; a kept clone says what the record said when it was cloned and never changes, however often the record is used again.

*The clone is needed: a record that is kept as it is reads zero as soon as it is freed (kept_as_is_is_lost). That a goroutine uses a record only between its Get and its Free is the text of distributeRecords, modelled as the guard of each action.*

* `Kindling.Net.Pool.records_are_values` [cpq] (Net/Pool.lean): Whatever the goroutines do in whatever order, the records in memory are what records that share nothing would be; and the one panics exactly when the other does.
* `Kindling.Net.Pool.one_holder` [cpq] (Net/Pool.lean): One holder: no record is held twice, or held and in the pool, or held and kept as a clone, or in the pool and kept.
* `Kindling.Net.Pool.only_own_edits` [cpq] (Net/Pool.lean): What a record says to the goroutine that holds it is what it said when the goroutine got it, with the changes the goroutine itself made to it since: whatever the other goroutines do to their records, to the pool or to clones meanwhile.
* `Kindling.Net.Pool.comes_out_blank` [cpq] (Net/Pool.lean): And a record comes out of the pool blank: with the name of the pool, and no label and no metric that is not zero.
* `Kindling.Net.Pool.clone_says` [cpq] (Net/Pool.lean): The clone says what the record says.
* `Kindling.Net.Pool.clone_never_changes` [cpq] (Net/Pool.lean): A clone that the CPU analyzer keeps never changes: not when the record it is of goes back to the pool and is used for other requests, by any goroutine, any number of times.
* `Kindling.Net.Pool.kept_is_the_request` [cpq] (Net/Pool.lean): A goroutine gets a record, makes it the record of request `x` and hands it over while others do whatever they do with theirs; a clone is kept and the record goes back and is used again. What is kept is then, at any time, the record of `x` made on zero labels: it has the labels of no other request.
* `Kindling.Net.Pool.kept_as_is_is_lost` [cpq] (Net/Pool.lean): The clone is necessary: a record goes back with all its values zero, so one that was kept as it is says nothing any more.

### C110 A stopped profile ends and a restarted one is a session of its own (partial)

The CPU analyzer's trace, trigger and stop channels are variables that start and stop replace, and that its goroutines look up again in every turn. Whatever the goroutines and their callers do and however often the profile is started and stopped: every accepted signal is in exactly one place; while the profile is off the time segments are empty; a stop goes through exactly when the profile runs; after a stop without a further start all readers return, and the samplers and callers return too; while the profile runs nobody stays in front of its channels; after a restart there is one reader of each kind, traces are handled in the order they were sent, and the segments hold only signals accepted in the running session.

*Proved for all interleavings: every accepted signal is in exactly one place (one_place); the segments are empty while the profile is off; a stop goes through iff the profile runs; left alone the goroutines come to rest in a bounded number of steps, after a stop with all readers returned and everybody else returned or in front of a full channel, and while the profile runs with its channels empty. Refuted: a caller (the network analyzer's goroutine) or a sampler that waits in front of a full channel when the profile is stopped stands there for ever, for every size of channel and whatever happens later (left_standing, can_be_left_standing); a reader that is not in its select between a stop and the next start never notices the stop and becomes one more reader of the next session, so readers pile up without bound (missed_stop, readers_pile_up), traces are stored out of order (order_is_lost) and traces of one session are stored in the next (session_mixes, late_caller). When every start finds the earlier readers returned, one reader of each kind and the order are proved (gentle_restart_partial), and with the callers and samplers returned too, that a session stores only its own signals (clean_restart). StartProfile and StopProfile are one step each.*

* `Kindling.Cpu.Session.one_place` [cpq] (Cpu/Session.lean): No signal is lost or doubled on its way: whatever the goroutines do, and however often the profile is started and stopped, each accepted signal is in exactly one of the places.
* `Kindling.Cpu.Session.off_is_empty` [cpq] (Cpu/Session.lean): While the profile is off, the time segments are empty.
* `Kindling.Cpu.Session.stop_goes_through` [cpq] (Cpu/Session.lean): `StopProfile` goes through exactly when the profile runs; otherwise it closes no channel or a closed one, and panics. `Shutdown` (cpu_analyzer.go:76-81) asks first, so it never panics.
* `Kindling.Cpu.Session.comes_to_rest` [pq] (Cpu/Session.lean): Left alone, the goroutines come to rest after a bounded number of steps: nothing in here spins.
* `Kindling.Cpu.Session.stop_ends_all` [cpq] (Cpu/Session.lean): Once the profile is off and the goroutines have come to rest, all readers have returned, and so have the samplers and the callers, except those that stand in front of a full channel.
* `Kindling.Cpu.Session.running_drains` [cpq] (Cpu/Session.lean): While the profile runs, nobody stays in front of the channels of the session: once the goroutines have come to rest, both are empty.
* `Kindling.Cpu.Session.left_standing` [pq] (Cpu/Session.lean): A caller that stands in front of a full channel the variables do not name any more, with no reader left on it, stands there for ever: whatever happens, also when the profile is started again. The caller is the goroutine of the network analyzer, which handles no further event.
* `Kindling.Cpu.Session.sampler_left_standing` [pq] (Cpu/Session.lean): The same for the sampler.
* `Kindling.Cpu.Session.can_be_left_standing` [pq] (Cpu/Session.lean): It happens, whatever the size of the channel: the reader is busy while the channel fills up, one more caller waits for room, and the profile is stopped.
* `Kindling.Cpu.Session.missed_stop` [pq] (Cpu/Session.lean): A reader that is not in its `select` while the profile is stopped and started again looks up the new session's channels: it becomes a reader of the new session, besides the ones that session starts.
* `Kindling.Cpu.Session.readers_pile_up` [pq] (Cpu/Session.lean): So readers pile up: after `n` restarts there can be `n + 1` readers in front of the trace channel, and as many in front of the trigger channel; no later step of a start takes one away.
* `Kindling.Cpu.Session.gentle_restart_partial` [cpq] (Cpu/Session.lean): When every start finds the earlier readers returned, a running profile has exactly one reader of each kind, and its time segments were given the traces of its channel in the order they were put in: what is stored, what the reader has in hand and what waits make up what was put in.
* `Kindling.Cpu.Session.clean_restart` [cpq] (Cpu/Session.lean): When every start also finds the earlier samplers and callers returned, the time segments of a session hold only signals that were accepted in it.
* `Kindling.Cpu.Session.session_mixes` [pq] (Cpu/Session.lean): Whatever the traces and the sizes of the channels.
* `Kindling.Cpu.Session.order_is_lost` [pq] (Cpu/Session.lean)
* `Kindling.Cpu.Session.late_caller` [pq] (Cpu/Session.lean)

### C111 The queues between the receiver and the analyzers, and the shutdown of the whole application (partial)

However the goroutines interleave, what an analyzer has handled, is handling and has queued is in order and without gaps or repeats what it wants of the events handed around; a running collector works off everything that was fetched; a shutdown comes to its end with all goroutines gone, gives no event to an analyzer after the first one has been told to stop, and loses exactly what is left in the channels; and while one analyzer's goroutine stands still the others keep receiving events and the application still shuts down.

*Proved for every number of analyzers, every predicate and every interleaving: order and completeness per analyzer, draining at rest, termination and exact loss of a shutdown, nothing given after the first analyzer is told to stop. The last part is false and its negation is proved: the dispatching loop puts events into the analyzers' channels with plain sends, so one analyzer whose goroutine stands still (which C110 shows for the network analyzer) lets at most as many further events pass as its channel holds, then no analyzer gets anything and Application.Shutdown never gets past the receiver. A shutdown may also drop queued events because a select may choose the stop channel.*

* `Kindling.Flow.Queues.in_order` [cpq] (Flow/Queues.lean): **However the goroutines run**: nothing that was fetched is lost between the receiver's channel and the loop over the analyzers, and what an analyzer has handled, is handling and has queued is, in order and without gaps or repeats, what it wants of the events that went around — the one going around now being there or not yet.
* `Kindling.Flow.Queues.comes_to_rest` [cpq] (Flow/Queues.lean): From every state the collector's goroutines come to rest, in whatever order they run: no run of their steps is longer than `rank`, and some run ends in rest.
* `Kindling.Flow.Queues.running_drains` [cpq] (Flow/Queues.lean): **A collector that has not been told to shut down works off everything**: at rest the receiver's channel and all queues are empty, and every analyzer has handled exactly the events it wants, in the order they were fetched.
* `Kindling.Flow.Queues.shutdown_returns_partial` [cpq] (Flow/Queues.lean): **A shutdown comes to its end**: at rest after `Application.Shutdown` was called it has returned, the loop over the analyzers and all goroutines of analyzers have returned; and exactly what is left in the receiver's channel and in an analyzer's queue has not been handled.
* `Kindling.Flow.Queues.nothing_after` [cpq] (Flow/Queues.lean): **Once the first analyzer is told to shut down, no analyzer is given another event**: what it has handled, is handling and has queued stays the same, whatever is still fetched.
* `Kindling.Flow.Queues.stands_bounds` [cpq] (Flow/Queues.lean): **While an analyzer's goroutine stands still, the loop gets past at most as many further events for it as its channel holds**: of the events that went around, those it wants number at most what it had handled, one, and the size of its channel.
* `Kindling.Flow.Queues.jam_comes` [cpq] (Flow/Queues.lean): **The jam comes by itself**: if the goroutine of analyzer `k` stands still and more events that it wants are fetched than it had handled plus one plus the size of its channel, then, before any shutdown and when nothing else moves, the loop stands before its channel, for the first event it could not put there.
* `Kindling.Flow.Queues.jam_is_forever` [cpq] (Flow/Queues.lean): **An analyzer that stands still before its full channel stops the whole collector**: from then on the loop does not move, no analyzer is given another event, and `Application.Shutdown`, if it is called, never gets past the receiver.
* `Kindling.Flow.Queues.network_stops_all` [cpq] (Flow/Queues.lean): **A network analyzer that stands still takes the other analyzers and the shutdown with it**, whatever the sizes of the channels: the state is reached, and from it, unless the goroutine comes out, the connect and CPU events behind are never given to anybody, and a shutdown does not return.
* `Kindling.Flow.Queues.shutdown_drops` [pq] (Flow/Queues.lean): **A shutdown can lose what has been queued**, whatever the sizes of the channels: the goroutine's `select` may take the closed stop channel though its channel holds an event (network_analyzer.go:182-192).

### C112 What is written to trace files and to Elasticsearch reads back (partial)

A data group is written as one line of well-formed JSON that reads back as the same group (name, metrics, labels, time); groups that differ are written differently; a trace file that nobody is writing holds exactly the last trace written to it and the CPU events appended since, in order, separated so that a reader can tell them apart, whatever the groups contain and however goroutines take turns; every group reaches the storage that was configured.

*The JSON writer of the standard library is modelled byte by byte (UTF-8 decoding, escapes, decimal numbers, sorted members) and read with an independent reader after RFC 8259. Proved: every group reads back; nothing is lost of UTF-8 text; files hold exactly the last trace and its CPU events after any history and any interleaving in which two goroutines never have the same file open, and can be read. Refuted and proved as negations: bytes that are not UTF-8 are all written alike, so binary payloads cannot be told apart and two labels may become one; two goroutines in one file (two traces with the same path) leave a file that can never be read again; a file cannot be read between the two writes; an unknown storage name gives an exporter that panics on the first group; the collector's own UnmarshalJSON cannot read labels back. Failing writes and full disks are left out.*

* `Kindling.Export.Json.read_print` [cpq] (Export/Json.lean): What is written is JSON, and reads as the value that was written, stray bytes as U+FFFD.
* `Kindling.Export.Json.print_printable` [cpq] (Export/Json.lean): What is written is one line: it contains no control characters.
* `Kindling.Export.TraceText.group_reads_back` [cpq] (Export/TraceText.lean): Every group that is written reads back, with the labels in order and stray bytes as U+FFFD.
* `Kindling.Export.TraceText.order_invisible` [cpq] (Export/TraceText.lean): The order in which Go walks the map of the labels does not show.
* `Kindling.Export.TraceText.group_survives` [cpq] (Export/TraceText.lean): Of a group of UTF-8 text nothing is lost: name, metrics, time and every label.
* `Kindling.Export.TraceText.different_written_differently` [cpq] (Export/TraceText.lean): Different groups of UTF-8 text are written differently.
* `Kindling.Export.TraceText.stray_bytes_alike` [cpq] (Export/TraceText.lean): bytes that belong to no character are all written alike, so what a trace says of binary contents is lost.
* `Kindling.Export.TraceText.names_may_meet` [cpq] (Export/TraceText.lean): Two labels of a group may become one name.
* `Kindling.Export.TraceText.file_reads` [cpq] (Export/TraceText.lean): A file of a trace and groups of CPU events reads as these.
* `Kindling.Export.TraceText.contents` [cpq] (Export/TraceText.lean): After any sequence of writes and removals a file is there when it was not removed since a trace was written to it, and it holds exactly the last trace and the CPU events that came since, in order.
* `Kindling.Export.TraceText.every_file_reads_partial` [cpq] (Export/TraceText.lean): Every file there is can be read.
* `Kindling.Export.TraceText.events_follow` [cpq] (Export/TraceText.lean): The CPU events sent for a trace (send_trigger.go:127-128, 196-199) go to the file of the trace.
* `Kindling.Export.TraceText.at_rest` [cpq] (Export/TraceText.lean): Goroutines that never meet in a file may take turns as they like: a file nobody has open holds a trace and groups of CPU events, and reads as these.
* `Kindling.Export.TraceText.half_written` [cpq] (Export/TraceText.lean): While a goroutine is between its two writes, nobody can read the file.
* `Kindling.Export.TraceText.appenders_meet` [cpq] (Export/TraceText.lean): The file is without an owner while it is written: two goroutines that append to one file may write their dividing lines one after the other. Then it can no longer be read, whatever is appended later.
* `Kindling.Export.TraceText.trace_meets_events` [cpq] (Export/TraceText.lean): A trace that is written again while CPU events are appended to its file loses the dividing line: the file cannot be read.
* `Kindling.Export.TraceText.unknown_storage` [cpq] (Export/TraceText.lean): An exporter whose storage is neither of the two is made without complaint and panics on the first group.
* `Kindling.Export.TraceText.known_storage` [cpq] (Export/TraceText.lean): Otherwise an exporter that could be made never panics.
* `Kindling.Export.TraceText.es_once` [cpq] (Export/TraceText.lean): Elasticsearch gets a group of CPU events once: what was sent for one trace is not sent for another, though the file of the other trace gets it.
* `Kindling.Export.TraceText.indices_apart` [cpq] (Export/TraceText.lean): The names of the groups tell the indices apart, whatever the suffix.
* `Kindling.Export.TraceText.labels_not_reloaded` [cpq] (Export/TraceText.lean): it cannot read labels it wrote.
* `Kindling.Export.TraceText.what_is_stored` [cpq] (Export/TraceText.lean): The file writer stores traces of requests and spans and CPU events, and nothing else.
* `Kindling.Export.TraceText.names_apart_iff` [cpq] (Export/TraceText.lean): The labels that are read back have different names exactly if no two of the names differ only in stray bytes.

### C113 CPU events can be read back from where they are stored (partial)

A stored group of CPU events, read back as JSON and its labels read as JSON again, gives the thread, the times and all events of the segment - CPU, Java locks, transactions, spans, inner calls - complete, in order and field by field; every event put into a segment is in what the file and Elasticsearch have after the segment is sent again; the reader in the code itself (UnmarshalJSON) gives back what was written.

*Proved: what json.Marshal writes is UTF-8 for any bytes, so a text inside a text loses nothing more; for every segment, thread and path elements the stored group reads back as exactly the thread, the times and the five lists, field by field (stray bytes as U+FFFD, nothing changed for UTF-8), none of the labels being hidden by the path elements merged in; whenever a segment with an event is sent, the file gets a line with all events put so far, by kind and in order. Elasticsearch (es_complete_partial): a segment is marked when it is sent and marked groups are not indexed, but each new event clears the mark, so whenever a segment is sent the newest document of it has all events put so far. What is false for Elasticsearch (es_first_trace_only): when several slow traces meet the same segment, all but the first of them get no document until a new event is put, although the file of each of them gets the events; a document carries the path elements of the trace it was sent for, so the events cannot be found from the other traces. It is false for Segment.UnmarshalJSON (unmarshal_loses, aliased_iff): under Go 1.19 all Java lock events become the last one (they come back only if all are equal), transactions, spans, inner calls and the mark are left out, events are appended to those already there, and a kind of time beyond 255 becomes another one.*

* `Kindling.Export.SegmentText.print_valid` [cpq] (Export/SegmentText.lean): What `json.Marshal` writes is UTF-8, whatever the strings were: a text inside a text loses nothing.
* `Kindling.Export.SegmentText.segment_reads_back` [cpq] (Export/SegmentText.lean): A reader of a stored group of CPU events gets everything the segment had when it was sent: the thread, the times, and all five lists, complete, in order and field by field, with stray bytes as U+FFFD.
* `Kindling.Export.SegmentText.segment_unchanged` [cpq] (Export/SegmentText.lean): Nothing of it is changed when the texts are UTF-8.
* `Kindling.Export.SegmentText.probe_events_found` [cpq] (Export/SegmentText.lean): The events of the probe, as `ConsumeCpuEvent` makes them, are what is found.
* `Kindling.Export.SegmentText.file_complete` [cpq] (Export/SegmentText.lean): Whenever a segment with an event is sent, the file of the trace gets a line with every event put so far, by kind and in order.
* `Kindling.Export.SegmentText.es_complete_partial` [cpq] (Export/SegmentText.lean): After a segment with an event was sent, the last document Elasticsearch has of it contains every event put so far.
* `Kindling.Export.SegmentText.es_first_trace_only` [cpq] (Export/SegmentText.lean): until a new event is put, the traces after the first one get no document, while the file of each of them gets all events.
* `Kindling.Export.SegmentText.unmarshal_loses` [cpq] (Export/SegmentText.lean): whatever the order of the map, reading a segment into another one leaves the events of the other one in front, makes all Java lock events equal to the last one, and leaves out transactions, spans, inner calls and the mark.
* `Kindling.Export.SegmentText.aliased_same` [pq] (Export/SegmentText.lean): All lock events read are the last one.
* `Kindling.Export.SegmentText.aliased_iff` [pq] (Export/SegmentText.lean): Lock events come back only if they are all equal.
* `Kindling.Export.SegmentText.type_wraps` [p] (Export/SegmentText.lean): A kind of time beyond 255 becomes another one.

### C114 The CPU events of a slow trace end up in its file (proved)

Whatever happened to a thread before (events of any span, sendings for other traces), a sending for a slow trace appends to the file of that trace exactly one line for every second of the window that meets the span asked for and has an event, in order; each line, read back, shows the thread with its present name and exactly the events that meet its second and arrived while the second was in the window - all of them, by kind, in order of arrival, field by field; nothing goes to another file and nothing panics.

*Composition of the models of C113 (texts), C112 (files) and of the window and sending of the CPU analyzer. One thread; the file lines are the ones of the file writer, whose rotation is the subject of C112. Window sizes: 1 or even, as in C113's window model. The numbers in the text are exact for times below 2^64 ns.*

* `Kindling.Flow.CpuFile.trace_file_lines` [cpq] (Flow/CpuFile.lean): Whatever happened to a thread before - events of any span, sendings for other traces - a sending for a slow trace `g` appends to the file of that trace one line for every second of the window that meets the span asked for and has an event, in order; each line, read back, shows exactly the events that meet its second and arrived while the second was in the window, all of them, by kind, in the order of their arrival and with all their fields, and the name the thread has.
* `Kindling.Flow.CpuFile.never_panics` [cpq] (Flow/CpuFile.lean): No history makes it panic.
* `Kindling.Flow.CpuFile.event_in_line` [pq] (Flow/CpuFile.lean): An event that arrived and meets a second of the span asked for is in the line of that second, if the second was in the window when the event arrived and still is.
* `Kindling.Flow.CpuFile.run_name` [cpq] (Flow/CpuFile.lean): The name of a thread after a history.

### C115 The aggregators count in 64 bits: modulo 2^64 always, exactly below 2^63 (proved)

Written with the additions of the machine (int64 sums, averages' counts and counters wrap at 2^63; uint64 histogram counts and buckets wrap at 2^64), the aggregator and the cumulative aggregator behind Prometheus hold, after every history of records and dumps they survive, exactly the unbounded values taken modulo 2^64, series by series, and dump the same groups with the same values modulo 2^64, averages excepted (their quotient is of wrapped numbers). So the dumped sums and counts of a metric add up to what was recorded modulo 2^64. As long as the absolute values, counts and buckets of all that was recorded add up to less than 2^63 the two are equal: same panics, same states, same dumps, so every property proved of the unbounded aggregators holds of the machine. Beyond, two positive values that do not fit together give a negative sum and a negative average.

*Verif/Agg/Machine.lean repeats the aggregators of Verif/Agg/Model.lean and Verif/Agg/Cumulative.lean with int64 and uint64 additions. machine_refines and cumulative_refines need no bound: the machine's state is the unbounded state modulo 2^64 at every moment, and the dumps agree modulo 2^64 except for averages; the machine may panic where the unbounded model does not (an average whose count wrapped to 0), so survival of the machine is the hypothesis. machine_sum_conserved_partial and machine_count_conserved_partial are the C01 sums modulo 2^64 (partial for the reason C01 is: a metric absent from the first record of a series is ignored). machine_exact and cumulative_exact: below a total weight of 2^63 the machine and the unbounded model are the same function. overflow_turns_negative is the finding beyond. One call is one step; interleaved accesses are C104's.*

* `Kindling.Agg.Machine.i64_spec` [pq] (Agg/Machine.lean): what the wrapping is: the difference is a multiple of 2^64.
* `Kindling.Agg.Machine.i64_range` [cpq] (Agg/Machine.lean)
* `Kindling.Agg.Machine.machine_refines` [cpq] (Agg/Machine.lean): whatever is recorded and dumped, if the machine does not panic then neither does the unbounded model; the machine's accumulators are those of the model modulo 2^64, and it has dumped the same groups with the same values modulo 2^64, the averages excepted.
* `Kindling.Agg.Machine.machine_sum_conserved_partial` [cpq] (Agg/Machine.lean): the values of a sum over all dumps add up to all that was recorded, modulo 2^64. (Missing: records that lack the metric, as in `sum_conserved_partial`.)
* `Kindling.Agg.Machine.machine_count_conserved_partial` [cpq] (Agg/Machine.lean): the same).
* `Kindling.Agg.Machine.machine_exact` [cpq] (Agg/Machine.lean): as long as all that is recorded weighs less than 2^63, the machine does exactly what the unbounded model does: the same panics, the same states, the same dumps. So all that is proved of that model holds of the machine.
* `Kindling.Agg.Machine.cumulative_refines` [cpq] (Agg/Machine.lean): the same of the aggregator behind the Prometheus exporter, whose sums go on growing as long as the series lives.
* `Kindling.Agg.Machine.cumulative_exact` [cpq] (Agg/Machine.lean): as long as all that was ever recorded weighs less than 2^63, the machine does exactly what the unbounded model does.
* `Kindling.Agg.Machine.overflow_turns_negative` [pq] (Agg/Machine.lean): a sum, and an average, of two positive values that do not fit together are negative.

### C116 What Prometheus gets are floats: exact below 2^53, nearest above, and counters do not fall by rounding (proved)

The conversion int64 to float64 (round to nearest, ties to even, 53 bits) gives a representable number nearest to the integer, the integer itself below 2^53 in absolute value, is monotone, and is off by at most one part in 2^53; an increase of less than half a unit in the last place is invisible. The exporter with machine arithmetic and floats is, as long as all that was ever recorded weighs less than 2^63, in the same state as the exporter of integers, panics at the same time, and hands the client the same samples with the counter values and histogram sums rounded; histogram boundaries and counts are exact. So a counter is the float nearest to the total recorded while its label set lived, and one to which nothing negative is added never falls between two collections while its label set is alive. Past 2^63 the exported counter becomes negative.

*Verif/Export/Float.lean. f64 is IEEE 754 conversion of a 64-bit integer, defined by shifting and rounding half to even and proved to be a nearest representable number. floats_exported is the refinement of the exporter with floats and machine arithmetic to the exporter of C87; counter_float and histogram_float carry its main theorems over. counter_never_falls assumes that the label set stayed alive (the live records of the later moment extend those of the earlier). Without the bound (Verif/Export/FloatWrap.lean) counters and histograms are those totals reduced to 64 bits (counter_wraps, histogram_wraps), the round-trip time is always right (rtt_float), and a counter between 2^63 and 2^64 is served as a negative number (counter_negative, counter_overflows). Not modelled: what the client library does with the float afterwards (text form).*

* `Kindling.Export.Float.f64_nearest` [cpq] (Export/Float.lean): the float is a float, no float is nearer to the number, and of two that are equally near the even one is taken.
* `Kindling.Export.Float.f64_spec` [cpq] (Export/Float.lean): numbers below 2^53 are exact; the float of a larger number never falls when the number grows and is off by at most one part in 2^53.
* `Kindling.Export.Float.small_increase_invisible` [pq] (Export/Float.lean): beyond 2^54 additions are invisible: a total that is a float of `e + 53` digits is exported unchanged after anything less than half of 2^e has been added.
* `Kindling.Export.Float.floats_exported` [cpq] (Export/Float.lean): as long as all that was ever recorded weighs less than 2^63, the exporter does what the model of integers does: it is in the same state, panics at the same time, and hands the client the same samples with their numbers rounded to floats. The boundaries of the histograms are exact.
* `Kindling.Export.Float.counter_float` [cpq] (Export/Float.lean): every metric of a live label set that is not specially configured is exported as the float nearest to the total of everything recorded for it while the label set was alive.
* `Kindling.Export.Float.histogram_float` [cpq] (Export/Float.lean): the request time histograms are exported with the exact count, the exact counts at the exact boundaries, and the float nearest to the sum.
* `Kindling.Export.Float.counter_never_falls` [cpq] (Export/Float.lean): a counter to which only non-negative totals are added never falls from one collection to a later one while its label set stays alive, in spite of the rounding: both collections hand out a value, and the later is not the smaller.
* `Kindling.Export.Float.counter_overflows` [cpq] (Export/Float.lean): The bound is needed: past 2^63 the exported counter falls below zero.
* `Kindling.Export.FloatWrap.counter_wraps` [cpq] (Export/FloatWrap.lean): every metric of a live label set that is not specially configured is exported as the float nearest to the total of everything recorded for it while the label set was alive, reduced to 64 bits.
* `Kindling.Export.FloatWrap.rtt_float` [cpq] (Export/FloatWrap.lean): the round-trip time is exported as the float nearest to the last recorded value, whatever else was recorded.
* `Kindling.Export.FloatWrap.histogram_wraps` [cpq] (Export/FloatWrap.lean): the request time histograms are exported with the count and the counts at the boundaries reduced to 64 bits without a sign, and the float nearest to the sum reduced to 64 bits with one.
* `Kindling.Export.FloatWrap.counter_negative` [cpq] (Export/FloatWrap.lean): Finding: a counter whose total lies between 2^63 and 2^64 is exported as a negative number, whatever history led there.

### C117 The scanner kept from message to message does not remember (proved)

The decoder of conntrack messages keeps one scanner with three frames for its whole life. Whatever earlier messages left in the frames (a level, an iterator, an error, the last attribute, half a message), the next message is decoded from its own bytes alone, exactly as a fresh decoder would: same connection, same refusal, same panic. The loops end, no frame is missing and no frame is added. The branch of push meant to add a frame is never reached: nesting one level deeper than there are frames panics.

*The frames, the level, the iterators and the errors are state that no message makes anew. message_alone: from any state, a message gives what Decode.decode (C81) gives from its bytes; event_alone and one_decoder_for_all carry it over events; good_after_bad says it for a kernel message after broken ones. never_grows and deeper_panics: push looks for room before it raises the level, so the frame it would make is never made; three_needed: with two frames every complete tuple would panic. The scanner is used by one goroutine (conntracker.go:218-252, then :255-276).*

* `Kindling.Conn.Scanner.message_alone` [cpq] (Conn/Scanner.lean): Whatever earlier messages left in the frames, in the level and in the errors: a message is decoded from its own bytes, the frames stay as many as they were, no loop turns more often than there are bytes, and no frame is missing.
* `Kindling.Conn.Scanner.event_alone` [cpq] (Conn/Scanner.lean)
* `Kindling.Conn.Scanner.one_decoder_for_all` [cpq] (Conn/Scanner.lean): One decoder for the dump and for all events after it: each event is decoded as if it were the first, in order; only the panics on short ports and numbers (`Decode.short_proto_panics`) end it.
* `Kindling.Conn.Scanner.good_after_bad` [cpq] (Conn/Scanner.lean): A message of the kernel after any others, good or bad, that did not bring the decoder down.
* `Kindling.Conn.Scanner.never_grows` [pq] (Conn/Scanner.lean): The frames stay as many as they are: the branch that makes one is not reached.
* `Kindling.Conn.Scanner.deeper_panics` [pq] (Conn/Scanner.lean): One level deeper than there are frames is a panic, though the code has a branch to make the frame.
* `Kindling.Conn.Scanner.three_needed` [pq] (Conn/Scanner.lean): With fewer than three frames a complete tuple brings the decoder down: the number is the depth of the messages, not a matter of speed.

### C118 The converters are built with the labels they are listed with (proved)

The builder of label converters puts the common entries after the base, the entries of each protocol after those, then value labels and constant labels; a converter whose extra labels were given once converts every group with the entries of the protocol of the group, or with those for unsupported protocols. The ten converters of the network adapter are so built, for all constant labels. What the builder does not check: without extra labels every group is a panic, without a parameter for unsupported protocols every group of an unlisted protocol is one, and extra labels given a second time are not combined with the first but all joined to each, the second function never being asked.

*built_as_listed: for any dictionaries and parameters with distinct keys, what the search finds is Labels.build of base, common entries and those of the protocol. manager_makes: the ten chains of calls of createNetAdapterManager make the converters the theorems on labels (Export/Adapter.lean) are about. The calls the code does not make but the builder allows: no_extra_panics, unlisted_panics, second_extra_all_at_once (withExtraLabels makes its lists with a length and changes the old parameters in place; latent, since no converter calls it twice).*

* `Kindling.Export.Builder.base_then_common` [pq] (Export/Builder.lean): The common entries follow the base, in order.
* `Kindling.Export.Builder.built_as_listed` [cpq] (Export/Builder.lean): A builder whose extra labels were given once: it builds, and every group is converted with the base, the common entries and those of its protocol.
* `Kindling.Export.Builder.manager_makes` [cpq] (Export/Builder.lean): The ten converters the manager builds are those of `Adapter.lean`: for every group and all constant labels they have the entries, the value labels and the adjustment given there.
* `Kindling.Export.Builder.no_extra_panics` [p] (Export/Builder.lean): Without extra labels there is nothing to convert with: every group is a panic.
* `Kindling.Export.Builder.unlisted_panics` [cpq] (Export/Builder.lean): Without a parameter for unknown protocols the groups of protocols not listed are a panic.
* `Kindling.Export.Builder.second_extra_all_at_once` [cpq] (Export/Builder.lean): Extra labels given a second time are not combined with the first: a group gets the entries of its first parameter and those of all the second ones at once, whatever the second function would have said of it, which is never asked.

### C119 A request is counted once, from the record to the Prometheus counter (proved)

The aggregation processor, the network adapter and the Prometheus exporter together: for every history of records, ticks of the aggregation timer, scrapes and groups of other kinds, a scrape shows for each sum and each counter of the aggregated metrics exactly what the records up to the last tick add up to, each record in the series that its labels belong to, once, and in no other. With any configuration that counts requests, kindling_entity_request_total of a series is the number of requests received with its labels, kindling_topology_request_total the number sent with its labels plus, if the operator wants them, those received from outside. The built-in configuration counts requests, adds up their time and sizes. The label sets of slow and other series, and of entity and topology series, never meet, and neither do those of aggregated requests with those of TCP records or of sampled requests. With the built-in configuration no integer record, whatever its labels, makes any step between the processor and the scrape panic. The records of the network analyzer are such records, at any time and however often they went through the pool.

*Verif/Flow/Count.lean composes Proc/Aggregate (C89), Export/Adapter (C49, C50) and Export/Prom (C87). counters_add_up is proved by a weighted conservation law: what the aggregator holds plus what it handed on is what the records added. It assumes that no group of another kind has the label set of the series (hother; proved of the real pipeline in Verif/Flow/Counted.lean by others_apart, from every_request_counted on), that every aggregated group carries the metric (true of the analyzer's records), and that the series was not removed for being idle for five minutes (Steady; C87 says what happens then). Verif/Flow/Counted.lean puts AggregateProcessor.Consume in front and the adapters as the Prometheus exporter builds them behind: pipeline_never_panics shows that with the built-in configuration and integer metrics every step is answered, so that first_scrape_exact has no hypothesis about the code's results. Verif/Flow/Made.lean takes the records from the analyzer's pool (C109): an invariant over every action on the pool shows that each has all its metrics and only integers. Values are integers; C115 and C116 say when machine arithmetic and floats agree. A single goroutine order of calls; the interleavings of Consume and Collect are C105.*

* `Kindling.Flow.Count.counters_add_up` [cpq] (Flow/Count.lean): From the records to the counters: take any history of records, ticks, scrapes and other groups, and a series `K` of an output that is a sum or a count. A scrape then shows exactly what the records up to the last tick add up to: every record is in the series its labels belong to, once, and in no other. Assumed: no other group has the label set of the series, and no scrape found the series older than five minutes.
* `Kindling.Flow.Count.requests_counted` [cpq] (Flow/Count.lean): With any configuration that counts requests, `kindling_entity_request_total` of a series is the number of requests received with its labels up to the last tick, and `kindling_topology_request_total` the number of requests sent with its labels, together with those received from outside the cluster if the operator wants them.
* `Kindling.Flow.Count.builtin_outputs` [p] (Flow/Count.lean): with the built-in configuration requests are counted by their durations, and durations and sizes are summed.
* `Kindling.Flow.Count.counter_names` [cpq] (Flow/Count.lean): the names of the counters.
* `Kindling.Flow.Count.slow_apart` [cpq] (Flow/Count.lean): Counts never share a label set with anything else.
* `Kindling.Flow.Count.topo_apart` [cpq] (Flow/Count.lean): Entities and topology never share a label set.
* `Kindling.Flow.Counted.every_request_counted` [cpq] (Flow/Counted.lean): Whatever the analyzers hand to the processor, in whatever order with ticks and scrapes, and whichever records are sampled: with any configuration that counts requests a scrape shows, for a series seen within five minutes of every scrape, the number of records of received (sent, and received from outside) requests of the series that came before the last tick.
* `Kindling.Flow.Counted.first_scrape_exact` [cpq] (Flow/Counted.lean): with the built-in configuration, whatever integer records came before the last tick, the scrape is answered, and in the answer every series carries the number of its requests. Nothing is assumed of the code's results here.
* `Kindling.Flow.Counted.pipeline_never_panics` [cpq] (Flow/Counted.lean): with the built-in configuration nothing panics on the way, whatever integers the records carry and whatever their labels.
* `Kindling.Flow.Counted.others_apart` [cpq] (Flow/Counted.lean): No other group of the pipeline has the label set of a series of requests.
* `Kindling.Flow.Counted.tcp_apart` [cpq] (Flow/Counted.lean): Requests and TCP metrics never share a label set: the former have a protocol.
* `Kindling.Flow.Counted.trace_apart` [cpq] (Flow/Counted.lean): Requests counted and requests shown one by one never share a label set.
* `Kindling.Flow.Counted.series_labels` [cpq] (Flow/Counted.lean): The series in which a request is counted: the labels documented for it, with their documented values read from what the aggregation keeps of the labels of the record, and no other.
* `Kindling.Flow.Made.always_measured` [cpq] (Flow/Made.lean): Every record of the analyzer has all its metrics, and nothing but integers, at any time and whatever it was used for before.
* `Kindling.Flow.Made.analyzer_records` [cpq] (Flow/Made.lean): What the analyzer hands to the processor is one request with one duration, and integers.
* `Kindling.Flow.Made.analyzer_to_scrape` [cpq] (Flow/Made.lean): From the analyzer to the scrape: nothing panics, and the first scrape shows the number of requests of every series.
* `Kindling.Flow.Counted.sampled_exported` [cpq] (Flow/Counted.lean): a sampled request gives the exporter one metric, its duration, if the operator wants traces as metrics, and none otherwise; a group of another kind gives the network adapter nothing.
* `Kindling.Flow.Count.histogram_names` [cpq] (Flow/Count.lean): The names under which the collector looks for histograms are those the adapter gives them, on either side, and the adapter gives them to nothing else.

### C120 What the task of a slow trace puts into its file (proved)

The task that runs every second after a slow trace, on the window of a thread that goes on getting events, for any interleaving of events, runs and sendings for other traces: the file of the trace is what the runs append one after the other, each run one line for every second of its span that is in the window and has an event, with the events of that second that arrived before the run. An event of the time of the request itself is in the file if it arrives before the last run, however many runs are over. An event of the edge before the request is not: the span moves on with the runs, and what ended before the span of the first run after its arrival is in no line of the file, though the window still has it.

*Verif/Flow/CpuTask.lean composes the spans of the runs (C34) with the windows and files of C114. task_file_exact says what is in the file when no other trace writes to the same file; event_in_task_file and own_event_in_file need no such assumption. late_event_lost is the finding: run k asks for what begins k seconds after the edge, so an event of the edge that arrives after k runs may be missed. One thread; a put holds the lock of the analyzer and a sending its read lock, so these do not mix; two sendings may run at the same time, which is left out (they write nothing but the mark). When the runs happen is left open, as is their number: the expiry timer may win against the last tick (C84).*

* `Kindling.Flow.CpuTask.event_in_task_file` [cpq] (Flow/CpuTask.lean): An event that arrived before a run of the task, and meets a second of the span of this run that was in the window when the event arrived and still is, is in the file of the trace - whatever else is done with the thread before, after, and for other traces.
* `Kindling.Flow.CpuTask.own_event_in_file` [cpq] (Flow/CpuTask.lean): An event of the time of the request itself is in the file if it arrives before the last run, however late that is; the runs are `edge` (send_trigger.go:102-104), or fewer.
* `Kindling.Flow.CpuTask.task_file_exact` [cpq] (Flow/CpuTask.lean): The file of the trace is what the runs append, one after the other, if no other trace writes to it: each run a line for every second of its span that is in the window and has an event, with the events of the second that arrived before the run.
* `Kindling.Flow.CpuTask.only_asked_for` [cpq] (Flow/CpuTask.lean): Every line in the file of the trace is from a run, of a second of its span, and shows only events that meet the second and arrived before the run.
* `Kindling.Flow.CpuTask.late_event_lost` [cpq] (Flow/CpuTask.lean): The span moves with the runs: what ended before the span of the first run after its arrival is never shown, though it may still be in the window and belongs to the edge of the trace: every line in the file is from a run, of a second of its span, and shows events, but not this one.

### C121 A DNS exchange over UDP, from the two messages to its record (proved)

A DNS query with one question sent over UDP and a message with the same transaction id received on the same socket afterwards make one exchange of this query and this answer, whatever was stored before and whatever else goes on in between on other sockets, with other ids, with payloads that are no DNS messages and with passes of the scanner before the time of the query is over. Its record has the socket of the query, the transaction id, the name asked about in the answer, the response code, a protocol error exactly for the codes that count as errors, the end time of the answer and both payloads; its sent, waiting and download times add up to the total. A query without an answer is reported once, with its own name and the error of a missing response. Payloads without a question change nothing. The name in the answer is not compared with the name in the query: an answer about another name is taken.

*Verif/Flow/DnsUdp.lean composes the DNS parsers (C19, C61), the store of queries (C13) and the record (C69). Messages are given by their fields (RFC 1035), with anything after the question. Two queries with one id on one socket: the second replaces the first (C13), which is then in no record. Events and passes of the scanner are atomic here; C13 has the races between them. other_name_taken is a finding: over TCP the name is compared, over UDP it is not. The address label is left to C19.*

* `Kindling.Flow.DnsUdp.answered_once` [cpq] (Flow/DnsUdp.lean): whatever went before, a query and the first answer with its transaction id on its socket give one exchange of this query and this answer, and nothing else under this id; the query is then no longer stored.
* `Kindling.Flow.DnsUdp.answered_record` [cpq] (Flow/DnsUdp.lean): the record of an answered query, on any record the pool hands out: it is made without a panic, carries the socket of the query, the transaction id, the name in the answer, the response code, no error for the codes that are none and a protocol error for the others, the answer's end time and threads, and both payloads as far as they are kept.
* `Kindling.Flow.DnsUdp.unanswered_once` [cpq] (Flow/DnsUdp.lean): a query without an answer is reported once, by the first pass of the scanner after its time.
* `Kindling.Flow.DnsUdp.unanswered_record` [cpq] (Flow/DnsUdp.lean): the record of a query that got no answer: its own name and id, no response code of its own, the error "no response".
* `Kindling.Flow.DnsUdp.no_message_ignored` [pq] (Flow/DnsUdp.lean): a payload of at most twelve bytes or without a question changes nothing, in either direction.
* `Kindling.Flow.DnsUdp.times_add_up` [pq] (Flow/DnsUdp.lean): the times of an answered query: sent, waiting and download time add up to the total, which is the time from the start of the query to the end of the answer, if the answer was not read before the query was sent and no clock value reaches 2⁶³ ns.
* `Kindling.Flow.DnsUdp.unanswered_times` [cpq] (Flow/DnsUdp.lean): without an answer the total is 0 and the query is slow only if the threshold is not positive.
* `Kindling.Flow.DnsUdp.other_name_taken` [cpq] (Flow/DnsUdp.lean): the name is not compared: an answer about another name under the same transaction id is taken for the answer, and the record has the other name.
* `Kindling.Flow.DnsUdp.sizes_are_results` [pq] (Flow/DnsUdp.lean): the sizes in the record are the results of the two calls; a failed call would be recorded with its negative result, the UDP branch does not look at it.

### C122 The exchanges on the wire are what is reported and counted (proved)

Cut the events of a connection into exchanges: a connect and the requests after it, then the responses, up to the next request or connect; a request from another port begins a new one. If the connection is used in an orderly way (when the timeout scan passes, the last event of the open exchange is younger than the timeouts or nothing more belongs to the exchange, and a connect is used before the next connect) and no exchange is continued by HTTP 100, the analyzer reports exactly these exchanges, with these requests and responses, in this order, whatever happens on other connections in between; the last may still be stored, and is reported by the first scan after the timeouts. Over all connections every exchange on the wire is reported once and nothing else is. If the records of the reports reach the aggregation processor, the request counters of the first Prometheus scrape are the numbers of exchanges on the wire with the labels of the series. A response that comes after a scan found its request too old is in no report.

*Verif/Net/Wire.lean: the specification is a cut of the events of one connection (feed, exchanges); the analyzer's store of all connections refines it through C06's refinement (Net/Refine.lean). exchanges_of_turns checks the specification: the exchanges of a client that takes turns are its turns; requests_of_exchanges: no request is in two exchanges or in none. late_response_dropped is why the connection must be orderly. Verif/Flow/Wire.lean composes with C119: which records a report makes (recs) is left to C68, C69 and C103, and they may reach the processor in any order. Events and scans are atomic here; their interleaving in the code is C06. Connect events are of the same socket; a second connect with no request in between replaces or reports the first (C06).*

* `Kindling.Net.Wire.exchanges_are_reported` [cpq] (Net/Wire.lean): On a connection that is used in an orderly way the analyzer reports exactly the exchanges on the wire, in their order; the last may still be stored.
* `Kindling.Net.Wire.all_exchanges_reported` [cpq] (Net/Wire.lean): After a scan when the connection has been quiet for longer than the timeouts, the reports are the exchanges.
* `Kindling.Net.Wire.requests_of_exchanges` [p] (Net/Wire.lean): No request is in two exchanges, and none is in no exchange.
* `Kindling.Net.Wire.exchanges_of_turns` [pq] (Net/Wire.lean): The exchanges of a client that takes turns are its turns.
* `Kindling.Net.Wire.reports_are_the_wire` [cpq] (Net/Wire.lean): Over all connections: if each is used in an orderly way and has been quiet when the last scan passes, the analyzer reports the exchanges that were on the wire, each once.
* `Kindling.Net.Wire.late_response_dropped` [cpq] (Net/Wire.lean): Why orderly: a scan that finds the request unanswered for too long reports it as unanswered, and the response that comes later is in no report.
* `Kindling.Flow.Wire.wire_to_scrape` [cpq] (Flow/Wire.lean): The counters count the exchanges on the wire. `recs` are the records made of a report (one for each exchange of the protocols that are parsed as one; see `Flow/Choose.lean` and `Net/Multi.lean`); they reach the processor in any order.

### C123 The text of an event in the debug log (proved)

With the log at debug level the receiver writes a text of every event. It shows the parameters in use, in order, once each, and nothing of the unused rest of the array. Signed and unsigned numbers of every width are shown as the decimal value that the probe wrote. A payload is shown as printable ASCII in one line whatever its bytes are, a short payload of plain text as it is, of a longer one at most 200 characters and the number of bytes left out. An event makes the text (and with it the collector) panic exactly if it has a number whose value is shorter than its type; a double is shown as its raw bytes, so its text may not be printable.

*Verif/Model/Shown.lean. The runes of a Go string are those of Export/Json.lean (C112), proved against the definition of UTF-8 there; that the expression `[^ -~]` replaces rune by rune is Go's regexp. Given, not modelled: `%+v` of the context and `%f`. converted_shown composes with C85.*

* `Kindling.Model.Shown.payload_plain` [cpq] (Model/Shown.lean): whatever the payload, the text can be shown in a line: no control characters, no bytes beyond ASCII.
* `Kindling.Model.Shown.payload_cut` [cpq] (Model/Shown.lean): of a long payload at most `n` characters are shown, and how many bytes are left out.
* `Kindling.Model.Shown.payload_kept` [cpq] (Model/Shown.lean): a short payload of plain text is shown as it is.
* `Kindling.Model.Shown.payload_attr` [cpq] (Model/Shown.lean): the text of a payload can be shown in a line, whatever the payload, if its name can.
* `Kindling.Model.Shown.unsigned_shown` [cpq] (Model/Shown.lean): an unsigned number is shown in decimal, as the probe wrote it.
* `Kindling.Model.Shown.signed_shown` [cpq] (Model/Shown.lean): a signed number is shown in decimal with its sign, as the probe wrote it (two's complement).
* `Kindling.Model.Shown.attrs_shown` [cpq] (Model/Shown.lean): the attributes that have a type are shown in order, once each, between brackets and separated by spaces; nothing else is.
* `Kindling.Model.Shown.converted_shown` [cpq] (Model/Shown.lean): of an event of the probe (C85) the text shows the parameters in use, and none of the rest of the array.
* `Kindling.Model.Shown.attr_panics_iff` [cpq] (Model/Shown.lean): the text of an attribute panics exactly if its value is shorter than its type.
* `Kindling.Model.Shown.debug_panics_iff` [cpq] (Model/Shown.lean): with the log at debug level, an event with a value shorter than its type crashes the collector, and no other event does.
* `Kindling.Model.Shown.double_raw` [cpq] (Model/Shown.lean): a double is shown as its eight bytes, so that its text can be shown in a line only if these happen to be printable.

### C124 Slow Java transactions become signals (partial)

A transaction whose entry and end the Java agent reports, and that ends before it expires, is reported exactly if it took longer than the threshold: with the URL, protocol and time of its entry, the id, process and container of its end and the time between them, whatever happens to other transactions and whenever the sweeps come. Every report belongs to such an entry and end. The report waits as a signal under its URL and process, and from then on the requests of that process as the probe sees them are none. Transactions of different processes or ids are kept apart.

*Verif/Cpu/Java.lean. Proved: what is reported, when, with which labels, and what becomes of it. Refuted: keeping transactions apart. The key is the id followed by the process number, so that of process 12 and that of process 2 with one more digit in the id share one (keys_meet, for every id); ids of one length are told apart (key_inj). An end does not remove its entry, so a repeated end is reported again (second_end_reported). Taken as one step: an event and a sweep (the race for the queue is in C100).*

* `Kindling.Cpu.Java.slow_is_reported` [cpq] (Cpu/Java.lean): A transaction that ends before it expires is reported exactly if it was slow: with the URL, protocol and time of its entry, the id and process of its end, and the time between them; whatever happens to other transactions, and whenever the sweeps come. What is asked of other events of the same key: no entry in between, and none so old that it expires before the end.
* `Kindling.Cpu.Java.reports_are_slow` [cpq] (Cpu/Java.lean): Nothing is invented: every report belongs to an end in the history and an earlier entry with the same key, with more than the threshold between them.
* `Kindling.Cpu.Java.expired_is_lost` [cpq] (Cpu/Java.lean): An end that comes after a sweep that found its entry expired is not reported, however slow the transaction was: no transaction of `delay` and more plus an interval of sweeps is ever a signal.
* `Kindling.Cpu.Java.key_inj` [p] (Cpu/Java.lean): Transactions whose trace ids have one length are told apart: the key says the id and the process.
* `Kindling.Cpu.Java.keys_meet` [cpq] (Cpu/Java.lean): Finding: without that they are not. Whatever the id, the transaction of process 12 and that with one more digit of process 2 share a key.
* `Kindling.Cpu.Java.second_end_reported` [cpq] (Cpu/Java.lean): Finding: an end does not remove its entry, so a second end is reported as well.
* `Kindling.Cpu.Java.get_labels` [cpq] (Cpu/Java.lean)
* `Kindling.Cpu.Java.span_labels` [cpq] (Cpu/Java.lean): The labels that are always there.
* `Kindling.Cpu.Java.span_names` [cpq] (Cpu/Java.lean): The workload, the container and the pod are there exactly if the metadata is marked as initialised and knows the container.
* `Kindling.Cpu.Java.span_pid` [cpq] (Cpu/Java.lean): The process is that of the thread that sent the end.
* `Kindling.Cpu.Java.took_exact` [cpq] (Cpu/Java.lean): For times in order, slow is more than the threshold in milliseconds, the span begins at the entry and its value is the time it took.
* `Kindling.Cpu.Java.entry_iff` [cpq] (Cpu/Java.lean): An event is an entry exactly if its text is the number one; every other text, also one that is no number, makes it an end.
* `Kindling.Cpu.Java.report_is_signal` [cpq] (Cpu/Java.lean): With the profile running a reported transaction waits as a signal under its URL and process, unless one is waiting there already; from then on the requests of the process as seen by the probe are no signals; the timeline of requests gets nothing.

### C125 The agent connects to Kubernetes in one way, once (partial)

An enabled processor either asks the metadata provider, if one is configured, or starts the watchers of nodes, of replica sets if wanted, of services and then of pods with the configured period, if the API server can be used with the configured credentials; otherwise it panics and nothing was started. A disabled one connects to nothing. A client is made exactly if the credentials of the chosen kind are there, never from a nil configuration. Watchers are started at most once. The metadata provider itself watches the API server with its own handlers. With metadata, slow transactions carry the workload, container and pod of their container.

*Verif/K8s/Init.lean. Proved but for the last sentence: with a metadata provider IsInitSuccess is never set, so the slow transactions of the agent never carry workload, container and pod though the cache has them (mark_iff, provider_hides_names); with the API server they do. After a failed first call InitK8sHandler reports success (second_call_hides_failure; not reached by the agent). Given: client-go (loading credentials, making a client).*

* `Kindling.K8s.Init.processor_starts` [cpq] (K8s/Init.lean): How an enabled processor starts. With a provider: the loop of delayed deletions and the goroutine that asks the provider, whatever the environment. Without: the watchers of nodes, of replica sets if wanted, of services, then of pods, if the API server can be used; else the agent panics, and nothing was started.
* `Kindling.K8s.Init.disabled_connects_to_nothing` [cpq] (K8s/Init.lean): A disabled processor connects to nothing and cannot fail.
* `Kindling.K8s.Init.client_iff` [cpq] (K8s/Init.lean): A client is made exactly if the API server can be used; otherwise there is an error. There is no third case: the nil configuration of an unknown kind of credentials is not reached.
* `Kindling.K8s.Init.unknown_kind_needs_check` [cpq] (K8s/Init.lean): Finding (latent): without the check of `Validate` an unknown kind of credentials would be a nil dereference.
* `Kindling.K8s.Init.join_inj` [pq] (K8s/Init.lean): The address says host and port: two pairs with the same address are equal (a port has no colon).
* `Kindling.K8s.Init.last_option_counts` [cpq] (K8s/Init.lean): The last option of a kind counts; without one the default.
* `Kindling.K8s.Init.started_once` [cpq] (K8s/Init.lean): Whatever is called how often, and whether it fails: the watchers are started at most once.
* `Kindling.K8s.Init.second_call_hides_failure` [cpq] (K8s/Init.lean): Finding: if the first call fails, a second one reports success though nothing runs (the agent has one processor, which panics at the first).
* `Kindling.K8s.Init.grace_exact` [pq] (K8s/Init.lean): A configured period within range is the period of the deletions; there is no lower limit (config.go:14 asks for 30 seconds).
* `Kindling.K8s.Init.grace_wraps` [-] (K8s/Init.lean): Finding: one second more than the range holds is a negative period, so that a deleted pod is forgotten at once.
* `Kindling.K8s.Init.node_names` [cpq] (K8s/Init.lean): The processor and the watchers take the name of the node from the same variable; if it is not set, they know it by two names.
* `Kindling.K8s.Init.server_starts` [cpq] (K8s/Init.lean): The server side watches the API server with its own handlers, never another provider, and forgets deleted pods without delay.
* `Kindling.K8s.Init.mark_iff` [cpq] (K8s/Init.lean): `IsInitSuccess` says that the watchers of the API server run; with a provider it stays false.
* `Kindling.K8s.Init.slow_transaction_named` [cpq] (K8s/Init.lean): With the API server a slow transaction carries the workload, container and pod of its container as they are in the cache.
* `Kindling.K8s.Init.provider_hides_names` [cpq] (K8s/Init.lean): Finding: with a metadata provider it never does, though the cache knows the container.
* `Kindling.K8s.Init.handler_asks_iff` [cpq] (K8s/Init.lean): Whoever calls: the provider is asked exactly if the options end in an enabled one; nothing else is watched then.

### C126 Log lines and self metrics go where the configuration says (partial)

A message of a component is written to the console and to the file exactly if the level of that sink takes it and, for debug messages, the component is selected or none is; components not selected lose nothing else. A panic is never swallowed. Without a usable logger section the agent logs with the default logger. The agent's own metrics go where the configured exporter kind and its section say, or nowhere; agents of different clusters report under different names.

*Verif/Ctl/Logs.lean. Proved for direct calls and for the metrics. Refuted: without the logger section (or with a file level and no file_rotation) the agent does not use the default logger but panics at its start (starts_iff, missing_section_panics). A message behind Check is lost at every level for a component that is not selected (check_hides); in the agent as it is built only debug messages are behind it. Given: zap, viper and mapstructure (the decoded configuration is an input), the exporters of OpenTelemetry.*

* `Kindling.Ctl.Logs.line_written_iff` [pq] (Ctl/Logs.lean): A message below a panic, of any component: it is on the console, and in the file, exactly if the level configured for this sink takes it and, for a debug message, the component is selected or none is.
* `Kindling.Ctl.Logs.starts_iff` [p] (Ctl/Logs.lean): the agent starts to log unless a file is wanted and the section that describes it is missing; then it panics.
* `Kindling.Ctl.Logs.missing_section_panics` [cpq] (Ctl/Logs.lean): Finding: without the section of the logger the agent does not take a default (the message of telemetry.go:48-50 says it does) but panics at its start: an empty level counts as `info`, for the file too.
* `Kindling.Ctl.Logs.rotation_kept` [p] (Ctl/Logs.lean): in the file the rotation is the configured one.
* `Kindling.Ctl.Logs.panic_always` [p] (Ctl/Logs.lean): a panic of a component panics whatever the levels are, and is written to every sink there is; with both levels `none` to the console.
* `Kindling.Ctl.Logs.both_none_silent` [pq] (Ctl/Logs.lean): Finding: with both levels `none` errors are written nowhere.
* `Kindling.Ctl.Logs.selects_one` [pq] (Ctl/Logs.lean): the components of the agent have different names, so that one can be selected and the others are not.
* `Kindling.Ctl.Logs.wrong_name_silences` [p] (Ctl/Logs.lean): with a selector that names none of the components (a name with its section, say) no component logs debug messages; nothing checks the names.
* `Kindling.Ctl.Logs.check_hides` [pq] (Ctl/Logs.lean): Finding: a message behind `Check` is lost for a component that is not selected, whatever its level; the same message by a direct call is written if the sinks take it. Only the analyzer that does nothing checks for another level than debug.
* `Kindling.Ctl.Logs.check_debug` [-] (Ctl/Logs.lean): for debug messages the two ways of logging agree.
* `Kindling.Ctl.Logs.global_ignores_selector` [pq] (Ctl/Logs.lean): the tools of the agent itself (starting and stopping analyzers, the controller) do not ask the selector.
* `Kindling.Ctl.Logs.provider_iff` [cpq] (Ctl/Logs.lean): where the library can do it, the metrics of the agent go where the configured kind and its section say; a kind that is not one of the three leaves the agent without them, and a kind without its section is a panic.
* `Kindling.Ctl.Logs.provider_only_asked` [p] (Ctl/Logs.lean): if the library cannot, the agent runs on without its own metrics (or panicked for a missing section), never with others.
* `Kindling.Ctl.Logs.clusters_apart` [cpq] (Ctl/Logs.lean): agents of different clusters report under different names; those without the variable share one.

### C127 The OpenTelemetry exporter starts as its configuration says (partial)

The exporter starts exactly if its kind is known and the section of that kind and the section of the adapters are there, and then sends where that section says; a start that fails panics and hands no exporter on. The labels it adds to everything are the configured ones and, unless they are served to Prometheus, job and host where the configuration does not name them, none twice. Spans are sent by every kind but Prometheus. Agents of different clusters and hosts report as different services and instances. A period of restarts that is not positive disables the restarts.

*Verif/Export/OtelStart.lean. Proved for every configuration whose period of restarts is not negative and below 292 years. Refuted for the others: a negative period does not disable the restarts but panics in time.NewTicker at the start, as does one between 292 and 584 years, which wraps (bad_period_panics); 0 disables them (zero_disables). Given: viper and mapstructure (the decoded configuration is an input), the exporters and controllers of OpenTelemetry (whether they can be made is an input), retry settings and histogram boundaries are not modelled.*

* `Kindling.Export.OtelStart.starts_iff` [cpq] (Export/OtelStart.lean): with a library that does its part and a period that fits, the exporter starts exactly if the kind is known, its section is there and the section of the adapter is; then it sends where the section says.
* `Kindling.Export.OtelStart.panics_iff` [cpq] (Export/OtelStart.lean): every way in which the start fails: it panics, no exporter without a sink is handed on.
* `Kindling.Export.OtelStart.labels_exact` [cpq] (Export/OtelStart.lean): the labels added to everything are the configured ones and, unless they are served to Prometheus, the job and the host, where the configuration does not say otherwise; no label twice.
* `Kindling.Export.OtelStart.tracer_iff` [cpq] (Export/OtelStart.lean): spans can be sent by every exporter but that for Prometheus.
* `Kindling.Export.OtelStart.spans_sent` [cpq] (Export/OtelStart.lean): the exporter for Prometheus tells the library nothing of a trace, the others a span with its attributes.
* `Kindling.Export.OtelStart.adapters_exact` [cpq] (Export/OtelStart.lean): the adapters are set up as the section of the adapter says, and the groups without a network request go to the second one.
* `Kindling.Export.OtelStart.resources_apart` [cpq] (Export/OtelStart.lean): agents of different clusters, and of different hosts, report as different services and instances.
* `Kindling.Export.OtelStart.zero_disables` [cpq] (Export/OtelStart.lean): a period of 0 hours disables the restarts, as the configuration says.
* `Kindling.Export.OtelStart.bad_period_panics` [cpq] (Export/OtelStart.lean): Finding: a negative period of up to 292 years, or one above 292 years that wraps to a negative one, does not disable the restarts but panics at the start.

### C128 The writer of the metadata stream keeps its promises under concurrent calls (partial)

Whatever goroutines call Write, Flush and Close, no channel is closed twice and no call hangs; exactly one Close succeeds and the others, like every Write begun afterwards, get io.EOF. Everything written is flushed before its Write returns, and nothing reaches the writer once Close has returned. Flushed says whether a flush has begun.

*Verif/K8s/WriteFlusher.lean. Proved for every interleaving: no panic, no hang, one successful Close, io.EOF only from a closed flusher, and that while the flusher is open every write is flushed before its call returns. Refuted: that nothing reaches the writer once Close has returned. A write that looked at the channel before Close still writes after Close has returned nil, reports success and is never flushed (late_write); close_stops shows that these writes, once each, are all that can follow. Given: the writer underneath takes all bytes without an error, and sync.Once and sync.Mutex.*

* `Kindling.K8s.WriteFlusher.never_panics` [cpq] (K8s/WriteFlusher.lean): No interleaving of calls closes a channel twice.
* `Kindling.K8s.WriteFlusher.never_stuck` [cpq] (K8s/WriteFlusher.lean): A goroutine inside `Write` or `Flush` can always go on; one inside `Close` waits at most for another `Close` that can go on.
* `Kindling.K8s.WriteFlusher.one_close` [cpq] (K8s/WriteFlusher.lean): At most one `Close` returns nil; when no call is under way, exactly one did if the flusher is closed and none otherwise; and `io.EOF` is returned only by a closed flusher.
* `Kindling.K8s.WriteFlusher.flushed_iff` [cpq] (K8s/WriteFlusher.lean): `Flushed` says true from just before the first flush on, and not earlier.
* `Kindling.K8s.WriteFlusher.close_stops` [pq] (K8s/WriteFlusher.lean): Once the flusher is closed, nothing more reaches the writer but, once each, the bytes of the writes that were past their look at it.
* `Kindling.K8s.WriteFlusher.writes_flushed` [pq] (K8s/WriteFlusher.lean): While the flusher is open, what a goroutine wrote has been flushed after it once the goroutine's call has returned.
* `Kindling.K8s.WriteFlusher.late_write` [pq] (K8s/WriteFlusher.lean): FINDING: a write that has looked before `Close` writes after `Close` has returned nil, returns without an error, and is never flushed by anyone: the promise of lines 67-69 and of lines 8-10 does not hold.

### C129 The agent starts and stops its parts in order (partial)

The analyzers are started in order and the receiver only after all of them started without an error; the agent then runs, and otherwise exits with 1. A signal shuts the receiver down and then every analyzer, whatever the others answer, and the exit code is 0 exactly if none of them failed. Whatever was started is shut down again.

*Verif/Ctl/App.lean. Proved: the order of the start, when the agent runs, and the shutdown by a signal that comes once the handler is set. Refuted: that whatever was started is shut down again. main sets the handler only after Run has returned, so a signal during the start kills the agent and shuts nothing down (early_signal_kills), and a part that fails to start leaves the ones before it as they are (failed_start_leaves). Given: the handlers of the C probe are not modelled, and no call panics or hangs (Flow/Queues.lean has the hangs).*

* `Kindling.Ctl.App.startAll_exact` [pq] (Ctl/App.lean): The analyzers are started in order, up to and including the first that fails.
* `Kindling.Ctl.App.shutdownAll_exact` [pq] (Ctl/App.lean): Every analyzer is shut down, in order, whatever the others answer, and exactly the errors that occurred are returned.
* `Kindling.Ctl.App.receiver_last` [pq] (Ctl/App.lean): Nothing is received before every analyzer has been started without an error.
* `Kindling.Ctl.App.runs_iff` [pq] (Ctl/App.lean): Without a signal the agent runs exactly if everything started; otherwise it exits with 1.
* `Kindling.Ctl.App.signal_shuts_down` [cpq] (Ctl/App.lean): A signal that comes once the handler is set shuts the receiver down first and then every analyzer; the exit code is 0 exactly if none of them fails.
* `Kindling.Ctl.App.early_signal_kills` [pq] (Ctl/App.lean): FINDING: a signal that comes while the agent starts (the receiver alone takes four seconds) kills it: whatever has been started, nothing is shut down.
* `Kindling.Ctl.App.failed_start_leaves` [pq] (Ctl/App.lean): FINDING: when an analyzer or the receiver fails to start, the ones started before it are not shut down.
