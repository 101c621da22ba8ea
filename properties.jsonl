{"id": "C01", "title": "Aggregation conserves sums and counts across dumps", "statement": "For a metric aggregated with kind `sum` or `count`, adding up the values of that metric in every series of every dump, plus what the next dump would return, gives exactly the total (or number) of the values handed to Aggregate for that group: nothing is lost or counted twice, however Aggregate and Dump calls alternate.", "quantifier": "every finite history of Aggregate and Dump calls, every group name, label set and metric value", "why_tests_cant": "The claim is about all histories; a test fixes one interleaving of records and dumps.", "anchors": ["collector/pkg/aggregator/defaultaggregator/default_aggregator.go:Aggregate,Dump", "collector/pkg/aggregator/defaultaggregator/value_recorder.go:Record,dump,reset", "collector/pkg/aggregator/defaultaggregator/agg_values.go:sumValue,countValue"]}
{"id": "C02", "title": "Each dumped series equals its aggregation function", "statement": "For every series in a dump, the value reported under an output name equals the configured function (sum, max, avg, last, count) applied to the list of all values recorded for this series since the previous dump, in order.", "quantifier": "every list of int records for a series, every kind in the configuration", "why_tests_cant": "Tests sample a few values; the claim ranges over all value sequences, including negative ones and unbounded lengths.", "anchors": ["collector/pkg/aggregator/defaultaggregator/agg_values.go:aggValuesMap,maxValue,sumValue,avgValue,lastValue,countValue", "collector/pkg/aggregator/defaultaggregator/agg_values.go:GetAggregatorKind"]}
{"id": "C03", "title": "Histogram buckets count values below each boundary", "statement": "After any sequence of recorded values and merged histograms with the same boundaries, bucket i equals the number of values less than or equal to boundary i, `count` is the number of values, `sum` their sum; with ascending boundaries the buckets are non-decreasing and never exceed count.  Merging two histograms gives the histogram of the concatenated values.", "quantifier": "every boundary list, every list of values, every way of splitting them over merged histograms", "why_tests_cant": "Merging order and value sets are unbounded.", "anchors": ["collector/pkg/aggregator/defaultaggregator/agg_values.go:histogramValue.calculate,merge,get"]}
{"id": "C04", "title": "Records share a series exactly when the selected labels agree", "statement": "With at most 37 label selectors, two records fall into the same series if and only if they agree on the value of every selected label (absent or mistyped labels reading as the zero value), and the labels of a dumped series are exactly these values.", "quantifier": "every pair of label maps and every selector list of at most 37 entries", "why_tests_cant": "Injectivity of the key over all label maps cannot be sampled.", "anchors": ["collector/pkg/aggregator/label_key.go:LabelSelectors.GetLabelKeys,LabelKeys.GetLabels"]}
{"id": "C05", "title": "Cumulative aggregator keeps live series and drops expired ones", "statement": "After any history, the exported value of a cumulative series equals the aggregate of all records for this series since it was last created, and a DumpAndRemoveExpired at time t removes exactly the series whose last update is older than the expiration duration.", "quantifier": "every history of records and dumps with arbitrary (monotone) clock values", "why_tests_cant": "Depends on the whole history and on clock values.", "anchors": ["collector/pkg/aggregator/defaultaggregator/cumulative_aggregator.go:CumulativeAggregator"]}
{"id": "C06", "title": "A message pair is reported at most once", "statement": "Whatever the interleaving of the event consumer and the timeout scanner, a request/response exchange kept by the network analyzer produces its records at most once, and it is never removed from the monitor without being reported.", "quantifier": "every interleaving of event steps and timer steps over any number of exchanges", "why_tests_cant": "It is a claim over all schedules of two goroutines.", "anchors": ["collector/pkg/component/analyzer/network/network_analyzer.go:distributeTraceMetric,consumerFdNoReusingTrace", "collector/pkg/component/analyzer/network/message_pair.go:checkSend"]}
{"id": "C07", "title": "Message-pair gauge equals the number of stored exchanges", "statement": "At every quiescent point the published tcp message-pair size equals the number of exchanges that are in the request monitor.", "quantifier": "every sequence of connect, request, response and timeout events", "why_tests_cant": "An accounting invariant over histories; a drift shows only after particular histories.", "anchors": ["collector/pkg/component/analyzer/network/network_analyzer.go:recordMessagePairSize,analyseConnect,analyseRequest,analyseResponse,distributeTraceMetric"]}
{"id": "C08", "title": "Merged payload is a bounded prefix, byte counts are exact", "statement": "After merging any sequence of fragments of one direction, the kept payload is a prefix of the concatenation of the fragments and at most the configured snap length (or the first fragment, if longer), the reported byte total is the exact sum of syscall results, and the kept event list starts with the first fragment.", "quantifier": "every sequence of fragments of arbitrary lengths, every snap length", "why_tests_cant": "Payload lengths and fragment counts are unbounded.", "anchors": ["collector/pkg/component/analyzer/network/message_pair.go:mergeEvent,getAppendLength", "collector/pkg/component/analyzer/network/message_pair.go:events"]}
{"id": "C09", "title": "Latency components add up", "statement": "For an exchange whose request precedes its response, request-sent time, time to first byte, content download time add up to the total request duration reported.", "quantifier": "every pair of time-ordered request and response event lists", "why_tests_cant": "Ranges over all timestamps and fragment counts, including merged events.", "anchors": ["collector/pkg/component/analyzer/network/message_pair.go:getSentTime,getWaitingTime,getDownloadTime,getDuration"]}
{"id": "C10", "title": "Exchanges on different sockets do not interfere", "statement": "Processing an event for one (pid, fd) leaves the stored exchange of every other (pid, fd) unchanged, and the records produced for a socket depend only on the sub-sequence of events of this socket.", "quantifier": "every event sequence and every pair of distinct sockets", "why_tests_cant": "Non-interference over all interleavings of sockets.", "anchors": ["collector/pkg/component/analyzer/network/network_analyzer.go:analyseConnect,analyseRequest,analyseResponse", "collector/pkg/component/analyzer/network/message_pair.go:getKey"]}
{"id": "C11", "title": "Timeout scan flushes exactly the expired exchanges", "statement": "A timeout scan reports an exchange iff it has a response and is at least FdReuseTimeout seconds old, or it is at least NoResponseThreshold seconds old; every other exchange remains stored, unchanged.", "quantifier": "every set of stored exchanges and every scan time", "why_tests_cant": "All combinations of ages and shapes.", "anchors": ["collector/pkg/component/analyzer/network/network_analyzer.go:consumerFdNoReusingTrace", "collector/pkg/component/analyzer/network/message_pair.go:getTimeoutTs"]}
{"id": "C12", "title": "Slow flag follows the configured threshold", "statement": "A request is labelled slow iff its duration is at least the threshold in milliseconds configured for its protocol, or else the global default threshold; a non-positive configured threshold falls back to the default.", "quantifier": "every duration, every protocol table", "why_tests_cant": "All uint64 durations and all configurations.", "anchors": ["collector/pkg/component/analyzer/network/network_analyzer.go:isSlow,getResponseSlowThreshold", "collector/pkg/component/analyzer/network/config.go:getResponseSlowThreshold"]}
{"id": "C13", "title": "DNS-over-UDP cache counts its outstanding queries", "statement": "For a UDP socket, the outstanding counter always equals the number of queries stored, so that the socket's cache is dropped exactly when no query is outstanding.", "quantifier": "every sequence of requests and responses, including repeated transaction ids", "why_tests_cant": "Only particular histories (a retransmitted id) make the counter drift.", "anchors": ["collector/pkg/component/analyzer/network/udp_cache.go:DnsUdpCache"]}
{"id": "C14", "title": "DNS response is attributed to the query with its id", "statement": "For several DNS queries and responses on one socket, every reported response is attributed to a query with the same transaction id, each query is reported exactly once, and a query without response is reported as having no response.", "quantifier": "every pair of parsed request and response lists", "why_tests_cant": "Any number of queries in any order of answers, including equal ids.", "anchors": ["collector/pkg/component/analyzer/network/network_analyzer.go:parseMultipleRequests", "collector/pkg/component/analyzer/network/udp_cache.go:getMatchRequest"]}
{"id": "C15", "title": "Payload readers never read outside the payload", "statement": "The fixed-width, string, array-size and until-delimiter readers given any payload and any non-negative offset either return an error or return data inside the payload with a new offset that is not smaller than the old one and at most the payload length; they never panic.", "quantifier": "every byte string, every offset and every length argument", "why_tests_cant": "Panics are triggered by particular short/hostile payloads.", "anchors": ["collector/pkg/component/analyzer/network/protocol/protocol_parser.go:ReadUInt16,ReadInt32,ReadBytes,readNullableString,readString,ReadUntilBlank,ReadUntilCRLF"]}
{"id": "C16", "title": "Variable-length integers decode what was encoded", "statement": "For every 32-bit value, decoding its LEB128 encoding (at any position of a payload, followed by any bytes) yields this value and advances by the length of the encoding; signed values round-trip via zigzag; at most five bytes are consumed.", "quantifier": "all 2^32 values and all surrounding payloads", "why_tests_cant": "2^32 values times arbitrary suffixes.", "anchors": ["collector/pkg/component/analyzer/network/protocol/protocol_parser.go:readUnsignedVarIntCore,ReadVarInt"]}
{"id": "C17", "title": "Kafka strings decode what was encoded", "statement": "A Kafka string / nullable string / compact string encoded at an offset of a payload is decoded to exactly the encoded bytes, with the offset moved behind it.", "quantifier": "every string, every prefix and suffix", "why_tests_cant": "An off-by-one only shows when the string ends at particular positions of the payload.", "anchors": ["collector/pkg/component/analyzer/network/protocol/protocol_parser.go:readString,readNullableString,readCompactString,readCompactNullableString"]}
{"id": "C18", "title": "DNS name decoding is total, bounded and correct", "statement": "Decoding a DNS name terminates without panic on every message, follows at most 126 compression pointers, yields a presentation name of bounded length, and inverts the uncompressed wire encoding of every list of legal labels.", "quantifier": "every byte string, every offset, every legal label list", "why_tests_cant": "Pointer loops and hostile lengths cannot be enumerated.", "anchors": ["collector/pkg/component/analyzer/network/protocol/dns/dns_helper.go:unpackDomainName"]}
{"id": "C19", "title": "All A records of a DNS answer are reported", "statement": "For a well-formed answer section with n A records, the reported ip list contains all n addresses in order.", "quantifier": "every list of A records (any n)", "why_tests_cant": "Tests use one record; the claim is about every n.", "anchors": ["collector/pkg/component/analyzer/network/protocol/dns/dns_response.go:readIpV4Answer"]}
{"id": "C20", "title": "Redis request decoding inverts RESP encoding", "statement": "For every non-empty list of bulk strings, the RESP array encoding is parsed completely, consuming exactly the encoding; the reported command is built from the first strings; every frame parser makes progress so parsing terminates.", "quantifier": "every list of byte strings, every trailing payload", "why_tests_cant": "Any number of arguments and any content including CR/LF bytes.", "anchors": ["collector/pkg/component/analyzer/network/protocol/redis/redis_bulk_string.go", "collector/pkg/component/analyzer/network/protocol/redis/redis_array.go", "collector/pkg/component/analyzer/network/protocol/protocol_parser.go:parsePayload"]}
{"id": "C21", "title": "Protocol parsers do not panic on arbitrary payloads", "statement": "Fast-fail checks and parsers of MySQL, Redis, Dubbo, HTTP and RocketMQ return success or failure for every payload, including empty and truncated ones; none of them indexes outside the payload.", "quantifier": "every payload byte string", "why_tests_cant": "Payload is attacker controlled; a crash is caused by particular lengths.", "anchors": ["collector/pkg/component/analyzer/network/protocol/mysql/mysql_response.go", "collector/pkg/component/analyzer/network/protocol/redis", "collector/pkg/component/analyzer/network/protocol/dubbo/dubbo_serialize.go", "collector/pkg/component/analyzer/network/protocol/rocketmq", "collector/pkg/component/analyzer/network/protocol/http"]}
{"id": "C22", "title": "HTTP status decides the error label", "statement": "A well-formed HTTP/1.x response with status code s sets http_status_code to s, marks the record as error iff s >= 400, and as a continue response iff s = 100.", "quantifier": "every three-digit status code, every version string, every rest of payload", "why_tests_cant": "All codes and payload tails.", "anchors": ["collector/pkg/component/analyzer/network/protocol/http/http_response.go"]}
{"id": "C23", "title": "Kafka request and response are matched by correlation id and version", "statement": "A Kafka request header is accepted iff its api key is known and its version lies in the supported range; the reported api, version and correlation id are the encoded ones.", "quantifier": "every api key, version, correlation id and client id", "why_tests_cant": "All 16/32-bit combinations.", "anchors": ["collector/pkg/component/analyzer/network/protocol/kafka/kafka_request.go", "collector/pkg/component/analyzer/network/protocol/kafka/kafka_api.go"]}
{"id": "C24", "title": "Dubbo and RocketMQ status codes decide the error label", "statement": "A Dubbo response is labelled as error iff its status byte is above 20 (and unparsable headers give no code); a RocketMQ response is labelled as error iff its code is positive.", "quantifier": "every header byte string", "why_tests_cant": "All byte values.", "anchors": ["collector/pkg/component/analyzer/network/protocol/dubbo/dubbo_response.go", "collector/pkg/component/analyzer/network/protocol/rocketmq/rocketmq_response.go"]}
{"id": "C25", "title": "Cached protocol parsers: no duplicates, generic last", "statement": "After any sequence of additions and removals of cached parsers for a port, no parser occurs twice, the generic parser (if present) is the last tried, and exactly the parsers added and not removed since are present.", "quantifier": "every sequence of add/remove operations on every port", "why_tests_cant": "History property.", "anchors": ["collector/pkg/component/analyzer/network/protocol/factory/factory.go:AddCachedParser,RemoveCachedParser,GetCachedParsersByPort"]}
{"id": "C26", "title": "sendmmsg payloads are split into the original messages", "statement": "For every list of messages encoded as size-prefixed fragments (the last one possibly truncated), the split events carry exactly these messages in order, each with its own size as result value, and keep all other event attributes.", "quantifier": "every list of messages of any length", "why_tests_cant": "Any number of messages and sizes, including empty ones.", "anchors": ["collector/pkg/model/event_converter.go:ConvertSendmmsg,splitDataBytes"]}
{"id": "C27", "title": "IPv4 text form round-trips", "statement": "Converting a 32-bit address to dotted text and parsing it back for conntrack gives the same address, for all addresses; distinct addresses have distinct texts.", "quantifier": "all 2^32 addresses", "why_tests_cant": "2^32 values; endianness slips only show for asymmetric addresses.", "anchors": ["collector/pkg/model/kindling_event_helper.go:IPLong2String", "collector/pkg/metadata/conntracker/utils.go:int32ToIp,IPToUInt32,StringToUint32"]}
{"id": "C28", "title": "ASCII sanitising", "statement": "The ASCII form of a payload has the same length, contains only printable ASCII, and keeps every byte that was printable.", "quantifier": "every byte string", "why_tests_cant": "All byte strings.", "anchors": ["collector/pkg/component/analyzer/tools/ascii.go:GetAsciiString"]}
{"id": "C29", "title": "UTF-8 trimming returns valid text", "statement": "Formatting a payload as UTF-8 returns a prefix of the input; the whole input if it is valid UTF-8; and the result is always valid UTF-8.", "quantifier": "every byte string", "why_tests_cant": "All byte strings; invalid sequences at any position.", "anchors": ["collector/pkg/component/analyzer/tools/utf8.go:FormatByteArrayToUtf8"]}
{"id": "C30", "title": "URL clustering is stable", "statement": "Alphabetic clustering ignores query string, replaces every non-alphabetic or over-long path segment by one `*`, keeps every other segment, keeps the number of segments, and is idempotent.", "quantifier": "every URL string", "why_tests_cant": "All strings; the char-by-char state machine has many states.", "anchors": ["collector/pkg/urlclustering/alphabet.go:Clustering,ClusteringBaseline", "collector/pkg/urlclustering/noparam.go"]}
{"id": "C31", "title": "Trace headers are recognised by priority", "statement": "The trace id reported for an HTTP request is taken from the first present header in the documented order.", "quantifier": "every header map", "why_tests_cant": "All header combinations.", "anchors": ["collector/pkg/component/analyzer/tools/traceid_parser.go:ParseTraceHeader"]}
{"id": "C32", "title": "CPU window: segment i covers second base+i", "statement": "After any sequence of events for a thread, the thread has exactly SegmentSize segments and the i-th segment covers second base+i, where base never decreases.", "quantifier": "every event sequence with arbitrary start and end times, every segment size", "why_tests_cant": "Sliding-window shifts depend on the whole history.", "anchors": ["collector/pkg/component/analyzer/cpuanalyzer/cpu_analyzer.go:PutEventToSegments", "collector/pkg/component/analyzer/cpuanalyzer/model.go:newSegment"]}
{"id": "C33", "title": "CPU window: each event is filed under every second it covers", "statement": "When an event is put, it is filed under each segment in the window whose second it overlaps, and in no other; earlier events of surviving seconds stay.", "quantifier": "every window state and event times", "why_tests_cant": "All shift amounts.", "anchors": ["collector/pkg/component/analyzer/cpuanalyzer/cpu_analyzer.go:PutEventToSegments"]}
{"id": "C34", "title": "Trigger sends exactly the requested window, once", "statement": "A signal for [start-edge, end+edge] sends precisely the non-empty segments overlapping this interval which are in the window, and marks them sent.", "quantifier": "every window and signal interval", "why_tests_cant": "Boundary conditions over all offsets.", "anchors": ["collector/pkg/component/analyzer/cpuanalyzer/send_trigger.go:sendEvents"]}
{"id": "C35", "title": "Exited threads are removed after the delay, in order", "statement": "A queued thread or trace key is removed no earlier than the expiry delay after enqueueing, and is removed by the first sweep after the delay.", "quantifier": "every queue and sweep time (monotone clock)", "why_tests_cant": "Time-dependent behaviour over all schedules.", "anchors": ["collector/pkg/component/analyzer/cpuanalyzer/delete_tid.go:TidDelete", "collector/pkg/component/analyzer/cpuanalyzer/delete_javatrace.go"]}
{"id": "C36", "title": "Each TCP connect attempt is reported at most once with its final state", "statement": "For every event sequence, a connection attempt is reported at most once, and the reported state is success iff the first terminal event for it was an established/send/exit-ok event; after reporting it is no longer tracked.", "quantifier": "every sequence of connect, set-state, exit and expiry events over any set of connections", "why_tests_cant": "All interleavings of kernel events.", "anchors": ["collector/pkg/component/analyzer/tcpconnectanalyzer/internal/connection_stats.go", "collector/pkg/component/analyzer/tcpconnectanalyzer/internal/connect_monitor.go", "collector/pkg/component/analyzer/tcpconnectanalyzer/internal/state_machine.go"]}
{"id": "C37", "title": "Stale TCP connect attempts are eventually dropped", "statement": "After a trim later than the wait interval, every connection attempt still tracked is younger than the interval or really still connecting.", "quantifier": "every tracked set and every proc state", "why_tests_cant": "Leaks occur only for particular event orders.", "anchors": ["collector/pkg/component/analyzer/tcpconnectanalyzer/internal/connect_monitor.go:TrimConnectionsWithTcpStat"]}
{"id": "C38", "title": "Pod cache answers by container id, ip:port and host port as last registered", "statement": "After any sequence of cache additions and deletions, a lookup by container id, ip and port, host ip and port returns the entry added last under this key and not deleted since, falling back from (ip, port) to (ip, 0).", "quantifier": "every sequence of cache operations", "why_tests_cant": "Two-level maps with clean-up: only histories expose stale or lost entries.", "anchors": ["collector/pkg/metadata/kubernetes/k8scache.go:K8sMetaDataCache", "collector/pkg/metadata/kubernetes/hostport_map.go"]}
{"id": "C39", "title": "Deleted pods stay resolvable for the grace period and no longer", "statement": "A deleted pod's entries stay resolvable until the grace period has passed and are then removed unless the key has been taken over by another pod.", "quantifier": "every schedule of watch events and sweeps", "why_tests_cant": "IP reuse races with delayed deletion.", "anchors": ["collector/pkg/metadata/kubernetes/pod_delete.go:podDeleteLoop,deletePodInfo"]}
{"id": "C40", "title": "Service selection", "statement": "A service is reported for a pod iff the service has selectors in the pod's namespace and all of them occur in the pod's labels.", "quantifier": "every label and selector map", "why_tests_cant": "All maps.", "anchors": ["collector/pkg/metadata/kubernetes/service_watch.go:SelectorsMatchLabels,GetServiceMatchLabels", "collector/pkg/metadata/kubernetes/pod_watch.go:getPodsMatchSelectors"]}
{"id": "C41", "title": "Deleted objects disappear from the lookup maps", "statement": "After the delete event of a node or replica set (no later add), the lookup for it fails; other objects are not affected.", "quantifier": "every sequence of add/update/delete events", "why_tests_cant": "History property.", "anchors": ["collector/pkg/metadata/kubernetes/node_watch.go:DeleteNode,AddNode", "collector/pkg/metadata/kubernetes/replicaset_watch.go"]}
{"id": "C42", "title": "Container diff", "statement": "The reported removed elements are exactly the old elements not in the new list and the added elements are exactly the new elements not in the old list, in order.", "quantifier": "every pair of lists, with duplicates", "why_tests_cant": "All lists.", "anchors": ["collector/pkg/compare/int32_slice.go", "collector/pkg/compare/string_slice.go"]}
{"id": "C43", "title": "Container id truncation", "statement": "The short container id is the first 12 characters of the part after the runtime prefix, and empty iff the id has no runtime prefix or is too short.", "quantifier": "every string", "why_tests_cant": "All strings.", "anchors": ["collector/pkg/metadata/kubernetes/pod_watch.go:TruncateContainerId"]}
{"id": "C44", "title": "Port folding keeps one service port", "statement": "After k8s enrichment of TCP metrics at most one of the two ports is kept, the ephemeral one is always dropped, and DNAT replaces the destination.", "quantifier": "every pair of ports and DNAT labels", "why_tests_cant": "All 2^32 port pairs.", "anchors": ["collector/pkg/component/consumer/processor/k8sprocessor/kubernetes_processor.go:processTcpMetric..."]}
{"id": "C45", "title": "Destination found in the cluster keeps its namespace", "statement": "When the destination of a TCP flow is found as a container, pod, host-port or service, the namespace label reported is the one of the object found.", "quantifier": "every cache content and address", "why_tests_cant": "All cache contents.", "anchors": ["collector/pkg/component/consumer/processor/k8sprocessor/kubernetes_processor.go:addK8sMetaDataViaIpDST"]}
{"id": "C46", "title": "Module start and stop alternate", "statement": "For every history of start/stop requests the module is running iff the last successful operation was a start; a start of a running module and a stop of a stopped one fail and change nothing.", "quantifier": "every sequence of operations", "why_tests_cant": "History property.", "anchors": ["collector/pkg/component/controller/module.go:Start,Stop"]}
{"id": "C47", "title": "A stop timer stops only the run it was set for", "statement": "A timer attached to a run never stops a later run.", "quantifier": "every interleaving of operations and timer firings", "why_tests_cant": "Race between timer goroutine and operations.", "anchors": ["collector/pkg/component/controller/module.go:WithStopInterval,WithStopSignal"]}
{"id": "C48", "title": "Every analyzer gets every event it asked for", "statement": "For any list of analyzers, an event is given to exactly the analyzers that subscribe to its name or to all events.", "quantifier": "every list of analyzers with arbitrary subscriptions", "why_tests_cant": "Number of analyzers is unbounded; the bug needs two consume-all analyzers.", "anchors": ["collector/pkg/component/analyzer/manager.go:NewManager,GetConsumableAnalyzers"]}
{"id": "C49", "title": "Adapter keeps every metric", "statement": "Splitting a network group into results keeps every metric exactly once: count metrics and other metrics are separated, none is lost.", "quantifier": "every metric list and label set", "why_tests_cant": "All lists.", "anchors": ["collector/pkg/component/consumer/exporter/tools/adapter/net_adapter.go:createNetMetricResults,dealWithPreAggMetricGroups"]}
{"id": "C50", "title": "Exported attributes are sorted and complete", "statement": "The exported attribute list is sorted by key and contains for every dictionary entry the value computed from the labels, for all dictionaries with distinct keys.", "quantifier": "every dictionary and label map", "why_tests_cant": "Permutation bookkeeping over all dictionaries.", "anchors": ["collector/pkg/component/consumer/exporter/tools/adapter/label_converter.go:build,convert"]}
{"id": "C51", "title": "Status grades are monotone", "statement": "Duration grades 1/2/3 are monotone in the duration with the documented thresholds.", "quantifier": "every duration", "why_tests_cant": "All int64 values.", "anchors": ["collector/pkg/component/consumer/exporter/tools/adapter/net_dict.go:getRequestStatus,getSubStageStatus"]}
{"id": "C52", "title": "Sanitised label names are valid", "statement": "The sanitised form of any non-empty label name starts with no digit and contains only letters, digits and underscores; it never panics.", "quantifier": "every string", "why_tests_cant": "All strings.", "anchors": ["collector/pkg/component/consumer/exporter/prometheusexporter/sanitize.go:sanitize"]}
{"id": "C53", "title": "File rotation bounds the number of files and keeps the newest", "statement": "After any sequence of writes for a process, at most MaxFileCount files exist and files removed are older than those kept.", "quantifier": "every history of writes and limits", "why_tests_cant": "History property; boundary at small limits.", "anchors": ["collector/pkg/component/consumer/exporter/cameraexporter/filewriter.go:rotateFiles,writeFile"]}
{"id": "C54", "title": "Trace file path elements survive the label round trip", "statement": "Writing path elements to labels and reading them back gives the same elements.", "quantifier": "every element value", "why_tests_cant": "All values.", "anchors": ["collector/pkg/filepathhelper/filepath.go:ToAttributes,GetFilePathElements"]}
{"id": "C55", "title": "Conntrack cache: orphan list and cache agree", "statement": "After any sequence of cache operations every orphan entry belongs to a live cache entry with this key and vice versa, so the orphan sweep terminates and removes exactly the expired never-read translations; the cache never exceeds its size.", "quantifier": "every sequence of add, get, remove and sweep operations", "why_tests_cant": "Pointer invariants over histories; a dangling orphan makes the sweep loop forever.", "anchors": ["collector/pkg/metadata/conntracker/internal/conntracker.go:conntrackCache"]}
{"id": "C56", "title": "DNAT lookup returns only real destination translations", "statement": "A DNAT tuple is returned iff a translation exists and its reply source differs from the requested destination; the tuple is the reply source.", "quantifier": "every tuple and translation", "why_tests_cant": "All addresses.", "anchors": ["collector/pkg/metadata/conntracker/conntracker_linux.go:getDNATTuple", "collector/pkg/metadata/conntracker/internal/conntracker.go:IsNAT"]}
{"id": "C57", "title": "Attribute maps behave like typed maps and clones are independent", "statement": "Reads return the last written value of the right type and the zero value otherwise; later updates of a map do not change an earlier clone of it, nor the reverse.", "quantifier": "every sequence of operations on a map and its clones", "why_tests_cant": "Aliasing bugs depend on the history.", "anchors": ["collector/pkg/model/attribute_map.go"]}
{"id": "C58", "title": "Sampling never drops the aggregate", "statement": "Every network record is aggregated whether or not it is sampled; with rates 0/100/100 exactly slow or error records are forwarded as single records.", "quantifier": "every record and random draw", "why_tests_cant": "All draws and labels.", "anchors": ["collector/pkg/component/consumer/processor/aggregateprocessor/processor.go:Consume,isSampled"]}
{"id": "C59", "title": "Node traffic direction", "statement": "Request bytes are attributed source to destination and response bytes in the reverse direction, and only when both node addresses are known.", "quantifier": "every record", "why_tests_cant": "All label maps.", "anchors": ["collector/pkg/component/consumer/processor/nodemetricprocessor/node_metric_processor.go"]}
{"id": "C60", "title": "Read/write direction decides request or response", "statement": "For every syscall event, a read-like call on the server side and a write-like call on the client side is a request, the other two a response, and every other event is rejected.", "quantifier": "every event name and role", "why_tests_cant": "Finite but combined with the pairing logic over all event sequences.", "anchors": ["collector/pkg/model/kindling_event_helper.go:IsRequest"]}
{"id": "C61", "title": "DNS messages: id, name and response code are reported", "statement": "For every DNS request or response with one question for a legal name, over UDP or TCP framing, the parser reports the transaction id and the presentation of the name; of a response also the response code, marked as error iff the code is not 0 (code 3 only if not configured to be ignored). No payload makes the DNS parsers panic.", "quantifier": "every header, legal name and message tail; every payload for the absence of panics", "why_tests_cant": "All names, ids and tails; payloads are attacker controlled.", "anchors": ["collector/pkg/component/analyzer/network/protocol/dns/dns_request.go", "collector/pkg/component/analyzer/network/protocol/dns/dns_response.go", "collector/pkg/component/analyzer/network/protocol/dns/dns_helper.go"]}
{"id": "C62", "title": "HTTP requests: method, URL and content key are reported", "statement": "For every request line of a known method with a URL starting with '/', the parser reports method and URL, and as content key the clustering of the URL; a payload that starts with no known method is not recognised.", "quantifier": "every known method, URL without blank and payload tail; every payload with another start", "why_tests_cant": "All URLs and payload tails.", "anchors": ["collector/pkg/component/analyzer/network/protocol/http/http_request.go"]}
{"id": "C63", "title": "SQL statements are reduced to verb and table", "statement": "The content key of a SQL statement is its verb and the table that follows its key word (from, into, update ...), for every table name and every rest of the statement; a statement of no known verb gives no key.", "quantifier": "every table name, blanks and statement tail of the supported shapes", "why_tests_cant": "All statement texts.", "anchors": ["collector/pkg/component/analyzer/tools/sql_merger.go"]}
{"id": "C64", "title": "MySQL statements and error codes are reported", "statement": "Of a COM_QUERY or COM_STMT_PREPARE packet with a statement the SQL text and its key are reported; an error packet gives its 16-bit error code and message and is marked as error; any other response is not an error.", "quantifier": "every statement, error code and message", "why_tests_cant": "All 16-bit codes and texts.", "anchors": ["collector/pkg/component/analyzer/network/protocol/mysql/mysql_request.go", "collector/pkg/component/analyzer/network/protocol/mysql/mysql_response.go"]}
{"id": "C65", "title": "Dubbo requests: service and method are reported", "statement": "For every two-way Dubbo request serialised with Hessian 2 or JSON the content key is service#method, for all names (Hessian: fewer than 1024 bytes, short and long encoding; JSON: without line feed).", "quantifier": "every header, version, service, method and tail", "why_tests_cant": "All lengths, including those around the switch of the length encoding.", "anchors": ["collector/pkg/component/analyzer/network/protocol/dubbo/dubbo_request.go", "collector/pkg/component/analyzer/network/protocol/dubbo/dubbo_serialize.go"]}
{"id": "C66", "title": "RocketMQ requests and responses: operation, topic and identification", "statement": "Of every RocketMQ request, with JSON or binary header, the operation, the identification and the topic (or the operation if there is none) are reported; a response is accepted exactly for a record with the same identification.", "quantifier": "every code, identification, list of fields and payload tail", "why_tests_cant": "Any number of fields before the topic; all 32-bit identifications.", "anchors": ["collector/pkg/component/analyzer/network/protocol/rocketmq/rocketmq_request.go", "collector/pkg/component/analyzer/network/protocol/rocketmq/rocketmq_response.go"]}
{"id": "C67", "title": "Kafka topics and error codes are reported", "statement": "Of Produce and Fetch requests and responses in all versions the code claims to support, the name of the first topic is reported, of responses also the error code.", "quantifier": "every version, client id, transactional id, topic name, error code and tail", "why_tests_cant": "All versions and field lengths; a wrong offset shows only in some versions.", "anchors": ["collector/pkg/component/analyzer/network/protocol/kafka/kafka_request_produce.go", "collector/pkg/component/analyzer/network/protocol/kafka/kafka_request_fetch.go", "collector/pkg/component/analyzer/network/protocol/kafka/kafka_response_produce.go", "collector/pkg/component/analyzer/network/protocol/kafka/kafka_response_fetch.go"]}
{"id": "C68", "title": "Which protocol reports an exchange on a port", "statement": "On a port without configured protocol an exchange is offered to the parsers remembered for the port, in the order they first matched, and then to the others; a recognised exchange is reported by a parser that recognises it, an unrecognised one as generic.", "quantifier": "every history of exchanges, ports and parsers", "why_tests_cant": "What is remembered for a port depends on the whole history of matches and failures.", "anchors": ["collector/pkg/component/analyzer/network/network_analyzer.go", "collector/pkg/component/analyzer/network/protocol/factory/factory.go"]}
{"id": "C69", "title": "The record of an exchange says what happened", "statement": "Identity of the socket, side, protocol, slow flag, end time, payloads and translated destination in a record are those of the exchange; it is an error exactly if the protocol says so or no response came, and the error type tells which; everything the parser found is in it.", "quantifier": "every exchange, parser result and recycled record", "why_tests_cant": "The labels are written in several passes over a recycled map, later passes overwriting earlier ones.", "anchors": ["collector/pkg/component/analyzer/network/network_analyzer.go"]}
{"id": "C70", "title": "Recycled records carry nothing over", "statement": "A record made of a recycled one has the labels of its own exchange and no others.", "quantifier": "every history of uses of the pool and changes made by consumers", "why_tests_cant": "Leftovers depend on which record was recycled.", "anchors": ["collector/pkg/component/analyzer/network/network_analyzer.go", "collector/pkg/component/analyzer/network/datagroup_pool.go", "collector/pkg/model/data_group.go"]}
{"id": "C71", "title": "Reporting the payload never fails", "statement": "For every configured payload length, protocol and payload the payload text of a record can be computed.", "quantifier": "every length, protocol and payload", "why_tests_cant": "A slice bound is violated only by short payloads on particular protocols.", "anchors": ["collector/pkg/component/analyzer/network/protocol/protocol_parser.go"]}
{"id": "C72", "title": "Which slow requests trigger sending of CPU events", "statement": "Between two ticks of the sampler, a slow trace becomes a trigger exactly if it is the first candidate (from the APM agent, or server side of a process the agent never reported) of its URL and process and has a duration; slow client-side traces, and only they, are handed to the trace channel in order; nothing is recorded while no profile runs.", "quantifier": "every sequence of traces and ticks", "why_tests_cant": "Deduplication depends on everything seen since the last tick and on APM traces seen before.", "anchors": ["collector/pkg/component/analyzer/cpuanalyzer/send_trigger.go:ReceiveDataGroupAsSignal", "collector/pkg/component/analyzer/cpuanalyzer/send_trigger.go:sampleSend"]}
{"id": "C73", "title": "A Java trace is slow exactly if it took longer than the threshold", "statement": "A trace with entry and exit times is reported as slow exactly if exit - entry exceeds the threshold in milliseconds.", "quantifier": "every pair of 64-bit times and every threshold", "why_tests_cant": "Unsigned arithmetic wraps only for particular pairs.", "anchors": ["collector/pkg/component/analyzer/cpuanalyzer/cpu_analyzer.go:analyzerJavaTraceTime"]}
{"id": "C74", "title": "Sockets of /proc/net/tcp are found under the key of their events", "statement": "For every kernel socket table, reading /proc/<pid>/net/tcp succeeds and a connection observed in events (addresses as 32-bit words) is found under its own key with the state of its socket, and no other connection shares the key.", "quantifier": "every IPv4 socket table", "why_tests_cant": "Byte order and hex parsing must agree for all addresses and ports.", "anchors": ["collector/pkg/component/analyzer/tcpconnectanalyzer/internal/net_ip_socket.go:parseNetIPSocketLine", "collector/pkg/model/kindling_event_helper.go:IPLong2String"]}
{"id": "C75", "title": "Workload of a pod", "statement": "A pod controlled by a replica set shows the workload that controls the replica set in the cluster, after every history of replica set events; if the replica set is not known, the deployment its name was derived from; otherwise the pod's own controller.", "quantifier": "every list of owner references, every history of replica set events", "why_tests_cant": "Depends on the interleaving of two watches and on name patterns.", "anchors": ["collector/pkg/metadata/kubernetes/pod_watch.go:getControllerKindName,extractDeploymentName", "collector/pkg/metadata/kubernetes/replicaset_watch.go"]}
{"id": "C76", "title": "Pod references to services stay current", "statement": "After every history of service and pod events the service a pod refers to is empty or exists in the cluster, in the pod's namespace, and selects the pod.", "quantifier": "every history of events as sent by the API server", "why_tests_cant": "Shared pointers are emptied on deletion; only histories show stale references.", "anchors": ["collector/pkg/metadata/kubernetes/service_watch.go:AddService,DeleteService,UpdateService", "collector/pkg/metadata/kubernetes/pod_watch.go:AddPod"]}
{"id": "C77", "title": "Kubernetes labels of requests", "statement": "Source and destination of a request carry the labels of one pod, found by the first lookup that succeeds in the documented order (container id or address; service, container, host port, node); if nothing is found, the namespace says so. A request to the loopback address is attributed to the requesting pod.", "quantifier": "every label map and every content of the metadata cache", "why_tests_cant": "The order of lookups matters only for addresses known in several ways.", "anchors": ["collector/pkg/component/consumer/processor/k8sprocessor/kubernetes_processor.go:addK8sMetaDataForClientLabel,addK8sMetaDataForServerLabel"]}
{"id": "C78", "title": "List and map attributes agree", "statement": "For every group, the attributes exported as a list and as a map have the same keys and values, after the adjustments for translated addresses and for destinations in the cluster.", "quantifier": "every dictionary with distinct keys, label map, and pool content", "why_tests_cant": "The two conversions are separate code over pooled objects that keep earlier values.", "anchors": ["collector/pkg/component/consumer/exporter/tools/adapter/label_converter.go:convert,transform", "collector/pkg/component/consumer/exporter/tools/adapter/net_dict.go:removeDstPodInfoForNonExternal,replaceDstIpOrDstPortByDNat"]}
{"id": "C79", "title": "Trace files of different traces do not collide", "statement": "Directories of different processes and file names of different traces (content key, timestamp, encoded path) are different, and the encoded names contain no path separator.", "quantifier": "every path element and timestamp within the printed range", "why_tests_cant": "A collision needs two inputs that only meet in a production directory.", "anchors": ["collector/pkg/component/consumer/exporter/cameraexporter/file_writer.go:writeTrace,writeCpuEvents", "collector/pkg/filepathhelper/helper.go:GetFilePathElements,EncodeToBase64"]}
{"id": "C80", "title": "Conntrack circuit breaker trips exactly on overload", "statement": "A load within the limit never opens the breaker, a sustained load above it opens it, and once open it stays open until it is reset. Every time it opens, the share of messages the socket passes is lowered; the filter passes exactly that share of all random numbers, and the socket never stops passing messages for good.", "quantifier": "every sequence of ticks, updates and resets", "why_tests_cant": "Averages over real seconds; tests cover a few windows.", "anchors": ["collector/pkg/metadata/conntracker/internal/circuit_breaker.go:update,Tick,Reset"]}
{"id": "C81", "title": "Conntrack messages decode to the connections the kernel sent", "statement": "For every connection of the kernel with any further attributes before, between and after, decoding gives exactly the addresses, ports and protocol; encoding then decoding is the identity; malformed messages are skipped without crashing.", "quantifier": "every byte sequence, every attribute list", "why_tests_cant": "Bytes come from the kernel; tests have a few captured messages.", "anchors": ["collector/pkg/metadata/conntracker/internal/decoding.go:unmarshalCon,unmarshalTuple,unmarshalProto", "collector/pkg/metadata/conntracker/internal/attribute_scanner.go:Next,unmarshal,ResetTo", "collector/pkg/metadata/conntracker/internal/encoding.go:EncodeConn"]}
{"id": "C82", "title": "Conntrack dump and stream deliver every message", "statement": "All messages without an error code reach the decoder in order, and a dump ends with its end message.", "quantifier": "every sequence of reads", "why_tests_cant": "Errors from the kernel in the middle of a read cannot be provoked.", "anchors": ["collector/pkg/metadata/conntracker/internal/consumer.go:receive", "collector/pkg/metadata/conntracker/internal/message.go:checkMessage"]}
{"id": "C83", "title": "Metadata provider and its clients agree", "statement": "A client that lists and watches has, for every resource type, received every change exactly as the provider's cache saw it, whatever the interleaving of changes, listings and broadcasts; the resulting node and replica set maps equal those of the provider.", "quantifier": "every interleaving of changes, list requests, broadcasts and removals of clients", "why_tests_cant": "The list, the registration and the broadcast race; tests run one client against a quiet provider.", "anchors": ["collector/pkg/metadata/metaprovider/service/service.go:broadcast,ListWithSemaphore,AddFlusher,RemoveFlusher", "collector/pkg/metadata/metaprovider/service/handler.go", "collector/pkg/metadata/metaprovider/client/client.go:ListAndWatch,apply", "collector/pkg/metadata/kubernetes/initk8s.go:watchFromMPWithRetry"]}
{"id": "C84", "title": "A scheduled task ends once and can be stopped", "statement": "The expiry callback runs exactly once per start, the task never runs after its end, a Stop before the expiry is served, and a Stop racing with the expiry returns.", "quantifier": "every interleaving of ticks, the timer, Stop and Start", "why_tests_cant": "The race between Stop and the timer cannot be scheduled by a test.", "anchors": ["collector/pkg/component/analyzer/cpuanalyzer/scheduled_task.go:Start,Stop", "collector/pkg/component/analyzer/cpuanalyzer/send_trigger.go:ReadTriggerEventChan"]}
{"id": "C85", "title": "The receiver passes every event on once and in order, and shuts down", "statement": "Events reach the analyzers exactly once in the probe's order with all parameters intact, every event is counted under its name, nothing is fetched after a shutdown, and Shutdown returns.", "quantifier": "every interleaving of the two goroutines and Shutdown; every event; every subscription list", "why_tests_cant": "Needs a full channel at the moment of shutdown; the C side cannot be run in a unit test.", "anchors": ["collector/pkg/component/receiver/cgoreceiver/cgoreceiver.go:startGetEvents,consumeEvents,Shutdown,convertEvent", "collector/pkg/component/receiver/cgoreceiver/self_metrics.go:newDynamicStats,add"]}
{"id": "C86", "title": "TCP metrics are exactly what the kernel reported", "statement": "Every non-zero round trip time, drop and retransmission of an IPv4 connection gives exactly one metric with its value and the dotted addresses, ports and translation of the connection; incomplete events give none.", "quantifier": "every address, port, value, timestamp, further parameters and conntracker", "why_tests_cant": "Byte order of addresses and ports; tests use one event per kind.", "anchors": ["collector/pkg/component/analyzer/tcpmetricanalyzer/tcp_analyzer.go", "collector/pkg/model/kindling_event_helper.go:GetUintValue,GetIntValue", "collector/pkg/metadata/conntracker/conntracker_linux.go:NewConntracker"]}
{"id": "C87", "title": "The Prometheus exporter reports the accumulated value of every live label set", "statement": "At every collection the Prometheus exporter reports, for each label set recorded since its start that was updated within the last five minutes, exactly one sample per metric: counters with the sum of all values recorded, the round-trip time with its last value, the two request-time histograms with the exact sum, count and cumulative bucket counts; the labels of a sample are the labels of the records in text, and its time is that of the last record. Nothing else is reported, and neither consuming nor collecting panics.", "quantifier": "all histories of groups consumed and collections, all label sets and values, all clocks", "why_tests_cant": "the sample depends on the whole history of the label set, on expiry relative to every earlier collection and on the order of metric groups with equal labels", "anchors": ["collector/pkg/component/consumer/exporter/prometheusexporter/collector.go:Collect,recordMetricGroups,newCollector", "collector/pkg/component/consumer/exporter/prometheusexporter/consume.go:Consume,Export,exportMetric", "collector/pkg/component/consumer/exporter/prometheusexporter/prometheus.go:NewExporter", "collector/pkg/component/consumer/exporter/tools/adapter/simple_adapter.go:Adapt"]}
{"id": "C88", "title": "The OpenTelemetry exporter records every configured value once and observes the last value of every gauge series", "statement": "Every integer metric whose name is configured as a counter or histogram is recorded exactly once, with its value and the labels of its result, on an instrument of the configured kind; every trace result becomes one span. An observation of a gauge reports each label set that got a value since the last observation exactly once, with its last value and its selected labels plus the custom labels. The observer of a gauge is registered once. Every label computed for a single request is selected. The exporter panics only on a gauge result without label map.", "quantifier": "all histories of adapted results, observations and meter renewals, all configurations", "why_tests_cant": "the outcome depends on the instrument cache, the aggregator and the interleaving of records and observations over the whole history", "anchors": ["collector/pkg/component/consumer/exporter/otelexporter/consume.go:Consume,Export,exportMetric,exportTrace", "collector/pkg/component/consumer/exporter/otelexporter/instrument.go:recordLastValue,getInstrument,createNewInstrument,getSelector,newInstrumentFactory", "collector/pkg/component/consumer/exporter/otelexporter/otelexporter.go:NewMeter,findInstrumentKind"]}
{"id": "C89", "title": "The configured aggregation is carried out as asked and the exported metrics describe the request", "statement": "Every metric configured for aggregation is aggregated in exactly the configured kinds, in their order, under the configured output name or its own; histograms use the configured boundaries or the default ones. The aggregated labels of a record contain every selected label with its value and nothing else. The labels of the metrics exported from an aggregated record are those that would be exported from the record itself: aggregation loses no label the exporter reads.", "quantifier": "all configurations, all label sets, all protocols and all four exported label sets", "why_tests_cant": "a label read by the exporter but missing from the selector list shows only as a default value for one protocol", "anchors": ["collector/pkg/component/consumer/processor/aggregateprocessor/processor.go:toAggregatedConfig,newKindConfig,newNetRequestLabelSelectors,newTcpLabelSelectors,newTcpConnectLabelSelectors,Consume", "collector/pkg/component/consumer/processor/aggregateprocessor/config.go:NewDefaultConfig", "collector/pkg/component/consumer/exporter/tools/adapter/net_dict.go", "collector/pkg/component/consumer/exporter/tools/adapter/net_adapter.go:NewNetAdapter"]}
{"id": "C90", "title": "The exported metrics of an exchange show what was on the wire", "statement": "For every well-formed request and response of a supported protocol, the labels of the exported metrics show the request (clustered path, statement key, topic, domain, service and method, command) and the code of the response that were in the payloads, whatever was parsed, recorded, recycled or converted before. The parsers write no label of another protocol or of the record itself, and set the two error labels only together.", "quantifier": "all payloads, all records from the pool, all metadata labels added in between, all eight aggregated converters, all constant labels", "why_tests_cant": "a label name that differs between parser, record, selector list and dictionary, or a recycled record, only shows for one protocol and one history", "anchors": ["collector/pkg/component/analyzer/network/network_analyzer.go:parseProtocol,parseMultipleRequests,getRecords,getRecordWithSinglePair", "collector/pkg/component/analyzer/network/protocol/protocol_parser.go:ParseRequest,ParseResponse,AddIntAttribute,AddStringAttribute,AddBoolAttribute", "collector/pkg/component/consumer/processor/aggregateprocessor/processor.go:newNetRequestLabelSelectors", "collector/pkg/component/consumer/exporter/tools/adapter/net_dict.go", "collector/pkg/component/consumer/exporter/tools/adapter/label_converter.go:convert,transform"]}
{"id": "C91", "title": "The documented labels", "statement": "Every exported network metric carries exactly the labels documented for it in docs/prometheus_metrics.md, each with the documented value: service metrics the labels of the server, topology metrics those of both ends with the destination after address translation, traces exported as metrics also the colours of their times; request_content, response_content and status_code hold what is documented for the protocol; is_slow comes only with the documented metric; the metrics have the documented names.", "quantifier": "all label values, protocols, settings of the adapter, metrics of a group, constant labels with other names, and earlier uses of the pooled label lists and maps", "why_tests_cant": "The tests compare the labels of three or four sample groups with lists written by hand after the code, never with the documentation, and never the same converter after another group.", "anchors": ["collector/pkg/component/consumer/exporter/tools/adapter/net_dict.go:entityProtocol,topologyProtocol,getTraceStatusLabels,getTraceSpanStatusLabels,getRequestStatus,getSubStageStatus", "collector/pkg/component/consumer/exporter/tools/adapter/net_adapter.go:createNetAdapterManager,dealWithPreAggMetricGroups,dealWithSingleMetricGroup", "collector/pkg/model/constnames/relabel_metric_const.go:ToKindlingNetMetricName"]}
{"id": "C92", "title": "The metrics of a record and of its clone are independent", "statement": "Looking up, setting, removing and clearing metrics of a record does to its list of values exactly what the names of the operations say, setting a metric replaces the first value of that name or adds one and keeps names unique, removing removes every metric of that name and nothing else. A clone shows the same metrics as the record, and afterwards no operation on either, in any order, shows in the other.", "quantifier": "all records, all histories of operations on a record and its clone in any order, all contents of memory", "why_tests_cant": "aliasing between a record and its clone shows only when one is changed while the other is still in use", "anchors": ["collector/pkg/model/data_group.go:GetMetric,AddIntMetricWithName,AddMetric,UpdateAddIntMetric,RemoveMetric,Reset,Clone", "collector/pkg/model/metric.go:Clear,Clone,NewIntMetric,NewHistogramMetric"]}
{"id": "C93", "title": "The control interface answers what happened", "statement": "A control request for the profile module is answered with success iff the module and all submodules were started or stopped, the state afterwards is the one asked for, the status is answered as it is, operations that are not documented are refused without effect, and the probe is asked exactly for what the request names. The duration given in the request ends the run after that time. With the configuration given, the path of every listed module is served, and no configuration or request panics.", "quantifier": "all requests, all histories of the module, all answers of submodules and probe, all configurations", "why_tests_cant": "the handler has no test, and its answer depends on the whole history of starts and stops", "anchors": ["collector/pkg/component/controller/profile_module.go:HandRequest,GetOptions,UnmarshalJSON,fileSizeWatch", "collector/pkg/component/controller/controller.go:ConstructConfig,RegistModule", "collector/pkg/component/controller/http_controller.go:RegistController,RegistModule", "collector/internal/application/application.go:readInConfig,buildPipeline"]}
{"id": "C94", "title": "Profile events reach the thread's timeline as the probe wrote them", "statement": "Every event the probe sends to the CPU profile (on/off-CPU times, JVM locks, transactions, spans, ends of threads) is put to the timeline of its thread with the times, rows of numbers and texts that were written, in whatever order the parameters come; a request is put from its start to its end; other events and events while the profile is off change nothing; and no event panics the analyzer.", "quantifier": "all events, all parameter orders and repetitions, all numbers, texts and trailing bytes", "why_tests_cant": "the decoding has no test, and a truncated number or text only shows as a missing event", "anchors": ["collector/pkg/component/analyzer/cpuanalyzer/cpu_analyzer.go:ConsumeEvent,ConsumeCpuEvent,ConsumeJavaFutexEvent,ConsumeSpanEvent,ConsumeTransactionIdEvent,ConsumeTraces", "collector/pkg/component/analyzer/cpuanalyzer/model.go"]}
{"id": "C95", "title": "Connect attempts are reported with their outcome, errno, process and addresses", "statement": "Every event of the probe about a connect attempt - whether it carries the connection as parameters of a kernel function or as the descriptor of a system call - is counted to the same connection, and the data group passed on for an attempt says exactly how it ended: success or failure, the error number, the time it took when it succeeded, the process and container, the addresses and ports, and their translation. Other events change nothing.", "quantifier": "all event sequences, connections, results, processes, translations and sweeps", "why_tests_cant": "the unit tests look at a handful of event orders and never at the labels of what is passed on", "anchors": ["collector/pkg/component/analyzer/tcpconnectanalyzer/analyzer.go:consumeChannelEvent,filterRequestEvent,generateDataGroup,generateLabels,findDNatTuple", "collector/pkg/component/analyzer/tcpconnectanalyzer/internal/connect_monitor.go:getConnKeyForTcpConnect,ReadInTcpConnect,ReadInConnectExitSyscall,ReadSendRequestSyscall,ReadInTcpSetState"]}
{"id": "C96", "title": "Datagrams of the netlink socket are read exactly", "statement": "For every list of netlink messages that the kernel packs into a datagram of at most the receive buffer, whatever its padding and whatever earlier datagrams left in the buffer, the read returns exactly these messages with all header fields and data; the namespace of a datagram is that of its control message; and loading a dump or following the stream registers exactly the connections of all datagrams, in order, the dump ending at its end message.", "quantifier": "all lists of messages of any sizes, all padding and stale bytes, all control messages, all dumps and streams of connections, all states of the cache", "why_tests_cant": "The receive buffer is rounded up over bytes of earlier datagrams, which only shows for lengths that are no multiple of four and certain leftovers; a test sends a few datagrams.", "anchors": ["collector/pkg/metadata/conntracker/internal/socket.go:ReceiveInto,parseNetNS", "collector/pkg/metadata/conntracker/internal/align.go:nlmsgAlign", "collector/pkg/metadata/conntracker/internal/consumer.go:receive", "collector/pkg/metadata/conntracker/internal/conntracker.go:loadInitialState,run"]}
{"id": "C97", "title": "Every namespace is dumped once, and the thread and its handles come back", "statement": "A dump of the conntrack tables visits the root namespace first and every other namespace of a process that is a peer exactly once, sends all events of each table that can be read, goes on over namespaces that cannot be dumped, closes its channel, returns the thread to its namespace, and leaves no handle open.", "quantifier": "all sets of processes and namespaces, all answers of the system calls, all tables", "why_tests_cant": "Needs many processes sharing namespaces, failing system calls and a count of file descriptors over a long time; tests run in one namespace.", "anchors": ["collector/pkg/metadata/conntracker/internal/consumer.go:DumpTable,dumpTable,initNetlinkSocket", "collector/pkg/metadata/conntracker/internal/utils.go:GetNetNamespaces,WithAllProcs,WithNS,WithRootNS"]}
{"id": "C98", "title": "Metrics name who talks to whom", "statement": "For every parsed request, whatever record the pool hands out, whatever is in the Kubernetes cache, whatever constant labels and earlier conversions: each of the eight kinds of request metrics carries exactly the documented labels, each once; server metrics name the container, pod, workload, namespace and node of the serving process and, if it is in no known container, the own node; client metrics name the pod of the calling container as source and, for a service, the pod behind the translated address, else the service, node or host port the address belongs to, or the outside.  Request and response contents are the parsed ones.  A single request exported as a metric has the same labels.", "quantifier": "all parsed exchanges of all protocols but grpc, all records of the pool, all caches, all constant labels, all pooled label lists", "why_tests_cant": "The value of a label is the result of four components that each have their own tables; tests of one component cannot show that a label written by one under a name is the one the next reads, and the combinations of side, container, service, translation and protocol are too many to sample.", "anchors": ["collector/pkg/component/analyzer/network/network_analyzer.go:getRecords,getRecordWithSinglePair", "collector/pkg/component/consumer/processor/k8sprocessor/kubernetes_processor.go:Consume,processNetRequestMetric", "collector/pkg/component/consumer/processor/aggregateprocessor/processor.go:newNetRequestLabelSelectors", "collector/pkg/component/consumer/exporter/tools/adapter/net_adapter.go:Adapt"]}
{"id": "C99", "title": "The mutexes of the metadata caches", "statement": "The informers, the deletion loop, the queries, the answers of the provider and the setup from the provider take the mutexes of the caches in one order, so that no set of goroutines waits for each other and every operation completes under every schedule, for any number of goroutines; and every map of the caches is used only under its mutex, and every field of a pod or service that others can reach likewise, so that no goroutine uses one while another writes it.", "quantifier": "all programs made of any number of goroutines with any sequence of operations of any shape, all schedules, including the announced writers of read-write mutexes", "why_tests_cant": "Schedules of an unbounded number of goroutines cannot be enumerated, and the race detector sees only the schedule that happened.", "anchors": ["collector/pkg/metadata/kubernetes/initk8s.go:RLockMetadataCache,RUnlockMetadataCache,LockMetadataCache,UnlockMetadataCache", "collector/pkg/metadata/kubernetes/k8scache.go:K8sMetaDataCache,SetupCache", "collector/pkg/metadata/kubernetes/pod_watch.go:AddPod,UpdatePod,DeletePod", "collector/pkg/metadata/kubernetes/pod_delete.go:podDeleteLoop,deletePodInfo", "collector/pkg/metadata/kubernetes/service_watch.go:AddService,UpdateService,DeleteService", "collector/pkg/metadata/metaprovider/service/service.go:list,ListWithSemaphore"]}
{"id": "C100", "title": "The mutexes of the CPU analyzer", "statement": "The goroutines that file events, remove exited threads and expired transactions, send segments and start or stop the profile take the mutexes of the CPU analyzer in one order, so that no set of them waits for each other and every operation completes under every schedule; the segments, the queues, the maps, the flag and the channel variables are used only under a mutex or not replaced while they are read; and a slow exporter does not keep events from being filed.", "quantifier": "all programs made of any number of goroutines with any sequence of operations of any size, all schedules", "why_tests_cant": "Schedules of an unbounded number of goroutines cannot be enumerated, and a race that loses one element of a queue shows only as a slow leak.", "anchors": ["collector/pkg/component/analyzer/cpuanalyzer/cpu_analyzer.go:ConsumeTransactionIdEvent,analyzerJavaTraceTime,PutEventToSegments,trimExitedThread", "collector/pkg/component/analyzer/cpuanalyzer/delete_tid.go:TidDelete", "collector/pkg/component/analyzer/cpuanalyzer/delete_javatrace.go:JavaTraceDelete", "collector/pkg/component/analyzer/cpuanalyzer/send_trigger.go:ReceiveDataGroupAsSignal,sendEvents", "collector/pkg/component/analyzer/cpuanalyzer/module_control.go:StartProfile,StopProfile"]}
{"id": "C101", "title": "Clients of the metadata provider see the events in order and complete", "statement": "What a client applies is what was put into its stream, in order: a line is one message whatever way the body is cut into reads; each operation calls the handler of its kind with the decoded objects; a client is dropped only if it has not taken an event for the time set, and a dropped client's connection ends.", "quantifier": "all streams of events, all ways to cut the body into reads, all schedules of the watcher and its timer", "why_tests_cant": "Where a read ends, and when a timer fires relative to a slow write, are not in the hands of a test.", "anchors": ["collector/pkg/metadata/metaprovider/client/client.go:ListAndWatch,list,watch", "collector/pkg/metadata/metaprovider/client/unwrapper_handler.go", "collector/pkg/metadata/metaprovider/service/service.go:ListAndWatch", "collector/pkg/metadata/metaprovider/service/handler.go"]}
{"id": "C102", "title": "A client of the metadata provider answers like the provider", "statement": "The caches that a client builds from the provider's list answer every lookup as the provider's own do, and they still do after any events and sweeps that follow: containers by id, address and host port, pods by address and name, services of pods, addresses and names; the workloads are those of the client's node.", "quantifier": "all states of the provider at the time of the list, all events and sweeps afterwards", "why_tests_cant": "What JSON leaves out (unexported fields, shared pointers) and what is planned but not done when the list is taken shows only in later lookups and events.", "anchors": ["collector/pkg/metadata/kubernetes/k8scache.go:SetupCache,K8sPodInfo,K8sServiceInfo", "collector/pkg/metadata/metaprovider/service/service.go:ListAndWatch", "collector/pkg/metadata/kubernetes/pod_delete.go", "collector/pkg/metadata/kubernetes/service_watch.go:DeleteService"]}
{"id": "C103", "title": "An exchange is reported by the parser of its own protocol", "statement": "Whatever protocols are configured and in whatever order they are tried, a well-formed request on a port that is not configured is reported by the parser of its own protocol, with what it says, and by no other: HTTP request lines, MySQL statements, Redis commands, Kafka Fetch and Produce requests, two-way Dubbo requests, RocketMQ requests and DNS queries over TCP.", "quantifier": "all well-formed requests of seven protocols, all lists of configured and disabled protocols, all states of the parser cache", "why_tests_cant": "The parsers look at a few bytes each; whether one of them takes what belongs to another depends on the payload, the order of the configuration, whether a response was seen and what the port was used for before.", "anchors": ["collector/pkg/component/analyzer/network/network_analyzer.go:Start,parseProtocols,parseProtocol,parseMultipleRequests", "collector/pkg/component/analyzer/network/protocol/factory/factory.go:GetParser", "collector/pkg/component/analyzer/network/protocol/mysql/mysql_request.go:fastfailMysqlQuit,parseMysqlQuit", "collector/pkg/component/analyzer/network/protocol/generic/generic_parser.go"]}
{"id": "C104", "title": "Goroutines that use the aggregator at once dump what some order of their calls dumps", "statement": "However the goroutines that aggregate and dump interleave, down to single mutex operations, single series and single atomic writes, the groups they dump, with their values and times, are up to their order those of the same calls made one after the other, in an order that keeps the program order of every goroutine, and a panic is one of that order too; so sums and counts are conserved, no call is stuck and dumps exclude all other calls.", "quantifier": "any number of goroutines, all programs of Aggregate and Dump calls, all schedules, all configurations of accumulators", "why_tests_cant": "The interleavings of several goroutines over locks, map insertions and per-accumulator updates are far beyond what a stress test visits, and a lost update shows only as a slightly wrong sum.", "anchors": ["collector/pkg/aggregator/defaultaggregator/default_aggregator.go:Aggregate,Dump,DumpSingle", "collector/pkg/aggregator/defaultaggregator/value_recorder.go:Record,dump,reset", "collector/pkg/aggregator/defaultaggregator/agg_values.go:calculate,merge,get"]}
{"id": "C105", "title": "A scrape of the Prometheus exporter sees one state of a histogram", "statement": "However recording and scraping goroutines interleave, no record is lost, and what a scrape exports for a histogram, its sum, its count and all its buckets, is the histogram of one and the same set of records, which has all that were complete when the scrape began.", "quantifier": "any number of recording and scraping goroutines, all records, all numbers of boundaries, all schedules", "why_tests_cant": "A record has to fall between the dump and the copying of the buckets, microseconds later; the outcome is a histogram whose buckets exceed its count, which no single-threaded test produces.", "anchors": ["collector/pkg/aggregator/defaultaggregator/agg_values.go:get,calculate,merge", "collector/pkg/aggregator/defaultaggregator/cumulative_aggregator.go:AggregatorWithAllLabelsAndMetric,calculateWithExpired,DumpAndRemoveExpired", "collector/pkg/component/consumer/exporter/prometheusexporter/collector.go:Collect"]}
{"id": "C106", "title": "The metrics endpoint survives restarts of the exporter", "statement": "However the goroutines of the start and of the restarts interleave with requests: at most one server answers on the port, the one started last; and whenever no restart is under way the port is served, by the exporter of the last restart.", "quantifier": "any number of restarts and requests, all interleavings of their goroutines", "why_tests_cant": "A restart comes every few hours; the failing interleavings need a restart while the listener is being registered, two restarts whose goroutines overtake each other, or a request that is stuck at the moment of the restart.", "anchors": ["collector/pkg/component/consumer/exporter/otelexporter/prometheus.go:StartServer", "collector/pkg/component/consumer/exporter/otelexporter/otelexporter.go:NewExporter,NewMeter,registerResetSchedule"]}
{"id": "C107", "title": "The started connection tracker knows every translated connection", "statement": "Whatever connections the kernel adds and removes during the start, and however its goroutines interleave with them: a translated connection that exists is known to the tracker that the caller gets, or its event is waiting in the socket; and a start that fails or takes too long leaves nothing running.", "quantifier": "all tables and all histories of connections during and after the start, all interleavings, all outcomes of the system calls", "why_tests_cant": "The window between the dump of the table and the joining of the event group is short, and a connection lost in it only shows as a missing service name; the time-out needs a table that takes half a minute to dump.", "anchors": ["collector/pkg/metadata/conntracker/internal/conntracker.go:NewConntracker,newConntrackerOnce,loadInitialState,run,Close", "collector/pkg/metadata/conntracker/internal/consumer.go:Events,DumpTable,Stop"]}
{"id": "C108", "title": "The metrics of the connection tracker are its counters, and the counters add up", "statement": "After any history of connections, lookups, deletions and sweeps, the counters are the numbers of lookups, translated and plain connections, and of translations pushed out and removed; the size of the cache is what came minus what went; every exported series has the value of the counter it is named after; and all calls of NewConntracker get the tracker of the first one.", "quantifier": "all histories with a clock that does not go back, all cache limits above zero, all interleavings of the deferred counting and of the reads of one GetStats call", "why_tests_cant": "Counters are wrong by small amounts and only in sum; tests look at single operations, and a key of the statistics that is misspelt reads as zero, which is what an idle tracker reports anyway.", "anchors": ["collector/pkg/metadata/conntracker/internal/conntracker.go:GetStats,GetTranslationForConn,DeleteTranslation,register,loadInitialState,compact,Add,removeOrphans", "collector/pkg/metadata/conntracker/internal/consumer.go:GetStats", "collector/pkg/metadata/conntracker/self_metrics.go:newSelfMetrics", "collector/pkg/metadata/conntracker/conntracker_linux.go:NewConntracker,GetStats"]}
{"id": "C109", "title": "Recycled records do not mix requests, and clones outlive them", "statement": "The network analyzer takes records out of a pool, writes labels and metrics through pointers, merges the parser's map by copying its pointers, hands the record on and puts it back, from several goroutines at once; the CPU analyzer keeps a clone. Whatever the goroutines do in whatever order: a record is held by one goroutine at most and is then neither in the pool nor kept; it comes out of the pool with zero values only; what it says to its holder is what it said when it came out with the holder's own changes; a kept clone says what the record said when it was cloned and never changes, however often the record is used again.", "quantifier": "for all numbers of goroutines and records and all interleavings of their calls (Get, Free, Clone, Merge, UpdateAdd, Add, Remove), all labels, metrics, requests, and pools that forget records at any time", "why_tests_cant": "Values shared through pointers show only when two requests are in flight at the same time and the pool happens to give the record out again; a test with one goroutine reads the right values even when the clone shares them.", "anchors": ["collector/pkg/component/analyzer/network/datagroup_pool.go:createDataGroup,Get,Free", "collector/pkg/component/analyzer/network/network_analyzer.go:distributeRecords,getRecords,getRecordWithSinglePair", "collector/pkg/model/data_group.go:UpdateAddIntMetric,Reset,Clone", "collector/pkg/model/attribute_map.go:Merge,Clone,ResetValues", "collector/pkg/component/analyzer/cpuanalyzer/send_trigger.go:ReceiveDataGroupAsSignal"]}
{"id": "C110", "title": "A stopped profile ends and a restarted one is a session of its own", "statement": "The CPU analyzer's trace, trigger and stop channels are variables that start and stop replace, and that its goroutines look up again in every turn. Whatever the goroutines and their callers do and however often the profile is started and stopped: every accepted signal is in exactly one place; while the profile is off the time segments are empty; a stop goes through exactly when the profile runs; after a stop without a further start all readers return, and the samplers and callers return too; while the profile runs nobody stays in front of its channels; after a restart there is one reader of each kind, traces are handled in the order they were sent, and the segments hold only signals accepted in the running session.", "quantifier": "for all numbers of callers, sessions, readers and samplers, all interleavings of their steps, all channel sizes", "why_tests_cant": "Which channel a goroutine is on depends on whether it looked the variable up before or after the stop, a window of nanoseconds; and a channel of 10000 places does not fill up in a test.", "anchors": ["collector/pkg/component/analyzer/cpuanalyzer/module_control.go:StartProfile,StopProfile", "collector/pkg/component/analyzer/cpuanalyzer/send_trigger.go:ReceiveDataGroupAsSignal,ReadTraceChan,ReadTriggerEventChan,sampleSend", "collector/pkg/component/analyzer/cpuanalyzer/cpu_analyzer.go:Shutdown,ConsumeTraces,PutEventToSegments"]}
{"id": "C111", "title": "The queues between the receiver and the analyzers, and the shutdown of the whole application", "statement": "However the goroutines interleave, what an analyzer has handled, is handling and has queued is in order and without gaps or repeats what it wants of the events handed around; a running collector works off everything that was fetched; a shutdown comes to its end with all goroutines gone, gives no event to an analyzer after the first one has been told to stop, and loses exactly what is left in the channels; and while one analyzer's goroutine stands still the others keep receiving events and the application still shuts down.", "quantifier": "all numbers of analyzers, predicates of wanted events, channel sizes, events, and interleavings of the fetching, dispatching, analyzing and stopping goroutines", "why_tests_cant": "interleavings of five goroutines over bounded channels; a jam needs a goroutine that never comes back", "anchors": ["collector/pkg/component/receiver/cgoreceiver/cgoreceiver.go:consumeEvents,sendToNextConsumer,Shutdown", "collector/pkg/component/analyzer/network/network_analyzer.go:ConsumeEvent,ConsumeEventFromChannel,Shutdown", "collector/pkg/component/analyzer/tcpconnectanalyzer/analyzer.go:Start,ConsumeEvent,Shutdown", "collector/pkg/component/analyzer/manager.go:ShutdownAll", "collector/internal/application/application.go:Shutdown"]}
{"id": "C112", "title": "What is written to trace files and to Elasticsearch reads back", "statement": "A data group is written as one line of well-formed JSON that reads back as the same group (name, metrics, labels, time); groups that differ are written differently; a trace file that nobody is writing holds exactly the last trace written to it and the CPU events appended since, in order, separated so that a reader can tell them apart, whatever the groups contain and however goroutines take turns; every group reaches the storage that was configured.", "quantifier": "all data groups with any byte strings, all sequences of writes and removals, all interleavings of the writing goroutines", "why_tests_cant": "file tests write one group and look whether a file appears; they never read it back, never use contents that need escaping, and never let two goroutines write at once", "anchors": ["collector/pkg/component/consumer/exporter/cameraexporter/filewriter.go:write,writeTrace,writeFile,writeCpuEvents", "collector/pkg/component/consumer/exporter/cameraexporter/exporter.go:New,Consume,write", "collector/pkg/model/data_group.go:DataGroup", "collector/pkg/model/attribute_map.go:MarshalJSON,UnmarshalJSON"]}
{"id": "C113", "title": "CPU events can be read back from where they are stored", "statement": "A stored group of CPU events, read back as JSON and its labels read as JSON again, gives the thread, the times and all events of the segment - CPU, Java locks, transactions, spans, inner calls - complete, in order and field by field; every event put into a segment is in what the file and Elasticsearch have after the segment is sent again; the reader in the code itself (UnmarshalJSON) gives back what was written.", "quantifier": "all segments with any events and byte strings, all threads and path elements, all sequences of putting events and sending, all orders in which Go walks a map", "why_tests_cant": "the test of the reader feeds it a text the code never writes, ignores the error with t.Failed(), and prints the result; no test puts an event after a sending", "anchors": ["collector/pkg/component/analyzer/cpuanalyzer/model.go:toDataGroup,UnmarshalJSON,MarshalJSON,putTimedEvent,isNotEmpty,newSegment", "collector/pkg/component/analyzer/cpuanalyzer/send_trigger.go:sendEvents", "collector/pkg/component/consumer/exporter/cameraexporter/exporter.go:write"]}
{"id": "C114", "title": "The CPU events of a slow trace end up in its file", "statement": "Whatever happened to a thread before (events of any span, sendings for other traces), a sending for a slow trace appends to the file of that trace exactly one line for every second of the window that meets the span asked for and has an event, in order; each line, read back, shows the thread with its present name and exactly the events that meet its second and arrived while the second was in the window - all of them, by kind, in order of arrival, field by field; nothing goes to another file and nothing panics.", "quantifier": "all histories of a thread (events of all kinds, any times, any names, sendings for any other traces), all window sizes the code works with, all traces and spans asked for, all dates", "why_tests_cant": "the pieces are tested apart, if at all: no test puts events, sends them and reads the file", "anchors": ["collector/pkg/component/analyzer/cpuanalyzer/cpu_analyzer.go:PutEventToSegments", "collector/pkg/component/analyzer/cpuanalyzer/send_trigger.go:sendEvents", "collector/pkg/component/analyzer/cpuanalyzer/model.go:toDataGroup,isNotEmpty,putTimedEvent", "collector/pkg/component/consumer/exporter/cameraexporter/filewriter.go:writeTrace,getFileName", "collector/pkg/component/consumer/exporter/cameraexporter/exporter.go:Consume"]}
{"id": "C115", "title": "The aggregators count in 64 bits: modulo 2^64 always, exactly below 2^63", "statement": "Written with the additions of the machine (int64 sums, averages' counts and counters wrap at 2^63; uint64 histogram counts and buckets wrap at 2^64), the aggregator and the cumulative aggregator behind Prometheus hold, after every history of records and dumps they survive, exactly the unbounded values taken modulo 2^64, series by series, and dump the same groups with the same values modulo 2^64, averages excepted (their quotient is of wrapped numbers). So the dumped sums and counts of a metric add up to what was recorded modulo 2^64. As long as the absolute values, counts and buckets of all that was recorded add up to less than 2^63 the two are equal: same panics, same states, same dumps, so every property proved of the unbounded aggregators holds of the machine. Beyond, two positive values that do not fit together give a negative sum and a negative average.", "quantifier": "every kind configuration, every history of records and dumps (integers and histograms, any size), every label set; the exactness for all histories of weight below 2^63", "why_tests_cant": "Reaching 2^63 takes a year of recorded nanoseconds under load; a test can inject one large value but not show that every interleaved series is right modulo 2^64 or that nothing wraps earlier.", "anchors": ["collector/pkg/aggregator/defaultaggregator/agg_values.go:calculate,merge,get", "collector/pkg/aggregator/defaultaggregator/value_recorder.go:Record,dump", "collector/pkg/aggregator/defaultaggregator/cumulative_aggregator.go:RecordWithDefaultSumKindAgg,calculateWithExpired,DumpAndRemoveExpired"]}
{"id": "C116", "title": "What Prometheus gets are floats: exact below 2^53, nearest above, and counters do not fall by rounding", "statement": "The conversion int64 to float64 (round to nearest, ties to even, 53 bits) gives a representable number nearest to the integer, the integer itself below 2^53 in absolute value, is monotone, and is off by at most one part in 2^53; an increase of less than half a unit in the last place is invisible. The exporter with machine arithmetic and floats is, as long as all that was ever recorded weighs less than 2^63, in the same state as the exporter of integers, panics at the same time, and hands the client the same samples with the counter values and histogram sums rounded; histogram boundaries and counts are exact. So a counter is the float nearest to the total recorded while its label set lived, and one to which nothing negative is added never falls between two collections while its label set is alive. Past 2^63 the exported counter becomes negative.", "quantifier": "every integer; every history of Consume and Collect calls, every adapter, every character table and validity check of the client; all histories of weight below 2^63", "why_tests_cant": "Rounding appears only above 9 * 10^15, e.g. 104 days of added-up request time; tests use small values, where floats and integers agree.", "anchors": ["collector/pkg/component/consumer/exporter/prometheusexporter/collector.go:Collect,newCollector", "collector/pkg/component/consumer/exporter/prometheusexporter/consume.go:Consume,Export,exportMetric", "collector/pkg/aggregator/defaultaggregator/cumulative_aggregator.go:AggregatorWithAllLabelsAndMetric,DumpAndRemoveExpired"]}
{"id": "C117", "title": "The scanner kept from message to message does not remember", "statement": "The decoder of conntrack messages keeps one scanner with three frames for its whole life. Whatever earlier messages left in the frames (a level, an iterator, an error, the last attribute, half a message), the next message is decoded from its own bytes alone, exactly as a fresh decoder would: same connection, same refusal, same panic. The loops end, no frame is missing and no frame is added. The branch of push meant to add a frame is never reached: nesting one level deeper than there are frames panics.", "quantifier": "all scanners with at least three frames in any state, all sequences of events and messages of any bytes", "why_tests_cant": "The tests decode well-formed messages with new decoders, or the same message again and again; what a broken message leaves behind is seen only by the message after it.", "anchors": ["collector/pkg/metadata/conntracker/internal/attribute_scanner.go:AttributeScanner,NestedFrame,NewAttributeScanner,Next,Nested,ResetTo,push,pop,unmarshal", "collector/pkg/metadata/conntracker/internal/decoding.go:DecodeAndReleaseEvent,unmarshalCon,unmarshalTuple,unmarshalTupleIP,unmarshalProto"]}
{"id": "C118", "title": "The converters are built with the labels they are listed with", "statement": "The builder of label converters puts the common entries after the base, the entries of each protocol after those, then value labels and constant labels; a converter whose extra labels were given once converts every group with the entries of the protocol of the group, or with those for unsupported protocols. The ten converters of the network adapter are so built, for all constant labels. What the builder does not check: without extra labels every group is a panic, without a parameter for unsupported protocols every group of an unlisted protocol is one, and extra labels given a second time are not combined with the first but all joined to each, the second function never being asked.", "quantifier": "all base, common and extra dictionaries, all constant labels, all groups, the ten converters of the manager", "why_tests_cant": "The tests of the adapter compare the output of a few groups; that each of ten chains of calls is the intended table, for each of nine protocols, and what other chains would do, is not covered.", "anchors": ["collector/pkg/component/consumer/exporter/tools/adapter/label_converter.go:newAdapterBuilder,withExtraLabels,simpleMergeKey,simpleMergeParam,withValueToLabels,withConstLabels,withAdjust,build,searchExtraAttribute", "collector/pkg/component/consumer/exporter/tools/adapter/net_adapter.go:createNetAdapterManager"]}
{"id": "C119", "title": "A request is counted once, from the record to the Prometheus counter", "statement": "The aggregation processor, the network adapter and the Prometheus exporter together: for every history of records, ticks of the aggregation timer, scrapes and groups of other kinds, a scrape shows for each sum and each counter of the aggregated metrics exactly what the records up to the last tick add up to, each record in the series that its labels belong to, once, and in no other. With any configuration that counts requests, kindling_entity_request_total of a series is the number of requests received with its labels, kindling_topology_request_total the number sent with its labels plus, if the operator wants them, those received from outside. The built-in configuration counts requests, adds up their time and sizes. The label sets of slow and other series, and of entity and topology series, never meet, and neither do those of aggregated requests with those of TCP records or of sampled requests. With the built-in configuration no integer record, whatever its labels, makes any step between the processor and the scrape panic. The records of the network analyzer are such records, at any time and however often they went through the pool.", "quantifier": "every aggregation configuration with the output, every adapter configuration and constant labels that do not clash with the listed ones, every history of records, ticks, scrapes and other groups, every series", "why_tests_cant": "Each component has its own tests on one record; that nothing is counted twice or lost between three components, each with its own keys (labels selected, labels renamed, labels hashed), over any number of ticks and scrapes, is not tested.", "anchors": ["collector/pkg/component/consumer/processor/aggregateprocessor/processor.go:Consume,runTicker", "collector/pkg/aggregator/defaultaggregator/default_aggregator.go:Aggregate,Dump", "collector/pkg/component/consumer/exporter/tools/adapter/net_adapter.go:Adapt,dealWithPreAggMetricGroups,createNetMetricResults", "collector/pkg/component/consumer/exporter/prometheusexporter/consume.go:Consume,Export", "collector/pkg/component/consumer/exporter/prometheusexporter/collector.go:Collect"]}
{"id": "C120", "title": "What the task of a slow trace puts into its file", "statement": "The task that runs every second after a slow trace, on the window of a thread that goes on getting events, for any interleaving of events, runs and sendings for other traces: the file of the trace is what the runs append one after the other, each run one line for every second of its span that is in the window and has an event, with the events of that second that arrived before the run. An event of the time of the request itself is in the file if it arrives before the last run, however many runs are over. An event of the edge before the request is not: the span moves on with the runs, and what ended before the span of the first run after its arrival is in no line of the file, though the window still has it.", "quantifier": "every window size and edge, every trace, every history of events, runs and sendings for other traces", "why_tests_cant": "A test with real timers cannot order arrivals and runs; the spans of the runs, the window and the file are three pieces of code that are tested, if at all, one at a time.", "anchors": ["collector/pkg/component/analyzer/cpuanalyzer/send_trigger.go:ReadTriggerEventChan,run,sendEvents", "collector/pkg/component/analyzer/cpuanalyzer/cpu_analyzer.go:PutEventToSegments"]}
{"id": "C121", "title": "A DNS exchange over UDP, from the two messages to its record", "statement": "A DNS query with one question sent over UDP and a message with the same transaction id received on the same socket afterwards make one exchange of this query and this answer, whatever was stored before and whatever else goes on in between on other sockets, with other ids, with payloads that are no DNS messages and with passes of the scanner before the time of the query is over. Its record has the socket of the query, the transaction id, the name asked about in the answer, the response code, a protocol error exactly for the codes that count as errors, the end time of the answer and both payloads; its sent, waiting and download times add up to the total. A query without an answer is reported once, with its own name and the error of a missing response. Payloads without a question change nothing. The name in the answer is not compared with the name in the query: an answer about another name is taken.", "quantifier": "every pair of messages with one question, every earlier history, everything that may happen in between", "why_tests_cant": "The parsers, the store of queries and the record are tested one at a time with fixed packets; the interleavings between a query and its answer are not.", "anchors": ["collector/pkg/component/analyzer/network/network_analyzer.go:processEvent,consumeUdpDnsRequest,getRecordWithSinglePair,consumerFdNoReusingTrace", "collector/pkg/component/analyzer/network/udp_cache.go:parseDnsUdpRequest,parseDnsUdpResponse", "collector/pkg/component/analyzer/network/message_pair.go:getDuration,getWaitingTime"]}
{"id": "C122", "title": "The exchanges on the wire are what is reported and counted", "statement": "Cut the events of a connection into exchanges: a connect and the requests after it, then the responses, up to the next request or connect; a request from another port begins a new one. If the connection is used in an orderly way (when the timeout scan passes, the last event of the open exchange is younger than the timeouts or nothing more belongs to the exchange, and a connect is used before the next connect) and no exchange is continued by HTTP 100, the analyzer reports exactly these exchanges, with these requests and responses, in this order, whatever happens on other connections in between; the last may still be stored, and is reported by the first scan after the timeouts. Over all connections every exchange on the wire is reported once and nothing else is. If the records of the reports reach the aggregation processor, the request counters of the first Prometheus scrape are the numbers of exchanges on the wire with the labels of the series. A response that comes after a scan found its request too old is in no report.", "quantifier": "every interleaving of the events of any number of connections and of timeout scans", "why_tests_cant": "Tests feed one or two fixed exchanges of one connection; the cut into exchanges depends on all events of a connection, on scans at any point and on what other connections do.", "anchors": ["collector/pkg/component/analyzer/network/network_analyzer.go:consumerFdNoReusingTrace,analyseConnect,analyseRequest,analyseResponse,distributeTraceMetric", "collector/pkg/component/analyzer/network/message_pair.go:mergeRequest,mergeResponse,getTimeoutTs", "collector/pkg/component/consumer/processor/aggregateprocessor/processor.go:Consume"]}
{"id": "C123", "title": "The text of an event in the debug log", "statement": "With the log at debug level the receiver writes a text of every event. It shows the parameters in use, in order, once each, and nothing of the unused rest of the array. Signed and unsigned numbers of every width are shown as the decimal value that the probe wrote. A payload is shown as printable ASCII in one line whatever its bytes are, a short payload of plain text as it is, of a longer one at most 200 characters and the number of bytes left out. An event makes the text (and with it the collector) panic exactly if it has a number whose value is shorter than its type; a double is shown as its raw bytes, so its text may not be printable.", "quantifier": "every event, every payload, every number of every type", "why_tests_cant": "The one test compares the text of one event; payloads with control characters, broken UTF-8 or lengths around the limit and short values are not tried.", "anchors": ["collector/pkg/model/kindling_event.go:TextKindlingEvent,textUserAttributes,textUserAttribute,bytesReader", "collector/pkg/model/kindling_event_helper.go:GetUintValue,GetIntValue", "collector/pkg/component/receiver/cgoreceiver/cgoreceiver.go:sendToNextConsumer"]}
{"id": "C124", "title": "Slow Java transactions become signals", "statement": "A transaction whose entry and end the Java agent reports, and that ends before it expires, is reported exactly if it took longer than the threshold: with the URL, protocol and time of its entry, the id, process and container of its end and the time between them, whatever happens to other transactions and whenever the sweeps come. Every report belongs to such an entry and end. The report waits as a signal under its URL and process, and from then on the requests of that process as the probe sees them are none. Transactions of different processes or ids are kept apart.", "quantifier": "every history of entries, ends and sweeps, every id, process, threshold and time", "why_tests_cant": "The test sends one pair of events; orders, expiry, ids that run into process numbers and repeated ends are not tried.", "anchors": ["collector/pkg/component/analyzer/cpuanalyzer/cpu_analyzer.go:ConsumeTransactionIdEvent,analyzerJavaTraceTime", "collector/pkg/component/analyzer/cpuanalyzer/delete_javatrace.go:JavaTraceDelete", "collector/pkg/component/analyzer/cpuanalyzer/send_trigger.go:ReceiveDataGroupAsSignal"]}
{"id": "C125", "title": "The agent connects to Kubernetes in one way, once", "statement": "An enabled processor either asks the metadata provider, if one is configured, or starts the watchers of nodes, of replica sets if wanted, of services and then of pods with the configured period, if the API server can be used with the configured credentials; otherwise it panics and nothing was started. A disabled one connects to nothing. A client is made exactly if the credentials of the chosen kind are there, never from a nil configuration. Watchers are started at most once. The metadata provider itself watches the API server with its own handlers. With metadata, slow transactions carry the workload, container and pod of their container.", "quantifier": "every configuration, environment, list of options and sequence of calls", "why_tests_cant": "There is no test of the start: it needs a cluster or its credentials.", "anchors": ["collector/pkg/metadata/kubernetes/initk8s.go:InitK8sHandler,initWatcherFromAPIServer,initWatcherFromMetadataProvider,makeClient,createRestConfig,Validate", "collector/pkg/metadata/kubernetes/config.go", "collector/pkg/component/consumer/processor/k8sprocessor/kubernetes_processor.go:NewKubernetesProcessor", "collector/pkg/component/consumer/processor/k8sprocessor/helper.go", "collector/pkg/metadata/metaprovider/service/service.go:NewMetaDataWrapper"]}
{"id": "C126", "title": "Log lines and self metrics go where the configuration says", "statement": "A message of a component is written to the console and to the file exactly if the level of that sink takes it and, for debug messages, the component is selected or none is; components not selected lose nothing else. A panic is never swallowed. Without a usable logger section the agent logs with the default logger. The agent's own metrics go where the configured exporter kind and its section say, or nowhere; agents of different clusters report under different names.", "quantifier": "every configuration, component, level, way of logging and answer of the library", "why_tests_cant": "Nothing tests the logger or the telemetry of the agent.", "anchors": ["collector/pkg/observability/logger/logger.go:InitLogger,toLogLevel", "collector/pkg/observability/logger/lumberjack.go:ToString", "collector/pkg/component/telemetry.go:SelectorOption,getToolsWithOption,Check,initLogger,initProvider", "collector/pkg/observability/telemetry.go:InitTelemetry,RegisterExtraMetrics,newExporters", "collector/internal/application/application.go:buildPipeline"]}
{"id": "C127", "title": "The OpenTelemetry exporter starts as its configuration says", "statement": "The exporter starts exactly if its kind is known and the section of that kind and the section of the adapters are there, and then sends where that section says; a start that fails panics and hands no exporter on. The labels it adds to everything are the configured ones and, unless they are served to Prometheus, job and host where the configuration does not name them, none twice. Spans are sent by every kind but Prometheus. Agents of different clusters and hosts report as different services and instances. A period of restarts that is not positive disables the restarts.", "quantifier": "every configuration, environment, answer of the library and order in which the map of labels is walked", "why_tests_cant": "The tests start the exporter with a handful of configurations that are complete; none leaves out a section, gives a bad period or looks at the labels added.", "anchors": ["collector/pkg/component/consumer/exporter/otelexporter/otelexporter.go:NewExporter,newExporters,registerResetSchedule", "collector/pkg/component/consumer/exporter/otelexporter/helper.go:GetCommonLabels", "collector/pkg/component/consumer/exporter/otelexporter/config.go:Config"]}
{"id": "C128", "title": "The writer of the metadata stream keeps its promises under concurrent calls", "statement": "Whatever goroutines call Write, Flush and Close, no channel is closed twice and no call hangs; exactly one Close succeeds and the others, like every Write begun afterwards, get io.EOF. Everything written is flushed before its Write returns, and nothing reaches the writer once Close has returned. Flushed says whether a flush has begun.", "quantifier": "every interleaving of the calls of any number of goroutines", "why_tests_cant": "The repository has no test of the flusher; a test runs few interleavings and cannot place Close between the look at the channel and the write.", "anchors": ["collector/pkg/metadata/metaprovider/ioutil/writeflusher.go:Write,Flush,Flushed,Close,NewWriteFlusher"]}
{"id": "C129", "title": "The agent starts and stops its parts in order", "statement": "The analyzers are started in order and the receiver only after all of them started without an error; the agent then runs, and otherwise exits with 1. A signal shuts the receiver down and then every analyzer, whatever the others answer, and the exit code is 0 exactly if none of them failed. Whatever was started is shut down again.", "quantifier": "every list of analyzers, every answer of the parts to start and shutdown, and every time of the first signal", "why_tests_cant": "No test runs main or the application; the order, the failing parts and the time of the signal are never varied.", "anchors": ["collector/cmd/kindling-collector/main.go:main", "collector/internal/application/application.go:Run,Shutdown", "collector/pkg/component/analyzer/manager.go:StartAll,ShutdownAll"]}
