{
 "claims": [
  {
   "property": "C01",
   "status": "partial",
   "theorems": [
    "Kindling.Agg.sum_conserved_partial",
    "Kindling.Agg.count_conserved_partial",
    "Kindling.Agg.sum_not_conserved_when_metric_appears_later"
   ],
   "note": "Holds for every history in which each record of a series carries the metrics of its first record; the negation without that condition is proved with a witness."
  },
  {
   "property": "C02",
   "status": "partial",
   "theorems": [
    "Kindling.Agg.dump_series_values_partial",
    "Kindling.Agg.dump_series_exact_partial",
    "Kindling.Agg.max_of_negative_values_is_zero",
    "Kindling.Agg.int_history_never_panics",
    "Kindling.Agg.avg_without_value_panics"
   ],
   "note": "The maximum of negative values is exported as 0; all other functions and the maximum of values of which one is non-negative are proved."
  },
  {
   "property": "C03",
   "status": "proved",
   "theorems": [
    "Kindling.Agg.histogram_of_all_values",
    "Kindling.Agg.histogram_buckets_monotone",
    "Kindling.Agg.histogram_mismatch_ignored",
    "Kindling.Agg.histogram_other_boundaries_merged"
   ],
   "note": "Merging histograms with other boundaries of the same length is a finding, shown by a witness."
  },
  {
   "property": "C04",
   "status": "proved",
   "theorems": [
    "Kindling.Agg.same_series_iff",
    "Kindling.Agg.series_labels",
    "Kindling.Agg.label_keys_shape",
    "Kindling.Agg.selector_38_is_ignored"
   ],
   "note": "Up to 37 selectors; the bound is shown sharp."
  },
  {
   "property": "C05",
   "status": "partial",
   "theorems": [
    "Kindling.Agg.cumulative_tracks_live_series_partial",
    "Kindling.Agg.dump_removes_exactly_expired",
    "Kindling.Agg.cumulative_dump_exports_all",
    "Kindling.Agg.all_labels_same_series_iff",
    "Kindling.Agg.all_labels_key_canonical",
    "Kindling.Agg.cumulative_panics_beyond_37_labels"
   ],
   "note": "For label sets of at most 37 labels; more labels panic, proved."
  },
  {
   "property": "C06",
   "status": "partial",
   "theorems": [
    "Kindling.Net.Conc.reported_at_most_once",
    "Kindling.Net.Conc.stored_exchange_reported_or_pending_partial",
    "Kindling.Net.Conc.only_stored_exchanges_reported",
    "Kindling.Net.monitor_never_panics",
    "Kindling.Net.each_request_in_one_exchange",
    "Kindling.Net.Conc.request_lost_in_race",
    "Kindling.Net.Conc.stuck_socket_never_reports",
    "Kindling.Net.Conc.socket_can_be_lost",
    "Kindling.Net.continue_exchange_lost_on_timeout",
    "Kindling.Net.Conc.atomic_run_is_schedule",
    "Kindling.Net.Limits.connect_split",
    "Kindling.Net.Limits.connect_event"
   ],
   "note": "Every interleaving of consumer and scanner. Findings proved beside it: a request racing with the scanner is lost before it is stored, a flushed exchange can be stored again and blocks its socket for ever, an HTTP 100-continue exchange is lost on timeout."
  },
  {
   "property": "C07",
   "status": "partial",
   "theorems": [
    "Kindling.Net.Conc.gauge_counts_unreported_partial",
    "Kindling.Net.gauge_is_number_of_exchanges_partial",
    "Kindling.Net.Conc.gauge_nonneg",
    "Kindling.Net.Conc.gauge_disagrees_with_map",
    "Kindling.Net.Conc.atomic_run_is_schedule"
   ],
   "note": "The claim holds when events are handled atomically; under interleaving the gauge counts the stored exchanges not yet reported, and the full claim is refuted by a reachable state."
  },
  {
   "property": "C08",
   "status": "proved",
   "theorems": [
    "Kindling.Net.merged_payload_prefix",
    "Kindling.Net.merged_counts_exact",
    "Kindling.Net.request_bytes_conserved"
   ],
   "note": "All fragment sequences and snap lengths."
  },
  {
   "property": "C09",
   "status": "proved",
   "theorems": [
    "Kindling.Net.latency_parts_add_up",
    "Kindling.Net.latency_parts_reported",
    "Kindling.Net.Limits.unanswered_times",
    "Kindling.Net.Limits.connect_only_times",
    "Kindling.Net.Limits.no_connect_time"
   ],
   "note": "Modulo 2^64 always, as integers for ordered time stamps."
  },
  {
   "property": "C10",
   "status": "proved",
   "theorems": [
    "Kindling.Net.other_socket_untouched",
    "Kindling.Net.socket_depends_on_own_events"
   ],
   "note": "Refinement of the monitor to independent per-socket machines."
  },
  {
   "property": "C11",
   "status": "proved",
   "theorems": [
    "Kindling.Net.scan_flushes_exactly_expired",
    "Kindling.Net.Limits.default_flush",
    "Kindling.Net.Limits.configured_flush"
   ],
   "note": "Per scan, for every reachable monitor state."
  },
  {
   "property": "C12",
   "status": "proved",
   "theorems": [
    "Kindling.Net.slow_iff"
   ],
   "note": "All durations and tables."
  },
  {
   "property": "C13",
   "status": "partial",
   "theorems": [
    "Kindling.Net.Udp.udp_counter_exact_partial",
    "Kindling.Net.Udp.repeated_id_leaks_cache",
    "Kindling.Net.Udp.udp_each_id_on_its_own",
    "Kindling.Net.Udp.repeated_query_not_reported",
    "Kindling.Net.Udp.Conc.udp_query_lost_in_race",
    "Kindling.Net.Limits.udp_given_up",
    "Kindling.Net.Udp.Conc.act_agrees"
   ],
   "note": "The counter is exact when no query repeats an outstanding id; otherwise the cache of the socket is never dropped again, proved for every continuation."
  },
  {
   "property": "C14",
   "status": "partial",
   "theorems": [
    "Kindling.Net.Multi.dns_responses_attributed",
    "Kindling.Net.Multi.dns_no_response",
    "Kindling.Net.Multi.dns_each_query_once_partial",
    "Kindling.Net.Multi.dns_recognised_iff",
    "Kindling.Net.Multi.dns_query_reported_twice",
    "Kindling.Net.Multi.dns_repeated_query_unanswered",
    "Kindling.Net.Udp.udp_response_attributed",
    "Kindling.Net.Udp.Conc.udp_query_reported_twice"
   ],
   "note": "Attribution holds always; exactly-once reporting needs distinct answers, refuted otherwise. UDP queries can be reported twice when the scanner interleaves."
  },
  {
   "property": "C15",
   "status": "partial",
   "theorems": [
    "Kindling.Proto.number_readers_safe",
    "Kindling.Proto.string_readers_safe",
    "Kindling.Proto.readUntilCRLF_safe",
    "Kindling.Proto.readUntilBlank_safe_partial",
    "Kindling.Proto.readUntilBlank_panics",
    "Kindling.Proto.getData_piece"
   ],
   "note": "Every reader, every payload and offset. ReadUntilBlankWithLength and ReadUntilBlank need a start within the payload and panic otherwise, proved."
  },
  {
   "property": "C16",
   "status": "proved",
   "theorems": [
    "Kindling.Proto.varint_roundtrip",
    "Kindling.Proto.varint_signed_roundtrip",
    "Kindling.Proto.varint_at_most_five"
   ],
   "note": "All 35-bit numbers, all surrounding bytes."
  },
  {
   "property": "C17",
   "status": "partial",
   "theorems": [
    "Kindling.Proto.string_roundtrip",
    "Kindling.Proto.nullable_string_roundtrip",
    "Kindling.Proto.compact_string_roundtrip_partial",
    "Kindling.Proto.compact_nullable_roundtrip_partial",
    "Kindling.Proto.compact_string_off_by_one"
   ],
   "note": "Compact strings followed by exactly one byte swallow it, proved for all such strings."
  },
  {
   "property": "C18",
   "status": "proved",
   "theorems": [
    "Kindling.Proto.Dns.unpack_iff",
    "Kindling.Proto.Dns.unpack_inverts_wire",
    "Kindling.Proto.Dns.unpack_bounded",
    "Kindling.Proto.Dns.nameText_inj"
   ],
   "note": "Decoding succeeds exactly on names encoded per the relational spec NameAt (pointers included), for every message and offset."
  },
  {
   "property": "C19",
   "status": "partial",
   "theorems": [
    "Kindling.Proto.Dns.first_address_reported_partial",
    "Kindling.Proto.Dns.no_address_reported",
    "Kindling.Proto.Dns.second_address_lost"
   ],
   "note": "The code skips two bytes too many after an A record: with two A records only the first is reported, proved."
  },
  {
   "property": "C27",
   "status": "proved",
   "theorems": [
    "Kindling.Ip.ip_text_roundtrip",
    "Kindling.Ip.ip_bytes_roundtrip",
    "Kindling.Ip.ip_text_injective",
    "Kindling.Ip.ip_text_of_bytes",
    "Kindling.Ip.ip_mapped",
    "Kindling.Ip.ip_text_malformed",
    "Kindling.Ip.ip_text_no_number",
    "Kindling.Ip.ip_text_spills"
   ],
   "note": "All 32-bit addresses."
  },
  {
   "property": "C28",
   "status": "proved",
   "theorems": [
    "Kindling.Text.ascii_sanitised",
    "Kindling.Text.ascii_idempotent"
   ],
   "note": "Every byte string."
  },
  {
   "property": "C29",
   "status": "partial",
   "theorems": [
    "Kindling.Text.utf8_prefix",
    "Kindling.Text.utf8_valid_kept_partial",
    "Kindling.Text.two_byte_character_cut",
    "Kindling.Text.utf8_truncated_partial",
    "Kindling.Text.utf8_result_may_be_invalid"
   ],
   "note": "Prefix proved for every input; valid text is cut at a two-byte character followed by ASCII, and the result may be invalid: both proved."
  },
  {
   "property": "C61",
   "status": "proved",
   "theorems": [
    "Kindling.Proto.Dns.dns_request_parsed",
    "Kindling.Proto.Dns.dns_response_parsed",
    "Kindling.Proto.Dns.dns_parsers_never_panic",
    "Kindling.Proto.Dns.dns_message_tried"
   ],
   "note": "Messages with one question, any legal name, UDP and TCP framing."
  },
  {
   "property": "C20",
   "status": "partial",
   "theorems": [
    "Kindling.Proto.Redis.redis_request_parsed_partial",
    "Kindling.Proto.Redis.redis_response_parsed_partial",
    "Kindling.Proto.Redis.redis_terminates",
    "Kindling.Proto.Redis.string_with_cr_not_recognised",
    "Kindling.Proto.Redis.truncated_string_not_recognised",
    "Kindling.Proto.Redis.later_command_wins",
    "Kindling.Proto.Redis.isCommand_iff",
    "Kindling.Proto.Redis.upper_letters",
    "Kindling.Proto.Redis.two_word_command_lost"
   ],
   "note": "Any list of frames without CR in texts. Strings with CR, strings cut by the capture, and the choice of the first command fail of the code: each negation is proved for all such payloads."
  },
  {
   "property": "C30",
   "status": "proved",
   "theorems": [
    "Kindling.Url.clustering_spec",
    "Kindling.Url.clustering_segments",
    "Kindling.Url.clustering_bytes",
    "Kindling.Url.clustering_idempotent",
    "Kindling.Url.clustering_ignores_query",
    "Kindling.Url.clustering_refines_baseline",
    "Kindling.Url.clustering_differs_on_blank",
    "Kindling.Url.noParam_spec",
    "Kindling.Url.letters"
   ],
   "note": "Every URL. The refinement of the readable version and the method noparam for URLs without white space (TrimSpace is modelled for ASCII space only)."
  },
  {
   "property": "C21",
   "status": "partial",
   "theorems": [
    "Kindling.Proto.Http.http_never_panics",
    "Kindling.Proto.Mysql.mysql_never_panics_partial",
    "Kindling.Proto.Mysql.mysql_short_error_panics",
    "Kindling.Proto.Redis.redis_terminates",
    "Kindling.Proto.Redis.redis_empty_panics",
    "Kindling.Proto.Dubbo.dubbo_never_panics_partial",
    "Kindling.Proto.Dubbo.dubbo_json_panics",
    "Kindling.Proto.Rocketmq.rocketmq_never_panics",
    "Kindling.Proto.Kafka.kafka_never_panics"
   ],
   "note": "HTTP, RocketMQ and Kafka never panic. The negations are proved universally: MySQL error packets of 6 or 7 bytes, empty Redis payloads, Dubbo JSON requests with a one-byte second line."
  },
  {
   "property": "C22",
   "status": "proved",
   "theorems": [
    "Kindling.Proto.Http.http_response_parsed",
    "Kindling.Proto.Http.no_reason_not_recognised",
    "Kindling.Proto.Http.http_status_range",
    "Kindling.Proto.Http.split_get"
   ],
   "note": "Every three-digit code followed by a blank; without that blank the response is not recognised (RFC 7230 requires the blank)."
  },
  {
   "property": "C24",
   "status": "proved",
   "theorems": [
    "Kindling.Proto.Dubbo.dubbo_response_parsed",
    "Kindling.Proto.Dubbo.dubbo_not_response",
    "Kindling.Proto.Rocketmq.rocketmq_response_parsed"
   ],
   "note": "Every status byte and every code."
  },
  {
   "property": "C31",
   "status": "partial",
   "theorems": [
    "Kindling.Trace.trace_priority",
    "Kindling.Trace.skywalking_id",
    "Kindling.Trace.base64_roundtrip",
    "Kindling.Proto.Http.headers_read",
    "Kindling.Proto.Http.http_request_trace_partial",
    "Kindling.Proto.Http.zipkin_request",
    "Kindling.Proto.Http.empty_header_hides_later",
    "Kindling.Trace.bad_sw8_hides_others",
    "Kindling.Trace.base64_line_breaks",
    "Kindling.Proto.Http.http_response_trace",
    "Kindling.Flow.http_span",
    "Kindling.Proto.Http.lower_letters",
    "Kindling.Proto.Http.nameless_header_hides_later"
   ],
   "note": "Priority and ids hold; a header with an empty value ends header parsing, and an unreadable sw8 header hides the other trace headers: both proved."
  },
  {
   "property": "C62",
   "status": "proved",
   "theorems": [
    "Kindling.Proto.Http.http_request_parsed",
    "Kindling.Proto.Http.not_http_request"
   ],
   "note": "PATCH is not among the methods the code knows."
  },
  {
   "property": "C63",
   "status": "partial",
   "theorems": [
    "Kindling.Sql.checkType_iff",
    "Kindling.Sql.statement_table_partial",
    "Kindling.Sql.statement_shape",
    "Kindling.Sql.column_mistaken_for_key",
    "Kindling.Sql.letters",
    "Kindling.Sql.kinds_of_statement"
   ],
   "note": "For every statement in which the first key word is the real one. Missing: a column whose name ends in the key word is taken for the key word, proved for every such column."
  },
  {
   "property": "C64",
   "status": "partial",
   "theorems": [
    "Kindling.Proto.Mysql.mysql_statement_parsed",
    "Kindling.Proto.Mysql.mysql_other_text",
    "Kindling.Proto.Mysql.mysql_error_code_partial",
    "Kindling.Proto.Mysql.mysql_state_not_separated",
    "Kindling.Proto.Mysql.mysql_text_loses_first",
    "Kindling.Proto.Mysql.mysql_other_response",
    "Kindling.Proto.Mysql.mysql_quit"
   ],
   "note": "Codes hold; the SQL state is never separated from the message and the first byte of a message without state is lost, both proved."
  },
  {
   "property": "C65",
   "status": "proved",
   "theorems": [
    "Kindling.Proto.Dubbo.dubbo_request_parsed"
   ],
   "note": "All names as stated."
  },
  {
   "property": "C23",
   "status": "partial",
   "theorems": [
    "Kindling.Proto.Kafka.kafka_header_iff_partial",
    "Kindling.Proto.Kafka.valid_iff",
    "Kindling.Proto.Kafka.response_run",
    "Kindling.Proto.Kafka.kafka_response_matched",
    "Kindling.Proto.Kafka.null_client_refused"
   ],
   "note": "Requests with a client id; a null client id, which the wire format allows, is refused, proved."
  },
  {
   "property": "C66",
   "status": "partial",
   "theorems": [
    "Kindling.Proto.Rocketmq.rocketmq_request_parsed_partial",
    "Kindling.Proto.Rocketmq.rocketmq_response_parsed",
    "Kindling.Proto.Rocketmq.rocketmq_matched",
    "Kindling.Proto.Rocketmq.remark_hides_topic",
    "Kindling.Proto.Rocketmq.rocketmq_unreadable_refused"
   ],
   "note": "Binary headers without remark and all JSON headers; a remark hides the topic, proved."
  },
  {
   "property": "C67",
   "status": "partial",
   "theorems": [
    "Kindling.Proto.Kafka.kafka_produce_topic_partial",
    "Kindling.Proto.Kafka.kafka_fetch_topic_partial",
    "Kindling.Proto.Kafka.kafka_response_parsed",
    "Kindling.Proto.Kafka.flexible_produce_misread",
    "Kindling.Proto.Kafka.flexible_fetch_misread",
    "Kindling.Proto.Kafka.kafka_empty_response",
    "Kindling.Proto.Kafka.supported_versions",
    "Kindling.Proto.array_size_roundtrip",
    "Kindling.Proto.compact_array_size_roundtrip"
   ],
   "note": "All versions before the flexible ones (Produce 9, Fetch 12), whose headers the code misreads: proved."
  },
  {
   "property": "C25",
   "status": "partial",
   "theorems": [
    "Kindling.Net.Cache.add_refines",
    "Kindling.Net.Cache.remove_refines",
    "Kindling.Net.Cache.cache_history_partial",
    "Kindling.Net.Cache.reader_sees_add",
    "Kindling.Net.Cache.reader_keeps_on_remove"
   ],
   "note": "Sequential histories hold in full; a reader holding a list from before an addition sees the new parser in place of the generic one, proved."
  },
  {
   "property": "C26",
   "status": "partial",
   "theorems": [
    "Kindling.Model.sendmmsg_partial",
    "Kindling.Model.split_encode",
    "Kindling.Model.split_truncated",
    "Kindling.Model.split_drops_empty_last",
    "Kindling.Model.resVal_signed"
   ],
   "note": "Everything except an empty last message, which is lost: proved."
  },
  {
   "property": "C57",
   "status": "partial",
   "theorems": [
    "Kindling.Model.Attr.attribute_maps_partial",
    "Kindling.Model.Attr.other_map_unchanged",
    "Kindling.Model.Attr.clone_same",
    "Kindling.Model.Attr.read_after_add",
    "Kindling.Model.Attr.merge_shares"
   ],
   "note": "Maps are independent as long as the merged map is given up, as all callers do; otherwise Merge makes two maps share values, proved."
  },
  {
   "property": "C68",
   "status": "partial",
   "theorems": [
    "Kindling.Net.Dispatch.cache_is_history",
    "Kindling.Net.Dispatch.recognised_partial",
    "Kindling.Net.Dispatch.static_port",
    "Kindling.Net.Dispatch.masked_by_generic",
    "Kindling.Net.Dispatch.masked_example"
   ],
   "note": "Order and fallback hold; a port where generic is remembered no longer tries protocols not remembered, until the generic counter is exhausted: proved."
  },
  {
   "property": "C69",
   "status": "proved",
   "theorems": [
    "Kindling.Net.Record.record_labels",
    "Kindling.Net.Record.connect_fail_labels",
    "Kindling.Net.Record.slowOf_iff"
   ],
   "note": "As stated, for well-typed recycled records; see C71 for short Dubbo payloads."
  },
  {
   "property": "C70",
   "status": "partial",
   "theorems": [
    "Kindling.Net.Record.recycled_reads_alike_partial",
    "Kindling.Net.Record.recycled_keeps_names",
    "Kindling.Net.Record.pooled_zero"
   ],
   "note": "Values read are the same; names of earlier uses stay with zero values, proved."
  },
  {
   "property": "C71",
   "status": "partial",
   "theorems": [
    "Kindling.Net.Record.payload_ok_partial",
    "Kindling.Net.Record.short_dubbo_payload_panics"
   ],
   "note": "Holds except for Dubbo payloads shorter than 16 bytes (a port configured as Dubbo), which panic: proved."
  },
  {
   "property": "C32",
   "status": "partial",
   "theorems": [
    "Kindling.Cpu.put_known",
    "Kindling.Cpu.thread_history_partial",
    "Kindling.Cpu.odd_size_breaks"
   ],
   "note": "Holds for every even segment size and for 1; for odd sizes above 1 the order of seconds is lost after a half shift: proved."
  },
  {
   "property": "C33",
   "status": "partial",
   "theorems": [
    "Kindling.Cpu.put_known",
    "Kindling.Cpu.put_new",
    "Kindling.Cpu.thread_history_partial",
    "Kindling.Cpu.event_kept",
    "Kindling.Cpu.size_one_drops",
    "Kindling.Cpu.long_event_missing"
   ],
   "note": "Filing is exact except where events start before a new window or span more than it; these are proved to be missing from seconds they cover."
  },
  {
   "property": "C34",
   "status": "partial",
   "theorems": [
    "Kindling.Cpu.send_thread_partial",
    "Kindling.Cpu.send_proc",
    "Kindling.Cpu.resent",
    "Kindling.Cpu.event_clears_mark",
    "Kindling.Cpu.quiet_keeps",
    "Kindling.Cpu.mem_wanted",
    "Kindling.Cpu.task_covers",
    "Kindling.Cpu.last_edge_second_missing"
   ],
   "note": "Exactly the wanted segments are sent and marked; segments already sent are sent again by the next signal, and the last edge second can be missing: both proved."
  },
  {
   "property": "C35",
   "status": "partial",
   "theorems": [
    "Kindling.Cpu.Expire.sweep_spec",
    "Kindling.Cpu.Expire.exited_are_removed_partial",
    "Kindling.Cpu.Expire.living_kept",
    "Kindling.Cpu.Expire.queue_from_exits",
    "Kindling.Cpu.Expire.reused_key_removed",
    "Kindling.Cpu.Expire.late_event_stays",
    "Kindling.Cpu.Expire.process_entry_stays",
    "Kindling.Cpu.Expire.sweeper_dies_with_first_stop",
    "Kindling.Cpu.Expire.double_stop_panics"
   ],
   "note": "Removal after the delay and not before, proved for monotone clocks; a reused thread id is removed by the old exit, a late event leaks, pid entries stay, and the Java sweeper is not restarted: proved."
  },
  {
   "property": "C36",
   "status": "partial",
   "theorems": [
    "Kindling.Tcp.attempts_reported_once_partial",
    "Kindling.Tcp.reports_at_most_opens",
    "Kindling.Tcp.report_code",
    "Kindling.Tcp.port_zero_suppressed"
   ],
   "note": "For every connection with a source port; outcomes of connections with source port 0 are dropped on events (not in the sweep), proved."
  },
  {
   "property": "C37",
   "status": "partial",
   "theorems": [
    "Kindling.Tcp.swept_partial",
    "Kindling.Tcp.unknown_process_never_swept",
    "Kindling.Tcp.unknown_process_leaks",
    "Kindling.Tcp.short_wait_panics"
   ],
   "note": "Holds for attempts whose process is known; attempts seen only by tcp_connect are never swept, proved for every sequence of sweeps."
  },
  {
   "property": "C72",
   "status": "partial",
   "theorems": [
    "Kindling.Cpu.Signal.triggers_spec_partial",
    "Kindling.Cpu.Signal.receives_spec",
    "Kindling.Cpu.Signal.disabled_ignores",
    "Kindling.Cpu.Signal.keys_collide"
   ],
   "note": "As stated, except that two URLs can collide on one candidate key: proved."
  },
  {
   "property": "C73",
   "status": "partial",
   "theorems": [
    "Kindling.Cpu.Expire.slowTrace_iff_partial",
    "Kindling.Cpu.Expire.backwards_is_slow"
   ],
   "note": "The decision is exact; a trace whose clock ran backwards counts as slow, proved."
  },
  {
   "property": "C74",
   "status": "proved",
   "theorems": [
    "Kindling.Tcp.Proc.proc_table_read",
    "Kindling.Tcp.Proc.ipLong_injective",
    "Kindling.Tcp.Proc.listed_has_state",
    "Kindling.Tcp.Proc.bad_line_fails",
    "Kindling.Tcp.Proc.parseUint_exact",
    "Kindling.Tcp.Proc.hexVal_digits"
   ],
   "note": "For every IPv4 table in the kernel's format. One malformed line makes the whole table unreadable, proved."
  },
  {
   "property": "C38",
   "status": "partial",
   "theorems": [
    "Kindling.K8s.Cache.last_registered_partial",
    "Kindling.K8s.Cache.step_spec",
    "Kindling.K8s.Cache.getContainer_spec",
    "Kindling.K8s.Cache.run_inner",
    "Kindling.K8s.Cache.hostKey_inj",
    "Kindling.K8s.Cache.clear_keeps_host_ports",
    "Kindling.K8s.Cache.add_lost_to_sweep",
    "Kindling.K8s.Cache.add_kept_without_interleaving",
    "Kindling.K8s.Cache.uninterrupted_calls_exact"
   ],
   "note": "Exact for every sequence of atomic operations. An unknown port falls back to any container of the address; ClearAll keeps host ports; an add that races with a sweep of the same address is lost: all proved."
  },
  {
   "property": "C39",
   "status": "partial",
   "theorems": [
    "Kindling.K8s.Pods.add_registers",
    "Kindling.K8s.Pods.sweep_spec",
    "Kindling.K8s.Pods.run_inv",
    "Kindling.K8s.Pods.kept_for_grace",
    "Kindling.K8s.Pods.gone_after_grace_partial",
    "Kindling.K8s.Pods.others_kept",
    "Kindling.K8s.Pods.update_requests_stale",
    "Kindling.K8s.Pods.regained_key_removed",
    "Kindling.K8s.Pods.recreated_pod_forgotten",
    "Kindling.K8s.Pods.forgotten_pod_leaks",
    "Kindling.K8s.Pods.workload_dropped"
   ],
   "note": "Not before, not later and not others', for every history with a clock that does not run backwards. A key lost and regained within the grace period is removed, a pod re-created under the same name is forgotten, and a workload is dropped with the first of its pods: proved."
  },
  {
   "property": "C40",
   "status": "proved",
   "theorems": [
    "Kindling.K8s.selectorsMatch_iff",
    "Kindling.K8s.Service.reported_iff",
    "Kindling.K8s.Service.selected_pods_iff",
    "Kindling.K8s.Service.service_address",
    "Kindling.K8s.Service.late_node_not_registered",
    "Kindling.K8s.Service.added_service_found"
   ],
   "note": "For every history of service events. A node that joins later is not registered for existing node port services, proved."
  },
  {
   "property": "C41",
   "status": "partial",
   "theorems": [
    "Kindling.K8s.Nodes.replica_set_lookup_partial",
    "Kindling.K8s.Nodes.node_of_address",
    "Kindling.K8s.Nodes.internalIp_spec",
    "Kindling.K8s.Nodes.deleted_node_found",
    "Kindling.K8s.Nodes.old_address_found",
    "Kindling.K8s.Service.deleted_service_gone",
    "Kindling.K8s.Nodes.controller_first"
   ],
   "note": "Holds for replica sets. For nodes it fails: a deleted node stays in the map because the deletion uses the name as key, proved for every node."
  },
  {
   "property": "C42",
   "status": "proved",
   "theorems": [
    "Kindling.K8s.diff_exact"
   ],
   "note": "For all lists."
  },
  {
   "property": "C43",
   "status": "proved",
   "theorems": [
    "Kindling.K8s.truncate_spec"
   ],
   "note": "For all strings."
  },
  {
   "property": "C75",
   "status": "proved",
   "theorems": [
    "Kindling.K8s.workload_of_pod",
    "Kindling.K8s.deployment_of_replicaset",
    "Kindling.K8s.deployment_of_other",
    "Kindling.K8s.mapKey_inj",
    "Kindling.K8s.Nodes.pod_workload",
    "Kindling.K8s.completeGVK_iff",
    "Kindling.K8s.isHash_iff"
   ],
   "note": "Names of one line; namespaces without a slash."
  },
  {
   "property": "C76",
   "status": "proved",
   "theorems": [
    "Kindling.K8s.Service.pod_service_current",
    "Kindling.K8s.Service.orphaned_pod"
   ],
   "note": "References are never stale. A pod selected by two services is left without one when the service added last is deleted, proved."
  },
  {
   "property": "C44",
   "status": "proved",
   "theorems": [
    "Kindling.Proc.K8s.one_port_left",
    "Kindling.Proc.K8s.nat_replaces_destination"
   ],
   "note": "For all labels and lookup results. Lookups are arbitrary functions; metaOf instantiates them with the cache of C38."
  },
  {
   "property": "C45",
   "status": "partial",
   "theorems": [
    "Kindling.Proc.K8s.destination_labels_partial",
    "Kindling.Proc.K8s.host_port_namespace_lost",
    "Kindling.Proc.K8s.Table.connection_labels"
   ],
   "note": "Holds for services, containers behind services, containers and pods. For host ports the namespace is overwritten by \"not found\" (a return is missing), proved for every cache in which no pod has the address."
  },
  {
   "property": "C77",
   "status": "proved",
   "theorems": [
    "Kindling.Proc.K8s.request_source",
    "Kindling.Proc.K8s.request_destination",
    "Kindling.Proc.K8s.loopback_to_own_pod",
    "Kindling.Proc.K8s.server_destination",
    "Kindling.Proc.K8s.Table.request_labels",
    "Kindling.Proc.K8s.Table.request_ports",
    "Kindling.Proc.K8s.Table.connection_labels"
   ],
   "note": "For all labels and lookup results."
  },
  {
   "property": "C46",
   "status": "partial",
   "theorems": [
    "Kindling.Ctl.Module.starts_and_stops_alternate_partial",
    "Kindling.Ctl.Module.request_outcome",
    "Kindling.Ctl.Module.responses_tell_status",
    "Kindling.Ctl.Module.failed_start_is_running",
    "Kindling.Ctl.Module.initially_started_panics"
   ],
   "note": "Starts and stops alternate in every history. A start that reports the error of a sub-module leaves the module running, and stopping a module that was started by configuration closes a nil channel: both proved."
  },
  {
   "property": "C47",
   "status": "partial",
   "theorems": [
    "Kindling.Ctl.Module.timer_stops_own_run_partial",
    "Kindling.Ctl.Module.timer_stops_any_run"
   ],
   "note": "Holds for schedules in which a cancelled timer goroutine runs before its timer fires. Otherwise a timer stops a later run, proved."
  },
  {
   "property": "C48",
   "status": "partial",
   "theorems": [
    "Kindling.Ctl.Manager.analyzers_of_event",
    "Kindling.Ctl.Manager.event_reaches_subscribers_partial",
    "Kindling.Ctl.Manager.consume_all_analyzer_skipped",
    "Kindling.Ctl.Manager.refused_iff"
   ],
   "note": "Exact for at most one analyzer of all events. With two, an event somebody lists by name reaches only the last of them, proved."
  },
  {
   "property": "C49",
   "status": "proved",
   "theorems": [
    "Kindling.Export.Adapter.metrics_kept",
    "Kindling.Export.Adapter.group_metrics",
    "Kindling.Export.Adapter.group_converters",
    "Kindling.Export.Adapter.single_record",
    "Kindling.Export.Adapter.names_distinct",
    "Kindling.Export.Adapter.unknown_metric_unnamed"
   ],
   "note": "For all metrics and labels. A metric that is not in the name table is kept but loses its name, proved."
  },
  {
   "property": "C50",
   "status": "proved",
   "theorems": [
    "Kindling.Export.Labels.converted_list",
    "Kindling.Export.Labels.duplicate_goes_to_first",
    "Kindling.Export.Adapter.exported_labels",
    "Kindling.Export.Adapter.metric_dictionaries",
    "Kindling.Export.Adapter.span_dictionaries",
    "Kindling.Export.Adapter.redis_span_comm"
   ],
   "note": "For all dictionaries with distinct keys and all lists the pool may hold. The dictionary of Redis spans has a duplicate key: the command name of every Redis span is overwritten with the response payload, proved for all labels."
  },
  {
   "property": "C51",
   "status": "proved",
   "theorems": [
    "Kindling.Export.Labels.grades",
    "Kindling.Export.Labels.grades_monotone"
   ],
   "note": "For all durations."
  },
  {
   "property": "C52",
   "status": "partial",
   "theorems": [
    "Kindling.Export.Sanitize.sanitized_name_partial",
    "Kindling.Export.Sanitize.sanitize_panics_iff",
    "Kindling.Export.Sanitize.foreign_letters_kept",
    "Kindling.Export.Sanitize.sanitize_exact"
   ],
   "note": "Names consist of letters, digits and underscores and start with no digit, but letters and digits outside ASCII are kept. It panics exactly for one-character names that become an underscore when label sanitising is skipped."
  },
  {
   "property": "C58",
   "status": "proved",
   "theorems": [
    "Kindling.Proc.Sampling.sampled_iff",
    "Kindling.Proc.Sampling.sampling_rate",
    "Kindling.Proc.Sampling.sampling_never_drops",
    "Kindling.Proc.Sampling.default_rates",
    "Kindling.Proc.Sampling.error_type_only_never_forwarded",
    "Kindling.Proc.Sampling.groups_and_selectors"
   ],
   "note": "For all records, draws and rates."
  },
  {
   "property": "C59",
   "status": "proved",
   "theorems": [
    "Kindling.Proc.Sampling.traffic_direction",
    "Kindling.Proc.Sampling.node_no_panic",
    "Kindling.Proc.Sampling.getMetric_first"
   ],
   "note": "For all records."
  },
  {
   "property": "C60",
   "status": "proved",
   "theorems": [
    "Kindling.Ctl.Manager.request_direction"
   ],
   "note": "For all event names and roles."
  },
  {
   "property": "C78",
   "status": "proved",
   "theorems": [
    "Kindling.Export.Labels.transformed_map",
    "Kindling.Export.Labels.list_and_map_agree",
    "Kindling.Export.Labels.missing_value_keeps_old",
    "Kindling.Export.Adapter.exported_map",
    "Kindling.Export.Span.span_attributes_partial",
    "Kindling.Export.Span.span_flags"
   ],
   "note": "For all dictionaries with distinct keys and all lists and maps of the pools. In a map a value label without a value keeps the one of an earlier group, proved."
  },
  {
   "property": "C53",
   "status": "partial",
   "theorems": [
    "Kindling.Export.Files.files_bounded_partial",
    "Kindling.Export.Files.oldest_removed",
    "Kindling.Export.Files.few_kept",
    "Kindling.Export.Files.only_marked_removed",
    "Kindling.Export.Files.limit_one_panics",
    "Kindling.Export.Files.rewritten_file_lost"
   ],
   "note": "For limits of two and more. A limit of one panics, and a file written again under an old name is removed although it is new; both proved."
  },
  {
   "property": "C54",
   "status": "partial",
   "theorems": [
    "Kindling.Export.Files.elements_survive_partial",
    "Kindling.Export.Files.names_read",
    "Kindling.Export.Files.pid_not_in_attributes"
   ],
   "note": "Proved for labels that carry the process id. Missing: the process id itself is not among the attributes written, proved as a finding."
  },
  {
   "property": "C55",
   "status": "proved",
   "theorems": [
    "Kindling.Conn.Cache.history_refines",
    "Kindling.Conn.Cache.register_refines",
    "Kindling.Conn.Cache.get_refines",
    "Kindling.Conn.Cache.remove_refines",
    "Kindling.Conn.Cache.sweep_refines",
    "Kindling.Conn.Cache.evicts_iff",
    "Kindling.Conn.Cache.dangling_orphan_never_ends"
   ],
   "note": "Refinement of a flat list of entries with expiry, for all histories with a monotone clock."
  },
  {
   "property": "C56",
   "status": "proved",
   "theorems": [
    "Kindling.Conn.Lookup.dnat_sound",
    "Kindling.Conn.Lookup.dnat_found",
    "Kindling.Conn.Lookup.addr_eq_iff",
    "Kindling.Conn.Lookup.ip_round_trip",
    "Kindling.Conn.Lookup.isNAT_iff",
    "Kindling.Conn.Lookup.register_nat",
    "Kindling.Conn.Lookup.register_plain",
    "Kindling.Conn.Lookup.stale_translation",
    "Kindling.Conn.Lookup.no_cache_panics",
    "Kindling.Conn.Lookup.missing_address_panics",
    "Kindling.Conn.Lookup.incomplete_ignored",
    "Kindling.Conn.Lookup.mapped_address"
   ],
   "note": "For all histories of registrations, lookups and deletions. Findings proved: a later connection without translation leaves the old translation in place, a limit that is not positive crashes, and so does a tuple without address."
  },
  {
   "property": "C79",
   "status": "proved",
   "theorems": [
    "Kindling.Export.Files.dirs_distinct",
    "Kindling.Export.Files.files_distinct",
    "Kindling.Export.Files.dates_distinct",
    "Kindling.Export.Files.traces_distinct",
    "Kindling.Export.Files.encode64_inj",
    "Kindling.Export.Files.date_clean",
    "Kindling.Export.Files.encode64_value",
    "Kindling.Export.Files.name_has_no_separator",
    "Kindling.Export.Files.long_key_long_name"
   ],
   "note": "For all path elements that meet the stated conditions. long_key_long_name is a finding: the content key is not cut, so with 180 bytes or more the file cannot be created on Linux."
  },
  {
   "property": "C80",
   "status": "partial",
   "theorems": [
    "Kindling.Conn.Consumer.stays_open",
    "Kindling.Conn.Consumer.opened_by_update",
    "Kindling.Conn.Consumer.first_interval",
    "Kindling.Conn.Consumer.calm_stays_closed",
    "Kindling.Conn.Consumer.busy_opens_partial",
    "Kindling.Conn.Consumer.slight_overload_never_opens",
    "Kindling.Conn.Consumer.resample_lower",
    "Kindling.Conn.Consumer.share_after_trips",
    "Kindling.Conn.Consumer.passes_iff",
    "Kindling.Conn.Consumer.passed_share",
    "Kindling.Conn.Consumer.worn_out"
   ],
   "note": "For all histories, with exact fractions for the float64 arithmetic. A load of at most four events per second above the limit may never open it because the rate is rounded down, proved. The share of messages is never raised again, so after 433 openings none passes (worn_out)."
  },
  {
   "property": "C81",
   "status": "partial",
   "theorems": [
    "Kindling.Conn.Decode.message_decodes",
    "Kindling.Conn.Decode.all_decoded",
    "Kindling.Conn.Decode.encode_decode",
    "Kindling.Conn.Decode.scan_wire",
    "Kindling.Conn.Decode.no_other_panic_partial",
    "Kindling.Conn.Decode.short_proto_panics",
    "Kindling.Conn.Consumer.event_runs",
    "Kindling.Conn.Decode.too_short_refused"
   ],
   "note": "For all connections and further attributes. Protocol attributes that are too short crash the process, proved; nothing else in the decoder does."
  },
  {
   "property": "C82",
   "status": "partial",
   "theorems": [
    "Kindling.Conn.Consumer.all_received_partial",
    "Kindling.Conn.Consumer.dump_received",
    "Kindling.Conn.Consumer.error_drops_read",
    "Kindling.Conn.Consumer.dump_with_error_never_ends"
   ],
   "note": "An error code in a read drops the whole read, and a dump then does not end; both proved."
  },
  {
   "property": "C83",
   "status": "partial",
   "theorems": [
    "Kindling.K8s.Provider.client_complete_partial",
    "Kindling.K8s.Provider.client_nearly_complete",
    "Kindling.K8s.Provider.client_state",
    "Kindling.K8s.Provider.client_nodes",
    "Kindling.K8s.Provider.client_replica_sets",
    "Kindling.K8s.Provider.watcher_size",
    "Kindling.K8s.Provider.types_reordered",
    "Kindling.K8s.Provider.tombstone_lost",
    "Kindling.K8s.Provider.three_attempts",
    "Kindling.K8s.Provider.two_attempts_after_success"
   ],
   "note": "For all interleavings; pods and services are abstract and an update of the cache is one step. Changes of different types may arrive in another order, a deletion the informer only infers is lost, and the retry loop allows only two attempts after a success, all proved."
  },
  {
   "property": "C84",
   "status": "partial",
   "theorems": [
    "Kindling.Cpu.Task.callback_once",
    "Kindling.Cpu.Task.one_loop",
    "Kindling.Cpu.Task.no_run_after_end",
    "Kindling.Cpu.Task.end_stops_ticks",
    "Kindling.Cpu.Task.stop_served_partial",
    "Kindling.Cpu.Task.at_most_one_stuck",
    "Kindling.Cpu.Task.routine_size",
    "Kindling.Cpu.Task.stop_hangs",
    "Kindling.Cpu.Task.runs_are_ticks",
    "Kindling.Cpu.Timed.runs_on_time",
    "Kindling.Cpu.Timed.ends_after_n",
    "Kindling.Cpu.Timed.ends_in_time",
    "Kindling.Cpu.Timed.last_run_is_luck",
    "Kindling.Cpu.Timed.kept_waiting_no_run"
   ],
   "note": "A Stop racing with the timer never returns, proved. Cpu/Timed.lean adds the clock: a loop that is never kept waiting for half a period runs the task on time and ends in time, after all its runs or one less (last_run_is_luck); without that condition it may end without a run. Stop is left out there."
  },
  {
   "property": "C85",
   "status": "partial",
   "theorems": [
    "Kindling.Ctl.Receiver.converted_attr",
    "Kindling.Ctl.Receiver.in_order",
    "Kindling.Ctl.Receiver.all_consumed_partial",
    "Kindling.Ctl.Receiver.drains",
    "Kindling.Ctl.Receiver.no_fetch_after_close",
    "Kindling.Ctl.Receiver.shutdown_can_return",
    "Kindling.Ctl.Receiver.lost_at_shutdown",
    "Kindling.Ctl.Receiver.stats_exact",
    "Kindling.Ctl.Receiver.stats_once",
    "Kindling.Ctl.Receiver.too_many_params",
    "Kindling.Ctl.Receiver.shutdown_hangs",
    "Kindling.Ctl.Receiver.shutdown_hang_reachable",
    "Kindling.Ctl.Receiver.rawName_spec"
   ],
   "note": "For all interleavings. Shutdown never returns if the consumer leaves first with more events in flight than the channel holds, and an event claiming more than 16 parameters crashes the collector; both proved."
  },
  {
   "property": "C86",
   "status": "proved",
   "theorems": [
    "Kindling.Tcp.Metric.labels_exact",
    "Kindling.Tcp.Metric.rtt_reported",
    "Kindling.Tcp.Metric.drop_reported",
    "Kindling.Tcp.Metric.retransmit_reported",
    "Kindling.Tcp.Metric.other_events",
    "Kindling.Tcp.Metric.incomplete_events",
    "Kindling.Tcp.Metric.short_param_panics",
    "Kindling.Tcp.Metric.later_config_ignored",
    "Kindling.Tcp.Metric.uint_read",
    "Kindling.Tcp.Metric.int_read",
    "Kindling.Tcp.Metric.unusual_parameters",
    "Kindling.Tcp.Metric.tracker_ports"
   ],
   "note": "For all events the probe can send; parameters shorter than their type, which the probe does not send, would crash it, proved."
  },
  {
   "property": "C87",
   "status": "partial",
   "theorems": [
    "Kindling.Export.Prom.counter_exported_partial",
    "Kindling.Export.Prom.rtt_exported",
    "Kindling.Export.Prom.histogram_exported",
    "Kindling.Export.Prom.only_live_exported",
    "Kindling.Export.Prom.labels_restored",
    "Kindling.Export.Prom.no_panic",
    "Kindling.Export.Prom.later_group_ignored",
    "Kindling.Export.Prom.other_groups_dropped",
    "Kindling.Export.Prom.rtt_counter_falls",
    "Kindling.Export.Prom.typed_labels_collide",
    "Kindling.Export.Prom.other_histogram_flattened",
    "Kindling.Export.Prom.five_minutes",
    "Kindling.Export.Prom.added_up_as",
    "Kindling.Export.Prom.routed_as"
   ],
   "note": "Proved for the metrics of the first record of a label set. The full claim is false: all groups share one series per label set, so a retransmit group with the labels of an existing round-trip series is ignored (later_group_ignored); two kinds of groups are dropped (other_groups_dropped); labels that differ only in type collide (typed_labels_collide); the round-trip time is exported as a counter that falls."
  },
  {
   "property": "C88",
   "status": "partial",
   "theorems": [
    "Kindling.Export.Otel.batches_exact_partial",
    "Kindling.Export.Otel.gauge_observed",
    "Kindling.Export.Otel.panics_iff",
    "Kindling.Export.Otel.observer_once",
    "Kindling.Export.Otel.observed_labels",
    "Kindling.Export.Otel.gauge_series_iff",
    "Kindling.Export.Otel.trace_labels_kept",
    "Kindling.Export.Otel.trace_labels_blank",
    "Kindling.Export.Otel.unsupported_gauge",
    "Kindling.Export.Otel.histograms_dropped",
    "Kindling.Export.Otel.restart_loses_values",
    "Kindling.Export.Otel.fits_iff"
   ],
   "note": "Proved for every history. Partial because the full claim fails for gauges other than the three supported (never reported, one more observer per value), for histogram metrics (dropped) and across a meter renewal (values waiting are lost); three selected labels are computed by no converter."
  },
  {
   "property": "C89",
   "status": "partial",
   "theorems": [
    "Kindling.Proc.Aggregate.configured_kinds",
    "Kindling.Proc.Aggregate.default_kinds",
    "Kindling.Proc.Aggregate.aggregated_labels",
    "Kindling.Proc.Aggregate.aggregated_export_partial",
    "Kindling.Proc.Aggregate.exported_entry",
    "Kindling.Proc.Aggregate.dubbo_code_lost",
    "Kindling.Proc.Aggregate.redis_error_lost",
    "Kindling.Proc.Aggregate.default_drops_connections"
   ],
   "note": "Configuration and labels are proved in full; the exported labels for every label except two. The full claim is false: dubbo_error_code and error_type are not selected, so the exported Dubbo code is always 0 (dubbo_code_lost) and the exported Redis content always says no error (redis_error_lost). The built-in default aggregates no connection metrics (default_drops_connections)."
  },
  {
   "property": "C90",
   "status": "partial",
   "theorems": [
    "Kindling.Flow.parsed_kept",
    "Kindling.Flow.parsed_attrs",
    "Kindling.Flow.exported_attr_partial",
    "Kindling.Flow.exported_single",
    "Kindling.Flow.http_metrics",
    "Kindling.Flow.http_metrics_no_response",
    "Kindling.Flow.mysql_metrics",
    "Kindling.Flow.dns_metrics",
    "Kindling.Flow.rocketmq_metrics",
    "Kindling.Flow.kafka_metrics",
    "Kindling.Flow.dubbo_metrics",
    "Kindling.Flow.redis_metrics",
    "Kindling.Flow.exchange_exists",
    "Kindling.Flow.http_span",
    "Kindling.Flow.mysql_span",
    "Kindling.Flow.dubbo_span",
    "Kindling.Flow.rocketmq_span",
    "Kindling.Flow.dns_span",
    "Kindling.Flow.error_label",
    "Kindling.Flow.joined_ips_split",
    "Kindling.Flow.all_read"
   ],
   "note": "Proved from bytes to exported labels for HTTP, MySQL, DNS and RocketMQ, and for the request side of Kafka, Dubbo and Redis. The full claim is false for the response side of those three: the code of Kafka is not exported, that of Dubbo is always 0 and an error of Redis is never shown in aggregated metrics (the theorems state these values). The well-formedness conditions are those of the parser theorems."
  },
  {
   "property": "C91",
   "status": "partial",
   "theorems": [
    "Kindling.Export.Documented.service_metrics_documented",
    "Kindling.Export.Documented.topology_metrics_documented_partial",
    "Kindling.Export.Documented.external_metrics_documented_partial",
    "Kindling.Export.Documented.trace_metric_documented",
    "Kindling.Export.Documented.names_documented",
    "Kindling.Export.Documented.span_times",
    "Kindling.Export.Documented.topology_total_has_is_slow",
    "Kindling.Export.Documented.grpc_content_exported"
   ],
   "note": "is_slow is also exported with the number of requests of the topology, where it is not documented, and the contents of gRPC requests are exported although documented as empty; everything else agrees."
  },
  {
   "property": "C92",
   "status": "partial",
   "theorems": [
    "Kindling.Model.Group.getMetric_first",
    "Kindling.Model.Group.op_step",
    "Kindling.Model.Group.update_read",
    "Kindling.Model.Group.update_unique",
    "Kindling.Model.Group.remove_exact",
    "Kindling.Model.Group.clone_step",
    "Kindling.Model.Group.clone_independent_partial",
    "Kindling.Model.Group.clone_shares_buckets"
   ],
   "note": "Independence is proved for every operation the records offer. It is false for the bucket arrays of histograms, which a clone shares (clone_shares_buckets); no code in the repository writes into them."
  },
  {
   "property": "C93",
   "status": "partial",
   "theorems": [
    "Kindling.Ctl.Api.status_answer",
    "Kindling.Ctl.Api.unknown_operation",
    "Kindling.Ctl.Api.start_answer_partial",
    "Kindling.Ctl.Api.stop_answer",
    "Kindling.Ctl.Api.probe_operations",
    "Kindling.Ctl.Api.timers_asked",
    "Kindling.Ctl.Api.set_up",
    "Kindling.Ctl.Api.body_status",
    "Kindling.Ctl.Api.plain_number_is_nanoseconds",
    "Kindling.Ctl.Api.unreadable_options_ignored",
    "Kindling.Ctl.Api.file_watch_panics",
    "Kindling.Ctl.Api.no_http_section_panics",
    "Kindling.Ctl.Api.enable_ignored",
    "Kindling.Ctl.Api.module_twice_panics"
   ],
   "note": "The full claim is false: a plain number as duration counts nanoseconds, options that cannot be read are ignored, watching a file panics, and so does a configuration without http section or with a module listed twice; the flag enable is ignored."
  },
  {
   "property": "C94",
   "status": "partial",
   "theorems": [
    "Kindling.Cpu.Events.parseUint_exact",
    "Kindling.Cpu.Events.words_encode",
    "Kindling.Cpu.Events.cpu_last",
    "Kindling.Cpu.Events.cpu_panics",
    "Kindling.Cpu.Events.cpu_event_roundtrip",
    "Kindling.Cpu.Events.dispatch",
    "Kindling.Cpu.Events.futex_event_roundtrip_partial",
    "Kindling.Cpu.Events.span_event_roundtrip",
    "Kindling.Cpu.Events.tx_event_roundtrip",
    "Kindling.Cpu.Events.unreadable_end_lost",
    "Kindling.Cpu.Events.trace_put",
    "Kindling.Cpu.Events.trace_ids",
    "Kindling.Cpu.Events.cpu_absent",
    "Kindling.Cpu.Events.no_end_time"
   ],
   "note": "Round trips for every kind of event; for locks and spans the end must have 19 digits (2001 to 2286), because the probe copies 19 bytes. The full claim is false: an event whose end cannot be read is in no second of the timeline, and a time with too few bytes panics (cpu_panics)."
  },
  {
   "property": "C95",
   "status": "partial",
   "theorems": [
    "Kindling.Tcp.Report.told_is_understood",
    "Kindling.Tcp.Report.key_injective",
    "Kindling.Tcp.Report.reports_exact_partial",
    "Kindling.Tcp.Report.noise_ignored",
    "Kindling.Tcp.Report.process_lost",
    "Kindling.Tcp.Report.timeout_without_errno",
    "Kindling.Tcp.Report.short_result_panics",
    "Kindling.Tcp.Report.tupleKey_ports"
   ],
   "note": "The groups are exactly the reports in the life of the attempts, for every sequence of events. The full claim is false: a connection established before connect returns is reported without process and container (process_lost), an attempt that timed out has error number 0 (timeout_without_errno), and a parameter with too few bytes panics."
  },
  {
   "property": "C96",
   "status": "partial",
   "theorems": [
    "Kindling.Conn.Socket.receive_exact_partial",
    "Kindling.Conn.Socket.parse_sound",
    "Kindling.Conn.Socket.netns_exact",
    "Kindling.Conn.Socket.load_runs",
    "Kindling.Conn.Socket.stream_runs",
    "Kindling.Conn.Socket.cut_lost",
    "Kindling.Conn.Socket.namespaces_collide",
    "Kindling.Conn.Socket.netns_first_four"
   ],
   "note": "Round trip of datagrams for all messages, paddings and leftovers (receive_exact_partial), and the converse that nothing is invented (parse_sound); composed with decoding and registering up to the cache on which dnat_sound and dnat_found speak (load_runs, stream_runs). Findings: a datagram beyond 32 KB loses all its messages (cut_lost); the namespace is read but not used as part of the key (namespaces_collide). Partial: stream without throttling and compaction in between, little endian machines, the Go parser of netlink messages as in its source."
  },
  {
   "property": "C97",
   "status": "partial",
   "theorems": [
    "Kindling.Conn.Dump.dumped_exactly_partial",
    "Kindling.Conn.Dump.root_only",
    "Kindling.Conn.Dump.handles_leak",
    "Kindling.Conn.Dump.list_leaks",
    "Kindling.Conn.Dump.thread_stranded",
    "Kindling.Conn.Dump.endless_dump_blocks",
    "Kindling.Conn.Dump.throttling_leaks",
    "Kindling.Conn.Dump.one_handle_each",
    "Kindling.Conn.Dump.socket_opened"
   ],
   "note": "Proved: each namespace once, root first, failures skipped, channel closed, thread back if it may go back. Refuted: handles. WithNS never closes the handle of the previous namespace, WithRootNS that of the root (handles_leak, throttling_leaks: two per throttling, without bound; list_leaks); a thread that cannot go back is released in the wrong namespace (thread_stranded); one endless dump blocks the others (endless_dump_blocks). The protocol of isPeerNS is an oracle."
  },
  {
   "property": "C98",
   "status": "proved",
   "theorems": [
    "Kindling.Flow.Who.metric_labels",
    "Kindling.Flow.Who.trace_labels",
    "Kindling.Flow.Who.server_named",
    "Kindling.Flow.Who.server_unknown",
    "Kindling.Flow.Who.client_named",
    "Kindling.Flow.Who.service_named",
    "Kindling.Flow.Who.outside_named",
    "Kindling.Flow.Who.handled_exists"
   ],
   "note": "Composition of the record (C69), the tables of the metadata processor (C77), the aggregation (C89) and the adapter (C91).  The code of Dubbo and the kind of error, which the result of Redis is taken from, are lost in the aggregation (`kept`, findings of C89); the statement is exact with that.  Excluded: the protocol name grpc, which no parser has.  The records of the pool hold texts under the names of the metadata processor."
  },
  {
   "property": "C99",
   "status": "partial",
   "theorems": [
    "Kindling.K8s.Locks.no_deadlock",
    "Kindling.K8s.Locks.all_complete",
    "Kindling.K8s.Locks.guarded",
    "Kindling.K8s.Locks.api_server_guarded",
    "Kindling.K8s.Locks.caches_guarded_partial",
    "Kindling.K8s.Locks.services_race",
    "Kindling.K8s.Locks.workloads_race",
    "Kindling.K8s.Locks.host_ports_race",
    "Kindling.K8s.Locks.container_ports_race",
    "Kindling.K8s.Locks.container_ports_race_list",
    "Kindling.K8s.Locks.service_workload_race",
    "Kindling.K8s.Locks.service_deleted_race",
    "Kindling.K8s.Locks.pod_service_race",
    "Kindling.K8s.Locks.pod_lists_race",
    "Kindling.K8s.Locks.stalled_client_blocks",
    "Kindling.K8s.Locks.stalled_client_blocks_readers",
    "Kindling.K8s.Locks.delete_writes"
   ],
   "note": "Holds for deadlocks, and for the maps of containers, addresses, services by address, nodes, pods, replica sets and the queue; for all maps when the collector watches the API server. Fails otherwise: the provider lists the map of services without its mutex (services_race), SetupCache writes the host ports and the workloads without theirs (host_ports_race, workloads_race), and AddPod writes the HostPortMap of a container that is already in the maps (container_ports_race); the Go runtime aborts the process in the first and last case. The provider writes its list to a client while it holds eight mutexes, so one client that does not read blocks the informers and then the queries (stalled_client_blocks). The fields of pods and services have no mutex: AddPod writes the workload of a service and DeleteService empties it while a request to it is labelled (service_workload_race, service_deleted_race), AddService writes the service of a pod while a request of the pod is labelled (pod_service_race), AddPod appends to the lists of a pod that the provider already lists (pod_lists_race); a string read half old and half new is read beyond its end."
  },
  {
   "property": "C100",
   "status": "partial",
   "theorems": [
    "Kindling.Cpu.Locks.no_deadlock",
    "Kindling.Cpu.Locks.all_complete",
    "Kindling.Cpu.Locks.guarded_partial",
    "Kindling.Cpu.Locks.guarded_jts",
    "Kindling.Cpu.Locks.java_queue_race",
    "Kindling.Cpu.Locks.apm_race",
    "Kindling.Cpu.Locks.marks_race",
    "Kindling.Cpu.Locks.slow_exporter_blocks",
    "Kindling.Cpu.Locks.guarded_between",
    "Kindling.Cpu.Locks.flag_race",
    "Kindling.Cpu.Locks.trace_channel_race",
    "Kindling.Cpu.Locks.trigger_channel_race",
    "Kindling.Cpu.Locks.stop_channel_race"
   ],
   "note": "Holds for deadlocks, the segments, the queue of exited threads and the map of transactions. Fails otherwise: analyzerJavaTraceTime pushes to the queue of transactions without its mutex while the sweep pops (java_queue_race), isInstallApm is written under jtlock and read by the goroutines of the network analyzer without any mutex, at which the Go runtime aborts the process (apm_race), two sending tasks write the marks of one segment under a read lock (marks_race), and an exporter that does not return keeps every event from being filed (slow_exporter_blocks). enableProfile and the three channel variables have no mutex: they are only read between a start and a stop (guarded_between), but start and stop replace them while other goroutines read them (flag_race, trace_channel_race, trigger_channel_race, stop_channel_race)."
  },
  {
   "property": "C101",
   "status": "partial",
   "theorems": [
    "Kindling.K8s.Stream.call_forwarded",
    "Kindling.K8s.Stream.client_apply_spec",
    "Kindling.K8s.Stream.readBytes_flat",
    "Kindling.K8s.Stream.client_reads",
    "Kindling.K8s.Stream.client_reads_all_partial",
    "Kindling.K8s.Stream.written_in_order",
    "Kindling.K8s.Stream.nothing_after_drop",
    "Kindling.K8s.Stream.dropped_ends",
    "Kindling.K8s.Stream.offer_step",
    "Kindling.K8s.Stream.fresh_timer_fair",
    "Kindling.K8s.Stream.unknown_operation_panics",
    "Kindling.K8s.Stream.null_object_added",
    "Kindling.K8s.Stream.shrunk_only_on_delete",
    "Kindling.K8s.Stream.status_not_checked",
    "Kindling.K8s.Stream.dropped_silent",
    "Kindling.K8s.Stream.healthy_client_dropped",
    "Kindling.K8s.Stream.all_written"
   ],
   "note": "Holds for order, completeness and the cutting into reads, given that the JSON codec is lossless on the messages. Fails otherwise: an operation the client does not know makes it panic, an object that is null is added as an empty one, pods are shrunk only when they are deleted, statuses other than 500 are read as events, and a timer that was set for an earlier event can drop a client that keeps up (healthy_client_dropped), after which the client stays connected and gets nothing (dropped_silent)."
  },
  {
   "property": "C102",
   "status": "partial",
   "theorems": [
    "Kindling.K8s.Setup.entries_same",
    "Kindling.K8s.Setup.lookups_same",
    "Kindling.K8s.Setup.client_answers",
    "Kindling.K8s.Setup.pods_known",
    "Kindling.K8s.Setup.workloads_local",
    "Kindling.K8s.Setup.services_same",
    "Kindling.K8s.Setup.faithful_partial",
    "Kindling.K8s.Setup.host_network_exposed",
    "Kindling.K8s.Setup.pod_without_ids_leaks",
    "Kindling.K8s.Setup.deleted_pod_stays",
    "Kindling.K8s.Setup.deleted_service_stays",
    "Kindling.K8s.Setup.shown_until_registered",
    "Kindling.K8s.Setup.client_pods_free"
   ],
   "note": "Holds for all lookups under the very key, and altogether if the provider is quiet when the list is taken (faithful_partial). Fails otherwise: isHostNetwork is not exported, so that for an unregistered port of a node's address the client names a pod of the host network where the provider answers nothing (host_network_exposed); deletions that the provider has planned but not done are never done by the client (deleted_pod_stays); a pod without a container id is not known by name and its old addresses stay (pod_without_ids_leaks); services are not shared any more, so that pods go on showing a deleted service (deleted_service_stays)."
  },
  {
   "property": "C103",
   "status": "partial",
   "theorems": [
    "Kindling.Flow.Choose.mem_named",
    "Kindling.Flow.Choose.only_of_alone",
    "Kindling.Flow.Choose.http_alone",
    "Kindling.Flow.Choose.http_reported",
    "Kindling.Flow.Choose.mysql_alone",
    "Kindling.Flow.Choose.mysql_reported",
    "Kindling.Flow.Choose.redis_alone",
    "Kindling.Flow.Choose.redis_reported",
    "Kindling.Flow.Choose.kafka_alone",
    "Kindling.Flow.Choose.kafka_reported",
    "Kindling.Flow.Choose.dubbo_alone",
    "Kindling.Flow.Choose.dubbo_reported",
    "Kindling.Flow.Choose.rocketmq_alone",
    "Kindling.Flow.Choose.rocketmq_reported",
    "Kindling.Flow.Choose.rocketmq_binary_alone",
    "Kindling.Flow.Choose.dns_reported",
    "Kindling.Flow.Choose.dns_unanswered_reported",
    "Kindling.Flow.Choose.dispatched_partial",
    "Kindling.Flow.Choose.quit_swallows",
    "Kindling.Flow.Choose.rocketmq_binary_lost",
    "Kindling.Flow.Choose.dns_unanswered_lost",
    "Kindling.Flow.Choose.dispatched_unknown",
    "Kindling.Flow.Choose.starts_merge",
    "Kindling.Flow.Choose.dns_sees_ten",
    "Kindling.Flow.Choose.disabled_iff"
   ],
   "note": "Holds within the sizes the theorems name (DNS reads the number of its questions where others have text, so that a payload must be shorter than five bytes per such question) and for Kafka clients whose id starts with a letter. Fails otherwise: MySQL's parser takes every request whose fifth byte is 1 for COM_QUIT, without looking at the length, and if no response was seen nothing at all is reported (quit_swallows): unanswered RocketMQ requests in the binary form (rocketmq_binary_lost) and unanswered DNS queries over TCP that ask for recursion (dns_unanswered_lost) are lost when MySQL is tried first, as in the shipped configuration. After fifty unknown exchanges on a port everything else there is reported as unknown until the generic parser is forgotten (dispatched_unknown). What a JSON reader accepts is a parameter: it must refuse the empty text and texts that start with a zero byte."
  },
  {
   "property": "C104",
   "status": "partial",
   "theorems": [
    "Kindling.Agg.Conc.calls_in_program_order",
    "Kindling.Agg.Conc.concurrent_calls_have_an_order_partial",
    "Kindling.Agg.Conc.finished_calls_have_an_order_partial",
    "Kindling.Agg.Conc.concurrent_sum_conserved_partial",
    "Kindling.Agg.Conc.concurrent_count_conserved_partial",
    "Kindling.Agg.Conc.concurrent_ints_never_panic",
    "Kindling.Agg.Conc.dumped_groups_have_sources",
    "Kindling.Agg.Conc.concurrent_records_tear",
    "Kindling.Agg.Conc.dumps_exclude_all",
    "Kindling.Agg.Conc.aggregator_never_stuck"
   ],
   "note": "Proved for the values of sums, counts, maxima, averages and histograms: the goroutines are interleaved at every mutex operation, every lookup and insertion of a series and every update of an accumulator, and the result is that of one order of the calls, which is also what the sequential theorems (C01 and others) speak about. Fails for the time of a series and for accumulators of the kind last: a series is not locked as a whole, so that two goroutines can leave the value of one record with the time of the other, which no order gives (concurrent_records_tear). Missing besides these: the memory is taken to be sequentially consistent."
  },
  {
   "property": "C105",
   "status": "partial",
   "theorems": [
    "Kindling.Export.PromConc.recorded_exactly",
    "Kindling.Export.PromConc.scrape_within_partial",
    "Kindling.Export.PromConc.quiet_scrape_exact",
    "Kindling.Export.PromConc.bucket_bounds",
    "Kindling.Export.PromConc.buckets_almost_cumulative",
    "Kindling.Export.PromConc.bucket_exceeds_count",
    "Kindling.Export.PromConc.buckets_fall",
    "Kindling.Export.PromConc.update_races",
    "Kindling.Export.PromConc.dump_excludes",
    "Kindling.Export.PromConc.dump_never_waits"
   ],
   "note": "Holds for the histogram itself (recorded_exactly), for the sum and the count of a scrape, and for the buckets if nothing is recorded during the scrape (quiet_scrape_exact); else a bucket lies between its value at the dump and the present one (bucket_bounds), and a wider bucket falls behind a narrower one by at most one record (buckets_almost_cumulative). Fails otherwise: the dumped histogram shares its slice of buckets with the live one, and Collect reads it without a mutex, so that exported buckets exceed the exported count (bucket_exceeds_count) and are not cumulative (buckets_fall). The time of the last update is written under a mutex held for reading (update_races). One series with one histogram; sequentially consistent memory."
  },
  {
   "property": "C106",
   "status": "partial",
   "theorems": [
    "Kindling.Export.Server.one_server",
    "Kindling.Export.Server.answers_not_newer",
    "Kindling.Export.Server.spaced_restarts_served_partial",
    "Kindling.Export.Server.restart_completes_partial",
    "Kindling.Export.Server.rest_stays",
    "Kindling.Export.Server.hung_request_closes_port",
    "Kindling.Export.Server.restart_loses_port",
    "Kindling.Export.Server.restarts_swap"
   ],
   "note": "At most one server answers, always the last one started (one_server). If each restart begins after the one before is through, the port is served at rest by the newest exporter (spaced_restarts_served_partial), and a restart can always be completed if no request is running (restart_completes_partial). Fails otherwise: a request that does not end keeps the port closed and all restarts waiting, since Shutdown has no time limit and runs under the mutex (hung_request_closes_port); a restart while the listener is being registered can leave nobody listening until the next restart (restart_loses_port); the goroutines of two restarts can take the mutex in the other order, and then the old exporter serves (restarts_swap). The shipped configuration disables the restarts. The behaviour of net/http.Server is modelled from its documentation."
  },
  {
   "property": "C107",
   "status": "partial",
   "theorems": [
    "Kindling.Conn.Start.lasting_connection_known_partial",
    "Kindling.Conn.Start.streamed_connection_known_partial",
    "Kindling.Conn.Start.gap_connection_never_known",
    "Kindling.Conn.Start.gap_after_start",
    "Kindling.Conn.Start.gap_reached",
    "Kindling.Conn.Start.failed_join_blinds",
    "Kindling.Conn.Start.gap_connection_untranslated",
    "Kindling.Conn.Start.failed_start_leaks",
    "Kindling.Conn.Start.late_start_never_ends"
   ],
   "note": "Holds for connections that last from the beginning of the start to its end (lasting_connection_known_partial) and for those made after the receiver joined the group of new connections, as long as their events are not dropped (streamed_connection_known_partial). Fails in between: the table is dumped before the group is joined, so that a connection made after the dump of its family is never known (gap_connection_never_known), even one made after the caller got the tracker, since the group is joined in a goroutine (gap_after_start, gap_reached), or all later ones if joining fails, which nobody notices (failed_join_blinds), and all lookups for it say that it is not translated (gap_connection_untranslated). A start that fails or takes too long leaves the goroutine of the breaker and the ticker running (failed_start_leaks); after a time-out the goroutine of the start is stuck in its send for ever, and a receiver that it started goes on with an open socket (late_start_never_ends). A dump is taken to be complete but for connections that come or go meanwhile; one namespace."
  },
  {
   "property": "C108",
   "status": "proved",
   "theorems": [
    "Kindling.Conn.Stats.counters_exact",
    "Kindling.Conn.Stats.sizes_bounded",
    "Kindling.Conn.Stats.metrics_exact",
    "Kindling.Conn.Stats.other_order_is_stale",
    "Kindling.Conn.Stats.noop_reports_zero",
    "Kindling.Conn.Stats.report_between",
    "Kindling.Conn.Stats.report_counts_twice",
    "Kindling.Conn.Stats.first_call_decides"
   ],
   "note": "The counters are exact at every moment up to lookups and sweeps that have left the lock but are not counted yet (counters_exact, sizes_bounded), and every series of a collection is its counter (metrics_exact) provided the library calls the callbacks in the order of registration (other_order_is_stale shows what happens otherwise). Statistics taken while the tracker works are not those of one moment: each counter is between its values at the beginning and the end of the call and nothing that came is missing (report_between), but a translation deleted meanwhile counts as stored and as removed (report_counts_twice). A disabled tracker reports a sampling rate of zero (noop_reports_zero). Counters are natural numbers: wrapping of int64 is not modelled"
  },
  {
   "property": "C109",
   "status": "proved",
   "theorems": [
    "Kindling.Net.Pool.records_are_values",
    "Kindling.Net.Pool.one_holder",
    "Kindling.Net.Pool.only_own_edits",
    "Kindling.Net.Pool.comes_out_blank",
    "Kindling.Net.Pool.clone_says",
    "Kindling.Net.Pool.clone_never_changes",
    "Kindling.Net.Pool.kept_is_the_request",
    "Kindling.Net.Pool.kept_as_is_is_lost"
   ],
   "note": "The clone is needed: a record that is kept as it is reads zero as soon as it is freed (kept_as_is_is_lost). That a goroutine uses a record only between its Get and its Free is the text of distributeRecords, modelled as the guard of each action."
  },
  {
   "property": "C110",
   "status": "partial",
   "theorems": [
    "Kindling.Cpu.Session.one_place",
    "Kindling.Cpu.Session.off_is_empty",
    "Kindling.Cpu.Session.stop_goes_through",
    "Kindling.Cpu.Session.comes_to_rest",
    "Kindling.Cpu.Session.stop_ends_all",
    "Kindling.Cpu.Session.running_drains",
    "Kindling.Cpu.Session.left_standing",
    "Kindling.Cpu.Session.sampler_left_standing",
    "Kindling.Cpu.Session.can_be_left_standing",
    "Kindling.Cpu.Session.missed_stop",
    "Kindling.Cpu.Session.readers_pile_up",
    "Kindling.Cpu.Session.gentle_restart_partial",
    "Kindling.Cpu.Session.clean_restart",
    "Kindling.Cpu.Session.session_mixes",
    "Kindling.Cpu.Session.order_is_lost",
    "Kindling.Cpu.Session.late_caller"
   ],
   "note": "Proved for all interleavings: every accepted signal is in exactly one place (one_place); the segments are empty while the profile is off; a stop goes through iff the profile runs; left alone the goroutines come to rest in a bounded number of steps, after a stop with all readers returned and everybody else returned or in front of a full channel, and while the profile runs with its channels empty. Refuted: a caller (the network analyzer's goroutine) or a sampler that waits in front of a full channel when the profile is stopped stands there for ever, for every size of channel and whatever happens later (left_standing, can_be_left_standing); a reader that is not in its select between a stop and the next start never notices the stop and becomes one more reader of the next session, so readers pile up without bound (missed_stop, readers_pile_up), traces are stored out of order (order_is_lost) and traces of one session are stored in the next (session_mixes, late_caller). When every start finds the earlier readers returned, one reader of each kind and the order are proved (gentle_restart_partial), and with the callers and samplers returned too, that a session stores only its own signals (clean_restart). StartProfile and StopProfile are one step each."
  },
  {
   "property": "C111",
   "status": "partial",
   "theorems": [
    "Kindling.Flow.Queues.in_order",
    "Kindling.Flow.Queues.comes_to_rest",
    "Kindling.Flow.Queues.running_drains",
    "Kindling.Flow.Queues.shutdown_returns_partial",
    "Kindling.Flow.Queues.nothing_after",
    "Kindling.Flow.Queues.stands_bounds",
    "Kindling.Flow.Queues.jam_comes",
    "Kindling.Flow.Queues.jam_is_forever",
    "Kindling.Flow.Queues.network_stops_all",
    "Kindling.Flow.Queues.shutdown_drops"
   ],
   "note": "Proved for every number of analyzers, every predicate and every interleaving: order and completeness per analyzer, draining at rest, termination and exact loss of a shutdown, nothing given after the first analyzer is told to stop. The last part is false and its negation is proved: the dispatching loop puts events into the analyzers' channels with plain sends, so one analyzer whose goroutine stands still (which C110 shows for the network analyzer) lets at most as many further events pass as its channel holds, then no analyzer gets anything and Application.Shutdown never gets past the receiver. A shutdown may also drop queued events because a select may choose the stop channel."
  },
  {
   "property": "C112",
   "status": "partial",
   "theorems": [
    "Kindling.Export.Json.read_print",
    "Kindling.Export.Json.print_printable",
    "Kindling.Export.TraceText.group_reads_back",
    "Kindling.Export.TraceText.order_invisible",
    "Kindling.Export.TraceText.group_survives",
    "Kindling.Export.TraceText.different_written_differently",
    "Kindling.Export.TraceText.stray_bytes_alike",
    "Kindling.Export.TraceText.names_may_meet",
    "Kindling.Export.TraceText.file_reads",
    "Kindling.Export.TraceText.contents",
    "Kindling.Export.TraceText.every_file_reads_partial",
    "Kindling.Export.TraceText.events_follow",
    "Kindling.Export.TraceText.at_rest",
    "Kindling.Export.TraceText.half_written",
    "Kindling.Export.TraceText.appenders_meet",
    "Kindling.Export.TraceText.trace_meets_events",
    "Kindling.Export.TraceText.unknown_storage",
    "Kindling.Export.TraceText.known_storage",
    "Kindling.Export.TraceText.es_once",
    "Kindling.Export.TraceText.indices_apart",
    "Kindling.Export.TraceText.labels_not_reloaded",
    "Kindling.Export.TraceText.what_is_stored",
    "Kindling.Export.TraceText.names_apart_iff"
   ],
   "note": "The JSON writer of the standard library is modelled byte by byte (UTF-8 decoding, escapes, decimal numbers, sorted members) and read with an independent reader after RFC 8259. Proved: every group reads back; nothing is lost of UTF-8 text; files hold exactly the last trace and its CPU events after any history and any interleaving in which two goroutines never have the same file open, and can be read. Refuted and proved as negations: bytes that are not UTF-8 are all written alike, so binary payloads cannot be told apart and two labels may become one; two goroutines in one file (two traces with the same path) leave a file that can never be read again; a file cannot be read between the two writes; an unknown storage name gives an exporter that panics on the first group; the collector's own UnmarshalJSON cannot read labels back. Failing writes and full disks are left out."
  },
  {
   "property": "C113",
   "status": "partial",
   "theorems": [
    "Kindling.Export.SegmentText.print_valid",
    "Kindling.Export.SegmentText.segment_reads_back",
    "Kindling.Export.SegmentText.segment_unchanged",
    "Kindling.Export.SegmentText.probe_events_found",
    "Kindling.Export.SegmentText.file_complete",
    "Kindling.Export.SegmentText.es_complete_partial",
    "Kindling.Export.SegmentText.es_first_trace_only",
    "Kindling.Export.SegmentText.unmarshal_loses",
    "Kindling.Export.SegmentText.aliased_same",
    "Kindling.Export.SegmentText.aliased_iff",
    "Kindling.Export.SegmentText.type_wraps"
   ],
   "note": "Proved: what json.Marshal writes is UTF-8 for any bytes, so a text inside a text loses nothing more; for every segment, thread and path elements the stored group reads back as exactly the thread, the times and the five lists, field by field (stray bytes as U+FFFD, nothing changed for UTF-8), none of the labels being hidden by the path elements merged in; whenever a segment with an event is sent, the file gets a line with all events put so far, by kind and in order. Elasticsearch (es_complete_partial): a segment is marked when it is sent and marked groups are not indexed, but each new event clears the mark, so whenever a segment is sent the newest document of it has all events put so far. What is false for Elasticsearch (es_first_trace_only): when several slow traces meet the same segment, all but the first of them get no document until a new event is put, although the file of each of them gets the events; a document carries the path elements of the trace it was sent for, so the events cannot be found from the other traces. It is false for Segment.UnmarshalJSON (unmarshal_loses, aliased_iff): under Go 1.19 all Java lock events become the last one (they come back only if all are equal), transactions, spans, inner calls and the mark are left out, events are appended to those already there, and a kind of time beyond 255 becomes another one."
  },
  {
   "property": "C114",
   "status": "proved",
   "theorems": [
    "Kindling.Flow.CpuFile.trace_file_lines",
    "Kindling.Flow.CpuFile.never_panics",
    "Kindling.Flow.CpuFile.event_in_line",
    "Kindling.Flow.CpuFile.run_name"
   ],
   "note": "Composition of the models of C113 (texts), C112 (files) and of the window and sending of the CPU analyzer. One thread; the file lines are the ones of the file writer, whose rotation is the subject of C112. Window sizes: 1 or even, as in C113's window model. The numbers in the text are exact for times below 2^64 ns."
  },
  {
   "property": "C115",
   "status": "proved",
   "theorems": [
    "Kindling.Agg.Machine.i64_spec",
    "Kindling.Agg.Machine.i64_range",
    "Kindling.Agg.Machine.machine_refines",
    "Kindling.Agg.Machine.machine_sum_conserved_partial",
    "Kindling.Agg.Machine.machine_count_conserved_partial",
    "Kindling.Agg.Machine.machine_exact",
    "Kindling.Agg.Machine.cumulative_refines",
    "Kindling.Agg.Machine.cumulative_exact",
    "Kindling.Agg.Machine.overflow_turns_negative"
   ],
   "note": "Verif/Agg/Machine.lean repeats the aggregators of Verif/Agg/Model.lean and Verif/Agg/Cumulative.lean with int64 and uint64 additions. machine_refines and cumulative_refines need no bound: the machine's state is the unbounded state modulo 2^64 at every moment, and the dumps agree modulo 2^64 except for averages; the machine may panic where the unbounded model does not (an average whose count wrapped to 0), so survival of the machine is the hypothesis. machine_sum_conserved_partial and machine_count_conserved_partial are the C01 sums modulo 2^64 (partial for the reason C01 is: a metric absent from the first record of a series is ignored). machine_exact and cumulative_exact: below a total weight of 2^63 the machine and the unbounded model are the same function. overflow_turns_negative is the finding beyond. One call is one step; interleaved accesses are C104's."
  },
  {
   "property": "C116",
   "status": "proved",
   "theorems": [
    "Kindling.Export.Float.f64_nearest",
    "Kindling.Export.Float.f64_spec",
    "Kindling.Export.Float.small_increase_invisible",
    "Kindling.Export.Float.floats_exported",
    "Kindling.Export.Float.counter_float",
    "Kindling.Export.Float.histogram_float",
    "Kindling.Export.Float.counter_never_falls",
    "Kindling.Export.Float.counter_overflows",
    "Kindling.Export.FloatWrap.counter_wraps",
    "Kindling.Export.FloatWrap.rtt_float",
    "Kindling.Export.FloatWrap.histogram_wraps",
    "Kindling.Export.FloatWrap.counter_negative"
   ],
   "note": "Verif/Export/Float.lean. f64 is IEEE 754 conversion of a 64-bit integer, defined by shifting and rounding half to even and proved to be a nearest representable number. floats_exported is the refinement of the exporter with floats and machine arithmetic to the exporter of C87; counter_float and histogram_float carry its main theorems over. counter_never_falls assumes that the label set stayed alive (the live records of the later moment extend those of the earlier). Without the bound (Verif/Export/FloatWrap.lean) counters and histograms are those totals reduced to 64 bits (counter_wraps, histogram_wraps), the round-trip time is always right (rtt_float), and a counter between 2^63 and 2^64 is served as a negative number (counter_negative, counter_overflows). Not modelled: what the client library does with the float afterwards (text form)."
  },
  {
   "property": "C117",
   "status": "proved",
   "theorems": [
    "Kindling.Conn.Scanner.message_alone",
    "Kindling.Conn.Scanner.event_alone",
    "Kindling.Conn.Scanner.one_decoder_for_all",
    "Kindling.Conn.Scanner.good_after_bad",
    "Kindling.Conn.Scanner.never_grows",
    "Kindling.Conn.Scanner.deeper_panics",
    "Kindling.Conn.Scanner.three_needed"
   ],
   "note": "The frames, the level, the iterators and the errors are state that no message makes anew. message_alone: from any state, a message gives what Decode.decode (C81) gives from its bytes; event_alone and one_decoder_for_all carry it over events; good_after_bad says it for a kernel message after broken ones. never_grows and deeper_panics: push looks for room before it raises the level, so the frame it would make is never made; three_needed: with two frames every complete tuple would panic. The scanner is used by one goroutine (conntracker.go:218-252, then :255-276)."
  },
  {
   "property": "C118",
   "status": "proved",
   "theorems": [
    "Kindling.Export.Builder.base_then_common",
    "Kindling.Export.Builder.built_as_listed",
    "Kindling.Export.Builder.manager_makes",
    "Kindling.Export.Builder.no_extra_panics",
    "Kindling.Export.Builder.unlisted_panics",
    "Kindling.Export.Builder.second_extra_all_at_once"
   ],
   "note": "built_as_listed: for any dictionaries and parameters with distinct keys, what the search finds is Labels.build of base, common entries and those of the protocol. manager_makes: the ten chains of calls of createNetAdapterManager make the converters the theorems on labels (Export/Adapter.lean) are about. The calls the code does not make but the builder allows: no_extra_panics, unlisted_panics, second_extra_all_at_once (withExtraLabels makes its lists with a length and changes the old parameters in place; latent, since no converter calls it twice)."
  },
  {
   "property": "C119",
   "status": "proved",
   "theorems": [
    "Kindling.Flow.Count.counters_add_up",
    "Kindling.Flow.Count.requests_counted",
    "Kindling.Flow.Count.builtin_outputs",
    "Kindling.Flow.Count.counter_names",
    "Kindling.Flow.Count.slow_apart",
    "Kindling.Flow.Count.topo_apart",
    "Kindling.Flow.Counted.every_request_counted",
    "Kindling.Flow.Counted.first_scrape_exact",
    "Kindling.Flow.Counted.pipeline_never_panics",
    "Kindling.Flow.Counted.others_apart",
    "Kindling.Flow.Counted.tcp_apart",
    "Kindling.Flow.Counted.trace_apart",
    "Kindling.Flow.Counted.series_labels",
    "Kindling.Flow.Made.always_measured",
    "Kindling.Flow.Made.analyzer_records",
    "Kindling.Flow.Made.analyzer_to_scrape",
    "Kindling.Flow.Counted.sampled_exported",
    "Kindling.Flow.Count.histogram_names"
   ],
   "note": "Verif/Flow/Count.lean composes Proc/Aggregate (C89), Export/Adapter (C49, C50) and Export/Prom (C87). counters_add_up is proved by a weighted conservation law: what the aggregator holds plus what it handed on is what the records added. It assumes that no group of another kind has the label set of the series (hother; proved of the real pipeline in Verif/Flow/Counted.lean by others_apart, from every_request_counted on), that every aggregated group carries the metric (true of the analyzer's records), and that the series was not removed for being idle for five minutes (Steady; C87 says what happens then). Verif/Flow/Counted.lean puts AggregateProcessor.Consume in front and the adapters as the Prometheus exporter builds them behind: pipeline_never_panics shows that with the built-in configuration and integer metrics every step is answered, so that first_scrape_exact has no hypothesis about the code's results. Verif/Flow/Made.lean takes the records from the analyzer's pool (C109): an invariant over every action on the pool shows that each has all its metrics and only integers. Values are integers; C115 and C116 say when machine arithmetic and floats agree. A single goroutine order of calls; the interleavings of Consume and Collect are C105."
  },
  {
   "property": "C120",
   "status": "proved",
   "theorems": [
    "Kindling.Flow.CpuTask.event_in_task_file",
    "Kindling.Flow.CpuTask.own_event_in_file",
    "Kindling.Flow.CpuTask.task_file_exact",
    "Kindling.Flow.CpuTask.only_asked_for",
    "Kindling.Flow.CpuTask.late_event_lost"
   ],
   "note": "Verif/Flow/CpuTask.lean composes the spans of the runs (C34) with the windows and files of C114. task_file_exact says what is in the file when no other trace writes to the same file; event_in_task_file and own_event_in_file need no such assumption. late_event_lost is the finding: run k asks for what begins k seconds after the edge, so an event of the edge that arrives after k runs may be missed. One thread; a put holds the lock of the analyzer and a sending its read lock, so these do not mix; two sendings may run at the same time, which is left out (they write nothing but the mark). When the runs happen is left open, as is their number: the expiry timer may win against the last tick (C84)."
  },
  {
   "property": "C121",
   "status": "proved",
   "theorems": [
    "Kindling.Flow.DnsUdp.answered_once",
    "Kindling.Flow.DnsUdp.answered_record",
    "Kindling.Flow.DnsUdp.unanswered_once",
    "Kindling.Flow.DnsUdp.unanswered_record",
    "Kindling.Flow.DnsUdp.no_message_ignored",
    "Kindling.Flow.DnsUdp.times_add_up",
    "Kindling.Flow.DnsUdp.unanswered_times",
    "Kindling.Flow.DnsUdp.other_name_taken",
    "Kindling.Flow.DnsUdp.sizes_are_results"
   ],
   "note": "Verif/Flow/DnsUdp.lean composes the DNS parsers (C19, C61), the store of queries (C13) and the record (C69). Messages are given by their fields (RFC 1035), with anything after the question. Two queries with one id on one socket: the second replaces the first (C13), which is then in no record. Events and passes of the scanner are atomic here; C13 has the races between them. other_name_taken is a finding: over TCP the name is compared, over UDP it is not. The address label is left to C19."
  },
  {
   "property": "C122",
   "status": "proved",
   "theorems": [
    "Kindling.Net.Wire.exchanges_are_reported",
    "Kindling.Net.Wire.all_exchanges_reported",
    "Kindling.Net.Wire.requests_of_exchanges",
    "Kindling.Net.Wire.exchanges_of_turns",
    "Kindling.Net.Wire.reports_are_the_wire",
    "Kindling.Net.Wire.late_response_dropped",
    "Kindling.Flow.Wire.wire_to_scrape"
   ],
   "note": "Verif/Net/Wire.lean: the specification is a cut of the events of one connection (feed, exchanges); the analyzer's store of all connections refines it through C06's refinement (Net/Refine.lean). exchanges_of_turns checks the specification: the exchanges of a client that takes turns are its turns; requests_of_exchanges: no request is in two exchanges or in none. late_response_dropped is why the connection must be orderly. Verif/Flow/Wire.lean composes with C119: which records a report makes (recs) is left to C68, C69 and C103, and they may reach the processor in any order. Events and scans are atomic here; their interleaving in the code is C06. Connect events are of the same socket; a second connect with no request in between replaces or reports the first (C06)."
  },
  {
   "property": "C123",
   "status": "proved",
   "theorems": [
    "Kindling.Model.Shown.payload_plain",
    "Kindling.Model.Shown.payload_cut",
    "Kindling.Model.Shown.payload_kept",
    "Kindling.Model.Shown.payload_attr",
    "Kindling.Model.Shown.unsigned_shown",
    "Kindling.Model.Shown.signed_shown",
    "Kindling.Model.Shown.attrs_shown",
    "Kindling.Model.Shown.converted_shown",
    "Kindling.Model.Shown.attr_panics_iff",
    "Kindling.Model.Shown.debug_panics_iff",
    "Kindling.Model.Shown.double_raw"
   ],
   "note": "Verif/Model/Shown.lean. The runes of a Go string are those of Export/Json.lean (C112), proved against the definition of UTF-8 there; that the expression `[^ -~]` replaces rune by rune is Go's regexp. Given, not modelled: `%+v` of the context and `%f`. converted_shown composes with C85."
  },
  {
   "property": "C124",
   "status": "partial",
   "theorems": [
    "Kindling.Cpu.Java.slow_is_reported",
    "Kindling.Cpu.Java.reports_are_slow",
    "Kindling.Cpu.Java.expired_is_lost",
    "Kindling.Cpu.Java.key_inj",
    "Kindling.Cpu.Java.keys_meet",
    "Kindling.Cpu.Java.second_end_reported",
    "Kindling.Cpu.Java.get_labels",
    "Kindling.Cpu.Java.span_labels",
    "Kindling.Cpu.Java.span_names",
    "Kindling.Cpu.Java.span_pid",
    "Kindling.Cpu.Java.took_exact",
    "Kindling.Cpu.Java.entry_iff",
    "Kindling.Cpu.Java.report_is_signal"
   ],
   "note": "Verif/Cpu/Java.lean. Proved: what is reported, when, with which labels, and what becomes of it. Refuted: keeping transactions apart. The key is the id followed by the process number, so that of process 12 and that of process 2 with one more digit in the id share one (keys_meet, for every id); ids of one length are told apart (key_inj). An end does not remove its entry, so a repeated end is reported again (second_end_reported). Taken as one step: an event and a sweep (the race for the queue is in C100)."
  },
  {
   "property": "C125",
   "status": "partial",
   "theorems": [
    "Kindling.K8s.Init.processor_starts",
    "Kindling.K8s.Init.disabled_connects_to_nothing",
    "Kindling.K8s.Init.client_iff",
    "Kindling.K8s.Init.unknown_kind_needs_check",
    "Kindling.K8s.Init.join_inj",
    "Kindling.K8s.Init.last_option_counts",
    "Kindling.K8s.Init.started_once",
    "Kindling.K8s.Init.second_call_hides_failure",
    "Kindling.K8s.Init.grace_exact",
    "Kindling.K8s.Init.grace_wraps",
    "Kindling.K8s.Init.node_names",
    "Kindling.K8s.Init.server_starts",
    "Kindling.K8s.Init.mark_iff",
    "Kindling.K8s.Init.slow_transaction_named",
    "Kindling.K8s.Init.provider_hides_names",
    "Kindling.K8s.Init.handler_asks_iff"
   ],
   "note": "Verif/K8s/Init.lean. Proved but for the last sentence: with a metadata provider IsInitSuccess is never set, so the slow transactions of the agent never carry workload, container and pod though the cache has them (mark_iff, provider_hides_names); with the API server they do. After a failed first call InitK8sHandler reports success (second_call_hides_failure; not reached by the agent). Given: client-go (loading credentials, making a client)."
  },
  {
   "property": "C126",
   "status": "partial",
   "theorems": [
    "Kindling.Ctl.Logs.line_written_iff",
    "Kindling.Ctl.Logs.starts_iff",
    "Kindling.Ctl.Logs.missing_section_panics",
    "Kindling.Ctl.Logs.rotation_kept",
    "Kindling.Ctl.Logs.panic_always",
    "Kindling.Ctl.Logs.both_none_silent",
    "Kindling.Ctl.Logs.selects_one",
    "Kindling.Ctl.Logs.wrong_name_silences",
    "Kindling.Ctl.Logs.check_hides",
    "Kindling.Ctl.Logs.check_debug",
    "Kindling.Ctl.Logs.global_ignores_selector",
    "Kindling.Ctl.Logs.provider_iff",
    "Kindling.Ctl.Logs.provider_only_asked",
    "Kindling.Ctl.Logs.clusters_apart"
   ],
   "note": "Verif/Ctl/Logs.lean. Proved for direct calls and for the metrics. Refuted: without the logger section (or with a file level and no file_rotation) the agent does not use the default logger but panics at its start (starts_iff, missing_section_panics). A message behind Check is lost at every level for a component that is not selected (check_hides); in the agent as it is built only debug messages are behind it. Given: zap, viper and mapstructure (the decoded configuration is an input), the exporters of OpenTelemetry."
  },
  {
   "property": "C127",
   "status": "partial",
   "theorems": [
    "Kindling.Export.OtelStart.starts_iff",
    "Kindling.Export.OtelStart.panics_iff",
    "Kindling.Export.OtelStart.labels_exact",
    "Kindling.Export.OtelStart.tracer_iff",
    "Kindling.Export.OtelStart.spans_sent",
    "Kindling.Export.OtelStart.adapters_exact",
    "Kindling.Export.OtelStart.resources_apart",
    "Kindling.Export.OtelStart.zero_disables",
    "Kindling.Export.OtelStart.bad_period_panics"
   ],
   "note": "Verif/Export/OtelStart.lean. Proved for every configuration whose period of restarts is not negative and below 292 years. Refuted for the others: a negative period does not disable the restarts but panics in time.NewTicker at the start, as does one between 292 and 584 years, which wraps (bad_period_panics); 0 disables them (zero_disables). Given: viper and mapstructure (the decoded configuration is an input), the exporters and controllers of OpenTelemetry (whether they can be made is an input), retry settings and histogram boundaries are not modelled."
  },
  {
   "property": "C128",
   "status": "partial",
   "theorems": [
    "Kindling.K8s.WriteFlusher.never_panics",
    "Kindling.K8s.WriteFlusher.never_stuck",
    "Kindling.K8s.WriteFlusher.one_close",
    "Kindling.K8s.WriteFlusher.flushed_iff",
    "Kindling.K8s.WriteFlusher.close_stops",
    "Kindling.K8s.WriteFlusher.writes_flushed",
    "Kindling.K8s.WriteFlusher.late_write"
   ],
   "note": "Verif/K8s/WriteFlusher.lean. Proved for every interleaving: no panic, no hang, one successful Close, io.EOF only from a closed flusher, and that while the flusher is open every write is flushed before its call returns. Refuted: that nothing reaches the writer once Close has returned. A write that looked at the channel before Close still writes after Close has returned nil, reports success and is never flushed (late_write); close_stops shows that these writes, once each, are all that can follow. Given: the writer underneath takes all bytes without an error, and sync.Once and sync.Mutex."
  },
  {
   "property": "C129",
   "status": "partial",
   "theorems": [
    "Kindling.Ctl.App.startAll_exact",
    "Kindling.Ctl.App.shutdownAll_exact",
    "Kindling.Ctl.App.receiver_last",
    "Kindling.Ctl.App.runs_iff",
    "Kindling.Ctl.App.signal_shuts_down",
    "Kindling.Ctl.App.early_signal_kills",
    "Kindling.Ctl.App.failed_start_leaves"
   ],
   "note": "Verif/Ctl/App.lean. Proved: the order of the start, when the agent runs, and the shutdown by a signal that comes once the handler is set. Refuted: that whatever was started is shut down again. main sets the handler only after Run has returned, so a signal during the start kills the agent and shuts nothing down (early_signal_kills), and a part that fails to start leaves the ones before it as they are (failed_start_leaves). Given: the handlers of the C probe are not modelled, and no call panics or hangs (Flow/Queues.lean has the hangs)."
  }
 ]
}