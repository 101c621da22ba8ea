import Verif.Agg.LabelProps
import Verif.Export.Adapter
/-
Configuration of the aggregation (component/consumer/processor/aggregateprocessor/processor.go, config.go), and the
labels of the exported metrics after aggregation: the selectors of the processor together with the dictionaries of the
exporter.
-/
namespace Kindling.Proc.Aggregate
open Kindling Kindling.Agg Kindling.Export

/-! ### Configuration -/

/-- `AggregatedKindConfig` (config.go:11-15); a nil slice of boundaries is `none`. -/
structure RawKind where
  outputName : String
  kind : String
  bounds : Option (List Int) := none

/-- `exponentialInt64Boundaries` (processor.go:22-23). -/
def defaultBounds : List Int :=
  [10000000, 20000000, 50000000, 80000000, 130000000, 200000000, 300000000, 400000000, 500000000, 700000000,
   1000000000, 2000000000, 5000000000, 30000000000]

/-- `newKindConfig` (processor.go:71-91). -/
def newKindConfig (r : RawKind) : KindConfig :=
  match Kind.ofString r.kind with
  | .histogram => { outputName := r.outputName, kind := .histogram, bounds := r.bounds.getD defaultBounds }
  | k => { outputName := r.outputName, kind := k }

/-- One metric of `toAggregatedConfig` (processor.go:59-66). -/
def kindsOf (name : String) (l : List RawKind) : List KindConfig :=
  l.map (fun r => newKindConfig { r with outputName := if r.outputName = "" then name else r.outputName })

/-- `toAggregatedConfig` (processor.go:56-69).  The order of the map does not matter: every metric is written once. -/
def toAggregated (m : AMap String (List RawKind)) : AMap String (List KindConfig) :=
  m.foldl (fun a e => AMap.set a e.1 (kindsOf e.1 e.2)) []

/-- `NewDefaultConfig` (config.go:23-46), the kinds. -/
def defaultConfig : AMap String (List RawKind) :=
  [("request_total_time", [⟨"", "sum", none⟩, ⟨"request_total_time_avg", "avg", none⟩, ⟨"request_count", "count", none⟩]),
   ("request_io", [⟨"", "sum", none⟩]),
   ("response_io", [⟨"", "sum", none⟩]),
   ("kindling_tcp_srtt_microseconds", [⟨"", "last", none⟩]),
   ("kindling_tcp_retransmit_total", [⟨"", "sum", none⟩]),
   ("kindling_tcp_packet_loss_total", [⟨"", "sum", none⟩])]

/-- Spec: the names of the kinds, as the documentation of the configuration lists them. -/
def kindNames : List (String × Kind) :=
  [("sum", .sum), ("max", .max), ("avg", .avg), ("last", .last), ("count", .count), ("histogram", .histogram)]

/-- Spec: what an entry of the configuration asks for. -/
structure Asked (metric : String) (r : RawKind) (c : KindConfig) : Prop where
  named : c.outputName = if r.outputName = "" then metric else r.outputName
  known : ∀ k, (r.kind, k) ∈ kindNames → c.kind = k
  unknown : (∀ k, (r.kind, k) ∉ kindNames) → c.kind = .sum
  bounds : c.kind = .histogram → c.bounds = (match r.bounds with | some b => b | none => defaultBounds)
  noBounds : c.kind ≠ .histogram → c.bounds = []

theorem newKindConfig_asked (metric : String) (r : RawKind) :
    Asked metric r (newKindConfig { r with outputName := if r.outputName = "" then metric else r.outputName }) := by
  have hk : ∀ s k, (s, k) ∈ kindNames → Kind.ofString s = k := by
    intro s k h
    simp only [kindNames, List.mem_cons, Prod.mk.injEq, List.not_mem_nil, or_false] at h
    rcases h with ⟨rfl, rfl⟩ | ⟨rfl, rfl⟩ | ⟨rfl, rfl⟩ | ⟨rfl, rfl⟩ | ⟨rfl, rfl⟩ | ⟨rfl, rfl⟩ <;> decide
  have hu : ∀ s, (∀ k, (s, k) ∉ kindNames) → Kind.ofString s = .sum := by
    intro s h
    unfold Kind.ofString
    simp only [kindNames, List.mem_cons, Prod.mk.injEq, List.not_mem_nil, or_false, not_or] at h
    have h1 := (h .sum).1
    have h2 := (h .max).2.1
    have h3 := (h .avg).2.2.1
    have h4 := (h .last).2.2.2.1
    have h5 := (h .count).2.2.2.2.1
    have h6 := (h .histogram).2.2.2.2.2
    simp only [and_true] at h1 h2 h3 h4 h5 h6
    rw [if_neg h1, if_neg h2, if_neg h3, if_neg h4, if_neg h5, if_neg h6]
  have hkind : ∀ r' : RawKind, (newKindConfig r').kind = Kind.ofString r'.kind ∧ (newKindConfig r').outputName = r'.outputName ∧
      ((newKindConfig r').kind = .histogram → (newKindConfig r').bounds = r'.bounds.getD defaultBounds) ∧
      ((newKindConfig r').kind ≠ .histogram → (newKindConfig r').bounds = []) := by
    intro r'
    unfold newKindConfig
    cases Kind.ofString r'.kind <;> simp
  obtain ⟨e1, e2, e3, e4⟩ := hkind { r with outputName := if r.outputName = "" then metric else r.outputName }
  refine ⟨e2, fun k h => by rw [e1]; exact hk _ _ h, fun h => by rw [e1]; exact hu _ h, fun h => ?_, e4⟩
  rw [e3 h]
  cases r.bounds <;> rfl

/-- C89, configuration: a metric is aggregated iff it is configured, and then in exactly the configured ways, in order. -/
theorem configured_kinds (m : AMap String (List RawKind)) (hm : m.WF) (metric : String) :
    (AMap.get m metric = none → AMap.get (toAggregated m) metric = none) ∧
    (∀ rs, AMap.get m metric = some rs → ∃ cs, AMap.get (toAggregated m) metric = some cs ∧ All2 (Asked metric) rs cs) := by
  have hget : ∀ (m : AMap String (List RawKind)) (a : AMap String (List KindConfig)), (m.map (·.1)).Nodup →
      AMap.get (m.foldl (fun a e => AMap.set a e.1 (kindsOf e.1 e.2)) a) metric =
        ((AMap.get m metric).map (kindsOf metric)).or (AMap.get a metric) := by
    intro m
    induction m with
    | nil => intro a _; rfl
    | cons e r ih =>
      obtain ⟨k, v⟩ := e
      intro a hn
      rw [List.map_cons, List.nodup_cons] at hn
      rw [List.foldl_cons, ih _ hn.2]
      simp only [AMap.get]
      by_cases h : k = metric
      · subst h
        have : AMap.get r k = none := (AMap.get_eq_none_iff r k).2 hn.1
        simp [this, AMap.get_set_self]
      · simp only [h, if_false]
        rw [AMap.get_set_ne _ _ h]
  have h := hget m [] hm
  unfold toAggregated
  rw [h]
  refine ⟨fun h0 => by simp [h0, AMap.get], fun rs h0 => ?_⟩
  rw [h0]
  refine ⟨kindsOf metric rs, rfl, ?_⟩
  clear h h0 hget
  induction rs with
  | nil => exact .nil
  | cons r t ih => exact .cons (newKindConfig_asked metric r) ih

/-- C89: with the built-in configuration durations are summed, averaged and counted, sizes and TCP events are summed and
the round trip time is the last one; all under the names the exporters know. -/
theorem default_kinds :
    (fun n => AMap.get (toAggregated defaultConfig) n) "request_total_time" =
      some [⟨"request_total_time", .sum, []⟩, ⟨"request_total_time_avg", .avg, []⟩, ⟨"request_count", .count, []⟩] ∧
    AMap.get (toAggregated defaultConfig) "request_io" = some [⟨"request_io", .sum, []⟩] ∧
    AMap.get (toAggregated defaultConfig) "response_io" = some [⟨"response_io", .sum, []⟩] ∧
    AMap.get (toAggregated defaultConfig) "kindling_tcp_srtt_microseconds" = some [⟨"kindling_tcp_srtt_microseconds", .last, []⟩] ∧
    AMap.get (toAggregated defaultConfig) "kindling_tcp_retransmit_total" = some [⟨"kindling_tcp_retransmit_total", .sum, []⟩] ∧
    AMap.get (toAggregated defaultConfig) "kindling_tcp_packet_loss_total" = some [⟨"kindling_tcp_packet_loss_total", .sum, []⟩] := by
  decide +kernel

/-- Finding: with the built-in configuration the metrics of TCP connections are recorded nowhere: whatever the record of
a connection holds under these two names, the aggregated values do not change. -/
theorem default_drops_connections (vm : ValuesMap) (ms : List Metric) (ts : Nat)
    (h : ∀ m ∈ ms, m.name = "kindling_tcp_connect_total" ∨ m.name = "kindling_tcp_connect_duration_nanoseconds_total")
    (hvm : vm = newAggValuesMap (AMap.get (toAggregated defaultConfig)) ms) :
    vm.recordAll ms ts = some vm ∧ vm.values = [] := by
  have hn : ∀ n, n = "kindling_tcp_connect_total" ∨ n = "kindling_tcp_connect_duration_nanoseconds_total" →
      AMap.get (toAggregated defaultConfig) n = none := by
    rintro n (rfl | rfl) <;> decide +kernel
  have hv : vm.values = [] := by
    subst hvm
    unfold newAggValuesMap
    simp only
    have : ∀ (ms : List Metric) (a : AMap String (List AggVal)),
        (∀ m ∈ ms, m.name = "kindling_tcp_connect_total" ∨ m.name = "kindling_tcp_connect_duration_nanoseconds_total") →
        ms.foldl (fun acc m => match AMap.get (toAggregated defaultConfig) m.name with
          | none => acc
          | some cs => AMap.set acc m.name (cs.map newAggValue)) a = a := by
      intro ms
      induction ms with
      | nil => intro a _; rfl
      | cons x r ih =>
        intro a hx
        rw [List.foldl_cons]
        simp only [hn x.name (hx x (by simp))]
        exact ih a (fun m hm => hx m (by simp [hm]))
    exact this ms [] h
  refine ⟨?_, hv⟩
  clear hvm h
  induction ms with
  | nil => rfl
  | cons x r ih => simp only [ValuesMap.recordAll, ValuesMap.calculate, hv, AMap.get, ih]

/-! ### Selectors -/

/-- `newNetRequestLabelSelectors` (processor.go:145-187). -/
def netSels : List Selector :=
  [⟨"pid", .int⟩, ⟨"comm", .string⟩, ⟨"protocol", .string⟩, ⟨"is_server", .boolean⟩, ⟨"container_id", .string⟩,
   ⟨"src_node", .string⟩, ⟨"src_node_ip", .string⟩, ⟨"src_namespace", .string⟩, ⟨"src_pod", .string⟩,
   ⟨"src_workload_name", .string⟩, ⟨"src_workload_kind", .string⟩, ⟨"src_service", .string⟩, ⟨"src_ip", .string⟩,
   ⟨"src_container_id", .string⟩, ⟨"src_container", .string⟩, ⟨"dst_node", .string⟩, ⟨"dst_node_ip", .string⟩,
   ⟨"dst_namespace", .string⟩, ⟨"dst_pod", .string⟩, ⟨"dst_workload_name", .string⟩, ⟨"dst_workload_kind", .string⟩,
   ⟨"dst_service", .string⟩, ⟨"dst_ip", .string⟩, ⟨"dst_port", .int⟩, ⟨"dnat_ip", .string⟩, ⟨"dnat_port", .int⟩,
   ⟨"dst_container_id", .string⟩, ⟨"dst_container", .string⟩, ⟨"is_error", .boolean⟩, ⟨"is_slow", .boolean⟩,
   ⟨"http_status_code", .int⟩, ⟨"dns_rcode", .int⟩, ⟨"sql_error_code", .int⟩, ⟨"content_key", .string⟩,
   ⟨"dns_domain", .string⟩, ⟨"kafka_topic", .string⟩, ⟨"rocketmq_error_code", .int⟩]

/-- `newTcpLabelSelectors` (processor.go:189-216). -/
def tcpSels : List Selector :=
  [⟨"src_node", .string⟩, ⟨"src_node_ip", .string⟩, ⟨"src_namespace", .string⟩, ⟨"src_pod", .string⟩,
   ⟨"src_workload_name", .string⟩, ⟨"src_workload_kind", .string⟩, ⟨"src_service", .string⟩, ⟨"src_ip", .string⟩,
   ⟨"src_port", .int⟩, ⟨"src_container_id", .string⟩, ⟨"src_container", .string⟩, ⟨"dst_node", .string⟩,
   ⟨"dst_node_ip", .string⟩, ⟨"dst_namespace", .string⟩, ⟨"dst_pod", .string⟩, ⟨"dst_workload_name", .string⟩,
   ⟨"dst_workload_kind", .string⟩, ⟨"dst_service", .string⟩, ⟨"dst_ip", .string⟩, ⟨"dst_port", .int⟩,
   ⟨"dnat_ip", .string⟩, ⟨"dnat_port", .int⟩, ⟨"dst_container_id", .string⟩, ⟨"dst_container", .string⟩]

/-- `newTcpConnectLabelSelectors` (processor.go:218-247). -/
def connectSels : List Selector :=
  [⟨"pid", .int⟩, ⟨"comm", .string⟩, ⟨"src_node", .string⟩, ⟨"src_node_ip", .string⟩, ⟨"src_namespace", .string⟩,
   ⟨"src_pod", .string⟩, ⟨"src_workload_name", .string⟩, ⟨"src_workload_kind", .string⟩, ⟨"src_service", .string⟩,
   ⟨"src_ip", .string⟩, ⟨"src_container_id", .string⟩, ⟨"src_container", .string⟩, ⟨"dst_node", .string⟩,
   ⟨"dst_node_ip", .string⟩, ⟨"dst_namespace", .string⟩, ⟨"dst_pod", .string⟩, ⟨"dst_workload_name", .string⟩,
   ⟨"dst_workload_kind", .string⟩, ⟨"dst_service", .string⟩, ⟨"dst_ip", .string⟩, ⟨"dst_port", .int⟩,
   ⟨"dnat_ip", .string⟩, ⟨"dnat_port", .int⟩, ⟨"dst_container_id", .string⟩, ⟨"dst_container", .string⟩,
   ⟨"errno", .int⟩, ⟨"success", .boolean⟩]

/-- The labels of the aggregated group a record goes into. -/
def aggLabels (sels : List Selector) (l : Labels) : Labels := getLabels (getLabelKeys sels l)

/-- C89: the aggregated group has the selected labels of the record and no others, for the three lists of the processor.
The list for requests has no room for another selector. -/
theorem aggregated_labels (sels : List Selector) (hs : sels = netSels ∨ sels = tcpSels ∨ sels = connectSels) (l : Labels)
    (hl : l.Int64) (k : String) :
    (∀ s ∈ sels, s.name = k → AMap.get (aggLabels sels l) k = typedRead l s) ∧
    ((∀ s ∈ sels, s.name ≠ k) → AMap.get (aggLabels sels l) k = none) ∧ netSels.length = 37 := by
  have h1 : sels.length ≤ 37 ∧ (sels.map (·.name)).Nodup ∧ ∀ s ∈ sels, s.vtype ≠ .unset := by
    rcases hs with rfl | rfl | rfl <;> refine ⟨by decide, by decide +kernel, by decide⟩
  have h2 := series_labels sels h1.1 h1.2.1 h1.2.2 l hl k
  unfold aggLabels
  refine ⟨fun s hsm hk => ?_, fun hno => ?_, by decide⟩
  · rw [h2]
    have hf : sels.find? (fun s => s.name = k) = some s := by
      clear h2 hs
      have hnd := h1.2.1
      clear h1
      induction sels with
      | nil => simp at hsm
      | cons x r ih =>
        simp only [List.map_cons, List.nodup_cons] at hnd
        rw [List.find?_cons]
        rcases List.mem_cons.1 hsm with rfl | hr
        · simp [hk]
        · have hne : x.name ≠ k := by
            rintro rfl
            exact hnd.1 (List.mem_map.2 ⟨s, hr, hk⟩)
          simp only [hne, decide_false]
          exact ih hr hnd.2
    rw [hf]; rfl
  · rw [h2, List.find?_eq_none.2 (by intro s hsm; simpa using hno s hsm)]; rfl

/-! ### Exported metrics -/

/-- The name whose bytes these are, each byte below 128. -/
def dec (b : Bytes) : String := String.ofList (b.map (fun x => Char.ofNat x.toNat))

/-- What an exporter reads of labels (attribute_map.go:71-121). -/
def labOf (l : Agg.Labels) : Export.Labels.Lab where
  gs k := l.getString (dec k)
  gi k := l.getInt (dec k)
  gb k := l.getBool (dec k)

open Kindling.Export.Labels (Dict VT Val entryVal wanted leB itoa)
open Kindling.Export.Adapter

/-- The converters of aggregated groups (net_adapter.go:160-236), all but the two for traces. -/
def aggConvs : List Conv :=
  [aggEntity, aggEntitySlow, detailEntity, detailEntitySlow, aggTopology, aggTopologySlow, detailTopology, detailTopologySlow]

/-- The type a selector must have for an entry. -/
def needs : VT → VType
  | .string => .string
  | .int64 => .int
  | .fromInt => .int
  | .bool => .boolean
  | _ => .unset

/-- An entry whose value survives the aggregation. -/
def covered (d : Dict) : Bool :=
  decide (d.vt = .strEmpty) || decide ((⟨dec d.originKey, needs d.vt⟩ : Selector) ∈ netSels)

theorem read_string (l : Agg.Labels) (hl : l.Int64) (k : Bytes) (h : (⟨dec k, .string⟩ : Selector) ∈ netSels) :
    (labOf (aggLabels netSels l)).gs k = (labOf l).gs k := by
  have := (aggregated_labels netSels (Or.inl rfl) l hl (dec k)).1 _ h rfl
  simp only [labOf, Agg.Labels.getString, this, typedRead]
  rfl

theorem read_int (l : Agg.Labels) (hl : l.Int64) (k : Bytes) (h : (⟨dec k, .int⟩ : Selector) ∈ netSels) :
    (labOf (aggLabels netSels l)).gi k = (labOf l).gi k := by
  have := (aggregated_labels netSels (Or.inl rfl) l hl (dec k)).1 _ h rfl
  simp only [labOf, Agg.Labels.getInt, this, typedRead]
  rfl

theorem read_bool (l : Agg.Labels) (hl : l.Int64) (k : Bytes) (h : (⟨dec k, .boolean⟩ : Selector) ∈ netSels) :
    (labOf (aggLabels netSels l)).gb k = (labOf l).gb k := by
  have := (aggregated_labels netSels (Or.inl rfl) l hl (dec k)).1 _ h rfl
  simp only [labOf, Agg.Labels.getBool, this, typedRead]
  rfl

theorem covered_same (l : Agg.Labels) (hl : l.Int64) (d : Dict) (h : covered d = true) :
    entryVal (labOf (aggLabels netSels l)) d = entryVal (labOf l) d := by
  simp only [covered, Bool.or_eq_true, decide_eq_true_eq] at h
  rcases h with h | h
  · simp [entryVal, h]
  · have hno : ∀ k, (⟨k, .unset⟩ : Selector) ∉ netSels := by
      intro k hk
      have : ∀ s ∈ netSels, s.vtype ≠ .unset := by decide
      exact this _ hk rfl
    unfold entryVal
    cases hv : d.vt <;> rw [hv] at h <;> simp only [needs] at h <;> simp only
    · rw [read_int l hl _ h]
    · rw [read_string l hl _ h]
    · rw [read_bool l hl _ h]
    · rw [read_int l hl _ h]
    · exact absurd h (hno _)
    · exact absurd h (hno _)

/-- Every entry of every converter for aggregated groups reads a label that is selected, except the error codes of
Dubbo and Redis. -/
theorem covered_dictionaries (c : Conv) (hc : c ∈ aggConvs) (p : Proto) (d : Dict) (hd : d ∈ dictOf c p) :
    covered d = true ∨ ((p = .dubbo ∨ p = .redis) ∧ (d.newKey = bs "response_content" ∨ d.newKey = bs "status_code")) := by
  have h : ∀ p, aggConvs.all (fun c => (dictOf c p).all (fun d => decide (covered d = true ∨
      ((p = .dubbo ∨ p = .redis) ∧ (d.newKey = bs "response_content" ∨ d.newKey = bs "status_code"))))) = true := by
    intro p
    cases p <;> decide +kernel
  have h1 := List.all_eq_true.1 (h p) c hc
  exact of_decide_eq_true (List.all_eq_true.1 h1 d hd)

theorem final_same (l : Agg.Labels) (hl : l.Int64) (a : Adj) (k : Bytes) (v : Val) :
    finalVal a (labOf (aggLabels netSels l)) k v = finalVal a (labOf l) k v := by
  have h1 := read_string l hl (bs "dst_namespace") (by decide +kernel)
  have h2 := read_string l hl (bs "dnat_ip") (by decide +kernel)
  have h3 := read_int l hl (bs "dnat_port") (by decide +kernel)
  cases a <;> simp only [finalVal, h1, h2, h3]

theorem proto_same (l : Agg.Labels) (hl : l.Int64) :
    (labOf (aggLabels netSels l)).gs (bs "protocol") = (labOf l).gs (bs "protocol") :=
  read_string l hl (bs "protocol") (by decide +kernel)

theorem aggConv_metric (c : Conv) (hc : c ∈ aggConvs) : c ∈ metricConvs ∧ c.vkeys = [] := by
  simp only [aggConvs, List.mem_cons, List.not_mem_nil, or_false] at hc
  rcases hc with rfl | rfl | rfl | rfl | rfl | rfl | rfl | rfl <;> simp [metricConvs] <;> rfl

/-- C89.  From the record to the exported metric: for every record, every converter of aggregated groups and whatever was
converted before, the exported labels are those the record itself would give, each with its final value; only the
error codes of Dubbo and Redis are excepted (see `dubbo_code_lost`, `redis_error_lost`). -/
theorem aggregated_export_partial (c : Conv) (hc : c ∈ aggConvs) (consts : List (Bytes × Val)) (l : Agg.Labels) (hl : l.Int64)
    (hf : Fresh c (protoOf (l.getString "protocol")) consts) (pool : List (Bytes × Val))
    (hp : PoolList c consts (protoOf (l.getString "protocol")) pool) (k : Bytes) (v : Val)
    (hk : protoOf (l.getString "protocol") = .dubbo ∨ protoOf (l.getString "protocol") = .redis →
      k ≠ bs "response_content" ∧ k ≠ bs "status_code") :
    (k, v) ∈ convertC c consts (labOf (aggLabels netSels l)) [] pool ↔
      ∃ v0, (k, v0) ∈ wanted (dictOf c (protoOf (l.getString "protocol"))) consts (labOf l) [] ∧ v = finalVal c.adj (labOf l) k v0 := by
  obtain ⟨hm, hv⟩ := aggConv_metric c hc
  have hpr : (labOf l).gs (bs "protocol") = l.getString "protocol" := by
    have : dec (bs "protocol") = "protocol" := by decide +kernel
    simp only [labOf, this]
  have hpa := (proto_same l hl).trans hpr
  generalize hP : protoOf (l.getString "protocol") = p at *
  obtain ⟨hd, ht⟩ := metric_dictionaries c hm p consts hf
  have h := (exported_labels c consts (labOf (aggLabels netSels l)) ht (by rw [hpa, hP]; exact hd) [] hv.symm pool
    (by rw [hpa, hP]; exact hp)).2.2 k v
  rw [h, hpa, hP]
  simp only [final_same l hl]
  have hw : ∀ v0, (k, v0) ∈ wanted (dictOf c p) consts (labOf (aggLabels netSels l)) [] ↔ (k, v0) ∈ wanted (dictOf c p) consts (labOf l) [] := by
    intro v0
    have hmap : (k, v0) ∈ (dictOf c p).map (fun d => (d.newKey, entryVal (labOf (aggLabels netSels l)) d)) ↔
        (k, v0) ∈ (dictOf c p).map (fun d => (d.newKey, entryVal (labOf l) d)) := by
      simp only [List.mem_map, Prod.mk.injEq]
      constructor
      · rintro ⟨d, h1, h2, h3⟩
        refine ⟨d, h1, h2, ?_⟩
        rcases covered_dictionaries c hc p d h1 with h4 | ⟨h4, h5⟩
        · rw [← covered_same l hl d h4]; exact h3
        · rw [h2] at h5
          exact absurd h5 (not_or.2 ⟨(hk h4).1, (hk h4).2⟩)
      · rintro ⟨d, h1, h2, h3⟩
        refine ⟨d, h1, h2, ?_⟩
        rcases covered_dictionaries c hc p d h1 with h4 | ⟨h4, h5⟩
        · rw [covered_same l hl d h4]; exact h3
        · rw [h2] at h5
          exact absurd h5 (not_or.2 ⟨(hk h4).1, (hk h4).2⟩)
    simp only [wanted, List.append_nil, List.mem_append, hmap]
  simp only [hw]

/-- A label the adjustments leave alone is exported with the value its entry has in the aggregated group. -/
theorem exported_entry (c : Conv) (hc : c ∈ aggConvs) (p : Proto) (consts : List (Bytes × Val)) (l : Agg.Labels) (hl : l.Int64)
    (hP : protoOf (l.getString "protocol") = p) (hf : Fresh c p consts) (pool : List (Bytes × Val)) (hp : PoolList c consts p pool)
    (d : Dict) (hd : d ∈ dictOf c p) (hk : d.newKey ≠ bs "dst_node" ∧ d.newKey ≠ bs "dst_pod" ∧ d.newKey ≠ bs "dst_ip" ∧ d.newKey ≠ bs "dst_port")
    (v : Val) : (d.newKey, v) ∈ convertC c consts (labOf (aggLabels netSels l)) [] pool ↔ v = entryVal (labOf (aggLabels netSels l)) d := by
  obtain ⟨hm, hv⟩ := aggConv_metric c hc
  have hpr : (labOf l).gs (bs "protocol") = l.getString "protocol" := by
    have : dec (bs "protocol") = "protocol" := by decide +kernel
    simp only [labOf, this]
  have hpa := (proto_same l hl).trans hpr
  obtain ⟨hD, ht⟩ := metric_dictionaries c hm p consts hf
  have h := exported_labels c consts (labOf (aggLabels netSels l)) ht (by rw [hpa, hP]; exact hD) [] hv.symm pool
    (by rw [hpa, hP]; exact hp)
  have hfin : ∀ v0, finalVal c.adj (labOf (aggLabels netSels l)) d.newKey v0 = v0 := by
    intro v0
    cases c.adj <;> simp [finalVal, hk]
  have hin : (d.newKey, entryVal (labOf (aggLabels netSels l)) d) ∈ convertC c consts (labOf (aggLabels netSels l)) [] pool := by
    rw [h.2.2, hpa, hP]
    refine ⟨_, ?_, (hfin _).symm⟩
    simp only [wanted, List.append_nil, List.mem_append, List.mem_map]
    exact Or.inl ⟨d, hd, rfl⟩
  constructor
  · intro hv'
    have hnd := h.2.1
    have e1 := AMap.get_of_mem (m := convertC c consts (labOf (aggLabels netSels l)) [] pool) hnd hv'
    have e2 := AMap.get_of_mem (m := convertC c consts (labOf (aggLabels netSels l)) [] pool) hnd hin
    rw [e1] at e2
    exact Option.some.inj e2
  · rintro rfl; exact hin

/-- Finding: the error code of Dubbo is not selected (`constlabels.DubboErrorCode` is missing at processor.go:145-187), so
the aggregated metrics of Dubbo requests always report the code 0. -/
theorem dubbo_code_lost (c : Conv) (hc : c ∈ aggConvs) (consts : List (Bytes × Val)) (l : Agg.Labels) (hl : l.Int64)
    (hP : l.getString "protocol" = bs "dubbo") (hf : Fresh c .dubbo consts) (pool : List (Bytes × Val))
    (hp : PoolList c consts .dubbo pool) :
    ∃ k, (k = bs "response_content" ∨ k = bs "status_code") ∧
      ∀ v, (k, v) ∈ convertC c consts (labOf (aggLabels netSels l)) [] pool ↔ v = .str (bs "0") := by
  have hdp : protoOf (l.getString "protocol") = .dubbo := by rw [hP]; decide +kernel
  have hz : (labOf (aggLabels netSels l)).gi (bs "dubbo_error_code") = 0 := by
    have := (aggregated_labels netSels (Or.inl rfl) l hl (dec (bs "dubbo_error_code"))).2.1 (by decide +kernel)
    simp only [labOf, Agg.Labels.getInt, this]
  have hex : (⟨bs "response_content", bs "dubbo_error_code", .fromInt⟩ : Dict) ∈ dictOf c .dubbo ∨
      (⟨bs "status_code", bs "dubbo_error_code", .fromInt⟩ : Dict) ∈ dictOf c .dubbo := by
    have h : aggConvs.all (fun c => decide ((⟨bs "response_content", bs "dubbo_error_code", .fromInt⟩ : Dict) ∈ dictOf c .dubbo ∨
        (⟨bs "status_code", bs "dubbo_error_code", .fromInt⟩ : Dict) ∈ dictOf c .dubbo)) = true := by decide +kernel
    exact of_decide_eq_true (List.all_eq_true.1 h c hc)
  rcases hex with h | h
  · refine ⟨_, Or.inl rfl, fun v => ?_⟩
    rw [exported_entry c hc .dubbo consts l hl hdp hf pool hp _ h (by decide +kernel)]
    simp only [entryVal, hz, show itoa 0 = bs "0" from by decide +kernel]
  · refine ⟨_, Or.inr rfl, fun v => ?_⟩
    rw [exported_entry c hc .dubbo consts l hl hdp hf pool hp _ h (by decide +kernel)]
    simp only [entryVal, hz, show itoa 0 = bs "0" from by decide +kernel]

/-- Finding: the type of an error is not selected either, so the aggregated metrics of Redis requests never show an
error, whatever the record says. -/
theorem redis_error_lost (c : Conv) (hc : c ∈ aggConvs) (consts : List (Bytes × Val)) (l : Agg.Labels) (hl : l.Int64)
    (hP : l.getString "protocol" = bs "redis") (hf : Fresh c .redis consts) (pool : List (Bytes × Val))
    (hp : PoolList c consts .redis pool) :
    (∀ v, (bs "response_content", v) ∈ convertC c consts (labOf (aggLabels netSels l)) [] pool ↔ v = .str (bs "noerror")) ∨
    (∀ v, (bs "status_code", v) ∈ convertC c consts (labOf (aggLabels netSels l)) [] pool ↔ v = .str (bs "0")) := by
  have hdp : protoOf (l.getString "protocol") = .redis := by rw [hP]; decide +kernel
  have hz : (labOf (aggLabels netSels l)).gi Export.Labels.errorType = 0 := by
    have := (aggregated_labels netSels (Or.inl rfl) l hl (dec (bs "error_type"))).2.1 (by decide +kernel)
    simp only [labOf, Agg.Labels.getInt, Export.Labels.errorType, this]
  have hex : (⟨bs "response_content", bs "", .fromError⟩ : Dict) ∈ dictOf c .redis ∨
      (⟨bs "status_code", bs "", .fromErrorStatus⟩ : Dict) ∈ dictOf c .redis := by
    have h : aggConvs.all (fun c => decide ((⟨bs "response_content", bs "", .fromError⟩ : Dict) ∈ dictOf c .redis ∨
        (⟨bs "status_code", bs "", .fromErrorStatus⟩ : Dict) ∈ dictOf c .redis)) = true := by decide +kernel
    exact of_decide_eq_true (List.all_eq_true.1 h c hc)
  rcases hex with h | h
  · refine Or.inl fun v => ?_
    rw [exported_entry c hc .redis consts l hl hdp hf pool hp _ h (by decide +kernel)]
    simp [entryVal, hz]
  · refine Or.inr fun v => ?_
    rw [exported_entry c hc .redis consts l hl hdp hf pool hp _ h (by decide +kernel)]
    simp [entryVal, hz]

/-- A failed Dubbo and a failed Redis request: the record would give `80` and `error`. -/
example : entryVal (labOf [("protocol", .str (bs "dubbo")), ("dubbo_error_code", .int 80)]) ⟨bs "status_code", bs "dubbo_error_code", .fromInt⟩ = .str (bs "80") ∧
    entryVal (labOf [("protocol", .str (bs "redis")), ("error_type", .int 3)]) ⟨bs "response_content", bs "", .fromError⟩ = .str (bs "error") ∧
    ((bs "status_code", Val.str (bs "0")) ∈ convertC aggTopology [] (labOf (aggLabels netSels [("protocol", .str (bs "dubbo")), ("dubbo_error_code", .int 80)])) []
      (Export.Labels.build (dictOf aggTopology .dubbo) [] []).template) := by
  decide +kernel

/-- An HTTP request keeps its code and its content key. -/
example : (bs "response_content", Val.str (bs "404")) ∈ convertC aggEntity [] (labOf (aggLabels netSels
      [("protocol", .str (bs "http")), ("http_status_code", .int 404), ("content_key", .str (bs "/a/*"))])) []
      (Export.Labels.build (dictOf aggEntity .http) [] []).template := by
  decide +kernel

end Kindling.Proc.Aggregate
