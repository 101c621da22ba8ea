import Verif.Flow.Attrs
import Verif.Proc.K8s
import Verif.Proto.RedisProps
/-
From the bytes on the wire to the labels of the exported metrics: parsers, record, aggregation and adapter together.
-/
namespace Kindling.Flow
open Kindling Kindling.Agg Kindling.Proto Kindling.Model.Attr Kindling.Export.Adapter Kindling.Proc.Aggregate
open Kindling.Export.Labels (Dict VT entryVal itoa)
open Kindling.Net.Record (Info recordLabels Pooled baseTy)

/-- A value of the record in the labels of the aggregation. -/
def aval : Val → AttrVal
  | .str s => .str (bs s)
  | .int n => .int n
  | .bool b => .bool b

/-- Names of the labels the metadata processor may write between the analyzer and the aggregation (`Proc/K8s.lean`). -/
def metaNames : List String :=
  [Proc.K8s.SL.containerId, .srcIp, .srcNode, .srcNodeIp, .srcNamespace, .srcPod, .srcWorkloadName, .srcWorkloadKind, .srcService, .srcContainer,
   .srcContainerId, .dstIp, .dstNode, .dstNodeIp, .dstNamespace, .dstPod, .dstWorkloadName, .dstWorkloadKind, .dstService, .dstContainer,
   .dstContainerId, .dnatIp].map Proc.K8s.SL.text ++ ["src_port", "dst_port", "dnat_port"]

/-- The labels that reach the aggregation: those of the record, except for what the metadata processor wrote. -/
def Reaches (r : VMap) (l : Agg.Labels) : Prop := ∀ k, k ∉ metaNames → AMap.get l k = (r k).map aval

/-- Spec: the labels of the parser, read directly. -/
def attrLab (a : Attrs) : Export.Labels.Lab where
  gs k := match AMap.get a k with | some (.str s) => s | _ => []
  gi k := match AMap.get a k with | some (.int n) => n | _ => 0
  gb k := match AMap.get a k with | some (.bool b) => b | _ => false

/-- An exchange parsed as `protocol`: its attributes `a`, its record and the labels that reach the aggregation. -/
structure Exchange (protocol : String) (a : Attrs) (l : Agg.Labels) : Prop where
  parsed : ∃ ks, Parsed ks a
  record : ∃ (text : Bytes → String) (limit : Nat) (lab : VMap) (x : Info) (r : VMap), Pooled text limit lab ∧ x.attrs = vmapOf a ∧
    x.protocol = protocol ∧ (x.protocol = "dubbo" → 16 < limit → 16 ≤ x.request.length ∧ ∀ t ts d, x.response = some (t, ts, d) → 16 ≤ d.length) ∧
    recordLabels text limit lab x = some r ∧ Reaches r l
  ints : l.Int64

/-- Names of the parser labels that an exporter reads. -/
def exportKeys : List Bytes :=
  [bs "content_key", bs "kafka_topic", bs "dns_domain", bs "http_status_code", bs "sql_error_code", bs "dns_rcode", bs "dubbo_error_code",
   bs "rocketmq_error_code", bs "http_method", bs "http_url", bs "trace_id", bs "trace_type", bs "sql", bs "sql_error_msg", bs "redis_command",
   bs "redis_error_msg", bs "rocketmq_request_msg", bs "rocketmq_error_msg"]

theorem exchange_reads {protocol : String} {a : Attrs} {l : Agg.Labels} (h : Exchange protocol a l) (k : Bytes) (hk : k ∈ exportKeys) :
    (labOf l).gs k = (attrLab a).gs k ∧ (labOf l).gi k = (attrLab a).gi k ∧ (labOf l).gb k = (attrLab a).gb k := by
  obtain ⟨ks, hp⟩ := h.parsed
  obtain ⟨text, limit, lab, x, r, hpool, hxa, hxp, hq, hr, hreach⟩ := h.record
  obtain ⟨ht, hz⟩ := Net.Record.pooled_zero hpool
  have hx : Net.Record.ParserAttrs x.attrs := hxa ▸ parsed_attrs ks a hp
  obtain ⟨r', h0, _, _, _, _, _, _, _, _, _, _, _, _, _, _, _, _, _, _, _, _, _, hrest, _⟩ :=
    Net.Record.record_labels text limit lab ht x hx hq
  rw [hr] at h0
  cases h0
  have hname : ∀ k ∈ exportKeys, dec k ∉ metaNames ∧ ∀ p ∈ baseTy, p.1 ≠ dec k := by decide +kernel
  obtain ⟨n1, n2⟩ := hname k hk
  have hv := hrest (dec k) (fun t hc => n2 _ hc rfl)
  have hl := hreach (dec k) n1
  rw [hv, hxa] at hl
  rw [vmapOf_dec] at hl
  simp only [labOf, attrLab, Agg.Labels.getString, Agg.Labels.getInt, Agg.Labels.getBool]
  rw [show Proc.Aggregate.dec k = dec k from rfl, hl]
  cases hg : AMap.get a k with
  | some v =>
    cases v <;> simp [valOf, aval, bs_dec]
  | none =>
    simp only [Option.map_none, Option.none_or]
    cases hlb : lab (dec k) with
    | none => simp
    | some w =>
      have := hz _ _ hlb
      rw [this]
      cases w <;> simp [Val.ty, Val.zero, aval, bs]

theorem exchange_protocol {protocol : String} {a : Attrs} {l : Agg.Labels} (h : Exchange protocol a l) :
    l.getString "protocol" = bs protocol := by
  obtain ⟨ks, hp⟩ := h.parsed
  obtain ⟨text, limit, lab, x, r, hpool, hxa, hxp, hq, hr, hreach⟩ := h.record
  obtain ⟨ht, hz⟩ := Net.Record.pooled_zero hpool
  have hx : Net.Record.ParserAttrs x.attrs := hxa ▸ parsed_attrs ks a hp
  obtain ⟨r', h0, _, _, _, _, _, _, _, _, _, _, _, _, hproto, _⟩ :=
    Net.Record.record_labels text limit lab ht x hx hq
  rw [hr] at h0
  cases h0
  have hl := hreach "protocol" (by decide)
  rw [hproto, hxp] at hl
  simp [Agg.Labels.getString, hl, aval]

/-- An entry of a converter that reads one label of the parser. -/
def own (d : Dict) : Bool := decide (d.originKey ∈ exportKeys ∧ d.vt ∈ [VT.string, .int64, .fromInt])

/-- C90.  The aggregated metrics: an entry that reads a label of the parser is exported with the value the parser gave it
(the empty text or 0 if it gave none), whatever record, pool and metadata there were before; the code of Dubbo is the exception
(`Aggregate.dubbo_code_lost`). -/
theorem exported_attr_partial {protocol : String} {a : Attrs} {l : Agg.Labels} (h : Exchange protocol a l) (c : Conv) (hc : c ∈ aggConvs)
    (p : Proto) (hP : protoOf (bs protocol) = p) (consts : List (Bytes × Export.Labels.Val)) (hf : Fresh c p consts)
    (pool : List (Bytes × Export.Labels.Val)) (hp : PoolList c consts p pool) (d : Dict) (hd : d ∈ dictOf c p) (ho : own d = true)
    (hnd : d.originKey ≠ bs "dubbo_error_code") (v : Export.Labels.Val) :
    (d.newKey, v) ∈ convertC c consts (labOf (aggLabels netSels l)) [] pool ↔ v = entryVal (attrLab a) d := by
  have hpr : protoOf (l.getString "protocol") = p := by rw [exchange_protocol h, hP]
  have hall : ∀ p, aggConvs.all (fun c => (dictOf c p).all (fun d => decide (own d = true → d.originKey ≠ bs "dubbo_error_code" →
      covered d = true ∧ (d.newKey ≠ bs "dst_node" ∧ d.newKey ≠ bs "dst_pod" ∧ d.newKey ≠ bs "dst_ip" ∧ d.newKey ≠ bs "dst_port")))) = true := by
    intro p
    cases p <;> decide +kernel
  obtain ⟨g1, g2⟩ := of_decide_eq_true (List.all_eq_true.1 (List.all_eq_true.1 (hall p) c hc) d hd) ho hnd
  rw [exported_entry c hc p consts l h.ints hpr hf pool hp d hd g2, covered_same l h.ints d g1]
  simp only [own, decide_eq_true_eq] at ho
  obtain ⟨hk, hvt⟩ := ho
  obtain ⟨e1, e2, e3⟩ := exchange_reads h d.originKey hk
  simp only [List.mem_cons, List.not_mem_nil, or_false] at hvt
  unfold entryVal
  rcases hvt with hv | hv | hv <;> rw [hv] <;> simp only [e1, e2]

/-- C90.  The single requests, as metric or as span: the same for every entry that reads a label of the parser, Dubbo's included. -/
theorem exported_single {protocol : String} {a : Attrs} {l : Agg.Labels} (h : Exchange protocol a l) (c : Conv)
    (p : Proto) (hP : protoOf (bs protocol) = p) (hc : c = traceToMetric ∨ (c = traceToSpan ∧ p ≠ .redis))
    (consts : List (Bytes × Export.Labels.Val)) (hf : Fresh c p consts)
    (vals : List (Bytes × Export.Labels.Val)) (hv : vals.map (·.1) = c.vkeys)
    (pool : List (Bytes × Export.Labels.Val)) (hp : PoolList c consts p pool) (d : Dict) (hd : d ∈ dictOf c p) (ho : own d = true)
    (v : Export.Labels.Val) :
    (d.newKey, v) ∈ convertC c consts (labOf l) vals pool ↔ v = entryVal (attrLab a) d := by
  have hpr : protoOf ((labOf l).gs (bs "protocol")) = p := by
    have : dec (bs "protocol") = "protocol" := by decide +kernel
    have h1 : (labOf l).gs (bs "protocol") = l.getString "protocol" := by simp only [labOf]; rw [show Proc.Aggregate.dec (bs "protocol") = "protocol" from this]
    rw [h1, exchange_protocol h, hP]
  have hD : Distinct c p consts ∧ Touches c ∧ c.adj = .keep := by
    rcases hc with rfl | ⟨rfl, hne⟩
    · exact ⟨(metric_dictionaries traceToMetric (by simp [metricConvs]) p consts hf).1,
        (metric_dictionaries traceToMetric (by simp [metricConvs]) p consts hf).2, rfl⟩
    · exact ⟨(span_dictionaries p hne consts hf).1, (span_dictionaries p hne consts hf).2, rfl⟩
  have hx := exported_labels c consts (labOf l) hD.2.1 (by rw [hpr]; exact hD.1) vals hv pool (by rw [hpr]; exact hp)
  have hval : entryVal (labOf l) d = entryVal (attrLab a) d := by
    simp only [own, decide_eq_true_eq] at ho
    obtain ⟨hk, hvt⟩ := ho
    obtain ⟨e1, e2, e3⟩ := exchange_reads h d.originKey hk
    simp only [List.mem_cons, List.not_mem_nil, or_false] at hvt
    unfold entryVal
    rcases hvt with hv | hv | hv <;> rw [hv] <;> simp only [e1, e2]
  have hin : (d.newKey, entryVal (attrLab a) d) ∈ convertC c consts (labOf l) vals pool := by
    rw [hx.2.2, hpr]
    refine ⟨entryVal (labOf l) d, ?_, by rw [hD.2.2, ← hval]; rfl⟩
    simp only [Export.Labels.wanted, List.mem_append, List.mem_map]
    exact Or.inl (Or.inl ⟨d, hd, rfl⟩)
  constructor
  · intro hv'
    have e1 := AMap.get_of_mem (m := convertC c consts (labOf l) vals pool) hx.2.1 hv'
    have e2 := AMap.get_of_mem (m := convertC c consts (labOf l) vals pool) hx.2.1 hin
    rw [e1] at e2
    exact Option.some.inj e2
  · rintro rfl; exact hin

/-! ### By protocol -/

/-- The converters of server-side metrics, and those of client-side ones (net_adapter.go:160-236). -/
def entityConvs : List Conv := [aggEntity, aggEntitySlow, detailEntity, detailEntitySlow]
def topologyConvs : List Conv := [aggTopology, aggTopologySlow, detailTopology, detailTopologySlow]

/-- The aggregated metrics made of `l` show the label `k` with exactly the text `s`, with every choice of constant labels and
after whatever earlier conversions. -/
def Shows (p : Proto) (l : Agg.Labels) (c : Conv) (k s : Bytes) : Prop :=
  ∀ consts, Fresh c p consts → ∀ pool, PoolList c consts p pool →
    ∀ v, (k, v) ∈ convertC c consts (labOf (aggLabels netSels l)) [] pool ↔ v = .str s

/-- Spec: what the metrics of an exchange say of it. -/
structure Metrics (p : Proto) (l : Agg.Labels) (request response status : Bytes) : Prop where
  request : ∀ c ∈ entityConvs, Shows p l c (bs "request_content") request
  response : ∀ c ∈ entityConvs, Shows p l c (bs "response_content") response
  status : ∀ c ∈ topologyConvs, Shows p l c (bs "status_code") status

theorem entity_agg (c : Conv) (h : c ∈ entityConvs) : c ∈ aggConvs := by
  simp only [entityConvs, aggConvs, List.mem_cons, List.not_mem_nil, or_false] at h ⊢
  rcases h with rfl | rfl | rfl | rfl <;> simp

theorem topology_agg (c : Conv) (h : c ∈ topologyConvs) : c ∈ aggConvs := by
  simp only [topologyConvs, aggConvs, List.mem_cons, List.not_mem_nil, or_false] at h ⊢
  rcases h with rfl | rfl | rfl | rfl <;> simp

/-- Label of the request text, and of the code, by protocol (net_dict.go:190-227, 286-315). -/
def requestKey : Proto → Bytes
  | .kafka => bs "kafka_topic"
  | .dns => bs "dns_domain"
  | _ => bs "content_key"

def codeKey : Proto → Bytes
  | .http => bs "http_status_code"
  | .mysql => bs "sql_error_code"
  | .dns => bs "dns_rcode"
  | .rocketmq => bs "rocketmq_error_code"
  | _ => bs "dubbo_error_code"

def protocols : List (String × Proto) :=
  [("http", .http), ("mysql", .mysql), ("dns", .dns), ("rocketmq", .rocketmq), ("kafka", .kafka), ("dubbo", .dubbo), ("redis", .redis)]

theorem protocols_of (s : String) (p : Proto) (h : (s, p) ∈ protocols) : protoOf (bs s) = p := by
  have : ∀ x ∈ protocols, protoOf (bs x.1) = x.2 := by decide +kernel
  exact this _ h

theorem request_shown {protocol : String} {a : Attrs} {l : Agg.Labels} (h : Exchange protocol a l) (p : Proto) (hp : (protocol, p) ∈ protocols) :
    ∀ c ∈ entityConvs, Shows p l c (bs "request_content") ((attrLab a).gs (requestKey p)) := by
  intro c hc consts hf pool hpool v
  have hall : protocols.all (fun x => entityConvs.all (fun c => decide ((⟨bs "request_content", requestKey x.2, .string⟩ : Dict) ∈ dictOf c x.2 ∧
      own ⟨bs "request_content", requestKey x.2, .string⟩ = true ∧ requestKey x.2 ≠ bs "dubbo_error_code"))) = true := by decide +kernel
  obtain ⟨h1, h2, h3⟩ := of_decide_eq_true (List.all_eq_true.1 (List.all_eq_true.1 hall _ hp) c hc)
  exact exported_attr_partial h c (entity_agg c hc) p (protocols_of _ _ hp) consts hf pool hpool _ h1 h2 h3 v

theorem code_shown {protocol : String} {a : Attrs} {l : Agg.Labels} (h : Exchange protocol a l) (p : Proto)
    (hp : (protocol, p) ∈ protocols.take 4) :
    Metrics p l ((attrLab a).gs (requestKey p)) (itoa ((attrLab a).gi (codeKey p))) (itoa ((attrLab a).gi (codeKey p))) := by
  have hp' : (protocol, p) ∈ protocols := List.mem_of_mem_take hp
  refine ⟨request_shown h p hp', ?_, ?_⟩
  · intro c hc consts hf pool hpool v
    have hall : (protocols.take 4).all (fun x => entityConvs.all (fun c => decide ((⟨bs "response_content", codeKey x.2, .fromInt⟩ : Dict) ∈ dictOf c x.2 ∧
        own ⟨bs "response_content", codeKey x.2, .fromInt⟩ = true ∧ codeKey x.2 ≠ bs "dubbo_error_code"))) = true := by decide +kernel
    obtain ⟨h1, h2, h3⟩ := of_decide_eq_true (List.all_eq_true.1 (List.all_eq_true.1 hall _ hp) c hc)
    exact exported_attr_partial h c (entity_agg c hc) p (protocols_of _ _ hp') consts hf pool hpool _ h1 h2 h3 v
  · intro c hc consts hf pool hpool v
    have hall : (protocols.take 4).all (fun x => topologyConvs.all (fun c => decide ((⟨bs "status_code", codeKey x.2, .fromInt⟩ : Dict) ∈ dictOf c x.2 ∧
        own ⟨bs "status_code", codeKey x.2, .fromInt⟩ = true ∧ codeKey x.2 ≠ bs "dubbo_error_code"))) = true := by decide +kernel
    obtain ⟨h1, h2, h3⟩ := of_decide_eq_true (List.all_eq_true.1 (List.all_eq_true.1 hall _ hp) c hc)
    exact exported_attr_partial h c (topology_agg c hc) p (protocols_of _ _ hp') consts hf pool hpool _ h1 h2 h3 v

theorem itoa_nat (n : Nat) : itoa (n : Int) = Dec.digits n := by
  unfold itoa
  rw [if_neg (by omega)]
  rfl

theorem kept_str {ks : List Bytes} {a b : Attrs} (h : Kept ks a b) {k s : Bytes} (hk : k ∉ ks) (h1 : k ≠ kIsError) (h2 : k ≠ kErrorType)
    (ha : AMap.get a k = some (.str s)) : (attrLab b).gs k = s := by
  simp only [attrLab, h.other k hk h1 h2, ha]

/-- C90, HTTP: the metrics of every exchange of a well-formed request and response show the clustered path of the request and
the status of the response. -/
theorem http_metrics (cluster : Bytes → Bytes) (method url after : Bytes) (hm : method ∈ Http.rfcMethods) (hu : (32 : UInt8) ∉ url)
    (hlen : 14 ≤ (method ++ 32 :: (url ++ 32 :: after)).length)
    (version : Bytes) (hv : version ∈ Http.rfcVersions) (s : Nat) (h1 : 100 ≤ s) (h2 : s ≤ 999) (rest : Bytes) (hr : rest ≠ []) :
    ∃ m m', Http.parseRequest cluster (method ++ 32 :: (url ++ 32 :: after)) = .ok (true, m) ∧
      Http.parseResponse (version ++ 32 :: (Dec.digits s ++ 32 :: rest)) m.attrs = .ok (true, m') ∧
      ∀ l, Exchange "http" m'.attrs l →
        Metrics .http l (Text.formatUtf8 (if cluster url = [] then [42] else cluster url)) (Dec.digits s) (Dec.digits s) := by
  obtain ⟨m, e1, _, _, e2, _⟩ := Http.http_request_parsed cluster method url after hm hu hlen
  obtain ⟨m', e3, e4, _⟩ := Http.http_response_parsed version hv s h1 h2 rest hr m.attrs
  refine ⟨m, m', e1, e3, fun l hl => ?_⟩
  have hk := http_response_keeps _ _ _ _ e3
  have := code_shown hl .http (by simp [protocols])
  rw [show (attrLab m'.attrs).gs (requestKey .http) = _ from kept_str hk (by decide +kernel) (by decide +kernel) (by decide +kernel) e2,
    show (attrLab m'.attrs).gi (codeKey .http) = (s : Int) from by
      show (match AMap.get m'.attrs (bs "http_status_code") with | some (.int n) => n | _ => 0) = _; rw [e4], itoa_nat] at this
  exact this

/-- C90, HTTP without a response: the code is shown as 0. -/
theorem http_metrics_no_response (cluster : Bytes → Bytes) (method url after : Bytes) (hm : method ∈ Http.rfcMethods) (hu : (32 : UInt8) ∉ url)
    (hlen : 14 ≤ (method ++ 32 :: (url ++ 32 :: after)).length) :
    ∃ m, Http.parseRequest cluster (method ++ 32 :: (url ++ 32 :: after)) = .ok (true, m) ∧
      ∀ l, Exchange "http" m.attrs l →
        Metrics .http l (Text.formatUtf8 (if cluster url = [] then [42] else cluster url)) (bs "0") (bs "0") := by
  obtain ⟨m, e1, _, _, e2, _⟩ := Http.http_request_parsed cluster method url after hm hu hlen
  refine ⟨m, e1, fun l hl => ?_⟩
  have hk := http_request_keeps _ _ _ _ e1
  have := code_shown hl .http (by simp [protocols])
  rw [show (attrLab m.attrs).gs (requestKey .http) = _ from by
      show (match AMap.get m.attrs (bs "content_key") with | some (.str n) => n | _ => []) = _; rw [e2],
    show (attrLab m.attrs).gi (codeKey .http) = 0 from by
      simp only [attrLab]
      rw [hk.other (codeKey .http) (by decide +kernel) (by decide +kernel) (by decide +kernel)]; rfl,
    show itoa 0 = bs "0" from by decide +kernel] at this
  exact this

/-- C90, MySQL: the statement's key, and the code of an error packet. -/
theorem mysql_metrics (h : Bytes) (hh : h.length = 4) (c : UInt8) (hc : c = 22 ∨ c = 3) (pre sql : Bytes)
    (hpre : pre = [] ∨ (c = 3 ∧ pre = [0, 1])) (hs : Mysql.Statement sql)
    (h' : Bytes) (hh' : h'.length = 4) (code : Nat) (hcode : code < 65536) (rest : Bytes) (hr : rest ≠ []) :
    ∃ m m', Mysql.parseRequest (h ++ c :: (pre ++ sql)) = .ok (true, m) ∧
      Mysql.parseResponse (h' ++ 0xff :: UInt8.ofNat (code % 256) :: UInt8.ofNat (code / 256) :: rest) m.attrs = .ok (true, m') ∧
      ∀ l, Exchange "mysql" m'.attrs l →
        Metrics .mysql l (Text.formatUtf8 (Sql.parseStatement sql)) (Dec.digits code) (Dec.digits code) := by
  obtain ⟨m, e1, _, e2, _⟩ := Mysql.mysql_statement_parsed h hh c hc pre sql hpre hs
  obtain ⟨m', e3, e4, _⟩ := Mysql.mysql_error_code_partial h' hh' code hcode rest hr m.attrs
  refine ⟨m, m', e1, e3, fun l hl => ?_⟩
  have hk := mysql_response_keeps _ _ _ _ e3
  have := code_shown hl .mysql (by simp [protocols])
  rw [show (attrLab m'.attrs).gs (requestKey .mysql) = _ from kept_str hk (by decide +kernel) (by decide +kernel) (by decide +kernel) e2,
    show (attrLab m'.attrs).gi (codeKey .mysql) = (code : Int) from by
      show (match AMap.get m'.attrs (bs "sql_error_code") with | some (.int n) => n | _ => 0) = _; rw [e4], itoa_nat] at this
  exact this

theorem dnsResponse_get (m0 : Msg) (x : Dns.DnsAttrs) :
    AMap.get (dnsResponseAttrs m0 x).attrs kDomain = some (.str x.domain) ∧
    AMap.get (dnsResponseAttrs m0 x).attrs kRcode = some (.int (x.rcode.getD 0)) ∧
    (AMap.get m0.attrs kIsError = none → (AMap.get (dnsResponseAttrs m0 x).attrs kIsError = some (.bool true) ↔ x.isError = true)) := by
  have hdom : AMap.get (dnsResponseAttrs m0 x).attrs kDomain = some (.str x.domain) := by
    unfold dnsResponseAttrs
    simp only
    have hne : ∀ (m : Msg) k v, k ≠ kDomain → AMap.get m.attrs kDomain = some (.str x.domain) → AMap.get (m.add k v).attrs kDomain = some (.str x.domain) := by
      intro m k v h1 h2
      simp only [Msg.add]; rw [AMap.get_set_ne _ _ h1]; exact h2
    have h0 : AMap.get (m0.add kDomain (.str x.domain)).attrs kDomain = some (.str x.domain) := by simp only [Msg.add]; rw [AMap.get_set_self]
    have h2 : AMap.get (if joinIps x.ips ≠ [] then (m0.add kDomain (.str x.domain)).add kDnsIp (.str (joinIps x.ips)) else m0.add kDomain (.str x.domain)).attrs kDomain = some (.str x.domain) := by
      split
      · exact hne _ _ _ (by decide +kernel) h0
      · exact h0
    have h3 := hne _ kRcode (.int (x.rcode.getD 0)) (by decide +kernel) (hne _ kDnsId (.int x.id) (by decide +kernel) h2)
    split
    · exact hne _ _ _ (by decide +kernel) (hne _ _ _ (by decide +kernel) h3)
    · exact h3
  have hcode : AMap.get (dnsResponseAttrs m0 x).attrs kRcode = some (.int (x.rcode.getD 0)) := by
    unfold dnsResponseAttrs
    simp only [Msg.add]
    split
    · rw [AMap.get_set_ne _ _ (by decide +kernel), AMap.get_set_ne _ _ (by decide +kernel), AMap.get_set_self]
    · rw [AMap.get_set_self]
  refine ⟨hdom, hcode, fun h0 => ?_⟩
  have h1 : ∀ m : Msg, AMap.get m.attrs kIsError = none → ∀ k v, k ≠ kIsError → AMap.get (m.add k v).attrs kIsError = none := by
    intro m hm k v hk
    simp only [Msg.add]; rw [AMap.get_set_ne _ _ hk]; exact hm
  unfold dnsResponseAttrs
  simp only
  have h2 : AMap.get (if joinIps x.ips ≠ [] then (m0.add kDomain (.str x.domain)).add kDnsIp (.str (joinIps x.ips)) else m0.add kDomain (.str x.domain)).attrs kIsError = none := by
    split
    · exact h1 _ (h1 _ h0 _ _ (by decide +kernel)) _ _ (by decide +kernel)
    · exact h1 _ h0 _ _ (by decide +kernel)
  have h3 := h1 _ (h1 _ h2 kDnsId (.int x.id) (by decide +kernel)) kRcode (.int (x.rcode.getD 0)) (by decide +kernel)
  split
  · rename_i he
    simp only [he, iff_true]
    simp only [Msg.add]
    rw [AMap.get_set_ne _ _ (by decide +kernel)]
    exact AMap.get_set_self _ _ _
  · rename_i he
    simp only [he, iff_false, h3]
    simp

/-- C90, DNS: the first name asked for and the response code. -/
theorem dns_metrics (i3 : Bool) (hd : Dns.Header) (q : Dns.Question) (hf : hd.Fits) (hq : Dns.Legal q.labels) (h1 : hd.nq = 1) (pre post : Bytes) :
    ∃ x, Dns.parseResponse i3 (pre ++ hd.enc ++ q.enc ++ post) pre.length = .ok x ∧
      ∀ l, Exchange "dns" (dnsResponseAttrs ⟨pre ++ hd.enc ++ q.enc ++ post, pre.length, []⟩ x).attrs l →
        Metrics .dns l (Dns.nameText q.labels) (Dec.digits hd.rcode) (Dec.digits hd.rcode) := by
  obtain ⟨x, e1, _, e2, e3, _⟩ := Dns.dns_response_parsed i3 hd q hf hq h1 pre post
  refine ⟨x, e1, fun l hl => ?_⟩
  have := code_shown hl .dns (by simp [protocols])
  generalize (⟨pre ++ hd.enc ++ q.enc ++ post, pre.length, []⟩ : Msg) = m0 at this
  obtain ⟨hdom, hcode, _⟩ := dnsResponse_get m0 x
  rw [show (attrLab (dnsResponseAttrs m0 x).attrs).gs (requestKey .dns) = Dns.nameText q.labels from by
      show (match AMap.get (dnsResponseAttrs m0 x).attrs kDomain with | some (.str n) => n | _ => []) = _; rw [hdom, e2],
    show (attrLab (dnsResponseAttrs m0 x).attrs).gi (codeKey .dns) = (hd.rcode : Int) from by
      show (match AMap.get (dnsResponseAttrs m0 x).attrs kRcode with | some (.int n) => n | _ => 0) = _; rw [hcode, e3]; rfl, itoa_nat] at this
  exact this

/-- C90, RocketMQ: the topic or the name of the operation, and the response code. -/
theorem rocketmq_metrics (e : Rocketmq.Env) {d d' : Bytes} {code code' oid : Int} {remark remark' : Bytes} {topic topic' : Option Bytes}
    (h : Rocketmq.Says e d code oid remark topic) (h' : Rocketmq.Says e d' code' oid remark' topic') :
    ∃ m m', Rocketmq.parseRequest e d = .ok (true, m) ∧ Rocketmq.parseResponse e d' m.attrs = .ok (true, m') ∧
      ∀ l, Exchange "rocketmq" m'.attrs l → Metrics .rocketmq l (Rocketmq.keyOf e code topic) (itoa code') (itoa code') := by
  obtain ⟨m, e1, e0, _, e2, _⟩ := Rocketmq.rocketmq_request_parsed_partial e h
  obtain ⟨m', e3, e4, _⟩ := Rocketmq.rocketmq_response_parsed e h' m.attrs e0
  refine ⟨m, m', e1, e3, fun l hl => ?_⟩
  have hk := rocketmq_response_keeps _ _ _ _ _ e3
  have := code_shown hl .rocketmq (by simp [protocols])
  rw [show (attrLab m'.attrs).gs (requestKey .rocketmq) = _ from kept_str hk (by decide +kernel) (by decide +kernel) (by decide +kernel) e2,
    show (attrLab m'.attrs).gi (codeKey .rocketmq) = code' from by
      show (match AMap.get m'.attrs (bs "rocketmq_error_code") with | some (.int n) => n | _ => 0) = _; rw [e4]] at this
  exact this

/-- A code that the metrics do not carry. -/
theorem constant_shown {protocol : String} {a : Attrs} {l : Agg.Labels} (h : Exchange protocol a l) (p : Proto) (hp : protoOf (bs protocol) = p)
    (d : Dict) (s : Bytes) (cs : List Conv) (hcs : ∀ c ∈ cs, c ∈ aggConvs) (hd : ∀ c ∈ cs, d ∈ dictOf c p)
    (hk : d.newKey ≠ bs "dst_node" ∧ d.newKey ≠ bs "dst_pod" ∧ d.newKey ≠ bs "dst_ip" ∧ d.newKey ≠ bs "dst_port")
    (hv : entryVal (labOf (aggLabels netSels l)) d = .str s) : ∀ c ∈ cs, Shows p l c d.newKey s := by
  intro c hc consts hf pool hpool v
  rw [exported_entry c (hcs c hc) p consts l h.ints (by rw [exchange_protocol h, hp]) hf pool hpool d (hd c hc) hk, hv]

/-- C90, Kafka: the topic of the response; the code is never shown. -/
theorem kafka_metrics (len corr key ver : Nat) (a : Attrs) (b name : Bytes) (code : Int) (hb : Kafka.Body key ver b name code)
    (h0 : 4 < len) (h1 : len < 2 ^ 31) (h2 : corr < 2 ^ 32) (hid : AMap.get a (bs "kafka_id") = some (.int (signed 32 corr)))
    (hkey : AMap.get a (bs "kafka_api") = some (.int key)) (hver : AMap.get a (bs "kafka_version") = some (.int ver)) :
    ∃ m, Kafka.parseResponse (Kafka.response len corr b) a = .ok (true, m) ∧
      ∀ l, Exchange "kafka" m.attrs l → Metrics .kafka l (Text.formatUtf8 name) [] [] := by
  obtain ⟨m, e1, e2, _⟩ := Kafka.kafka_response_parsed len corr key ver a b name code hb h0 h1 h2 hid hkey hver
  refine ⟨m, e1, fun l hl => ⟨?_, ?_, ?_⟩⟩
  · have := request_shown hl .kafka (by simp [protocols])
    rw [show (attrLab m.attrs).gs (requestKey .kafka) = Text.formatUtf8 name from by
      show (match AMap.get m.attrs (bs "kafka_topic") with | some (.str n) => n | _ => []) = _; rw [e2]] at this
    exact this
  · exact constant_shown hl .kafka (by decide +kernel) ⟨bs "response_content", bs "", .strEmpty⟩ [] entityConvs entity_agg
      (by decide +kernel) (by decide +kernel) rfl
  · exact constant_shown hl .kafka (by decide +kernel) ⟨bs "status_code", bs "", .strEmpty⟩ [] topologyConvs topology_agg
      (by decide +kernel) (by decide +kernel) rfl

/-- C90, Dubbo: service and method of the request; the code is always 0, whatever the status of the response
(`Aggregate.dubbo_code_lost`). -/
theorem dubbo_metrics (flags status : UInt8) (hrest v service sv method rest : Bytes) (h12 : hrest.length = 12)
    (hreq : flags &&& 0x80 ≠ 0) (htwo : flags &&& 0x40 ≠ 0) (hev : flags &&& 0x20 = 0) (enc : Bytes → Bytes)
    (henc : (flags &&& 0x1f = 2 ∧ enc = Dubbo.hessian ∧ ∀ s ∈ [v, service, sv, method], s.length < 1024) ∨
      (flags &&& 0x1f = 6 ∧ enc = Dubbo.json ∧ ∀ s ∈ [v, service, sv, method], (10 : UInt8) ∉ s))
    (flags' status' : UInt8) (hrest' body : Bytes) (h12' : hrest'.length = 12) (hres : flags' &&& 0x80 = 0) (hser : flags' &&& 0x1f ≠ 0) :
    ∃ m m', Dubbo.parseRequest (Dubbo.header flags status hrest ++ (enc v ++ (enc service ++ (enc sv ++ (enc method ++ rest))))) = .ok (true, m) ∧
      Dubbo.parseResponse (Dubbo.header flags' status' hrest' ++ body) m.attrs = .ok (true, m') ∧
      ∀ l, Exchange "dubbo" m'.attrs l → Metrics .dubbo l (service ++ 35 :: method) (bs "0") (bs "0") := by
  obtain ⟨m, e1, e2, _⟩ := Dubbo.dubbo_request_parsed flags status hrest v service sv method rest h12 hreq htwo hev enc henc
  obtain ⟨m', e3, _⟩ := Dubbo.dubbo_response_parsed flags' status' hrest' body h12' hres hser m.attrs
  refine ⟨m, m', e1, e3, fun l hl => ?_⟩
  have hk := dubbo_response_keeps _ _ _ _ e3
  have hz : (labOf (aggLabels netSels l)).gi (bs "dubbo_error_code") = 0 := by
    have := (aggregated_labels netSels (Or.inl rfl) l hl.ints (Proc.Aggregate.dec (bs "dubbo_error_code"))).2.1 (by decide +kernel)
    simp only [labOf, Agg.Labels.getInt, this]
  have hi : itoa 0 = bs "0" := by decide +kernel
  refine ⟨?_, ?_, ?_⟩
  · have := request_shown hl .dubbo (by simp [protocols])
    rw [show (attrLab m'.attrs).gs (requestKey .dubbo) = _ from kept_str hk (by decide +kernel) (by decide +kernel) (by decide +kernel) e2] at this
    exact this
  · exact constant_shown hl .dubbo (by decide +kernel) ⟨bs "response_content", bs "dubbo_error_code", .fromInt⟩ _ entityConvs entity_agg
      (by decide +kernel) (by decide +kernel) (by simp only [entryVal, hz, hi])
  · exact constant_shown hl .dubbo (by decide +kernel) ⟨bs "status_code", bs "dubbo_error_code", .fromInt⟩ _ topologyConvs topology_agg
      (by decide +kernel) (by decide +kernel) (by simp only [entryVal, hz, hi])

/-- C90, Redis: the last command of the request; never an error, whatever the response (`Aggregate.redis_error_lost`). -/
theorem redis_metrics (fs : List Redis.Frame) (hne : fs ≠ []) (hc : ∀ f ∈ fs, f.Clean) (hk : ∀ f ∈ fs, f.Client) (cmd : Bytes)
    (hcmd : Redis.lastCommand fs = some cmd) :
    ∃ m, Redis.parseRequest (Redis.encode fs) = some (.ok (true, m)) ∧
      ∀ l, Exchange "redis" m.attrs l → Metrics .redis l cmd (bs "noerror") (bs "0") := by
  obtain ⟨m, e1, _, _, e2, _⟩ := Redis.redis_request_parsed_partial fs hne hc hk
  refine ⟨m, e1, fun l hl => ?_⟩
  rw [hcmd] at e2
  have hz : (labOf (aggLabels netSels l)).gi Export.Labels.errorType = 0 := by
    have := (aggregated_labels netSels (Or.inl rfl) l hl.ints (Proc.Aggregate.dec (bs "error_type"))).2.1 (by decide +kernel)
    simp only [labOf, Agg.Labels.getInt, Export.Labels.errorType, this]
  refine ⟨?_, ?_, ?_⟩
  · have := request_shown hl .redis (by simp [protocols])
    rw [show (attrLab m.attrs).gs (requestKey .redis) = cmd from by
      show (match AMap.get m.attrs (bs "content_key") with | some (.str n) => n | _ => []) = _; rw [e2]; rfl] at this
    exact this
  · exact constant_shown hl .redis (by decide +kernel) ⟨bs "response_content", bs "", .fromError⟩ _ entityConvs entity_agg
      (by decide +kernel) (by decide +kernel) (by simp [entryVal, hz])
  · exact constant_shown hl .redis (by decide +kernel) ⟨bs "status_code", bs "", .fromErrorStatus⟩ _ topologyConvs topology_agg
      (by decide +kernel) (by decide +kernel) (by simp [entryVal, hz])

/-! ### Exchanges exist -/

theorem get_listed (names : List String) (f : String → Option AttrVal) (k : String) :
    AMap.get (names.filterMap (fun n => (f n).map (fun v => (n, v)))) k = if k ∈ names then f k else none := by
  induction names with
  | nil => rfl
  | cons n r ih =>
    simp only [List.filterMap_cons]
    by_cases hk : n = k
    · subst hk
      cases hf : f n with
      | none =>
        simp only [Option.map_none, ih, hf]
        split <;> simp
      | some v => simp [AMap.get]
    · have hk' : ¬ k = n := fun h => hk h.symm
      cases hf : f n with
      | none => simp only [Option.map_none, ih, List.mem_cons, hk', false_or]
      | some v => simp only [Option.map_some, AMap.get, hk, if_false, ih, List.mem_cons, hk', false_or]

/-- In the range of the Go type. -/
def I64 (n : Int) : Prop := -(2 ^ 63 : Nat) ≤ n ∧ n < (2 ^ 63 : Nat)

/-- Every parsed exchange has a record, with labels in the ranges of the Go types. -/
theorem record_exists (ks : List Bytes) (a : Attrs) (hp : Parsed ks a) (hai : ∀ k n, AMap.get a k = some (.int n) → I64 n)
    (text : Bytes → String) (limit : Nat) (x : Info) (hxa : x.attrs = vmapOf a)
    (hq : x.protocol = "dubbo" → 16 < limit → 16 ≤ x.request.length ∧ ∀ t ts d, x.response = some (t, ts, d) → 16 ≤ d.length)
    (hi : I64 x.pid ∧ I64 x.requestTid ∧ I64 x.srcPort ∧ I64 x.dstPort ∧ (∀ r, x.response = some r → I64 r.1 ∧ I64 r.2.1) ∧ (∀ r, x.nat = some r → I64 r.2)) :
    ∃ r l, recordLabels text limit emptyV x = some r ∧ (∀ k, AMap.get l k = (r k).map aval) ∧ Agg.Labels.Int64 l := by
  have hx : Net.Record.ParserAttrs x.attrs := hxa ▸ parsed_attrs ks a hp
  have ht : Net.Record.Typed emptyV := fun k t v _ h => by simp [emptyV] at h
  obtain ⟨r, h0, hty, g1, g2, g3, g4, g5, g6, g7, g8, g9, g10, g11, g12, g13, g14, g15, g16, g17, g18, g19, g20, hrest, hend⟩ :=
    Net.Record.record_labels text limit emptyV ht x hx hq
  let names := baseTy.map (·.1) ++ a.map (fun p => dec p.1)
  refine ⟨r, names.filterMap (fun n => ((r n).map aval).map (fun v => (n, v))), h0, fun k => ?_, ?_⟩
  · rw [get_listed names (fun n => (r n).map aval) k]
    split
    · rfl
    · rename_i hk
      have hk1 : ∀ t, (k, t) ∉ baseTy := fun t hc => hk (List.mem_append_left _ (List.mem_map.2 ⟨_, hc, rfl⟩))
      rw [hrest k hk1, hxa]
      unfold vmapOf
      split
      · rename_i hd
        have : AMap.get a (bs k) = none := by
          rw [AMap.get_eq_none_iff]
          intro hc
          simp only [AMap.keys, List.mem_map] at hc
          obtain ⟨e, he, hek⟩ := hc
          exact hk (List.mem_append_right _ (List.mem_map.2 ⟨e, he, by rw [hek]; exact hd⟩))
        rw [this]; rfl
      · rfl
  · intro k i hg
    rw [get_listed names (fun n => (r n).map aval) k] at hg
    split at hg
    · have hrk : r k = some (.int i) := by
        cases hr : r k with
        | none => rw [hr] at hg; cases hg
        | some v => rw [hr] at hg; cases v <;> simp [aval] at hg; rw [hg]
      show I64 i
      by_cases hb : ∃ t, (k, t) ∈ baseTy
      · obtain ⟨t, hb⟩ := hb
        have hti := hty k t _ hb hrk
        have hz : I64 0 := by unfold I64; omega
        subst hti
        simp only [baseTy, Val.ty, List.mem_cons, Prod.mk.injEq, List.not_mem_nil, or_false, and_true, reduceCtorEq, and_false, false_or] at hb
        rcases hb with h | h | h | h | h | h | h | h <;> subst h
        · rw [g1] at hrk; cases hrk; exact hi.1
        · rw [g2] at hrk; cases hrk; exact hi.2.1
        · rw [g3] at hrk; cases hrk
          cases hr : x.response with
          | none => exact hz
          | some q => exact (hi.2.2.2.2.1 q hr).1
        · rw [g7] at hrk; cases hrk; exact hi.2.2.1
        · rw [g8] at hrk; cases hrk; exact hi.2.2.2.1
        · rw [g16] at hrk; cases hrk
          cases hr : x.nat with
          | none => unfold I64; decide
          | some q => exact hi.2.2.2.2.2 q hr
        · rw [g14] at hrk; cases hrk
          split
          · unfold I64; decide
          · split <;> (unfold I64; decide)
        · cases hr : x.response with
          | none => rw [hend hr] at hrk; cases hrk
          | some q => rw [g17 q hr] at hrk; cases hrk; exact (hi.2.2.2.2.1 q hr).2
      · rw [hrest k (fun t hc => hb ⟨t, hc⟩), hxa] at hrk
        unfold vmapOf at hrk
        split at hrk
        · cases hga : AMap.get a (bs k) with
          | none => rw [hga] at hrk; cases hrk
          | some v =>
            rw [hga] at hrk
            cases v <;> simp [valOf] at hrk
            subst hrk
            exact hai _ _ hga
        · cases hrk
    · cases hg

/-- The conditions of `Exchange` can always be met. -/
theorem exchange_exists (ks : List Bytes) (a : Attrs) (hp : Parsed ks a) (hai : ∀ k n, AMap.get a k = some (.int n) → I64 n)
    (text : Bytes → String) (limit : Nat) (x : Info) (hxa : x.attrs = vmapOf a)
    (hq : x.protocol = "dubbo" → 16 < limit → 16 ≤ x.request.length ∧ ∀ t ts d, x.response = some (t, ts, d) → 16 ≤ d.length)
    (hi : I64 x.pid ∧ I64 x.requestTid ∧ I64 x.srcPort ∧ I64 x.dstPort ∧ (∀ r, x.response = some r → I64 r.1 ∧ I64 r.2.1) ∧ (∀ r, x.nat = some r → I64 r.2)) :
    ∃ l, Exchange x.protocol a l := by
  obtain ⟨r, l, h0, h1, h2⟩ := record_exists ks a hp hai text limit x hxa hq hi
  exact ⟨l, ⟨ks, hp⟩, ⟨text, limit, emptyV, x, r, .fresh, hxa, rfl, hq, h0, fun k _ => h1 k⟩, h2⟩

/-- A request for `/a` answered with 404. -/
example : (∃ m m', Http.parseRequest id (bs "GET /a HTTP/1.1\r\n\r\n") = .ok (true, m) ∧
    Http.parseResponse (bs "HTTP/1.1 404 Not Found\r\n\r\n") m.attrs = .ok (true, m') ∧
    ∀ l, Exchange "http" m'.attrs l → Metrics .http l (bs "/a") (bs "404") (bs "404")) := by
  have h := http_metrics id (bs "GET") (bs "/a") (bs "HTTP/1.1\r\n\r\n") (by decide +kernel) (by decide +kernel) (by decide +kernel)
    (bs "HTTP/1.1") (by decide +kernel) 404 (by decide) (by decide) (bs "Not Found\r\n\r\n") (by decide +kernel)
  have e1 : bs "GET" ++ 32 :: (bs "/a" ++ 32 :: bs "HTTP/1.1\r\n\r\n") = bs "GET /a HTTP/1.1\r\n\r\n" := by decide +kernel
  have e2 : bs "HTTP/1.1" ++ 32 :: (Dec.digits 404 ++ 32 :: bs "Not Found\r\n\r\n") = bs "HTTP/1.1 404 Not Found\r\n\r\n" := by decide +kernel
  have e3 : Text.formatUtf8 (if id (bs "/a") = [] then [42] else id (bs "/a")) = bs "/a" := by decide +kernel
  have e4 : Dec.digits 404 = bs "404" := by decide +kernel
  rw [e1, e2, e3, e4] at h
  exact h

/-- Every label an exporter reads is one of the parser's, one of the record's own or one of the metadata's; the other entries
read nothing. -/
theorem all_read (c : Conv) (hc : c ∈ aggConvs ∨ c = traceToMetric ∨ c = traceToSpan) (p : Proto) (d : Dict) (hd : d ∈ dictOf c p) :
    d.originKey = [] ∨ d.originKey ∈ exportKeys ∨ dec d.originKey ∈ metaNames ∨ dec d.originKey ∈ baseTy.map (·.1) := by
  have h : ∀ p, (traceToMetric :: traceToSpan :: aggConvs).all (fun c => (dictOf c p).all (fun d => decide (d.originKey = [] ∨ d.originKey ∈ exportKeys ∨ dec d.originKey ∈ metaNames ∨
      dec d.originKey ∈ baseTy.map (·.1)))) = true := by
    intro p; cases p <;> decide +kernel
  have hm : c ∈ traceToMetric :: traceToSpan :: aggConvs := by rcases hc with h | rfl | rfl <;> simp [*]
  exact of_decide_eq_true (List.all_eq_true.1 (List.all_eq_true.1 (h p) c hm) d hd)

end Kindling.Flow
