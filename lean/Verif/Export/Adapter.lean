import Verif.Export.Labels
/-
The adapter of network groups.  component/consumer/exporter/tools/adapter/net_adapter.go, net_dict.go and
model/constnames/relabel_metric_const.go.
-/
namespace Kindling.Export.Adapter
open Kindling.Export.Labels

/-- `Protocol` (net_dict.go:13-24); `empty` is never a key of a converter. -/
inductive Proto
  | http | kafka | dns | mysql | grpc | dubbo | redis | rocketmq | unsupported
deriving DecidableEq

/-- `updateProtocolKey` (label_converter.go:70-92). -/
def protoOf (s : Bytes) : Proto :=
  if s = bs "http" then .http else if s = bs "grpc" then .grpc else if s = bs "mysql" then .mysql
  else if s = bs "dns" then .dns else if s = bs "kafka" then .kafka else if s = bs "dubbo" then .dubbo
  else if s = bs "redis" then .redis else if s = bs "rocketmq" then .rocketmq else .unsupported

/-- `isSlowDicList` (net_dict.go:51-53). -/
def isSlowDict : List Dict :=
  [⟨bs "is_slow", bs "is_slow", .bool⟩]

/-- `topologyInstanceMetricDicList` (net_dict.go:55-59). -/
def topologyInstance : List Dict :=
  [⟨bs "src_ip", bs "src_ip", .string⟩,
   ⟨bs "dst_ip", bs "dst_ip", .string⟩,
   ⟨bs "dst_port", bs "dst_port", .int64⟩]

/-- `entityInstanceMetricDicList` (net_dict.go:61-64). -/
def entityInstance : List Dict :=
  [⟨bs "ip", bs "dst_ip", .string⟩,
   ⟨bs "port", bs "dst_port", .int64⟩]

/-- `entityDetailMetricDicList` (net_dict.go:66-71). -/
def entityDetail : List Dict :=
  [⟨bs "node", bs "dst_node", .string⟩,
   ⟨bs "pod", bs "dst_pod", .string⟩,
   ⟨bs "container", bs "dst_container", .string⟩,
   ⟨bs "container_id", bs "dst_container_id", .string⟩]

/-- `entityMetricDicList` (net_dict.go:73-79). -/
def entityBase : List Dict :=
  [⟨bs "namespace", bs "dst_namespace", .string⟩,
   ⟨bs "workload_kind", bs "dst_workload_kind", .string⟩,
   ⟨bs "workload_name", bs "dst_workload_name", .string⟩,
   ⟨bs "service", bs "dst_service", .string⟩,
   ⟨bs "protocol", bs "protocol", .string⟩]

/-- `dNatDicList` (net_dict.go:81-84). -/
def dNat : List Dict :=
  [⟨bs "dnat_ip", bs "dnat_ip", .string⟩,
   ⟨bs "dnat_port", bs "dnat_port", .int64⟩]

/-- `topologyDetailMetricDicList` (net_dict.go:86-96). -/
def topologyDetail : List Dict :=
  [⟨bs "src_container_id", bs "src_container_id", .string⟩,
   ⟨bs "src_container", bs "src_container", .string⟩,
   ⟨bs "dst_container_id", bs "dst_container_id", .string⟩,
   ⟨bs "dst_container", bs "dst_container", .string⟩,
   ⟨bs "src_node", bs "src_node", .string⟩,
   ⟨bs "src_pod", bs "src_pod", .string⟩]

/-- `SpanDicList` (net_dict.go:98-113). -/
def spanDict : List Dict :=
  [⟨bs "src_containerid", bs "src_container_id", .string⟩,
   ⟨bs "src_container_name", bs "src_container", .string⟩,
   ⟨bs "dst_containerid", bs "dst_container_id", .string⟩,
   ⟨bs "dst_container_name", bs "dst_container", .string⟩,
   ⟨bs "src_node", bs "src_node", .string⟩,
   ⟨bs "src_pod", bs "src_pod", .string⟩,
   ⟨bs "pid", bs "pid", .int64⟩,
   ⟨bs "request_tid", bs "request_tid", .int64⟩,
   ⟨bs "response_tid", bs "response_tid", .int64⟩,
   ⟨bs "comm", bs "comm", .string⟩,
   ⟨bs "end_timestamp", bs "end_timestamp", .int64⟩]

/-- `topologyMetricDicList` (net_dict.go:115-130). -/
def topologyBase : List Dict :=
  [⟨bs "src_namespace", bs "src_namespace", .string⟩,
   ⟨bs "src_workload_kind", bs "src_workload_kind", .string⟩,
   ⟨bs "src_workload_name", bs "src_workload_name", .string⟩,
   ⟨bs "src_service", bs "src_service", .string⟩,
   ⟨bs "dst_namespace", bs "dst_namespace", .string⟩,
   ⟨bs "dst_workload_kind", bs "dst_workload_kind", .string⟩,
   ⟨bs "dst_workload_name", bs "dst_workload_name", .string⟩,
   ⟨bs "dst_service", bs "dst_service", .string⟩,
   ⟨bs "dst_node", bs "dst_node", .string⟩,
   ⟨bs "dst_pod", bs "dst_pod", .string⟩,
   ⟨bs "protocol", bs "protocol", .string⟩]

/-- `entityProtocol` (net_dict.go:190-227). -/
def entityProtocol : List (Proto × List Dict) :=
  [(.http, [⟨bs "request_content", bs "content_key", .string⟩,
     ⟨bs "response_content", bs "http_status_code", .fromInt⟩]),
   (.kafka, [⟨bs "request_content", bs "kafka_topic", .string⟩,
     ⟨bs "response_content", bs "", .strEmpty⟩]),
   (.mysql, [⟨bs "request_content", bs "content_key", .string⟩,
     ⟨bs "response_content", bs "sql_error_code", .fromInt⟩]),
   (.grpc, [⟨bs "request_content", bs "content_key", .string⟩,
     ⟨bs "response_content", bs "http_status_code", .fromInt⟩]),
   (.dns, [⟨bs "request_content", bs "dns_domain", .string⟩,
     ⟨bs "response_content", bs "dns_rcode", .fromInt⟩]),
   (.dubbo, [⟨bs "request_content", bs "content_key", .string⟩,
     ⟨bs "response_content", bs "dubbo_error_code", .fromInt⟩]),
   (.redis, [⟨bs "request_content", bs "content_key", .string⟩,
     ⟨bs "response_content", bs "", .fromError⟩]),
   (.rocketmq, [⟨bs "request_content", bs "content_key", .string⟩,
     ⟨bs "response_content", bs "rocketmq_error_code", .fromInt⟩]),
   (.unsupported, [⟨bs "request_content", bs "", .strEmpty⟩,
     ⟨bs "response_content", bs "", .strEmpty⟩])]

/-- `spanProtocol` (net_dict.go:229-284). -/
def spanProtocol : List (Proto × List Dict) :=
  [(.http, [⟨bs "http.method", bs "http_method", .string⟩,
     ⟨bs "http.endpoint", bs "http_url", .string⟩,
     ⟨bs "http.status_code", bs "http_status_code", .int64⟩,
     ⟨bs "http.trace_id", bs "trace_id", .string⟩,
     ⟨bs "http.trace_type", bs "trace_type", .string⟩,
     ⟨bs "http.request_headers", bs "request_payload", .string⟩,
     ⟨bs "http.request_body", bs "", .strEmpty⟩,
     ⟨bs "http.response_headers", bs "response_payload", .string⟩,
     ⟨bs "http.response_body", bs "", .strEmpty⟩]),
   (.kafka, [⟨bs "request_payload", bs "request_payload", .string⟩,
     ⟨bs "response_payload", bs "response_payload", .string⟩]),
   (.mysql, [⟨bs "mysql.sql", bs "sql", .string⟩,
     ⟨bs "mysql.error_code", bs "sql_error_code", .int64⟩,
     ⟨bs "mysql.error_msg", bs "sql_error_msg", .string⟩,
     ⟨bs "request_payload", bs "request_payload", .string⟩,
     ⟨bs "response_payload", bs "response_payload", .string⟩]),
   (.dns, [⟨bs "dns.domain", bs "dns_domain", .string⟩,
     ⟨bs "dns.rcode", bs "dns_rcode", .fromInt⟩,
     ⟨bs "request_payload", bs "request_payload", .string⟩,
     ⟨bs "response_payload", bs "response_payload", .string⟩]),
   (.dubbo, [⟨bs "dubbo.request_body", bs "request_payload", .string⟩,
     ⟨bs "dubbo.response_body", bs "response_payload", .string⟩,
     ⟨bs "dubbo.error_code", bs "dubbo_error_code", .int64⟩]),
   (.redis, [⟨bs "redis.command", bs "redis_command", .string⟩,
     ⟨bs "redis.error_msg", bs "redis_error_msg", .string⟩,
     ⟨bs "redis.request_payload", bs "request_payload", .string⟩,
     ⟨bs "redis.request_payload", bs "response_payload", .string⟩]),
   (.rocketmq, [⟨bs "rocketmq.request_msg", bs "rocketmq_request_msg", .string⟩,
     ⟨bs "rocketmq.error_msg", bs "rocketmq_error_msg", .string⟩,
     ⟨bs "request_payload", bs "request_payload", .string⟩,
     ⟨bs "response_payload", bs "response_payload", .string⟩]),
   (.unsupported, [⟨bs "request_payload", bs "request_payload", .string⟩,
     ⟨bs "response_payload", bs "response_payload", .string⟩])]

/-- `topologyProtocol` (net_dict.go:286-315). -/
def topologyProtocol : List (Proto × List Dict) :=
  [(.http, [⟨bs "status_code", bs "http_status_code", .fromInt⟩]),
   (.kafka, [⟨bs "status_code", bs "", .strEmpty⟩]),
   (.mysql, [⟨bs "status_code", bs "sql_error_code", .fromInt⟩]),
   (.grpc, [⟨bs "status_code", bs "http_status_code", .fromInt⟩]),
   (.dns, [⟨bs "status_code", bs "dns_rcode", .fromInt⟩]),
   (.dubbo, [⟨bs "status_code", bs "dubbo_error_code", .fromInt⟩]),
   (.redis, [⟨bs "status_code", bs "", .fromErrorStatus⟩]),
   (.rocketmq, [⟨bs "status_code", bs "rocketmq_error_code", .fromInt⟩]),
   (.unsupported, [⟨bs "status_code", bs "", .strEmpty⟩])]

/-- `traceSpanStatus` (net_dict.go:317-329), the keys. -/
def traceSpanStatus : List Bytes :=
  [bs "request_sent_ns", bs "waiting_ttfb_ns", bs "content_download_ns", bs "request_total_ns", bs "requestio_bytes", bs "responseio_bytes", bs "is_server", bs "is_error", bs "is_slow", bs "is_convergent", bs "timestamp"]

/-- `traceStatus` (net_dict.go:358-364), the keys. -/
def traceStatus : List Bytes :=
  [bs "request_reqxfer_status", bs "request_processing_status", bs "response_rspxfer_status", bs "request_duration_status", bs "is_server"]

/-! ### Converters -/

inductive Adj
  | keep | removeDst | replaceNat

/-- A converter before `build`: common entries, entries per protocol, value labels, adjustment. -/
structure Conv where
  base : List Dict
  extra : List (Proto × List Dict)
  vkeys : List Bytes
  adj : Adj

/-- The entries for a protocol, those of `UNSUPPORTED` if there are none (label_converter.go:337-348). -/
def dictOf (c : Conv) (p : Proto) : List Dict :=
  c.base ++ match c.extra.lookup p with
    | some d => d
    | none => (c.extra.lookup .unsupported).getD []

/-- `createNetAdapterManager` (net_adapter.go:160-236): the converters, with and without `is_slow`. -/
def aggEntity : Conv := ⟨entityBase, entityProtocol, [], .keep⟩
def aggEntitySlow : Conv := ⟨entityBase ++ isSlowDict, entityProtocol, [], .keep⟩
def detailEntity : Conv := ⟨entityBase ++ entityInstance ++ entityDetail, entityProtocol, [], .keep⟩
def detailEntitySlow : Conv := ⟨entityBase ++ entityInstance ++ entityDetail ++ isSlowDict, entityProtocol, [], .keep⟩
def aggTopology : Conv := ⟨topologyBase, topologyProtocol, [], .removeDst⟩
def aggTopologySlow : Conv := ⟨topologyBase ++ isSlowDict, topologyProtocol, [], .removeDst⟩
def detailTopology : Conv := ⟨topologyBase ++ topologyInstance ++ topologyDetail, topologyProtocol, [], .replaceNat⟩
def detailTopologySlow : Conv := ⟨topologyBase ++ topologyInstance ++ topologyDetail ++ isSlowDict, topologyProtocol, [], .replaceNat⟩
def traceToSpan : Conv := ⟨topologyBase ++ topologyInstance ++ spanDict ++ dNat, spanProtocol, traceSpanStatus, .keep⟩
def traceToMetric : Conv := ⟨topologyBase ++ topologyInstance ++ topologyDetail ++ dNat, entityProtocol, traceStatus, .keep⟩

def adjustL : Adj → Lab → List (Bytes × Val) → List (Bytes × Val)
  | .keep, _, l => l
  | .removeDst, g, l => removeDst g l
  | .replaceNat, g, l => replaceNat g l

def adjustM : Adj → Lab → AMap Bytes Val → AMap Bytes Val
  | .keep, _, m => m
  | .removeDst, g, m => removeDstMap g m
  | .replaceNat, g, m => replaceNatMap g m

/-- `convert` (label_converter.go:351-393) with the list `l` of the pool. -/
def convertC (c : Conv) (consts : List (Bytes × Val)) (g : Lab) (vals l : List (Bytes × Val)) : List (Bytes × Val) :=
  adjustL c.adj g (convert (build (dictOf c (protoOf (g.gs (bs "protocol")))) c.vkeys consts) g vals l)

/-- `transform` (label_converter.go:284-333) with the map `m` of the pool. -/
def transformC (c : Conv) (consts : List (Bytes × Val)) (g : Lab) (vals : List (Bytes × Val)) (m : AMap Bytes Val) : AMap Bytes Val :=
  adjustM c.adj g (transform (build (dictOf c (protoOf (g.gs (bs "protocol")))) c.vkeys consts) g vals m)

/-- What the pool of a protocol can hold: a new list, or one of the pool after a conversion for this protocol. -/
inductive PoolList (c : Conv) (consts : List (Bytes × Val)) (p : Proto) : List (Bytes × Val) → Prop
  | new : PoolList c consts p (build (dictOf c p) c.vkeys consts).template
  | freed (g : Lab) (vals l : List (Bytes × Val)) (hp : protoOf (g.gs (bs "protocol")) = p) (hv : vals.map (·.1) = c.vkeys)
      (h : PoolList c consts p l) : PoolList c consts p (convertC c consts g vals l)

/-! ### Spec -/

/-- The value an attribute has in the end. -/
def finalVal (a : Adj) (g : Lab) (k : Bytes) (v : Val) : Val :=
  match a with
  | .keep => v
  | .removeDst => if (k = bs "dst_node" ∨ k = bs "dst_pod") ∧ g.gs (bs "dst_namespace") ≠ bs "NOT_FOUND_EXTERNAL" ∧
      g.gs (bs "dst_namespace") ≠ bs "NOT_FOUND_INTERNAL" then .str [] else v
  | .replaceNat => if g.gs (bs "dnat_ip") = [] ∨ g.gi (bs "dnat_port") ≤ 0 then v
      else if k = bs "dst_ip" then .str (g.gs (bs "dnat_ip")) else if k = bs "dst_port" then .int (g.gi (bs "dnat_port")) else v

/-- Keys distinct for a protocol, given those of the constant labels. -/
def Distinct (c : Conv) (p : Proto) (consts : List (Bytes × Val)) : Prop :=
  ((dictOf c p).map (·.newKey) ++ c.vkeys ++ consts.map (·.1)).Nodup

/-- The labels the adjustment touches are entries of the converter. -/
def Touches (c : Conv) : Prop :=
  match c.adj with
  | .keep => True
  | .removeDst => bs "dst_node" ∈ c.base.map (·.newKey) ∧ bs "dst_pod" ∈ c.base.map (·.newKey)
  | .replaceNat => bs "dst_ip" ∈ c.base.map (·.newKey) ∧ bs "dst_port" ∈ c.base.map (·.newKey)

theorem adjustL_map (a : Adj) (g : Lab) (l : List (Bytes × Val)) :
    adjustL a g l = l.map (fun kv => (kv.1, finalVal a g kv.1 kv.2)) := by
  cases a with
  | keep => simp [adjustL, finalVal]
  | removeDst =>
    simp only [adjustL, removeDst, finalVal]
    split
    · rename_i h
      simp only [notFound, Bool.or_eq_true, beq_iff_eq] at h
      conv => lhs; rw [← List.map_id l]
      apply List.map_congr_left
      intro kv _
      have : ¬ (g.gs (bs "dst_namespace") ≠ bs "NOT_FOUND_EXTERNAL" ∧ g.gs (bs "dst_namespace") ≠ bs "NOT_FOUND_INTERNAL") := by
        rintro ⟨h1, h2⟩
        rcases h with h | h
        · exact h1 h
        · exact h2 h
      rw [if_neg (fun h => this h.2)]
      rfl
    · rename_i h
      simp only [notFound, Bool.or_eq_true, beq_iff_eq, not_or] at h
      apply List.map_congr_left
      intro kv _
      by_cases hk : kv.1 = bs "dst_node" ∨ kv.1 = bs "dst_pod"
      · rw [if_pos hk, if_pos ⟨hk, h⟩]
      · rw [if_neg hk, if_neg (fun h => hk h.1)]
  | replaceNat =>
    simp only [adjustL, replaceNat, finalVal]
    by_cases h : g.gs (bs "dnat_ip") = [] ∨ g.gi (bs "dnat_port") < 1
    · rw [if_pos h]
      have h' : g.gs (bs "dnat_ip") = [] ∨ g.gi (bs "dnat_port") ≤ 0 := h.imp id (fun h => by omega)
      simp [h']
    · rw [if_neg h]
      have h' : ¬ (g.gs (bs "dnat_ip") = [] ∨ g.gi (bs "dnat_port") ≤ 0) := fun hc => h (hc.imp id (fun h => by omega))
      apply List.map_congr_left
      intro kv _
      rw [if_neg h']
      simp only [not_or] at h'
      by_cases h1 : kv.1 = bs "dst_ip"
      · rw [if_pos ⟨h1, h'.1⟩, if_pos h1]
      · rw [if_neg (fun h => h1 h.1), if_neg h1]
        by_cases h2 : kv.1 = bs "dst_port"
        · rw [if_pos ⟨h2, by have := h'.2; omega⟩, if_pos h2]
        · rw [if_neg (fun h => h2 h.1), if_neg h2]

theorem const_untouched (c : Conv) (p : Proto) (consts : List (Bytes × Val)) (hd : Distinct c p consts) (ht : Touches c) (g : Lab)
    (kv : Bytes × Val) (hkv : kv ∈ consts) : finalVal c.adj g kv.1 kv.2 = kv.2 := by
  have hne : ∀ k ∈ c.base.map (·.newKey), kv.1 ≠ k := by
    intro k hk he
    have h1 := (List.nodup_append.1 hd).2.2 k
      (List.mem_append.2 (Or.inl (by unfold dictOf; rw [List.map_append]; exact List.mem_append.2 (Or.inl hk)))) kv.1
      (List.mem_map.2 ⟨kv, hkv, rfl⟩)
    exact h1 he.symm
  unfold Touches at ht
  cases hc : c.adj with
  | keep => rfl
  | removeDst =>
    rw [hc] at ht
    simp only [finalVal]
    rw [if_neg]
    rintro ⟨h1 | h1, _⟩
    · exact hne _ ht.1 h1
    · exact hne _ ht.2 h1
  | replaceNat =>
    rw [hc] at ht
    simp only [finalVal]
    split
    · rfl
    · rw [if_neg (hne _ ht.1), if_neg (hne _ ht.2)]

theorem adjusted (c : Conv) (p : Proto) (consts : List (Bytes × Val)) (hd : Distinct c p consts) (ht : Touches c) (g : Lab)
    (l : List (Bytes × Val)) (hl : Pooled (dictOf c p) c.vkeys consts l) :
    Pooled (dictOf c p) c.vkeys consts (adjustL c.adj g l) := by
  rw [adjustL_map]
  refine ⟨?_, fun kv hkv => ?_⟩
  · rw [← hl.1]; simp [Function.comp_def]
  · rw [List.mem_map]
    exact ⟨kv, hl.2 kv hkv, by rw [const_untouched c p consts hd ht g kv hkv]⟩

theorem pool_holds (c : Conv) (p : Proto) (consts : List (Bytes × Val)) (hd : Distinct c p consts) (ht : Touches c)
    (l : List (Bytes × Val)) (h : PoolList c consts p l) : Pooled (dictOf c p) c.vkeys consts l := by
  induction h with
  | new => exact template_pooled _ _ _ hd
  | freed g vals l hp hv _ ih =>
    unfold convertC
    rw [hp]
    exact adjusted c p consts hd ht g _ (converted_list _ _ _ hd g vals hv l ih).2.2.2

/-- C50.  Whatever was converted before, the exported list is sorted by key and consists of exactly the entries of
the dictionary for the protocol, the value labels and the constant labels, each with its final value. -/
theorem exported_labels (c : Conv) (consts : List (Bytes × Val)) (g : Lab) (ht : Touches c)
    (hd : Distinct c (protoOf (g.gs (bs "protocol"))) consts) (vals : List (Bytes × Val)) (hv : vals.map (·.1) = c.vkeys)
    (l : List (Bytes × Val)) (hl : PoolList c consts (protoOf (g.gs (bs "protocol"))) l) :
    let out := convertC c consts g vals l
    (out.map (·.1)).Pairwise (fun a b => leB a b = true) ∧ (out.map (·.1)).Nodup ∧
    (∀ k v, (k, v) ∈ out ↔ ∃ v0, (k, v0) ∈ wanted (dictOf c (protoOf (g.gs (bs "protocol")))) consts g vals ∧
      v = finalVal c.adj g k v0) := by
  intro out
  obtain ⟨h1, h2, h3, _⟩ := converted_list _ _ _ hd g vals hv l (pool_holds c _ consts hd ht l hl)
  have he : out = _ := adjustL_map c.adj g _
  have hk : out.map (·.1) = (convert (build (dictOf c (protoOf (g.gs (bs "protocol")))) c.vkeys consts) g vals l).map (·.1) := by
    rw [he]; simp [Function.comp_def]
  refine ⟨by rw [hk]; exact h1, by rw [hk]; exact h2, fun k v => ?_⟩
  rw [he, mem_map_fn (finalVal c.adj g)]
  simp only [h3]

/-- C78.  The map for the same group has the same labels. -/
theorem exported_map (c : Conv) (consts : List (Bytes × Val)) (g : Lab) (ht : Touches c)
    (hd : Distinct c (protoOf (g.gs (bs "protocol"))) consts) (vals : List (Bytes × Val)) (hv : vals.map (·.1) = c.vkeys)
    (hval : ∀ kv ∈ vals, kv.2 ≠ .invalid) (l : List (Bytes × Val)) (hl : PoolList c consts (protoOf (g.gs (bs "protocol"))) l)
    (m : AMap Bytes Val) (hm : PooledMap (dictOf c (protoOf (g.gs (bs "protocol")))) c.vkeys consts m) (k : Bytes) (v : Val) :
    (k, v) ∈ convertC c consts g vals l ↔ (transformC c consts g vals m).get k = some v := by
  have hp := pool_holds c _ consts hd ht l hl
  have h := list_and_map_agree _ _ _ hd g vals hv hval l hp m hm
  obtain ⟨_, _, h3, _⟩ := converted_list _ _ _ hd g vals hv l hp
  have hkey : ∀ k ∈ c.base.map (·.newKey),
      k ∈ (convert (build (dictOf c (protoOf (g.gs (bs "protocol")))) c.vkeys consts) g vals l).map (·.1) := by
    intro k hk
    obtain ⟨d, hdm, rfl⟩ := List.mem_map.1 hk
    refine List.mem_map.2 ⟨(d.newKey, entryVal g d), (h3 _).2 ?_, rfl⟩
    unfold wanted dictOf
    simp only [List.map_append, List.mem_append]
    exact Or.inl (Or.inl (Or.inl (List.mem_map.2 ⟨d, hdm, rfl⟩)))
  unfold convertC transformC
  unfold Touches at ht
  cases hc : c.adj with
  | keep => exact h k v
  | removeDst =>
    rw [hc] at ht
    exact removeDst_agree g _ _ h (hkey _ ht.1) (hkey _ ht.2) k v
  | replaceNat =>
    rw [hc] at ht
    exact replaceNat_agree g _ _ h (hkey _ ht.1) (hkey _ ht.2) k v

/-- All converters of network metrics and of traces as metrics. -/
def metricConvs : List Conv :=
  [aggEntity, aggEntitySlow, detailEntity, detailEntitySlow, aggTopology, aggTopologySlow, detailTopology, detailTopologySlow, traceToMetric]

/-- Constant labels with other keys. -/
def Fresh (c : Conv) (p : Proto) (consts : List (Bytes × Val)) : Prop :=
  (consts.map (·.1)).Nodup ∧ ∀ k ∈ consts.map (·.1), k ∉ (dictOf c p).map (·.newKey) ++ c.vkeys

theorem distinct_of (c : Conv) (p : Proto) (consts : List (Bytes × Val)) (h : ((dictOf c p).map (·.newKey) ++ c.vkeys).Nodup)
    (hf : Fresh c p consts) : Distinct c p consts := by
  unfold Distinct
  rw [List.nodup_append]
  refine ⟨h, hf.1, fun a ha b hb => ?_⟩
  rintro rfl
  exact hf.2 a hb ha

/-- The dictionaries of the code have distinct keys, for all protocols, ... -/
theorem metric_dictionaries (c : Conv) (hc : c ∈ metricConvs) (p : Proto) (consts : List (Bytes × Val)) (hf : Fresh c p consts) :
    Distinct c p consts ∧ Touches c := by
  have h : ∀ c ∈ metricConvs, (∀ p, ((dictOf c p).map (·.newKey) ++ c.vkeys).Nodup) := by
    intro c hc
    simp only [metricConvs, List.mem_cons, List.not_mem_nil, or_false] at hc
    rcases hc with rfl | rfl | rfl | rfl | rfl | rfl | rfl | rfl | rfl <;> intro p <;> cases p <;> decide +kernel
  refine ⟨distinct_of c p consts (h c hc p) hf, ?_⟩
  simp only [metricConvs, List.mem_cons, List.not_mem_nil, or_false] at hc
  rcases hc with rfl | rfl | rfl | rfl | rfl | rfl | rfl | rfl | rfl
  · trivial
  · trivial
  · trivial
  · trivial
  all_goals first | trivial | (constructor <;> decide +kernel)

/-- ... and those of spans for all protocols but Redis. -/
theorem span_dictionaries (p : Proto) (hp : p ≠ .redis) (consts : List (Bytes × Val)) (hf : Fresh traceToSpan p consts) :
    Distinct traceToSpan p consts ∧ Touches traceToSpan := by
  refine ⟨distinct_of _ p consts ?_ hf, trivial⟩
  cases p <;> first | exact absurd rfl hp | decide +kernel

/-! ### Redis spans -/

theorem assign_zero (m : AMap Nat Nat) (vs : List Val) (i0 : Nat) (l : List (Bytes × Val))
    (h : ∀ i : Nat, i < vs.length → (m.get (i0 + i)).getD 0 ≠ 0) : (assign m vs i0 l)[0]? = l[0]? := by
  induction vs generalizing i0 l with
  | nil => rfl
  | cons v r ih =>
    unfold assign
    rw [ih]
    · unfold setVal
      rw [List.getElem?_modify]
      have := h 0 (by simp)
      have h0 : (m.get i0).getD 0 ≠ 0 := by simpa using this
      simp [h0]
    · intro i hi
      have := h (i + 1) (by simp; omega)
      rwa [show i0 + (i + 1) = i0 + 1 + i by omega] at this

theorem assign_append (m : AMap Nat Nat) (a b : List Val) (i0 : Nat) (l : List (Bytes × Val)) :
    assign m (a ++ b) i0 l = assign m b (i0 + a.length) (assign m a i0 l) := by
  induction a generalizing i0 l with
  | nil => rfl
  | cons v r ih =>
    simp only [List.cons_append, assign, List.length_cons]
    rw [ih]
    congr 1
    omega

theorem setVal_keys (l : List (Bytes × Val)) (i : Nat) (v : Val) : (setVal l i v).map (·.1) = l.map (·.1) := by
  unfold setVal
  apply List.ext_getElem?
  intro j
  rw [List.getElem?_map, List.getElem?_modify, List.getElem?_map]
  by_cases h : i = j
  · subst h
    cases l[i]? <;> simp
  · simp [h]

theorem assign_keys (m : AMap Nat Nat) (vs : List Val) (i0 : Nat) (l : List (Bytes × Val)) :
    (assign m vs i0 l).map (·.1) = l.map (·.1) := by
  induction vs generalizing i0 l with
  | nil => rfl
  | cons v r ih => simp only [assign]; rw [ih, setVal_keys]

def redisDict : List Dict := dictOf traceToSpan .redis

/-- Finding: the request and the response payload of Redis spans have the same key, so that the command name of every
Redis span is replaced by the response payload. -/
theorem redis_span_comm (g : Lab) (vals : List (Bytes × Val)) (hv : vals.length = traceSpanStatus.length) (l : List (Bytes × Val))
    (hl : l.map (·.1) = (build redisDict traceSpanStatus []).template.map (·.1)) :
    (convert (build redisDict traceSpanStatus []) g vals l)[0]? = some (bs "comm", .str (g.gs (bs "response_payload"))) := by
  have hm : ∀ i : Nat, i < 11 → ((build redisDict traceSpanStatus []).sortMap.get (redisDict.length + i)).getD 0 ≠ 0 := by
    decide +kernel
  have hz : ((build redisDict traceSpanStatus []).sortMap.get (redisDict.dropLast.length)).getD 0 = 0 := by decide +kernel
  have hk : ((build redisDict traceSpanStatus []).template.map (·.1))[0]? = some (bs "comm") := by decide +kernel
  have hd : redisDict = redisDict.dropLast ++ [⟨bs "redis.request_payload", bs "response_payload", .string⟩] := by rfl
  have hdict : (build redisDict traceSpanStatus []).dict = redisDict := rfl
  unfold convert
  rw [hdict]
  rw [assign_zero _ _ _ _ (fun i hi => hm i (by simpa [hv, traceSpanStatus] using hi))]
  have e : redisDict.map (entryVal g) = redisDict.dropLast.map (entryVal g) ++ [.str (g.gs (bs "response_payload"))] := by
    conv => lhs; rw [hd]
    simp [entryVal]
  rw [e, assign_append]
  simp only [assign, Nat.zero_add, List.length_map]
  rw [hz]
  unfold setVal
  rw [List.getElem?_modify]
  have hkeys := assign_keys (build redisDict traceSpanStatus []).sortMap (redisDict.dropLast.map (entryVal g)) 0 l
  rw [hl] at hkeys
  have h0 : (((assign (build redisDict traceSpanStatus []).sortMap (redisDict.dropLast.map (entryVal g)) 0 l)).map (·.1))[0]? = some (bs "comm") := by
    rw [hkeys]; exact hk
  rw [List.getElem?_map] at h0
  cases hc : (assign (build redisDict traceSpanStatus []).sortMap (redisDict.dropLast.map (entryVal g)) 0 l)[0]? with
  | none => rw [hc] at h0; cases h0
  | some kv =>
    rw [hc] at h0
    simp only [Option.map_some, Option.some.injEq] at h0
    simp [h0]

/-! ### Splitting of groups -/

/-- A metric: name and data. -/
abbrev Metric (α : Type) := Bytes × α

/-- `metricNameDictionary` (relabel_metric_const.go:6-13): the names for servers and for clients. -/
def metricNames : List (Bytes × Bytes × Bytes) :=
  [(bs "request_io", bs "receive_bytes_total", bs "request_bytes_total"),
   (bs "response_io", bs "send_bytes_total", bs "response_bytes_total"),
   (bs "request_total_time", bs "duration_nanoseconds_total", bs "duration_nanoseconds_total"),
   (bs "request_count", bs "total", bs "total"),
   (bs "request_total_time_avg", bs "average_duration_nanoseconds", bs "average_duration_nanoseconds"),
   (bs "request_time_histogram", bs "request_time_histogram", bs "request_time_histogram")]

/-- `ToKindlingNetMetricName` (relabel_metric_const.go:50-56, 67-75). -/
def metricName (n : Bytes) (server : Bool) : Bytes :=
  match metricNames.lookup n with
  | none => []
  | some (e, t) => if server then bs "kindling_entity_request_" ++ e else bs "kindling_topology_request_" ++ t

/-- `AdaptedResult`: the metrics and the converter of the labels. -/
structure Result (α : Type) where
  metrics : List (Metric α)
  conv : Conv

/-- The loop of `createNetMetricResults` (net_adapter.go:84-92). -/
def splitLoop {α : Type} (server : Bool) : List (Metric α) → List (Metric α) → List (Metric α) → List (Metric α) × List (Metric α)
  | [], a, b => (a, b)
  | m :: r, a, b =>
    if m.1 ≠ bs "request_count" then splitLoop server r (a ++ [(metricName m.1 server, m.2)]) b
    else splitLoop server r a (b ++ [(metricName m.1 server, m.2)])

/-- `createNetMetricResults` (net_adapter.go:81-101). -/
def createResults {α : Type} (ms : List (Metric α)) (isServer : Bool) (adapter : Conv × Conv) (toTopology : Bool) : List (Result α) :=
  let (rest, count) := splitLoop (isServer && !toTopology) ms [] []
  (if rest.length > 0 then [⟨rest, adapter.1⟩] else []) ++ (if count.length > 0 then [⟨count, adapter.2⟩] else [])

structure Cfg where
  traceAsMetric : Bool
  traceAsSpan : Bool
  podDetail : Bool
  externalSrc : Bool

/-- `dealWithPreAggMetricGroups` (net_adapter.go:53-79). -/
def dealAgg {α : Type} (c : Cfg) (g : Lab) (ms : List (Metric α)) : List (Result α) :=
  let isServer := g.gb (bs "is_server")
  let first := if c.externalSrc = true ∧ g.gs (bs "src_namespace") = bs "NOT_FOUND_EXTERNAL" ∧ isServer = true then
    createResults ms isServer (detailTopology, detailTopologySlow) true else []
  let adapter :=
    if c.podDetail then (if isServer then (detailEntity, detailEntitySlow) else (detailTopology, detailTopologySlow))
    else (if isServer then (aggEntity, aggEntitySlow) else (aggTopology, aggTopologySlow))
  first ++ createResults ms isServer adapter false

/-- `dealWithSingleMetricGroup` (net_adapter.go:34-51); the result says whether it is a trace. -/
def dealSingle {α : Type} (c : Cfg) (ms : List (Metric α)) : List (Bool × Result α) :=
  match ms.find? (fun m => m.1 == bs "request_total_time") with
  | none => []
  | some t =>
    (if c.traceAsMetric then [(false, ⟨[(bs "kindling_trace_request_duration_nanoseconds", t.2)], traceToMetric⟩)] else []) ++
    (if c.traceAsSpan then [(true, ⟨[t], traceToSpan⟩)] else [])

theorem splitLoop_eq {α : Type} (server : Bool) (ms a b : List (Metric α)) :
    splitLoop server ms a b = (a ++ (ms.filter (fun m => m.1 != bs "request_count")).map (fun m => (metricName m.1 server, m.2)),
      b ++ (ms.filter (fun m => m.1 == bs "request_count")).map (fun m => (metricName m.1 server, m.2))) := by
  induction ms generalizing a b with
  | nil => simp [splitLoop]
  | cons m r ih =>
    unfold splitLoop
    by_cases h : m.1 = bs "request_count"
    · rw [if_neg (fun hc => hc h), ih]
      simp [h]
    · rw [if_pos h, ih]
      simp [h]

/-- C49.  Every metric is in exactly one result, in order; the request counts are alone and carry `is_slow`; no result
is empty. -/
theorem metrics_kept {α : Type} (ms : List (Metric α)) (isServer : Bool) (adapter : Conv × Conv) (topo : Bool) :
    let out := createResults ms isServer adapter topo
    let name := fun m : Metric α => (metricName m.1 (isServer && !topo), m.2)
    (out.flatMap (·.metrics)).Perm (ms.map name) ∧
    ((out.flatMap (·.metrics)) = (ms.filter (fun m => m.1 != bs "request_count")).map name ++ (ms.filter (fun m => m.1 == bs "request_count")).map name) ∧
    (∀ r ∈ out, r.metrics ≠ []) ∧
    (∀ r ∈ out, (r.conv = adapter.1 ∧ r.metrics = (ms.filter (fun m => m.1 != bs "request_count")).map name) ∨
      (r.conv = adapter.2 ∧ r.metrics = (ms.filter (fun m => m.1 == bs "request_count")).map name)) ∧ out.length ≤ 2 := by
  intro out name
  have h : out = (if (ms.filter (fun m => m.1 != bs "request_count")).map name = [] then [] else
      [⟨(ms.filter (fun m => m.1 != bs "request_count")).map name, adapter.1⟩]) ++
      (if (ms.filter (fun m => m.1 == bs "request_count")).map name = [] then [] else
        [⟨(ms.filter (fun m => m.1 == bs "request_count")).map name, adapter.2⟩]) := by
    show createResults ms isServer adapter topo = _
    unfold createResults
    rw [splitLoop_eq]
    simp only [List.nil_append]
    congr 1
    · cases hx : (ms.filter (fun m => m.1 != bs "request_count")).map name with
      | nil => rw [if_neg (by simp), if_pos rfl]
      | cons y r => rw [if_pos (by simp), if_neg (by simp)]
    · cases hx : (ms.filter (fun m => m.1 == bs "request_count")).map name with
      | nil => rw [if_neg (by simp), if_pos rfl]
      | cons y r => rw [if_pos (by simp), if_neg (by simp)]
  have hflat : out.flatMap (·.metrics) = (ms.filter (fun m => m.1 != bs "request_count")).map name ++
      (ms.filter (fun m => m.1 == bs "request_count")).map name := by
    rw [h]
    generalize (ms.filter (fun m => m.1 != bs "request_count")).map name = x
    generalize (ms.filter (fun m => m.1 == bs "request_count")).map name = y
    cases x <;> cases y <;> simp
  refine ⟨?_, hflat, ?_, ?_, ?_⟩
  · rw [hflat, ← List.map_append]
    apply List.Perm.map
    have := List.filter_append_perm (fun m : Metric α => m.1 != bs "request_count") ms
    have e : (fun m : Metric α => !(m.1 != bs "request_count")) = (fun m : Metric α => m.1 == bs "request_count") := by
      funext m; simp [bne]
    rw [e] at this
    exact this
  · intro r hr
    rw [h] at hr
    rcases List.mem_append.1 hr with hr | hr
    · split at hr
      · cases hr
      · rename_i hne
        rw [List.mem_singleton.1 hr]; exact hne
    · split at hr
      · cases hr
      · rename_i hne
        rw [List.mem_singleton.1 hr]; exact hne
  · intro r hr
    rw [h] at hr
    rcases List.mem_append.1 hr with hr | hr
    · split at hr
      · cases hr
      · rw [List.mem_singleton.1 hr]; exact Or.inl ⟨rfl, rfl⟩
    · split at hr
      · cases hr
      · rw [List.mem_singleton.1 hr]; exact Or.inr ⟨rfl, rfl⟩
  · rw [h, List.length_append]
    split <;> split <;> simp

/-- Known metrics keep distinct names, named after the side that reports them. -/
theorem names_distinct (a b : Bytes) (server : Bool) (ha : a ∈ metricNames.map (·.1)) (hb : b ∈ metricNames.map (·.1))
    (h : metricName a server = metricName b server) : a = b := by
  have hh : ∀ s : Bool, ∀ a ∈ metricNames.map (·.1), ∀ b ∈ metricNames.map (·.1), metricName a s = metricName b s → a = b := by
    decide +kernel
  exact hh server a ha b hb h

/-- Finding: every other metric loses its name. -/
theorem unknown_metric_unnamed (a : Bytes) (server : Bool) (ha : a ∉ metricNames.map (·.1)) : metricName a server = [] := by
  have : ∀ l : List (Bytes × Bytes × Bytes), a ∉ l.map (·.1) → l.lookup a = none := by
    intro l
    induction l with
    | nil => intro _; rfl
    | cons x r ih =>
      intro h
      simp only [List.map_cons, List.mem_cons, not_or] at h
      rw [List.lookup_cons, beq_false_of_ne h.1]
      exact ih h.2
  unfold metricName
  rw [this _ ha]

/-- Every metric of a group is exported by the side it was seen on; requests from outside seen by the server also as
topology. -/
theorem group_metrics {α : Type} (c : Cfg) (g : Lab) (ms : List (Metric α)) :
    ((dealAgg c g ms).flatMap (·.metrics)).Perm
      ((if c.externalSrc = true ∧ g.gs (bs "src_namespace") = bs "NOT_FOUND_EXTERNAL" ∧ g.gb (bs "is_server") = true then
        ms.map (fun m => (metricName m.1 false, m.2)) else []) ++ ms.map (fun m => (metricName m.1 (g.gb (bs "is_server")), m.2))) := by
  unfold dealAgg
  simp only [List.flatMap_append]
  apply List.Perm.append
  · split
    · have := (metrics_kept ms (g.gb (bs "is_server")) (detailTopology, detailTopologySlow) true).1
      simpa using this
    · exact List.Perm.refl _
  · have := (metrics_kept ms (g.gb (bs "is_server"))
      (if c.podDetail then (if g.gb (bs "is_server") then (detailEntity, detailEntitySlow) else (detailTopology, detailTopologySlow))
        else (if g.gb (bs "is_server") then (aggEntity, aggEntitySlow) else (aggTopology, aggTopologySlow))) false).1
    simpa using this

/-- Every converter of an aggregated group is one of those with distinct keys. -/
theorem group_converters {α : Type} (c : Cfg) (g : Lab) (ms : List (Metric α)) : ∀ r ∈ dealAgg c g ms, r.conv ∈ metricConvs := by
  have h : ∀ (s t : Bool) (a : Conv × Conv), a.1 ∈ metricConvs → a.2 ∈ metricConvs → ∀ r ∈ createResults ms s a t, r.conv ∈ metricConvs := by
    intro s t a h1 h2 r hr
    rcases (metrics_kept ms s a t).2.2.2.1 r hr with h | h
    · rw [h.1]; exact h1
    · rw [h.1]; exact h2
  intro r hr
  unfold dealAgg at hr
  simp only at hr
  rcases List.mem_append.1 hr with hr | hr
  · split at hr
    · exact h _ _ _ (by simp [metricConvs]) (by simp [metricConvs]) r hr
    · cases hr
  · refine h _ _ _ ?_ ?_ r hr
    · repeat' split
      all_goals simp [metricConvs]
    · repeat' split
      all_goals simp [metricConvs]

/-- A single record is exported as a trace with the total time iff it has one. -/
theorem single_record {α : Type} (c : Cfg) (ms : List (Metric α)) :
    (bs "request_total_time" ∉ ms.map (·.1) → dealSingle c ms = []) ∧
    (∀ v, ms.lookup (bs "request_total_time") = some v →
      (dealSingle c ms).map (fun r => (r.1, r.2.metrics)) =
        (if c.traceAsMetric then [(false, [(bs "kindling_trace_request_duration_nanoseconds", v)])] else []) ++
        (if c.traceAsSpan then [(true, [(bs "request_total_time", v)])] else [])) := by
  constructor
  · intro h
    unfold dealSingle
    have : ms.find? (fun m => m.1 == bs "request_total_time") = none := by
      rw [List.find?_eq_none]
      intro m hm hc
      exact h (List.mem_map.2 ⟨m, hm, by simpa using hc⟩)
    rw [this]
  · intro v hv
    have : ∀ ms : List (Metric α), ms.lookup (bs "request_total_time") = some v →
        ms.find? (fun m => m.1 == bs "request_total_time") = some (bs "request_total_time", v) := by
      intro ms
      induction ms with
      | nil => intro h; cases h
      | cons m r ih =>
        intro h
        obtain ⟨n, d⟩ := m
        rw [List.lookup_cons] at h
        by_cases hn : bs "request_total_time" = n
        · subst hn
          rw [beq_self_eq_true] at h
          simp only [Option.some.injEq] at h
          rw [List.find?_cons_of_pos (by simp), h]
        · rw [beq_false_of_ne hn] at h
          rw [List.find?_cons_of_neg (by simpa using Ne.symm hn)]
          exact ih h
    unfold dealSingle
    rw [this ms hv]
    cases c.traceAsMetric <;> cases c.traceAsSpan <;> rfl

/-! ### Examples -/

/-- A Redis request seen by its client, behind address translation. -/
def g0 : Lab where
  gs k := if k = bs "protocol" then bs "redis" else if k = bs "dnat_ip" then bs "10.0.0.7" else if k = bs "dst_ip" then bs "10.96.0.1" else []
  gi k := if k = bs "dnat_port" then 6379 else if k = bs "dst_port" then 80 else 0
  gb _ := false

example : ∃ l, PoolList detailTopology [(bs "cluster", .str (bs "c1"))] (protoOf (g0.gs (bs "protocol"))) l ∧
    Distinct detailTopology (protoOf (g0.gs (bs "protocol"))) [(bs "cluster", .str (bs "c1"))] ∧ Touches detailTopology :=
  ⟨_, .new, (metric_dictionaries detailTopology (by simp [metricConvs]) _ _ ⟨by decide +kernel, by decide +kernel⟩)⟩

example : (dealAgg ⟨false, false, true, false⟩ g0 [(bs "request_count", 3), (bs "request_io", 10)]).map (·.metrics) =
    [[(bs "kindling_topology_request_request_bytes_total", 10)], [(bs "kindling_topology_request_total", 3)]] := by decide +kernel

end Kindling.Export.Adapter
