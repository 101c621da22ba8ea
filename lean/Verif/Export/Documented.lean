import Verif.Export.Adapter
/-
The labels of exported metrics as documented in docs/prometheus_metrics.md, and what the adapter of network groups
exports.  Adds the model of the labels computed from the metrics of a single record (net_dict.go:331-409).
-/
namespace Kindling.Export.Documented
open Kindling.Export.Labels Kindling.Export.Adapter

/-! ### Labels computed from metrics -/

/-- The value of the last metric of a name, 0 if there is none (the loops of net_dict.go:333-347 and 368-378).
Simplified: every metric of the record is an integer; `GetInt` of another one is nil and the code panics. -/
def lastOf (n : Bytes) : List (Bytes × Int) → Option Int
  | [] => none
  | m :: r => match lastOf n r with
    | some v => some v
    | none => if m.1 = n then some m.2 else none

/-- `getRequestStatus` (net_dict.go:389-397). -/
def requestStatus (t : Int) : Bytes :=
  if t ≤ 800 * 1000000 then bs "1" else if t ≥ 1500 * 1000000 then bs "3" else bs "2"

/-- `getSubStageStatus` (net_dict.go:399-407). -/
def stageStatus (t : Int) : Bytes :=
  if t ≤ 200 * 1000000 then bs "1" else if t ≥ 1000 * 1000000 then bs "3" else bs "2"

/-- `getTraceStatusLabels` (net_dict.go:366-387). -/
def traceVals (g : Lab) (ms : List (Bytes × Int)) : List (Bytes × Val) :=
  [(bs "request_reqxfer_status", .str (stageStatus ((lastOf (bs "request_sent_time") ms).getD 0))),
   (bs "request_processing_status", .str (stageStatus ((lastOf (bs "waiting_ttfb_time") ms).getD 0))),
   (bs "response_rspxfer_status", .str (stageStatus ((lastOf (bs "content_download_time") ms).getD 0))),
   (bs "request_duration_status", .str (requestStatus ((lastOf (bs "request_total_time") ms).getD 0))),
   (bs "is_server", .bool (g.gb (bs "is_server")))]

/-- An entry of `getTraceSpanStatusLabels` filled by a metric: the zero value if there is none. -/
def spanVal (n : Bytes) (ms : List (Bytes × Int)) : Val := match lastOf n ms with
  | some v => .int v
  | none => .invalid

/-- `getTraceSpanStatusLabels` (net_dict.go:331-356); `ts` is the timestamp of the group. -/
def spanVals (g : Lab) (ms : List (Bytes × Int)) (ts : Nat) : List (Bytes × Val) :=
  [(bs "request_sent_ns", spanVal (bs "request_sent_time") ms),
   (bs "waiting_ttfb_ns", spanVal (bs "waiting_ttfb_time") ms),
   (bs "content_download_ns", spanVal (bs "content_download_time") ms),
   (bs "request_total_ns", spanVal (bs "request_total_time") ms),
   (bs "requestio_bytes", spanVal (bs "request_io") ms),
   (bs "responseio_bytes", spanVal (bs "response_io") ms),
   (bs "is_server", .int (if g.gb (bs "is_server") then 1 else 0)),
   (bs "is_error", .int (if g.gb (bs "is_error") then 1 else 0)),
   (bs "is_slow", .int (if g.gb (bs "is_slow") then 1 else 0)),
   (bs "is_convergent", .int 0),
   (bs "timestamp", .int ((ts / 1000000 : Nat) : Int))]

/-! ### Spec: the documentation -/

/-- Where the value of a documented label comes from. -/
inductive Src
  /-- a text, a number or a truth value of the group -/
  | text (k : String) | num (k : String) | flag (k : String)
  /-- `request_content`, `response_content` and `status_code`: by protocol -/
  | request | response | status
  /-- the destination, after address translation if there was one -/
  | dstIp | dstPort
  /-- a text shown only for destinations outside Kubernetes -/
  | unknownDst (k : String)
deriving DecidableEq

/-- Attribute shown as `request_content`, by protocol (note 2 of the service metrics). -/
def docRequest : List (String × String) :=
  [("http", "content_key"), ("dns", "dns_domain"), ("mysql", "content_key"), ("kafka", "kafka_topic"),
   ("dubbo", "content_key"), ("redis", "content_key"), ("rocketmq", "content_key")]

/-- Number shown as `response_content` and as `status_code`, by protocol. -/
def docResponse : List (String × String) :=
  [("http", "http_status_code"), ("dns", "dns_rcode"), ("mysql", "sql_error_code"), ("dubbo", "dubbo_error_code"),
   ("rocketmq", "rocketmq_error_code")]

def docFind (t : List (String × String)) (p : Bytes) : Option String :=
  (t.find? (fun x => decide (bs x.1 = p))).map (·.2)

/-- The response code of the protocol in decimal; `failed`/`fine` for Redis; empty for others. -/
def docCode (g : Lab) (failed fine : String) : Val :=
  if g.gs (bs "protocol") = bs "redis" then (if g.gi (bs "error_type") = 3 then .str (bs failed) else .str (bs fine))
  else match docFind docResponse (g.gs (bs "protocol")) with
    | some k => .str (Dec.formatInt (g.gi (bs k)))
    | none => .str []

/-- The destination was translated. -/
def Nat (g : Lab) : Prop := g.gs (bs "dnat_ip") ≠ [] ∧ 0 < g.gi (bs "dnat_port")

instance (g : Lab) : Decidable (Nat g) := inferInstanceAs (Decidable (_ ∧ _))

def Src.val (g : Lab) : Src → Val
  | .text k => .str (g.gs (bs k))
  | .num k => .int (g.gi (bs k))
  | .flag k => .bool (g.gb (bs k))
  | .request => match docFind docRequest (g.gs (bs "protocol")) with
    | some k => .str (g.gs (bs k))
    | none => .str []
  | .response => docCode g "error" "noerror"
  | .status => docCode g "1" "0"
  | .dstIp => if Nat g then .str (g.gs (bs "dnat_ip")) else .str (g.gs (bs "dst_ip"))
  | .dstPort => if Nat g then .int (g.gi (bs "dnat_port")) else .int (g.gi (bs "dst_port"))
  | .unknownDst k => if g.gs (bs "dst_namespace") = bs "NOT_FOUND_EXTERNAL" ∨ g.gs (bs "dst_namespace") = bs "NOT_FOUND_INTERNAL"
      then .str (g.gs (bs k)) else .str []

/-- Labels of the service metrics. -/
def docEntity : List (String × Src) :=
  [("node", .text "dst_node"), ("namespace", .text "dst_namespace"), ("workload_kind", .text "dst_workload_kind"),
   ("workload_name", .text "dst_workload_name"), ("service", .text "dst_service"), ("pod", .text "dst_pod"),
   ("container", .text "dst_container"), ("container_id", .text "dst_container_id"), ("ip", .text "dst_ip"),
   ("port", .num "dst_port"), ("protocol", .text "protocol"), ("request_content", .request), ("response_content", .response)]

/-- The same without the labels of a single pod, exported unless `store_pod_detail` is set. -/
def docEntityAgg : List (String × Src) :=
  docEntity.filter (fun x => x.1 ∉ ["node", "pod", "container", "container_id", "ip", "port"])

/-- Both ends of a request. -/
def docEnds : List (String × Src) :=
  ["src_node", "src_namespace", "src_workload_kind", "src_workload_name", "src_service", "src_pod", "src_container",
   "src_container_id", "src_ip", "dst_node", "dst_namespace", "dst_workload_kind", "dst_workload_name", "dst_service",
   "dst_pod", "dst_container", "dst_container_id", "protocol"].map (fun k => (k, .text k))

/-- Labels of the topology metrics. -/
def docTopology : List (String × Src) :=
  docEnds ++ [("dst_ip", .dstIp), ("dst_port", .dstPort), ("status_code", .status)]

/-- The same without the labels of a single pod, but for destinations outside Kubernetes. -/
def docTopologyAgg : List (String × Src) :=
  docEnds.filter (fun x => x.1 ∉ ["src_node", "src_pod", "src_container", "src_container_id", "src_ip", "dst_node", "dst_pod",
    "dst_container", "dst_container_id"]) ++
  [("dst_node", .unknownDst "dst_node"), ("dst_pod", .unknownDst "dst_pod"), ("status_code", .status)]

/-- Labels of a trace exported as a metric, without those computed from its times. -/
def docTrace : List (String × Src) :=
  docEnds ++ [("dst_ip", .text "dst_ip"), ("dst_port", .num "dst_port"), ("dnat_ip", .text "dnat_ip"), ("dnat_port", .num "dnat_port"),
    ("request_content", .request), ("response_content", .response)]

/-- The colour of a duration in nanoseconds, given the limits in milliseconds. -/
def Colour (green red : Int) (t : Int) (s : Bytes) : Prop :=
  (s = bs "1" ∧ t ≤ green * 1000000) ∨ (s = bs "2" ∧ green * 1000000 < t ∧ t < red * 1000000) ∨ (s = bs "3" ∧ red * 1000000 ≤ t)

/-! ### The entry of a documented label -/

/-- The entry of the dictionary for a source. -/
def sym (p : Proto) : Src → Bytes × VT
  | .text k => (bs k, .string)
  | .num k => (bs k, .int64)
  | .flag k => (bs k, .bool)
  | .request => match p with
    | .http | .grpc | .mysql | .dubbo | .redis | .rocketmq => (bs "content_key", .string)
    | .dns => (bs "dns_domain", .string)
    | .kafka => (bs "kafka_topic", .string)
    | .unsupported => ([], .strEmpty)
  | .response => code p .fromError
  | .status => code p .fromErrorStatus
  | .dstIp => (bs "dst_ip", .string)
  | .dstPort => (bs "dst_port", .int64)
  | .unknownDst k => (bs k, .string)
where
  code (p : Proto) (e : VT) : Bytes × VT := match p with
    | .http | .grpc => (bs "http_status_code", .fromInt)
    | .dns => (bs "dns_rcode", .fromInt)
    | .mysql => (bs "sql_error_code", .fromInt)
    | .dubbo => (bs "dubbo_error_code", .fromInt)
    | .rocketmq => (bs "rocketmq_error_code", .fromInt)
    | .redis => ([], e)
    | .kafka | .unsupported => ([], .strEmpty)

def entry (p : Proto) (x : String × Src) : Dict := ⟨bs x.1, (sym p x.2).1, (sym p x.2).2⟩

theorem itoa_eq (n : Int) : itoa n = Dec.formatInt n := by
  unfold itoa Dec.formatInt
  rfl

theorem protoOf_cases (s : Bytes) :
    (s = bs "http" ∧ protoOf s = .http) ∨ (s = bs "grpc" ∧ protoOf s = .grpc) ∨ (s = bs "mysql" ∧ protoOf s = .mysql) ∨
    (s = bs "dns" ∧ protoOf s = .dns) ∨ (s = bs "kafka" ∧ protoOf s = .kafka) ∨ (s = bs "dubbo" ∧ protoOf s = .dubbo) ∨
    (s = bs "redis" ∧ protoOf s = .redis) ∨ (s = bs "rocketmq" ∧ protoOf s = .rocketmq) ∨
    ((s ≠ bs "http" ∧ s ≠ bs "grpc" ∧ s ≠ bs "mysql" ∧ s ≠ bs "dns" ∧ s ≠ bs "kafka" ∧ s ≠ bs "dubbo" ∧ s ≠ bs "redis" ∧
      s ≠ bs "rocketmq") ∧ protoOf s = .unsupported) := by
  by_cases h1 : s = bs "http"
  · subst h1; exact Or.inl ⟨rfl, by decide⟩
  by_cases h2 : s = bs "grpc"
  · subst h2; exact Or.inr (Or.inl ⟨rfl, by decide⟩)
  by_cases h3 : s = bs "mysql"
  · subst h3; exact Or.inr (Or.inr (Or.inl ⟨rfl, by decide⟩))
  by_cases h4 : s = bs "dns"
  · subst h4; exact Or.inr (Or.inr (Or.inr (Or.inl ⟨rfl, by decide⟩)))
  by_cases h5 : s = bs "kafka"
  · subst h5; exact Or.inr (Or.inr (Or.inr (Or.inr (Or.inl ⟨rfl, by decide⟩))))
  by_cases h6 : s = bs "dubbo"
  · subst h6; exact Or.inr (Or.inr (Or.inr (Or.inr (Or.inr (Or.inl ⟨rfl, by decide⟩)))))
  by_cases h7 : s = bs "redis"
  · subst h7; exact Or.inr (Or.inr (Or.inr (Or.inr (Or.inr (Or.inr (Or.inl ⟨rfl, by decide⟩))))))
  by_cases h8 : s = bs "rocketmq"
  · subst h8; exact Or.inr (Or.inr (Or.inr (Or.inr (Or.inr (Or.inr (Or.inr (Or.inl ⟨rfl, by decide⟩)))))))
  refine Or.inr (Or.inr (Or.inr (Or.inr (Or.inr (Or.inr (Or.inr (Or.inr ⟨⟨h1, h2, h3, h4, h5, h6, h7, h8⟩, ?_⟩)))))))
  simp [protoOf, h1, h2, h3, h4, h5, h6, h7, h8]

theorem request_val (g : Lab) (hg : g.gs (bs "protocol") ≠ bs "grpc") (k : Bytes) :
    Src.val g .request = entryVal g ⟨k, (sym (protoOf (g.gs (bs "protocol"))) .request).1, (sym (protoOf (g.gs (bs "protocol"))) .request).2⟩ := by
  simp only [Src.val]
  rcases protoOf_cases (g.gs (bs "protocol")) with ⟨h, e⟩ | ⟨h, e⟩ | ⟨h, e⟩ | ⟨h, e⟩ | ⟨h, e⟩ | ⟨h, e⟩ | ⟨h, e⟩ | ⟨h, e⟩ | ⟨h, e⟩
  case inr.inl => exact absurd h hg
  case inr.inr.inr.inr.inr.inr.inr.inr =>
    obtain ⟨h1, h2, h3, h4, h5, h6, h7, h8⟩ := h
    rw [e]
    have : docFind docRequest (g.gs (bs "protocol")) = none := by
      simp [docFind, docRequest, h1.symm, h3.symm, h4.symm, h5.symm, h6.symm, h7.symm, h8.symm]
    rw [this]
    rfl
  all_goals
    rw [e, h]
    rfl

theorem code_val (g : Lab) (hg : g.gs (bs "protocol") ≠ bs "grpc") (k : Bytes) (e : VT) (failed fine : String)
    (he : entryVal g ⟨k, [], e⟩ = if g.gi (bs "error_type") = 3 then .str (bs failed) else .str (bs fine)) :
    docCode g failed fine = entryVal g ⟨k, (sym.code (protoOf (g.gs (bs "protocol"))) e).1, (sym.code (protoOf (g.gs (bs "protocol"))) e).2⟩ := by
  unfold docCode
  rcases protoOf_cases (g.gs (bs "protocol")) with ⟨h, e'⟩ | ⟨h, e'⟩ | ⟨h, e'⟩ | ⟨h, e'⟩ | ⟨h, e'⟩ | ⟨h, e'⟩ | ⟨h, e'⟩ | ⟨h, e'⟩ | ⟨h, e'⟩
  case inr.inl => exact absurd h hg
  case inr.inr.inr.inr.inr.inr.inl =>
    rw [e', if_pos h]
    exact he.symm
  case inr.inr.inr.inr.inr.inr.inr.inr =>
    obtain ⟨h1, h2, h3, h4, h5, h6, h7, h8⟩ := h
    rw [e', if_neg h7]
    have : docFind docResponse (g.gs (bs "protocol")) = none := by
      simp [docFind, docResponse, h1.symm, h3.symm, h4.symm, h6.symm, h8.symm]
    rw [this]
    rfl
  all_goals
    rw [e', h, if_neg (by decide)]
    simp only [sym.code, entryVal, itoa_eq]
    rfl

/-- The dictionary of a converter is the documented one. -/
def sameEntries (c : Conv) (doc : List (String × Src)) (p : Proto) : Bool :=
  (dictOf c p).all (fun d => decide (d ∈ doc.map (entry p))) && (doc.map (entry p)).all (fun d => decide (d ∈ dictOf c p))

def adjOk (a : Adj) (x : String × Src) : Bool := match a with
  | .keep => match x.2 with
    | .dstIp | .dstPort | .unknownDst _ => false
    | _ => true
  | .removeDst => match x.2 with
    | .unknownDst _ => decide (bs x.1 = bs "dst_node" ∨ bs x.1 = bs "dst_pod")
    | .dstIp | .dstPort => false
    | _ => decide (bs x.1 ≠ bs "dst_node" ∧ bs x.1 ≠ bs "dst_pod")
  | .replaceNat => match x.2 with
    | .dstIp => decide (bs x.1 = bs "dst_ip")
    | .dstPort => decide (bs x.1 = bs "dst_port")
    | .unknownDst _ => false
    | _ => decide (bs x.1 ≠ bs "dst_ip" ∧ bs x.1 ≠ bs "dst_port")

def allProtos : List Proto := [.http, .kafka, .dns, .mysql, .dubbo, .redis, .rocketmq, .unsupported]

def conforms (c : Conv) (doc : List (String × Src)) : Bool :=
  allProtos.all (sameEntries c doc) && doc.all (adjOk c.adj)

theorem src_final (a : Adj) (g : Lab) (hg : g.gs (bs "protocol") ≠ bs "grpc") (x : String × Src) (h : adjOk a x = true) :
    finalVal a g (bs x.1) (entryVal g (entry (protoOf (g.gs (bs "protocol"))) x)) = x.2.val g := by
  have hplain : (match x.2 with | .dstIp | .dstPort | .unknownDst _ => False | _ => True) →
      entryVal g (entry (protoOf (g.gs (bs "protocol"))) x) = x.2.val g := by
    intro hp
    obtain ⟨k, s⟩ := x
    cases s with
    | text k => rfl
    | num k => rfl
    | flag k => rfl
    | request => exact (request_val g hg _).symm
    | response => exact (code_val g hg _ .fromError "error" "noerror" (by rfl)).symm
    | status => exact (code_val g hg _ .fromErrorStatus "1" "0" (by rfl)).symm
    | dstIp => exact hp.elim
    | dstPort => exact hp.elim
    | unknownDst k => exact hp.elim
  have hnat : ¬ (g.gs (bs "dnat_ip") = [] ∨ g.gi (bs "dnat_port") ≤ 0) ↔ Nat g := by
    unfold Nat
    rw [not_or]
    constructor
    · rintro ⟨h1, h2⟩; exact ⟨h1, by omega⟩
    · rintro ⟨h1, h2⟩; exact ⟨h1, by omega⟩
  obtain ⟨k, s⟩ := x
  cases a with
  | keep =>
    cases s <;> first | (simp [adjOk] at h; done) | exact hplain trivial
  | removeDst =>
    cases s with
    | unknownDst k' =>
      simp only [adjOk, decide_eq_true_eq] at h
      simp only [finalVal, Src.val, entry, entryVal, sym]
      by_cases hn : g.gs (bs "dst_namespace") = bs "NOT_FOUND_EXTERNAL" ∨ g.gs (bs "dst_namespace") = bs "NOT_FOUND_INTERNAL"
      · rw [if_pos hn, if_neg]
        rintro ⟨_, h1, h2⟩
        exact hn.elim h1 h2
      · rw [if_neg hn, if_pos ⟨h, fun h => hn (Or.inl h), fun h => hn (Or.inr h)⟩]
    | dstIp => simp [adjOk] at h
    | dstPort => simp [adjOk] at h
    | _ =>
      simp only [adjOk, decide_eq_true_eq] at h
      rw [← hplain trivial]
      simp only [finalVal]
      rw [if_neg]
      rintro ⟨h1 | h1, _⟩
      · exact h.1 h1
      · exact h.2 h1
  | replaceNat =>
    cases s with
    | unknownDst k' => simp [adjOk] at h
    | dstIp =>
      simp only [adjOk, decide_eq_true_eq] at h
      simp only [finalVal, Src.val, entry, entryVal, sym, h]
      by_cases hn : Nat g
      · rw [if_pos hn, if_neg (hnat.2 hn), if_pos trivial]
      · rw [if_neg hn, if_pos (Decidable.by_contra (fun hc => hn (hnat.1 hc)))]
    | dstPort =>
      simp only [adjOk, decide_eq_true_eq] at h
      simp only [finalVal, Src.val, entry, entryVal, sym, h]
      by_cases hn : Nat g
      · rw [if_pos hn, if_neg (hnat.2 hn), if_neg (by decide), if_pos trivial]
      · rw [if_neg hn, if_pos (Decidable.by_contra (fun hc => hn (hnat.1 hc)))]
    | _ =>
      simp only [adjOk, decide_eq_true_eq] at h
      rw [← hplain trivial]
      simp only [finalVal]
      split
      · rfl
      · rw [if_neg h.1, if_neg h.2]

theorem proto_listed (g : Lab) (hg : g.gs (bs "protocol") ≠ bs "grpc") : protoOf (g.gs (bs "protocol")) ∈ allProtos := by
  rcases protoOf_cases (g.gs (bs "protocol")) with ⟨h, e⟩ | ⟨h, e⟩ | ⟨h, e⟩ | ⟨h, e⟩ | ⟨h, e⟩ | ⟨h, e⟩ | ⟨h, e⟩ | ⟨h, e⟩ | ⟨h, e⟩
  case inr.inl => exact absurd h hg
  all_goals rw [e]; decide

/-- The labels of a group, as a list and as a map: those of `doc`, those computed from the metrics and the constant
ones, nothing else and each with the documented value. -/
def Shows (c : Conv) (consts : List (Bytes × Val)) (g : Lab) (vals : List (Bytes × Val)) (doc : List (String × Src)) : Prop :=
  (∀ l, PoolList c consts (protoOf (g.gs (bs "protocol"))) l → ∀ k v, (k, v) ∈ convertC c consts g vals l ↔
    (∃ x ∈ doc, k = bs x.1 ∧ v = x.2.val g) ∨ (k, v) ∈ vals ∨ (k, v) ∈ consts) ∧
  (∀ m, PooledMap (dictOf c (protoOf (g.gs (bs "protocol")))) c.vkeys consts m → ∀ k v,
    (transformC c consts g vals m).get k = some v ↔
    (∃ x ∈ doc, k = bs x.1 ∧ v = x.2.val g) ∨ (k, v) ∈ vals ∨ (k, v) ∈ consts)

theorem shows_of (c : Conv) (hc : c ∈ metricConvs) (doc : List (String × Src)) (h : conforms c doc = true) (g : Lab)
    (hg : g.gs (bs "protocol") ≠ bs "grpc") (consts : List (Bytes × Val)) (hf : Fresh c (protoOf (g.gs (bs "protocol"))) consts)
    (vals : List (Bytes × Val)) (hv : vals.map (·.1) = c.vkeys) (hval : ∀ kv ∈ vals, kv.2 ≠ .invalid)
    (hvadj : ∀ kv ∈ vals, finalVal c.adj g kv.1 kv.2 = kv.2) : Shows c consts g vals doc := by
  obtain ⟨hd, ht⟩ := metric_dictionaries c hc _ consts hf
  simp only [conforms, Bool.and_eq_true] at h
  have hs := List.all_eq_true.1 h.1 _ (proto_listed g hg)
  have ha := List.all_eq_true.1 h.2
  simp only [sameEntries, Bool.and_eq_true, List.all_eq_true, decide_eq_true_eq] at hs
  have hlist : ∀ l, PoolList c consts (protoOf (g.gs (bs "protocol"))) l → ∀ k v, (k, v) ∈ convertC c consts g vals l ↔
      (∃ x ∈ doc, k = bs x.1 ∧ v = x.2.val g) ∨ (k, v) ∈ vals ∨ (k, v) ∈ consts := by
    intro l hl k v
    obtain ⟨_, _, h3⟩ := exported_labels c consts g ht hd vals hv l hl
    rw [h3]
    constructor
    · rintro ⟨v0, hm, rfl⟩
      unfold wanted at hm
      rcases List.mem_append.1 hm with hm | hm
      · rcases List.mem_append.1 hm with hm | hm
        · obtain ⟨d, hdm, he⟩ := List.mem_map.1 hm
          simp only [Prod.mk.injEq] at he
          obtain ⟨x, hx, hxe⟩ := List.mem_map.1 (hs.1 d hdm)
          refine Or.inl ⟨x, hx, ?_, ?_⟩
          · rw [← he.1, ← hxe]; rfl
          · rw [← he.1, ← he.2, ← hxe]
            exact src_final c.adj g hg x (ha x hx)
        · have := hvadj _ hm
          exact Or.inr (Or.inl (by rw [this]; exact hm))
      · have := const_untouched c _ consts hd ht g _ hm
        exact Or.inr (Or.inr (by rw [this]; exact hm))
    · rintro (⟨x, hx, rfl, rfl⟩ | hm | hm)
      · refine ⟨entryVal g (entry (protoOf (g.gs (bs "protocol"))) x), ?_, (src_final c.adj g hg x (ha x hx)).symm⟩
        unfold wanted
        refine List.mem_append.2 (Or.inl (List.mem_append.2 (Or.inl (List.mem_map.2 ⟨_, hs.2 _ (List.mem_map.2 ⟨x, hx, rfl⟩), rfl⟩))))
      · exact ⟨v, by unfold wanted; simp [hm], (hvadj _ hm).symm⟩
      · exact ⟨v, by unfold wanted; simp [hm], (const_untouched c _ consts hd ht g _ hm).symm⟩
  refine ⟨hlist, fun m hm k v => ?_⟩
  rw [← exported_map c consts g ht hd vals hv hval _ .new m hm k v]
  exact hlist _ .new k v

/-! ### C91 -/

theorem conform_all :
    conforms detailEntity docEntity = true ∧ conforms detailEntitySlow (docEntity ++ [("is_slow", .flag "is_slow")]) = true ∧
    conforms aggEntity docEntityAgg = true ∧ conforms aggEntitySlow (docEntityAgg ++ [("is_slow", .flag "is_slow")]) = true ∧
    conforms detailTopology docTopology = true ∧ conforms detailTopologySlow (docTopology ++ [("is_slow", .flag "is_slow")]) = true ∧
    conforms aggTopology docTopologyAgg = true ∧ conforms aggTopologySlow (docTopologyAgg ++ [("is_slow", .flag "is_slow")]) = true ∧
    conforms traceToMetric docTrace = true := by
  decide +kernel

/-- Names of the service and of the topology metrics. -/
def docNames : List (String × String × String) :=
  [("request_count", "kindling_entity_request_total", "kindling_topology_request_total"),
   ("request_total_time", "kindling_entity_request_duration_nanoseconds_total", "kindling_topology_request_duration_nanoseconds_total"),
   ("response_io", "kindling_entity_request_send_bytes_total", "kindling_topology_request_response_bytes_total"),
   ("request_io", "kindling_entity_request_receive_bytes_total", "kindling_topology_request_request_bytes_total"),
   ("request_total_time_avg", "kindling_entity_request_average_duration_nanoseconds", "kindling_topology_request_average_duration_nanoseconds")]

/-- C91.  The metrics have their documented names; a server sends the bytes of responses and receives those of
requests. -/
theorem names_documented (x : String × String × String) (hx : x ∈ docNames) :
    metricName (bs x.1) true = bs x.2.1 ∧ metricName (bs x.1) false = bs x.2.2 := by
  have : ∀ x ∈ docNames, metricName (bs x.1) true = bs x.2.1 ∧ metricName (bs x.1) false = bs x.2.2 := by decide +kernel
  exact this x hx

/-- The documented labels, with `is_slow` for one of the metrics. -/
def withSlow {α : Type} (total : String) (doc : List (String × Src)) (r : Result α) : List (String × Src) :=
  doc ++ if bs total ∈ r.metrics.map (·.1) then [("is_slow", .flag "is_slow")] else []

theorem name_total (n : Bytes) (server : Bool) :
    metricName n server = (if server then bs "kindling_entity_request_total" else bs "kindling_topology_request_total") ↔
      n = bs "request_count" := by
  constructor
  · intro h
    by_cases hn : n ∈ metricNames.map (·.1)
    · have : ∀ s : Bool, ∀ n ∈ metricNames.map (·.1), metricName n s = (if s then bs "kindling_entity_request_total" else
          bs "kindling_topology_request_total") → n = bs "request_count" := by decide +kernel
      exact this server n hn h
    · rw [unknown_metric_unnamed n server hn] at h
      exfalso
      cases server <;> exact absurd h (by decide)
  · rintro rfl
    cases server <;> decide

theorem split_shows {α : Type} (ms : List (Metric α)) (isServer topo : Bool) (a : Conv × Conv) (doc : List (String × Src)) (total : String)
    (htotal : bs total = if (isServer && !topo) then bs "kindling_entity_request_total" else bs "kindling_topology_request_total")
    (g : Lab) (consts : List (Bytes × Val))
    (h1 : Shows a.1 consts g [] doc) (h2 : Shows a.2 consts g [] (doc ++ [("is_slow", .flag "is_slow")]))
    (r : Result α) (hr : r ∈ createResults ms isServer a topo) : Shows r.conv consts g [] (withSlow total doc r) := by
  obtain ⟨_, _, hne, hk, _⟩ := metrics_kept ms isServer a topo
  unfold withSlow
  rcases hk r hr with ⟨hc, hm⟩ | ⟨hc, hm⟩
  · rw [hc, if_neg, List.append_nil]
    · exact h1
    · rw [hm, List.map_map]
      intro hin
      obtain ⟨m, hmm, he⟩ := List.mem_map.1 hin
      simp only [Function.comp_apply] at he
      rw [htotal] at he
      have := (name_total m.1 _).1 he
      simp [this] at hmm
  · rw [hc, if_pos]
    · exact h2
    · have hne := hne r hr
      cases hx : ms.filter (fun m => m.1 == bs "request_count") with
      | nil => rw [hm, hx] at hne; exact absurd rfl hne
      | cons m t =>
        have hmc : m ∈ ms.filter (fun m => m.1 == bs "request_count") := by rw [hx]; simp
        have hmc : m.1 = bs "request_count" := by simpa using (List.mem_filter.1 hmc).2
        rw [hm, hx]
        simp only [List.map_cons, List.mem_cons]
        exact Or.inl (by rw [htotal]; exact ((name_total m.1 _).2 hmc).symm)

/-- Constant labels none of which has the name of another label. -/
def FreshAll (consts : List (Bytes × Val)) : Prop := ∀ c ∈ metricConvs, ∀ p, Fresh c p consts

theorem shows_metric (c : Conv) (hc : c ∈ metricConvs) (hv : c.vkeys = []) (doc : List (String × Src)) (h : conforms c doc = true) (g : Lab)
    (hg : g.gs (bs "protocol") ≠ bs "grpc") (consts : List (Bytes × Val)) (hf : FreshAll consts) : Shows c consts g [] doc :=
  shows_of c hc doc h g hg consts (hf c hc _) [] (by rw [hv]; rfl) (by simp) (by simp)

/-- C91.  Requests seen by the server: every metric is exported with exactly the labels documented for service metrics,
`is_slow` only with the number of requests. -/
theorem service_metrics_documented {α : Type} (cfg : Cfg) (g : Lab) (hg : g.gs (bs "protocol") ≠ bs "grpc")
    (hs : g.gb (bs "is_server") = true) (hx : cfg.externalSrc = false ∨ g.gs (bs "src_namespace") ≠ bs "NOT_FOUND_EXTERNAL")
    (ms : List (Metric α)) (consts : List (Bytes × Val)) (hf : FreshAll consts) (r : Result α) (hr : r ∈ dealAgg cfg g ms) :
    Shows r.conv consts g [] (withSlow "kindling_entity_request_total" (if cfg.podDetail then docEntity else docEntityAgg) r) := by
  obtain ⟨c1, c2, c3, c4, _, _, _, _, _⟩ := conform_all
  unfold dealAgg at hr
  have hno : ¬ (cfg.externalSrc = true ∧ g.gs (bs "src_namespace") = bs "NOT_FOUND_EXTERNAL") := by
    rintro ⟨h1, h2⟩
    rcases hx with h | h
    · rw [h] at h1; cases h1
    · exact h h2
  simp only [hs, and_true, if_neg hno, List.nil_append, if_true] at hr
  cases hp : cfg.podDetail with
  | true =>
    rw [hp] at hr
    simp only [if_true] at hr ⊢
    exact split_shows ms true false _ _ _ (by rfl) g consts (shows_metric _ (by simp [metricConvs]) rfl _ c1 g hg consts hf)
      (shows_metric _ (by simp [metricConvs]) rfl _ c2 g hg consts hf) r hr
  | false =>
    rw [hp] at hr
    simp only [Bool.false_eq_true, if_false] at hr ⊢
    exact split_shows ms true false _ _ _ (by rfl) g consts (shows_metric _ (by simp [metricConvs]) rfl _ c3 g hg consts hf)
      (shows_metric _ (by simp [metricConvs]) rfl _ c4 g hg consts hf) r hr

/-- C91.  Requests seen by the client: exactly the labels documented for topology metrics; but `is_slow`, which is not
documented there, is exported with the number of requests. -/
theorem topology_metrics_documented_partial {α : Type} (cfg : Cfg) (g : Lab) (hg : g.gs (bs "protocol") ≠ bs "grpc")
    (hs : g.gb (bs "is_server") = false)
    (ms : List (Metric α)) (consts : List (Bytes × Val)) (hf : FreshAll consts) (r : Result α) (hr : r ∈ dealAgg cfg g ms) :
    Shows r.conv consts g [] (withSlow "kindling_topology_request_total" (if cfg.podDetail then docTopology else docTopologyAgg) r) := by
  obtain ⟨_, _, _, _, c1, c2, c3, c4, _⟩ := conform_all
  unfold dealAgg at hr
  simp only [hs, Bool.false_eq_true, and_false, if_false, List.nil_append] at hr
  cases hp : cfg.podDetail with
  | true =>
    rw [hp] at hr
    simp only [if_true] at hr ⊢
    exact split_shows ms false false _ _ _ (by rfl) g consts (shows_metric _ (by simp [metricConvs]) rfl _ c1 g hg consts hf)
      (shows_metric _ (by simp [metricConvs]) rfl _ c2 g hg consts hf) r hr
  | false =>
    rw [hp] at hr
    simp only [Bool.false_eq_true, if_false] at hr ⊢
    exact split_shows ms false false _ _ _ (by rfl) g consts (shows_metric _ (by simp [metricConvs]) rfl _ c3 g hg consts hf)
      (shows_metric _ (by simp [metricConvs]) rfl _ c4 g hg consts hf) r hr

/-- C91.  Requests from outside seen by the server are exported twice: as topology with all labels of the pods, and as
service. -/
theorem external_metrics_documented_partial {α : Type} (cfg : Cfg) (g : Lab) (hg : g.gs (bs "protocol") ≠ bs "grpc")
    (hs : g.gb (bs "is_server") = true) (hx : cfg.externalSrc = true) (hn : g.gs (bs "src_namespace") = bs "NOT_FOUND_EXTERNAL")
    (ms : List (Metric α)) (consts : List (Bytes × Val)) (hf : FreshAll consts) :
    ∃ topo serv, dealAgg cfg g ms = topo ++ serv ∧ serv = dealAgg { cfg with externalSrc := false } g ms ∧
      (topo.flatMap (·.metrics)).Perm (ms.map (fun m => (metricName m.1 false, m.2))) ∧
      ∀ r ∈ topo, Shows r.conv consts g [] (withSlow "kindling_topology_request_total" docTopology r) := by
  obtain ⟨_, _, _, _, c1, c2, _, _, _⟩ := conform_all
  refine ⟨createResults ms true (detailTopology, detailTopologySlow) true, dealAgg { cfg with externalSrc := false } g ms, ?_, rfl, ?_, ?_⟩
  · unfold dealAgg
    simp only [hs, hx, hn, and_self, if_true, Bool.false_eq_true, false_and, if_false, List.nil_append]
  · exact (metrics_kept ms true (detailTopology, detailTopologySlow) true).1
  · intro r hr
    exact split_shows ms true true _ _ _ (by rfl) g consts (shows_metric _ (by simp [metricConvs]) rfl _ c1 g hg consts hf)
      (shows_metric _ (by simp [metricConvs]) rfl _ c2 g hg consts hf) r hr

theorem stage_colour (t : Int) : Colour 200 1000 t (stageStatus t) := by
  unfold Colour stageStatus
  by_cases h1 : t ≤ 200 * 1000000
  · rw [if_pos h1]; exact Or.inl ⟨rfl, h1⟩
  · rw [if_neg h1]
    by_cases h2 : t ≥ 1000 * 1000000
    · rw [if_pos h2]; exact Or.inr (Or.inr ⟨rfl, h2⟩)
    · rw [if_neg h2]; exact Or.inr (Or.inl ⟨rfl, by omega, by omega⟩)

theorem request_colour (t : Int) : Colour 800 1500 t (requestStatus t) := by
  unfold Colour requestStatus
  by_cases h1 : t ≤ 800 * 1000000
  · rw [if_pos h1]; exact Or.inl ⟨rfl, h1⟩
  · rw [if_neg h1]
    by_cases h2 : t ≥ 1500 * 1000000
    · rw [if_pos h2]; exact Or.inr (Or.inr ⟨rfl, h2⟩)
    · rw [if_neg h2]; exact Or.inr (Or.inl ⟨rfl, by omega, by omega⟩)

theorem lastOf_of_get (n : Bytes) (ms : List (Bytes × Int)) (hn : (ms.map (·.1)).Nodup) (t : Int) (h : (n, t) ∈ ms) :
    lastOf n ms = some t := by
  induction ms with
  | nil => cases h
  | cons m r ih =>
    simp only [List.map_cons, List.nodup_cons] at hn
    unfold lastOf
    rcases List.mem_cons.1 h with rfl | h
    · have : lastOf n r = none := by
        have hh : ∀ r : List (Bytes × Int), n ∉ r.map (·.1) → lastOf n r = none := by
          intro r
          induction r with
          | nil => intro _; rfl
          | cons x s ihs =>
            intro hx
            simp only [List.map_cons, List.mem_cons, not_or] at hx
            unfold lastOf
            rw [ihs hx.2, if_neg (Ne.symm hx.1)]
        exact hh r hn.1
      rw [this, if_pos rfl]
    · rw [ih hn.2 h]

/-- C91.  A trace exported as a metric has the duration as its value and exactly the documented labels: those of the
group and the colours of its times and of its parts. -/
theorem trace_metric_documented (cfg : Cfg) (hc : cfg.traceAsMetric = true) (g : Lab) (hg : g.gs (bs "protocol") ≠ bs "grpc")
    (ms : List (Bytes × Int)) (hn : (ms.map (·.1)).Nodup) (sent wait down total : Int)
    (h1 : (bs "request_sent_time", sent) ∈ ms) (h2 : (bs "waiting_ttfb_time", wait) ∈ ms) (h3 : (bs "content_download_time", down) ∈ ms)
    (h4 : (bs "request_total_time", total) ∈ ms) (consts : List (Bytes × Val)) (hf : FreshAll consts) :
    ∃ r, (dealSingle cfg ms).filter (fun r => !r.1) = [(false, r)] ∧
      r.metrics = [(bs "kindling_trace_request_duration_nanoseconds", total)] ∧
      ∃ a b c d, Colour 200 1000 sent a ∧ Colour 200 1000 wait b ∧ Colour 200 1000 down c ∧ Colour 800 1500 total d ∧
        traceVals g ms = [(bs "request_reqxfer_status", .str a), (bs "request_processing_status", .str b),
          (bs "response_rspxfer_status", .str c), (bs "request_duration_status", .str d),
          (bs "is_server", .bool (g.gb (bs "is_server")))] ∧
        Shows r.conv consts g (traceVals g ms) docTrace := by
  have hfind : ms.find? (fun m => m.1 == bs "request_total_time") = some (bs "request_total_time", total) := by
    clear h1 h2 h3
    induction ms with
    | nil => cases h4
    | cons m r ih =>
      simp only [List.map_cons, List.nodup_cons] at hn
      rcases List.mem_cons.1 h4 with rfl | h
      · rw [List.find?_cons_of_pos (by simp)]
      · have hne : m.1 ≠ bs "request_total_time" := fun he => hn.1 (by rw [he]; exact List.mem_map.2 ⟨_, h, rfl⟩)
        rw [List.find?_cons_of_neg (by simpa using hne)]
        exact ih hn.2 h
  refine ⟨⟨[(bs "kindling_trace_request_duration_nanoseconds", total)], traceToMetric⟩, ?_, rfl,
    stageStatus sent, stageStatus wait, stageStatus down, requestStatus total, stage_colour _, stage_colour _, stage_colour _,
    request_colour _, ?_, ?_⟩
  · unfold dealSingle
    rw [hfind]
    simp only [hc, if_true]
    cases cfg.traceAsSpan <;> rfl
  · unfold traceVals
    rw [lastOf_of_get _ ms hn _ h1, lastOf_of_get _ ms hn _ h2, lastOf_of_get _ ms hn _ h3, lastOf_of_get _ ms hn _ h4]
    rfl
  · refine shows_of traceToMetric (by simp [metricConvs]) docTrace conform_all.2.2.2.2.2.2.2.2 g hg consts
      (hf _ (by simp [metricConvs]) _) _ rfl ?_ ?_
    · intro kv hkv
      simp only [traceVals, List.mem_cons, List.not_mem_nil, or_false] at hkv
      rcases hkv with rfl | rfl | rfl | rfl | rfl <;> simp
    · intro kv _; rfl

/-- A span has the times of the record in its attributes, a time that is missing has none. -/
theorem span_times (g : Lab) (ms : List (Bytes × Int)) (hn : (ms.map (·.1)).Nodup) (ts : _root_.Nat) (x : String × String)
    (hx : x ∈ [("request_sent_ns", "request_sent_time"), ("waiting_ttfb_ns", "waiting_ttfb_time"),
      ("content_download_ns", "content_download_time"), ("request_total_ns", "request_total_time"),
      ("requestio_bytes", "request_io"), ("responseio_bytes", "response_io")]) :
    (spanVals g ms ts).map (·.1) = traceToSpan.vkeys ∧
    (∀ t, (bs x.2, t) ∈ ms → (bs x.1, Val.int t) ∈ spanVals g ms ts) ∧
    (bs x.2 ∉ ms.map (·.1) → (bs x.1, Val.invalid) ∈ spanVals g ms ts) := by
  have hnone : ∀ (n : Bytes) (r : List (Bytes × Int)), n ∉ r.map (·.1) → lastOf n r = none := by
    intro n r
    induction r with
    | nil => intro _; rfl
    | cons x s ihs =>
      intro hx
      simp only [List.map_cons, List.mem_cons, not_or] at hx
      unfold lastOf
      rw [ihs hx.2, if_neg (Ne.symm hx.1)]
  have hv : (bs x.1, spanVal (bs x.2) ms) ∈ spanVals g ms ts := by
    simp only [List.mem_cons, List.not_mem_nil, or_false] at hx
    rcases hx with rfl | rfl | rfl | rfl | rfl | rfl <;> simp [spanVals]
  refine ⟨rfl, fun t ht => ?_, fun hno => ?_⟩
  · unfold spanVal at hv
    rw [lastOf_of_get _ ms hn t ht] at hv
    exact hv
  · unfold spanVal at hv
    rw [hnone _ ms hno] at hv
    exact hv

/-! ### Where the documentation is wrong -/

/-- Disagreement: `is_slow` is documented for `kindling_entity_request_total` only, but every
`kindling_topology_request_total` has it. -/
theorem topology_total_has_is_slow {α : Type} (cfg : Cfg) (g : Lab) (hg : g.gs (bs "protocol") ≠ bs "grpc")
    (hs : g.gb (bs "is_server") = false) (ms : List (Metric α)) (consts : List (Bytes × Val)) (hf : FreshAll consts)
    (r : Result α) (hr : r ∈ dealAgg cfg g ms) (ht : bs "kindling_topology_request_total" ∈ r.metrics.map (·.1))
    (l : List (Bytes × Val)) (hl : PoolList r.conv consts (protoOf (g.gs (bs "protocol"))) l) :
    (bs "is_slow", Val.bool (g.gb (bs "is_slow"))) ∈ convertC r.conv consts g [] l ∧ "is_slow" ∉ docTopology.map (·.1) := by
  refine ⟨((topology_metrics_documented_partial cfg g hg hs ms consts hf r hr).1 l hl _ _).2 (Or.inl ⟨("is_slow", .flag "is_slow"), ?_, rfl, rfl⟩),
    by decide +kernel⟩
  unfold withSlow
  rw [if_pos ht]
  simp

/-- Disagreement: the contents of gRPC requests are documented as empty, but they are exported. -/
theorem grpc_content_exported (g : Lab) (hg : g.gs (bs "protocol") = bs "grpc") (consts : List (Bytes × Val)) (hf : FreshAll consts)
    (l : List (Bytes × Val)) (hl : PoolList detailEntity consts (protoOf (g.gs (bs "protocol"))) l) :
    (bs "request_content", Val.str (g.gs (bs "content_key"))) ∈ convertC detailEntity consts g [] l ∧ Src.val g .request = .str [] := by
  have hp : protoOf (g.gs (bs "protocol")) = .grpc := by rw [hg]; decide
  obtain ⟨hd, ht⟩ := metric_dictionaries detailEntity (by simp [metricConvs]) (protoOf (g.gs (bs "protocol"))) consts
    (hf _ (by simp [metricConvs]) _)
  obtain ⟨_, _, h3⟩ := exported_labels detailEntity consts g ht hd [] rfl l hl
  constructor
  · refine (h3 _ _).2 ⟨.str (g.gs (bs "content_key")), ?_, rfl⟩
    rw [hp]
    unfold wanted
    refine List.mem_append.2 (Or.inl (List.mem_append.2 (Or.inl (List.mem_map.2 ⟨⟨bs "request_content", bs "content_key", .string⟩, ?_, rfl⟩))))
    decide +kernel
  · simp only [Src.val, hg]
    rfl

/-! ### Examples -/

example : FreshAll [(bs "cluster", .str (bs "c1"))] := by
  intro c hc p
  refine ⟨by simp, ?_⟩
  simp only [List.map_cons, List.map_nil, List.mem_singleton, forall_eq]
  have : ∀ c ∈ metricConvs, ∀ p ∈ Proto.grpc :: allProtos, bs "cluster" ∉ (dictOf c p).map (·.newKey) ++ c.vkeys := by
    intro c hc
    simp only [metricConvs, List.mem_cons, List.not_mem_nil, or_false] at hc
    rcases hc with rfl | rfl | rfl | rfl | rfl | rfl | rfl | rfl | rfl <;> decide +kernel
  exact this c hc p (by cases p <;> decide)

example : Nat g0 ∧ Src.val g0 .dstIp = .str (bs "10.0.0.7") ∧ Src.val g0 .status = .str (bs "0") := by decide +kernel

example : requestStatus 1499999999 = bs "2" ∧ stageStatus 200000000 = bs "1" := by decide

end Kindling.Export.Documented
