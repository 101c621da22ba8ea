import Verif.Export.Documented
/-
Attributes of an exported span, by protocol: the dictionaries of
`collector/pkg/component/consumer/exporter/tools/adapter/net_dict.go:98-113, 229-284, 317-356` against a table of what a reader of a
span finds under each name.
-/
namespace Kindling.Export.Span
open Kindling Kindling.Export.Labels Kindling.Export.Adapter
open Kindling.Export.Documented (spanVals itoa_eq protoOf_cases)

/-! ### Spec: what a span shows -/

/-- A text or number of the record, a number in decimal, or nothing. -/
inductive Shown
  | text (k : String) | num (k : String) | dec (k : String) | empty

def Shown.val (g : Lab) : Shown → Val
  | .text k => .str (g.gs (bs k))
  | .num k => .int (g.gi (bs k))
  | .dec k => .str (Dec.formatInt (g.gi (bs k)))
  | .empty => .str []

/-- Attributes of every span: both ends, the process, the translated address. -/
def common : List (String × Shown) :=
  ["src_node", "src_namespace", "src_workload_kind", "src_workload_name", "src_service", "src_pod", "src_ip",
   "dst_node", "dst_namespace", "dst_workload_kind", "dst_workload_name", "dst_service", "dst_pod", "dst_ip", "dnat_ip", "protocol",
   "comm"].map (fun k => (k, .text k)) ++
  ["dst_port", "dnat_port", "pid", "request_tid", "response_tid", "end_timestamp"].map (fun k => (k, .num k)) ++
  [("src_containerid", .text "src_container_id"), ("src_container_name", .text "src_container"),
   ("dst_containerid", .text "dst_container_id"), ("dst_container_name", .text "dst_container")]

def payloads : List (String × Shown) := [("request_payload", .text "request_payload"), ("response_payload", .text "response_payload")]

/-- Attributes of the protocols that have their own; the payloads for all others. -/
def own : List (String × List (String × Shown)) :=
  [("http", [("http.method", .text "http_method"), ("http.endpoint", .text "http_url"), ("http.status_code", .num "http_status_code"),
     ("http.trace_id", .text "trace_id"), ("http.trace_type", .text "trace_type"), ("http.request_headers", .text "request_payload"),
     ("http.request_body", .empty), ("http.response_headers", .text "response_payload"), ("http.response_body", .empty)]),
   ("mysql", payloads ++ [("mysql.sql", .text "sql"), ("mysql.error_code", .num "sql_error_code"), ("mysql.error_msg", .text "sql_error_msg")]),
   ("dns", payloads ++ [("dns.domain", .text "dns_domain"), ("dns.rcode", .dec "dns_rcode")]),
   ("dubbo", [("dubbo.request_body", .text "request_payload"), ("dubbo.response_body", .text "response_payload"),
     ("dubbo.error_code", .num "dubbo_error_code")]),
   ("rocketmq", payloads ++ [("rocketmq.request_msg", .text "rocketmq_request_msg"), ("rocketmq.error_msg", .text "rocketmq_error_msg")])]

def ownOf (p : Bytes) : List (String × Shown) :=
  match own.find? (fun x => decide (bs x.1 = p)) with
  | some x => x.2
  | none => payloads

/-! ### The dictionaries against the table -/

/-- The entry of a dictionary for an attribute. -/
def entry (x : String × Shown) : Dict := match x.2 with
  | .text k => ⟨bs x.1, bs k, .string⟩
  | .num k => ⟨bs x.1, bs k, .int64⟩
  | .dec k => ⟨bs x.1, bs k, .fromInt⟩
  | .empty => ⟨bs x.1, [], .strEmpty⟩

theorem entry_val (g : Lab) (x : String × Shown) : (entry x).newKey = bs x.1 ∧ entryVal g (entry x) = x.2.val g := by
  obtain ⟨n, s⟩ := x
  cases s with
  | text k => exact ⟨rfl, rfl⟩
  | num k => exact ⟨rfl, rfl⟩
  | dec k => exact ⟨rfl, by simp only [entry, entryVal, Shown.val, itoa_eq]⟩
  | empty => exact ⟨rfl, rfl⟩

def sameAs (p : Proto) (doc : List (String × Shown)) : Bool :=
  (dictOf traceToSpan p).all (fun d => decide (d ∈ doc.map entry)) && (doc.map entry).all (fun d => decide (d ∈ dictOf traceToSpan p))

theorem same_own : sameAs .http (common ++ ownOf (bs "http")) = true ∧ sameAs .grpc (common ++ payloads) = true ∧
    sameAs .mysql (common ++ ownOf (bs "mysql")) = true ∧ sameAs .dns (common ++ ownOf (bs "dns")) = true ∧
    sameAs .kafka (common ++ payloads) = true ∧ sameAs .dubbo (common ++ ownOf (bs "dubbo")) = true ∧
    sameAs .rocketmq (common ++ ownOf (bs "rocketmq")) = true ∧ sameAs .unsupported (common ++ payloads) = true := by
  decide +kernel

theorem ownOf_other (p : Bytes) (h : p ≠ bs "http" ∧ p ≠ bs "mysql" ∧ p ≠ bs "dns" ∧ p ≠ bs "dubbo" ∧ p ≠ bs "rocketmq") : ownOf p = payloads := by
  obtain ⟨h1, h2, h3, h4, h5⟩ := h
  simp [ownOf, own, Ne.symm h1, Ne.symm h2, Ne.symm h3, Ne.symm h4, Ne.symm h5]

theorem same_all (p : Bytes) (hr : p ≠ bs "redis") : sameAs (protoOf p) (common ++ ownOf p) = true := by
  obtain ⟨s1, s2, s3, s4, s5, s6, s7, s8⟩ := same_own
  rcases protoOf_cases p with ⟨h, e⟩ | ⟨h, e⟩ | ⟨h, e⟩ | ⟨h, e⟩ | ⟨h, e⟩ | ⟨h, e⟩ | ⟨h, e⟩ | ⟨h, e⟩ | ⟨h, e⟩
  · rw [e, h]; exact s1
  · rw [e, ownOf_other p (by rw [h]; decide +kernel)]; exact s2
  · rw [e, h]; exact s3
  · rw [e, h]; exact s4
  · rw [e, ownOf_other p (by rw [h]; decide +kernel)]; exact s5
  · rw [e, h]; exact s6
  · exact absurd h hr
  · rw [e, h]; exact s7
  · rw [e, ownOf_other p ⟨h.1, h.2.2.1, h.2.2.2.1, h.2.2.2.2.2.1, h.2.2.2.2.2.2.2⟩]; exact s8

/-- C78: the attributes of a span are exactly those of the table for its protocol, with the values of the record, the times of
the record and the constant ones; `PoolList` holds of every list the pool may give (it has the keys of this protocol and the
values of earlier spans). Missing for Redis: its entries have a key twice, see `redis_span_comm`. -/
theorem span_attributes_partial (g : Lab) (hr : g.gs (bs "protocol") ≠ bs "redis") (ms : List (Bytes × Int)) (ts : Nat)
    (consts : List (Bytes × Val)) (hf : Fresh traceToSpan (protoOf (g.gs (bs "protocol"))) consts) (l : List (Bytes × Val))
    (hl : PoolList traceToSpan consts (protoOf (g.gs (bs "protocol"))) l) (k : Bytes) (v : Val) :
    (k, v) ∈ convertC traceToSpan consts g (spanVals g ms ts) l ↔
      (∃ x ∈ common ++ ownOf (g.gs (bs "protocol")), k = bs x.1 ∧ v = x.2.val g) ∨ (k, v) ∈ spanVals g ms ts ∨ (k, v) ∈ consts := by
  have hp : protoOf (g.gs (bs "protocol")) ≠ .redis := by
    intro h
    rcases protoOf_cases (g.gs (bs "protocol")) with ⟨_, e⟩ | ⟨_, e⟩ | ⟨_, e⟩ | ⟨_, e⟩ | ⟨_, e⟩ | ⟨_, e⟩ | ⟨h', e⟩ | ⟨_, e⟩ | ⟨_, e⟩
    case inr.inr.inr.inr.inr.inr.inl => exact hr h'
    all_goals rw [e] at h; cases h
  obtain ⟨hd, ht⟩ := span_dictionaries _ hp consts hf
  obtain ⟨_, _, h3⟩ := exported_labels traceToSpan consts g ht hd (spanVals g ms ts) rfl l hl
  have hs := same_all _ hr
  simp only [sameAs, Bool.and_eq_true, List.all_eq_true, decide_eq_true_eq] at hs
  rw [h3]
  constructor
  · rintro ⟨v0, hm, hv⟩
    have hv : v = v0 := hv
    subst hv
    unfold wanted at hm
    rcases List.mem_append.1 hm with hm | hm
    · rcases List.mem_append.1 hm with hm | hm
      · obtain ⟨d, hdm, he⟩ := List.mem_map.1 hm
        simp only [Prod.mk.injEq] at he
        obtain ⟨x, hx, hxe⟩ := List.mem_map.1 (hs.1 d hdm)
        obtain ⟨e1, e2⟩ := entry_val g x
        exact Or.inl ⟨x, hx, by rw [← he.1, ← hxe, e1], by rw [← he.2, ← hxe, e2]⟩
      · exact Or.inr (Or.inl hm)
    · exact Or.inr (Or.inr hm)
  · intro h
    refine ⟨v, ?_, rfl⟩
    unfold wanted
    rcases h with ⟨x, hx, rfl, rfl⟩ | h | h
    · obtain ⟨e1, e2⟩ := entry_val g x
      exact List.mem_append.2 (Or.inl (List.mem_append.2 (Or.inl (List.mem_map.2 ⟨entry x, hs.2 _ (List.mem_map.2 ⟨x, hx, rfl⟩), by rw [e1, e2]⟩))))
    · exact List.mem_append.2 (Or.inl (List.mem_append.2 (Or.inr h)))
    · exact List.mem_append.2 (Or.inr h)

/-- C78: the rest of a span: who was asked, whether it failed or was slow, and its time in milliseconds. -/
theorem span_flags (g : Lab) (ms : List (Bytes × Int)) (ts : Nat) :
    ∀ x ∈ [("is_server", if g.gb (bs "is_server") then 1 else 0), ("is_error", if g.gb (bs "is_error") then 1 else 0),
      ("is_slow", if g.gb (bs "is_slow") then 1 else 0), ("is_convergent", 0), ("timestamp", ((ts / 10 ^ 6 : Nat) : Int))],
      (bs x.1, Val.int x.2) ∈ spanVals g ms ts := by
  intro x hx
  simp only [List.mem_cons, List.not_mem_nil, or_false] at hx
  rcases hx with rfl | rfl | rfl | rfl | rfl <;> simp [spanVals]

example : (bs "mysql.error_code", Val.int 1064) ∈
    convertC traceToSpan [] ⟨fun k => if k = bs "protocol" then bs "mysql" else [], fun k => if k = bs "sql_error_code" then 1064 else 0, fun _ => false⟩
      (spanVals ⟨fun k => if k = bs "protocol" then bs "mysql" else [], fun k => if k = bs "sql_error_code" then 1064 else 0, fun _ => false⟩ [] 0)
      (build (dictOf traceToSpan .mysql) traceToSpan.vkeys []).template := by
  decide +kernel

end Kindling.Export.Span
