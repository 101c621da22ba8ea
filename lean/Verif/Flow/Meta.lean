import Verif.Flow.Labels
import Verif.Proc.K8sTable
import Verif.Export.Documented
/-
Who talks to whom: from the record of a request and the Kubernetes cache to the labels of the exported metrics.
Analyzer, metadata processor, aggregation and adapter together.
-/
namespace Kindling.Flow.Who
open Kindling Kindling.Agg Kindling.Proto Kindling.Model.Attr Kindling.Export.Adapter Kindling.Proc.Aggregate Kindling.Flow
open Kindling.Export.Labels (Lab)
open Kindling.Net.Record (Info recordLabels Pooled baseTy)
open Kindling.Proc.K8s (SL IL Meta)
open Kindling.Proc.K8s.Table (isSource sourceLabel destinationLabel portLabel)
open Kindling.Export.Documented (Src docEntity docEntityAgg docTopology docTopologyAgg docTrace traceVals)

/-! ### The metadata processor on the labels of a record -/

/-- Names of the integer labels (labels.go:7-40). -/
def ilText : IL → String
  | .srcPort => "src_port"
  | .dstPort => "dst_port"
  | .dnatPort => "dnat_port"

def allSL : List SL :=
  [.containerId, .srcIp, .srcNode, .srcNodeIp, .srcNamespace, .srcPod, .srcWorkloadName, .srcWorkloadKind, .srcService, .srcContainer,
   .srcContainerId, .dstIp, .dstNode, .dstNodeIp, .dstNamespace, .dstPod, .dstWorkloadName, .dstWorkloadKind, .dstService, .dstContainer,
   .dstContainerId, .dnatIp]

def allIL : List IL := [.srcPort, .dstPort, .dnatPort]

/-- The labels the processor reads (kubernetes_processor.go:83-235 through attribute_map.go:71-121). -/
def view (l : Agg.Labels) : Proc.K8s.Labels where
  str k := match AMap.get l k.text with | some (.str s) => some s | _ => none
  int k := match AMap.get l (ilText k) with | some (.int n) => some n | _ => none
  isServer := l.getBool "is_server"

/-- Set or remove one label. -/
def put (l : Agg.Labels) (w : String × Option AttrVal) : Agg.Labels := match w.2 with
  | some v => AMap.set l w.1 v
  | none => AMap.del l w.1

/-- The labels of the processor's view. -/
def writes (x : Proc.K8s.Labels) : List (String × Option AttrVal) :=
  allSL.map (fun k => (k.text, (x.str k).map .str)) ++ allIL.map (fun k => (ilText k, (x.int k).map .int))

/-- `Consume` of the metadata processor on the labels of a record (kubernetes_processor.go:79-111, model in `Proc/K8s.lean`).
Simplified: labels of a name the processor knows but of another type are removed; `typed` below excludes them. -/
def enrich (m : Meta) (l : Agg.Labels) : Agg.Labels := (writes (Proc.K8s.process m false (view l))).foldl put l

/-! ### Spec -/

/-- What the record says of both ends before the processor. -/
def seen (x : Info) : Proc.K8s.Labels where
  str k := match k with
    | .srcIp => some (bs x.srcIp)
    | .dstIp => some (bs x.dstIp)
    | .containerId => some (bs x.containerId)
    | .dnatIp => some (bs ((x.nat.map (·.1)).getD ""))
    | _ => none
  int k := match k with
    | .srcPort => some x.srcPort
    | .dstPort => some x.dstPort
    | .dnatPort => some ((x.nat.map (·.2)).getD (-1))
  isServer := x.isServer

/-- A label of one of the ends, by the tables of `Proc/K8sTable.lean`; empty if there is none. -/
def endLabel (m : Meta) (x : Info) (k : SL) : Bytes :=
  match (if isSource k then sourceLabel m (seen x) k else destinationLabel m (seen x) k) with
  | some s => s
  | none => []

def endPort (m : Meta) (x : Info) (k : IL) : Int := match portLabel m (seen x) k with
  | some n => n
  | none => 0

/-- Everything known of a request: the ends, the exchange and what the parser found. -/
def told (m : Meta) (x : Info) (a : Attrs) : Lab where
  gs b := match allSL.find? (fun k => decide (bs k.text = b)) with
    | some k => endLabel m x k
    | none => if b = bs "protocol" then bs x.protocol else (attrLab a).gs b
  gi b := match allIL.find? (fun k => decide (bs (ilText k) = b)) with
    | some k => endPort m x k
    | none => if b = bs "error_type" then (if Net.Record.protocolSaysError x then 3 else if x.response.isNone then 2 else 0) else (attrLab a).gi b
  gb b := if b = bs "is_slow" then x.slow else if b = bs "is_server" then x.isServer else (attrLab a).gb b

/-- What is left of it in aggregated metrics: the code of Dubbo and the kind of error, which the result of Redis is taken from,
are not among the aggregated labels. -/
def kept (g : Lab) : Lab := { g with gi := fun b => if b = bs "dubbo_error_code" ∨ b = bs "error_type" then 0 else g.gi b }

/-- A request handled by the agent: parsed attributes `a`, record `x` on a record of the pool, labels `l` after the metadata processor. -/
structure Handled (m : Meta) (x : Info) (a : Attrs) (l : Agg.Labels) : Prop where
  parsed : ∃ ks, Parsed ks a
  attrs : x.attrs = vmapOf a
  record : ∃ (text : Bytes → String) (limit : Nat) (lab r : VMap) (l0 : Agg.Labels), Pooled text limit lab ∧
    (x.protocol = "dubbo" → 16 < limit → 16 ≤ x.request.length ∧ ∀ t ts d, x.response = some (t, ts, d) → 16 ≤ d.length) ∧
    recordLabels text limit lab x = some r ∧ (∀ k, AMap.get l0 k = (r k).map aval) ∧
    (∀ (k : SL) v, lab k.text = some v → v.ty = .str) ∧ l = enrich m l0
  ints : l.Int64

/-- The metrics and their documented labels. -/
def documented : List (Conv × List (String × Src)) :=
  [(detailEntity, docEntity), (detailEntitySlow, docEntity ++ [("is_slow", .flag "is_slow")]),
   (aggEntity, docEntityAgg), (aggEntitySlow, docEntityAgg ++ [("is_slow", .flag "is_slow")]),
   (detailTopology, docTopology), (detailTopologySlow, docTopology ++ [("is_slow", .flag "is_slow")]),
   (aggTopology, docTopologyAgg), (aggTopologySlow, docTopologyAgg ++ [("is_slow", .flag "is_slow")])]

/-! ### Proofs: the processor -/

theorem get_put (l : Agg.Labels) (w : String × Option AttrVal) (k : String) :
    AMap.get (put l w) k = if w.1 = k then w.2 else AMap.get l k := by
  obtain ⟨n, v⟩ := w
  cases v with
  | none => simp only [put, AMap.get_del]
  | some v => simp only [put, AMap.get_set]

theorem get_puts (ws : List (String × Option AttrVal)) (hnd : (ws.map (·.1)).Nodup) (l : Agg.Labels) (k : String) :
    (∀ v, (k, v) ∈ ws → AMap.get (ws.foldl put l) k = v) ∧ (k ∉ ws.map (·.1) → AMap.get (ws.foldl put l) k = AMap.get l k) := by
  induction ws generalizing l with
  | nil => simp
  | cons w r ih =>
    simp only [List.map_cons, List.nodup_cons] at hnd
    obtain ⟨i1, i2⟩ := ih hnd.2 (put l w)
    simp only [List.foldl_cons]
    refine ⟨fun v hv => ?_, fun hk => ?_⟩
    · rcases List.mem_cons.1 hv with h | h
      · subst h
        rw [i2 hnd.1, get_put, if_pos rfl]
      · exact i1 v h
    · simp only [List.map_cons, List.mem_cons, not_or] at hk
      rw [i2 hk.2, get_put, if_neg (Ne.symm hk.1)]

theorem writes_keys (x : Proc.K8s.Labels) : (writes x).map (·.1) = metaNames := rfl

theorem enrich_get (m : Meta) (l : Agg.Labels) :
    (∀ k : SL, AMap.get (enrich m l) k.text = ((Proc.K8s.process m false (view l)).str k).map .str) ∧
    (∀ k : IL, AMap.get (enrich m l) (ilText k) = ((Proc.K8s.process m false (view l)).int k).map .int) ∧
    (∀ k, k ∉ metaNames → AMap.get (enrich m l) k = AMap.get l k) := by
  have hnd : ((writes (Proc.K8s.process m false (view l))).map (·.1)).Nodup := by rw [writes_keys]; decide +kernel
  have hg := get_puts (writes (Proc.K8s.process m false (view l))) hnd l
  refine ⟨fun k => (hg _).1 _ ?_, fun k => (hg _).1 _ ?_, fun k hk => (hg k).2 (by rw [writes_keys]; exact hk)⟩
  · exact List.mem_append_left _ (List.mem_map.2 ⟨k, by cases k <;> decide, rfl⟩)
  · exact List.mem_append_right _ (List.mem_map.2 ⟨k, by cases k <;> decide, rfl⟩)

/-- The text of an optional label. -/
def textOf : Option Bytes → Bytes
  | some s => s
  | none => []

open Kindling.Proc.K8s.Table in
/-- The tables do not tell a missing label from an empty one. -/
theorem tables_congr (m : Meta) (l l' : Proc.K8s.Labels) (hs : ∀ k, textOf (l.str k) = textOf (l'.str k)) (hi : ∀ k, l.int k = l'.int k)
    (hb : l.isServer = l'.isServer) :
    (∀ k, textOf ((Proc.K8s.process m false l).str k) = textOf ((Proc.K8s.process m false l').str k)) ∧
    (∀ k, (Proc.K8s.process m false l).int k = (Proc.K8s.process m false l').int k) := by
  have hst : ∀ k, str l k = str l' k := fun k => by
    have := hs k
    unfold textOf at this
    exact this
  have e1 : source m l = source m l' := by unfold source; rw [hb, hst, hst]
  have ei : ∀ k, int l k = int l' k := fun k => by unfold int; rw [hi]
  have h2 : srcHere l = srcHere l' := by unfold srcHere; rw [hb, hst, hst]
  have hsl : ∀ k, textOf (sourceLabel m l k) = textOf (sourceLabel m l' k) := by
    intro k
    have hk := hs k
    cases k <;> simp only [sourceLabel, e1, h2, hst] <;> (try exact hk) <;> generalize source m l' = w <;> cases w <;>
      simp only [Who.podOf] <;> (try exact hk) <;> (try rfl)
    all_goals
      first
      | (split <;> first | rfl | exact hk)
      | (simp only [Option.bind_none]; exact hk)
  have e3 : dstAddr m l = dstAddr m l' := by
    unfold dstAddr
    rw [hst]
    have := hsl .srcIp
    unfold textOf at this
    split
    · exact this
    · rfl
  have e4 : behind m l = behind m l' := by unfold behind; rw [hst, ei]
  have e5 : destination m l = destination m l' := by unfold destination; rw [hb, hst, e3, ei, e4]
  have h6 : dstHere l = dstHere l' := by unfold dstHere; rw [hb, hst]
  have hdl : ∀ k, textOf (destinationLabel m l k) = textOf (destinationLabel m l' k) := by
    intro k
    have hk := hs k
    cases k <;> simp only [destinationLabel, e5, e3, ei, h6, hst, hb] <;> (try exact hk) <;> generalize destination m l' = d <;>
      rcases d with ⟨s, w⟩ | c | w <;> (try cases w) <;> simp only [Dst.cont] <;> (try exact hk) <;> (try rfl)
    all_goals
      first
      | (split <;> first | rfl | exact hk)
      | (split <;> first | exact hk | (split <;> first | rfl | exact hk))
  refine ⟨fun k => ?_, fun k => ?_⟩
  · rw [request_labels, request_labels]
    split
    · exact hsl k
    · exact hdl k
  · rw [request_ports, request_ports]
    cases k <;> simp only [portLabel, e5, ei, hi]

/-! ### Proofs: the record -/

theorem attr_none {ks : List Bytes} {a : Attrs} (hp : Parsed ks a) (k : String) (hk : k ∈ metaNames) : vmapOf a k = none := by
  have hall : ∀ ks ∈ [httpKeys, mysqlKeys, dubboKeys, rocketmqKeys, kafkaKeys, redisKeys, dnsKeys], ∀ k ∈ metaNames,
      bs k ∉ ks ∧ bs k ≠ kIsError ∧ bs k ≠ kErrorType := by decide +kernel
  obtain ⟨g1, g2, g3⟩ := hall ks (parsed_keys ks a hp) k hk
  unfold vmapOf
  split
  · rw [(parsed_kept ks a hp).other (bs k) g1 g2 g3]; rfl
  · rfl

theorem sl_meta (k : SL) : k.text ∈ metaNames := by cases k <;> decide
theorem il_meta (k : IL) : ilText k ∈ metaNames := by cases k <;> decide

/-- Before the processor: what the record says, and zero values of the pool. -/
theorem view_seen {text : Bytes → String} {limit : Nat} {lab r : VMap} {l0 : Agg.Labels} {x : Info} {ks : List Bytes} {a : Attrs}
    (hp : Parsed ks a) (hxa : x.attrs = vmapOf a) (hpool : Pooled text limit lab)
    (hq : x.protocol = "dubbo" → 16 < limit → 16 ≤ x.request.length ∧ ∀ t ts d, x.response = some (t, ts, d) → 16 ≤ d.length)
    (hr : recordLabels text limit lab x = some r) (hl0 : ∀ k, AMap.get l0 k = (r k).map aval)
    (hty : ∀ (k : SL) v, lab k.text = some v → v.ty = .str) :
    (∀ k, textOf ((view l0).str k) = textOf ((seen x).str k)) ∧ (∀ k, (view l0).int k = (seen x).int k) ∧
    (view l0).isServer = (seen x).isServer := by
  obtain ⟨ht, hz⟩ := Net.Record.pooled_zero hpool
  have hx : Net.Record.ParserAttrs x.attrs := hxa ▸ parsed_attrs ks a hp
  obtain ⟨r', h0, _, g1, g2, g3, g4, g5, g6, g7, g8, g9, g10, g11, g12, g13, g14, g15, g16, _, _, _, _, hrest, _⟩ :=
    Net.Record.record_labels text limit lab ht x hx hq
  rw [hr] at h0
  cases h0
  have hother : ∀ k : SL, k ≠ .srcIp → k ≠ .dstIp → k ≠ .containerId → k ≠ .dnatIp → textOf ((view l0).str k) = [] := by
    intro k k1 k2 k3 k4
    have hb : ∀ t, (k.text, t) ∉ baseTy := by
      have : ∀ p ∈ baseTy, p.1 ≠ k.text := by cases k <;> first | (exact absurd rfl k1) | (exact absurd rfl k2) | (exact absurd rfl k3) | (exact absurd rfl k4) | decide
      intro t hc
      exact this _ hc rfl
    have := hl0 k.text
    rw [hrest _ hb, hxa, attr_none hp _ (sl_meta k), Option.none_or] at this
    simp only [view, this]
    cases hlb : lab k.text with
    | none => rfl
    | some w =>
      have h1 := hty k w hlb
      rw [hz _ _ hlb, h1]
      rfl
  refine ⟨fun k => ?_, fun k => ?_, ?_⟩
  · cases k
    case containerId => simp [view, SL.text, hl0, g9, aval, seen, textOf]
    case srcIp => simp [view, SL.text, hl0, g5, aval, seen, textOf]
    case dstIp => simp [view, SL.text, hl0, g6, aval, seen, textOf]
    case dnatIp => simp [view, SL.text, hl0, g15, aval, seen, textOf]
    all_goals exact hother _ (by simp) (by simp) (by simp) (by simp)
  · cases k
    · simp [view, ilText, hl0, g7, aval, seen]
    · simp [view, ilText, hl0, g8, aval, seen]
    · simp [view, ilText, hl0, g16, aval, seen]
  · simp [view, Agg.Labels.getBool, hl0, g11, aval, seen]

theorem handled_exchange {m : Meta} {x : Info} {a : Attrs} {l : Agg.Labels} (h : Handled m x a l) : Exchange x.protocol a l := by
  obtain ⟨text, limit, lab, r, l0, hpool, hq, hr, hl0, hty, rfl⟩ := h.record
  refine ⟨h.parsed, ⟨text, limit, lab, x, r, hpool, h.attrs, rfl, hq, hr, fun k hk => ?_⟩, h.ints⟩
  rw [(enrich_get m l0).2.2 k hk, hl0]

theorem dec_text (k : SL) : Proc.Aggregate.dec (bs k.text) = k.text := by cases k <;> decide +kernel
theorem dec_ilText (k : IL) : Proc.Aggregate.dec (bs (ilText k)) = ilText k := by cases k <;> decide +kernel

/-- The labels that reach the aggregation, read by an exporter. -/
theorem handled_reads {m : Meta} {x : Info} {a : Attrs} {l : Agg.Labels} (h : Handled m x a l) :
    (∀ k : SL, (labOf l).gs (bs k.text) = endLabel m x k) ∧ (∀ k : IL, (labOf l).gi (bs (ilText k)) = endPort m x k) ∧
    (labOf l).gs (bs "protocol") = bs x.protocol ∧
    (labOf l).gi (bs "error_type") = (if Net.Record.protocolSaysError x then 3 else if x.response.isNone then 2 else 0) ∧
    (labOf l).gb (bs "is_slow") = x.slow ∧ (labOf l).gb (bs "is_server") = x.isServer := by
  obtain ⟨ks, hp⟩ := h.parsed
  obtain ⟨text, limit, lab, r, l0, hpool, hq, hr, hl0, hty, rfl⟩ := h.record
  obtain ⟨v1, v2, v3⟩ := view_seen hp h.attrs hpool hq hr hl0 hty
  obtain ⟨c1, c2⟩ := tables_congr m (view l0) (seen x) v1 v2 v3
  obtain ⟨e1, e2, e3⟩ := enrich_get m l0
  obtain ⟨ht, hz⟩ := Net.Record.pooled_zero hpool
  have hx : Net.Record.ParserAttrs x.attrs := h.attrs ▸ parsed_attrs ks a hp
  obtain ⟨r', h0, _, g1, g2, g3, g4, g5, g6, g7, g8, g9, g10, g11, g12, g13, g14, g15, g16, _, _, _, _, hrest, _⟩ :=
    Net.Record.record_labels text limit lab ht x hx hq
  rw [hr] at h0
  cases h0
  have d1 : Proc.Aggregate.dec (bs "protocol") = "protocol" := by decide +kernel
  have d2 : Proc.Aggregate.dec (bs "error_type") = "error_type" := by decide +kernel
  have d3 : Proc.Aggregate.dec (bs "is_slow") = "is_slow" := by decide +kernel
  have d4 : Proc.Aggregate.dec (bs "is_server") = "is_server" := by decide +kernel
  refine ⟨fun k => ?_, fun k => ?_, ?_, ?_, ?_, ?_⟩
  · have hc := c1 k
    simp only [labOf, dec_text, Agg.Labels.getString, e1]
    rw [Proc.K8s.Table.request_labels m (seen x) k] at hc
    show _ = textOf (if isSource k then sourceLabel m (seen x) k else destinationLabel m (seen x) k)
    rw [← hc]
    cases (Proc.K8s.process m false (view l0)).str k <;> rfl
  · have hc := c2 k
    rw [Proc.K8s.Table.request_ports m (seen x) k] at hc
    simp only [labOf, dec_ilText, Agg.Labels.getInt, e2, hc, endPort]
    cases portLabel m (seen x) k <;> rfl
  · simp only [labOf, d1, Agg.Labels.getString, e3 "protocol" (by decide), hl0, g12, aval, Option.map_some]
  · simp only [labOf, d2, Agg.Labels.getInt, e3 "error_type" (by decide), hl0, g14, aval, Option.map_some]
  · simp only [labOf, d3, Agg.Labels.getBool, e3 "is_slow" (by decide), hl0, g10, aval, Option.map_some]
  · simp only [labOf, d4, Agg.Labels.getBool, e3 "is_server" (by decide), hl0, g11, aval, Option.map_some]

/-! ### Proofs: the documented labels -/

/-- The labels documented values are taken from. -/
def textKeys : List String := allSL.map SL.text ++ ["protocol", "content_key", "dns_domain", "kafka_topic"]
def intKeys : List String :=
  ["dst_port", "dnat_port", "error_type", "http_status_code", "dns_rcode", "sql_error_code", "dubbo_error_code", "rocketmq_error_code"]

def srcIn : Src → Bool
  | .text k => decide (k ∈ textKeys)
  | .num k => decide (k ∈ intKeys)
  | .flag k => decide (k = "is_slow")
  | .unknownDst k => decide (k ∈ textKeys)
  | _ => true

theorem docFind_mem (t : List (String × String)) (p : Bytes) (k : String) (h : Export.Documented.docFind t p = some k) : k ∈ t.map (·.2) := by
  unfold Export.Documented.docFind at h
  simp only [Option.map_eq_some_iff] at h
  obtain ⟨e, he, rfl⟩ := h
  exact List.mem_map.2 ⟨e, List.mem_of_find?_eq_some he, rfl⟩

theorem src_congr (g g' : Lab) (ht : ∀ k ∈ textKeys, g.gs (bs k) = g'.gs (bs k)) (hi : ∀ k ∈ intKeys, g.gi (bs k) = g'.gi (bs k))
    (hb : g.gb (bs "is_slow") = g'.gb (bs "is_slow")) (s : Src) (hs : srcIn s = true) : s.val g = s.val g' := by
  have hp := ht "protocol" (by decide +kernel)
  have hcode : ∀ f n, Export.Documented.docCode g f n = Export.Documented.docCode g' f n := by
    intro f n
    unfold Export.Documented.docCode
    rw [hp, hi "error_type" (by decide)]
    split
    · rfl
    · cases hf : Export.Documented.docFind Export.Documented.docResponse (g'.gs (bs "protocol")) with
      | none => rfl
      | some k =>
        have : ∀ k ∈ Export.Documented.docResponse.map (·.2), k ∈ intKeys := by decide +kernel
        simp only [hi k (this k (docFind_mem _ _ _ hf))]
  have hnat : Export.Documented.Nat g ↔ Export.Documented.Nat g' := by
    unfold Export.Documented.Nat
    rw [ht "dnat_ip" (by decide +kernel), hi "dnat_port" (by decide)]
  cases s with
  | text k => simp only [srcIn, decide_eq_true_eq] at hs; simp only [Src.val, ht k hs]
  | num k => simp only [srcIn, decide_eq_true_eq] at hs; simp only [Src.val, hi k hs]
  | flag k => simp only [srcIn, decide_eq_true_eq] at hs; subst hs; simp only [Src.val, hb]
  | request =>
    simp only [Src.val, hp]
    cases hf : Export.Documented.docFind Export.Documented.docRequest (g'.gs (bs "protocol")) with
    | none => rfl
    | some k =>
      have : ∀ k ∈ Export.Documented.docRequest.map (·.2), k ∈ textKeys := by decide +kernel
      simp only [ht k (this k (docFind_mem _ _ _ hf))]
  | response => exact hcode _ _
  | status => exact hcode _ _
  | dstIp =>
    simp only [Src.val, ht "dnat_ip" (by decide +kernel), ht "dst_ip" (by decide +kernel)]
    by_cases hn : Export.Documented.Nat g
    · rw [if_pos hn, if_pos (hnat.1 hn)]
    · rw [if_neg hn, if_neg (fun hc => hn (hnat.2 hc))]
  | dstPort =>
    simp only [Src.val, hi "dnat_port" (by decide), hi "dst_port" (by decide)]
    by_cases hn : Export.Documented.Nat g
    · rw [if_pos hn, if_pos (hnat.1 hn)]
    · rw [if_neg hn, if_neg (fun hc => hn (hnat.2 hc))]
  | unknownDst k => simp only [srcIn, decide_eq_true_eq] at hs; simp only [Src.val, ht k hs, ht "dst_namespace" (by decide +kernel)]

theorem told_text {m : Meta} {x : Info} {a : Attrs} {l : Agg.Labels} (h : Handled m x a l) (k : String) (hk : k ∈ textKeys) :
    (labOf l).gs (bs k) = (told m x a).gs (bs k) := by
  obtain ⟨r1, r2, r3, r4, r5, r6⟩ := handled_reads h
  have he := exchange_reads (handled_exchange h)
  rcases List.mem_append.1 hk with hk | hk
  · obtain ⟨s, hs, rfl⟩ := List.mem_map.1 hk
    rw [r1 s]
    simp only [told]
    have : allSL.find? (fun k => decide (bs k.text = bs s.text)) = some s := by cases s <;> decide +kernel
    rw [this]
  · simp only [List.mem_cons, List.not_mem_nil, or_false] at hk
    have hn : ∀ k ∈ ["protocol", "content_key", "dns_domain", "kafka_topic"], allSL.find? (fun s => decide (bs s.text = bs k)) = none := by
      decide +kernel
    simp only [told]
    rw [hn k (by simpa using hk)]
    rcases hk with rfl | rfl | rfl | rfl
    · rw [r3]; rfl
    · rw [(he (bs "content_key") (by decide +kernel)).1]; rfl
    · rw [(he (bs "dns_domain") (by decide +kernel)).1]; rfl
    · rw [(he (bs "kafka_topic") (by decide +kernel)).1]; rfl

theorem told_int {m : Meta} {x : Info} {a : Attrs} {l : Agg.Labels} (h : Handled m x a l) (k : String) (hk : k ∈ intKeys) :
    (labOf l).gi (bs k) = (told m x a).gi (bs k) := by
  obtain ⟨r1, r2, r3, r4, r5, r6⟩ := handled_reads h
  have he := exchange_reads (handled_exchange h)
  simp only [intKeys, List.mem_cons, List.not_mem_nil, or_false] at hk
  rcases hk with rfl | rfl | rfl | rfl | rfl | rfl | rfl | rfl
  · exact r2 .dstPort
  · exact r2 .dnatPort
  · rw [r4]; rfl
  · rw [(he (bs "http_status_code") (by decide +kernel)).2.1]; rfl
  · rw [(he (bs "dns_rcode") (by decide +kernel)).2.1]; rfl
  · rw [(he (bs "sql_error_code") (by decide +kernel)).2.1]; rfl
  · rw [(he (bs "dubbo_error_code") (by decide +kernel)).2.1]; rfl
  · rw [(he (bs "rocketmq_error_code") (by decide +kernel)).2.1]; rfl

theorem agg_text {l : Agg.Labels} (hl : l.Int64) (k : String) (hk : k ∈ textKeys) :
    (labOf (aggLabels netSels l)).gs (bs k) = (labOf l).gs (bs k) := by
  have : ∀ k ∈ textKeys, (⟨Proc.Aggregate.dec (bs k), .string⟩ : Selector) ∈ netSels := by decide +kernel
  exact read_string l hl (bs k) (this k hk)

theorem agg_int {l : Agg.Labels} (hl : l.Int64) (g : Lab) (hg : ∀ k ∈ intKeys, (labOf l).gi (bs k) = g.gi (bs k)) (k : String) (hk : k ∈ intKeys) :
    (labOf (aggLabels netSels l)).gi (bs k) = (kept g).gi (bs k) := by
  by_cases h : k = "dubbo_error_code" ∨ k = "error_type"
  · have hno : ∀ s ∈ netSels, s.name ≠ Proc.Aggregate.dec (bs k) := by
      rcases h with rfl | rfl <;> decide +kernel
    have := (aggregated_labels netSels (Or.inl rfl) l hl (Proc.Aggregate.dec (bs k))).2.1 hno
    have hk0 : (kept g).gi (bs k) = 0 := by rcases h with rfl | rfl <;> rfl
    rw [hk0]
    simp only [labOf, Agg.Labels.getInt, this]
  · rw [not_or] at h
    have hin : ∀ k ∈ intKeys, k ≠ "dubbo_error_code" → k ≠ "error_type" → (⟨Proc.Aggregate.dec (bs k), .int⟩ : Selector) ∈ netSels ∧
        ¬ (bs k = bs "dubbo_error_code" ∨ bs k = bs "error_type") := by decide +kernel
    obtain ⟨i1, i2⟩ := hin k hk h.1 h.2
    rw [read_int l hl (bs k) i1, hg k hk]
    simp only [kept, if_neg i2]

theorem documented_ok (c : Conv) (doc : List (String × Src)) (hc : (c, doc) ∈ documented) :
    Export.Documented.conforms c doc = true ∧ c ∈ aggConvs ∧ ∀ e ∈ doc, srcIn e.2 = true := by
  obtain ⟨k1, k2, k3, k4, k5, k6, k7, k8, k9⟩ := Export.Documented.conform_all
  have hd : ∀ d ∈ documented.map (·.2), ∀ e ∈ d, srcIn e.2 = true := by decide +kernel
  refine ⟨?_, ?_, hd doc (List.mem_map.2 ⟨_, hc, rfl⟩)⟩
  all_goals
    simp only [documented, List.mem_cons, Prod.mk.injEq, List.not_mem_nil, or_false] at hc
    rcases hc with ⟨rfl, rfl⟩ | ⟨rfl, rfl⟩ | ⟨rfl, rfl⟩ | ⟨rfl, rfl⟩ | ⟨rfl, rfl⟩ | ⟨rfl, rfl⟩ | ⟨rfl, rfl⟩ | ⟨rfl, rfl⟩
  · exact k1
  · exact k2
  · exact k3
  · exact k4
  · exact k5
  · exact k6
  · exact k7
  · exact k8
  all_goals simp [aggConvs]

/-- C98.  The metrics of requests, from the record and the Kubernetes cache: with every choice of constant labels and after whatever
earlier conversions, each of the eight kinds of metrics has exactly the documented labels, the ends named by the tables of C77 on what the
record says, request and response as parsed; only the code of Dubbo and the result of Redis are lost in the aggregation. -/
theorem metric_labels {m : Meta} {x : Info} {a : Attrs} {l : Agg.Labels} (h : Handled m x a l) (hg : bs x.protocol ≠ bs "grpc")
    (c : Conv) (doc : List (String × Src)) (hc : (c, doc) ∈ documented) (consts : List (Bytes × Export.Labels.Val))
    (hf : Fresh c (protoOf (bs x.protocol)) consts) (pool : List (Bytes × Export.Labels.Val)) (hp : PoolList c consts (protoOf (bs x.protocol)) pool) :
    ((convertC c consts (labOf (aggLabels netSels l)) [] pool).map (·.1)).Nodup ∧
    ∀ k v, (k, v) ∈ convertC c consts (labOf (aggLabels netSels l)) [] pool ↔
      (∃ e ∈ doc, k = bs e.1 ∧ v = e.2.val (kept (told m x a))) ∨ (k, v) ∈ consts := by
  have hpr : (labOf (aggLabels netSels l)).gs (bs "protocol") = bs x.protocol := by
    rw [agg_text h.ints "protocol" (by decide +kernel), (handled_reads h).2.2.1]
  obtain ⟨d1, d2, d3⟩ := documented_ok c doc hc
  obtain ⟨hm, hv⟩ := aggConv_metric c d2
  have hs := Export.Documented.shows_of c hm doc d1 (labOf (aggLabels netSels l)) (by rw [hpr]; exact hg) consts (by rw [hpr]; exact hf) []
    (by rw [hv]; rfl) (by simp) (by simp)
  have hD := metric_dictionaries c hm _ consts hf
  have hx := exported_labels c consts (labOf (aggLabels netSels l)) hD.2 (by rw [hpr]; exact hD.1) [] (by rw [hv]; rfl) pool (by rw [hpr]; exact hp)
  refine ⟨hx.2.1, fun k v => ?_⟩
  rw [hs.1 pool (by rw [hpr]; exact hp) k v]
  have hval : ∀ e ∈ doc, e.2.val (labOf (aggLabels netSels l)) = e.2.val (kept (told m x a)) := fun e he =>
    src_congr _ _ (fun k hk => by rw [agg_text h.ints k hk, told_text h k hk]; rfl) (agg_int h.ints (told m x a) (told_int h))
      (by rw [read_bool l h.ints (bs "is_slow") (by decide +kernel), (handled_reads h).2.2.2.2.1]; rfl) e.2 (d3 e he)
  simp only [List.not_mem_nil, false_or]
  refine or_congr ⟨?_, ?_⟩ Iff.rfl
  · rintro ⟨e, he, h1, h2⟩; exact ⟨e, he, h1, by rw [h2, hval e he]⟩
  · rintro ⟨e, he, h1, h2⟩; exact ⟨e, he, h1, by rw [h2, hval e he]⟩

/-- C98.  A single request exported as a metric: the same labels with nothing lost, and those of its times. -/
theorem trace_labels {m : Meta} {x : Info} {a : Attrs} {l : Agg.Labels} (h : Handled m x a l) (hg : bs x.protocol ≠ bs "grpc")
    (ms : List (Bytes × Int)) (consts : List (Bytes × Export.Labels.Val)) (hf : Fresh traceToMetric (protoOf (bs x.protocol)) consts)
    (pool : List (Bytes × Export.Labels.Val)) (hp : PoolList traceToMetric consts (protoOf (bs x.protocol)) pool) :
    ((convertC traceToMetric consts (labOf l) (traceVals (labOf l) ms) pool).map (·.1)).Nodup ∧
    ∀ k v, (k, v) ∈ convertC traceToMetric consts (labOf l) (traceVals (labOf l) ms) pool ↔
      (∃ e ∈ docTrace, k = bs e.1 ∧ v = e.2.val (told m x a)) ∨ (k, v) ∈ traceVals (told m x a) ms ∨ (k, v) ∈ consts := by
  have hpr : (labOf l).gs (bs "protocol") = bs x.protocol := (handled_reads h).2.2.1
  have hm : traceToMetric ∈ metricConvs := by simp [metricConvs]
  have htv : traceVals (labOf l) ms = traceVals (told m x a) ms := by
    unfold traceVals
    rw [(handled_reads h).2.2.2.2.2]
    rfl
  have hs := Export.Documented.shows_of traceToMetric hm docTrace Export.Documented.conform_all.2.2.2.2.2.2.2.2 (labOf l)
    (by rw [hpr]; exact hg) consts (by rw [hpr]; exact hf) (traceVals (labOf l) ms) rfl
    (by intro kv hkv; simp only [traceVals, List.mem_cons, List.not_mem_nil, or_false] at hkv; rcases hkv with rfl | rfl | rfl | rfl | rfl <;> simp)
    (fun _ _ => rfl)
  have hD := metric_dictionaries traceToMetric hm _ consts hf
  have hx := exported_labels traceToMetric consts (labOf l) hD.2 (by rw [hpr]; exact hD.1) (traceVals (labOf l) ms) rfl pool (by rw [hpr]; exact hp)
  refine ⟨hx.2.1, fun k v => ?_⟩
  rw [hs.1 pool (by rw [hpr]; exact hp) k v, htv]
  have hd3 : ∀ e ∈ docTrace, srcIn e.2 = true := by decide +kernel
  have hval : ∀ e ∈ docTrace, e.2.val (labOf l) = e.2.val (told m x a) := fun e he =>
    src_congr _ _ (told_text h) (told_int h) (by rw [(handled_reads h).2.2.2.2.1]; rfl) e.2 (hd3 e he)
  refine or_congr ⟨?_, ?_⟩ Iff.rfl
  · rintro ⟨e, he, h1, h2⟩; exact ⟨e, he, h1, by rw [h2, hval e he]⟩
  · rintro ⟨e, he, h1, h2⟩; exact ⟨e, he, h1, by rw [h2, hval e he]⟩

/-! ### In plain words -/

/-- The metric has this label with exactly this value. -/
def Has (x : Info) (l : Agg.Labels) (c : Conv) (k : String) (v : Export.Labels.Val) : Prop :=
  ∀ consts, Fresh c (protoOf (bs x.protocol)) consts → ∀ pool, PoolList c consts (protoOf (bs x.protocol)) pool →
    ∀ w, (bs k, w) ∈ convertC c consts (labOf (aggLabels netSels l)) [] pool ↔ w = v

theorem has_of {m : Meta} {x : Info} {a : Attrs} {l : Agg.Labels} (h : Handled m x a l) (hg : bs x.protocol ≠ bs "grpc")
    (c : Conv) (doc : List (String × Src)) (hc : (c, doc) ∈ documented) (e : String × Src) (he : e ∈ doc) :
    Has x l c e.1 (e.2.val (kept (told m x a))) := by
  intro consts hf pool hp w
  obtain ⟨h1, h2⟩ := metric_labels h hg c doc hc consts hf pool hp
  have hin := (h2 (bs e.1) (e.2.val (kept (told m x a)))).2 (Or.inl ⟨e, he, rfl, rfl⟩)
  constructor
  · intro hw
    have e1 := AMap.get_of_mem (m := convertC c consts (labOf (aggLabels netSels l)) [] pool) h1 hw
    have e2 := AMap.get_of_mem (m := convertC c consts (labOf (aggLabels netSels l)) [] pool) h1 hin
    rw [e1] at e2
    exact Option.some.inj e2
  · rintro rfl; exact hin

theorem told_sl (m : Meta) (x : Info) (a : Attrs) (k : SL) : (kept (told m x a)).gs (bs k.text) = endLabel m x k := by
  have : allSL.find? (fun s => decide (bs s.text = bs k.text)) = some k := by cases k <;> decide +kernel
  simp only [kept, told, this]

theorem told_il (m : Meta) (x : Info) (a : Attrs) (k : IL) : (kept (told m x a)).gi (bs (ilText k)) = endPort m x k := by cases k <;> rfl

/-- A label that names one of the ends. -/
theorem has_sl {m : Meta} {x : Info} {a : Attrs} {l : Agg.Labels} (h : Handled m x a l) (hg : bs x.protocol ≠ bs "grpc")
    (c : Conv) (doc : List (String × Src)) (hc : (c, doc) ∈ documented) (n : String) (k : SL) (he : (n, Src.text k.text) ∈ doc) :
    Has x l c n (.str (endLabel m x k)) := by
  have := has_of h hg c doc hc (n, .text k.text) he
  simp only [Src.val, told_sl] at this
  exact this

/-- The documented labels of the four kinds of service metrics, and of the four kinds of topology metrics. -/
theorem entity_doc (d : Conv) (hd : d ∈ entityConvs) : ∃ doc, (d, doc) ∈ documented ∧ (∀ e ∈ docEntityAgg, e ∈ doc) ∧
    (d ∈ [detailEntity, detailEntitySlow] → ∀ e ∈ docEntity, e ∈ doc) ∧
    (d ∈ [aggEntitySlow, detailEntitySlow] → ("is_slow", Src.flag "is_slow") ∈ doc) := by
  have hsub : ∀ e ∈ docEntityAgg, e ∈ docEntity := by decide +kernel
  have n1 : aggEntity ≠ detailEntity ∧ aggEntity ≠ detailEntitySlow ∧ aggEntity ≠ aggEntitySlow := by
    refine ⟨?_, ?_, ?_⟩ <;> (intro h; have := congrArg (fun c => dictOf c .http) h; revert this; decide +kernel)
  have n2 : aggEntitySlow ≠ detailEntity ∧ aggEntitySlow ≠ detailEntitySlow ∧ detailEntity ≠ detailEntitySlow := by
    refine ⟨?_, ?_, ?_⟩ <;> (intro h; have := congrArg (fun c => dictOf c .http) h; revert this; decide +kernel)
  simp only [entityConvs, List.mem_cons, List.not_mem_nil, or_false] at hd
  rcases hd with rfl | rfl | rfl | rfl
  · exact ⟨docEntityAgg, by simp [documented], fun e he => he, by simp [n1], by simp [n1]⟩
  · exact ⟨docEntityAgg ++ [("is_slow", .flag "is_slow")], by simp [documented], fun e he => List.mem_append_left _ he, by simp [n2], by simp⟩
  · exact ⟨docEntity, by simp [documented], hsub, fun _ e he => he, by simp [n2, Ne.symm n2.1]⟩
  · exact ⟨docEntity ++ [("is_slow", .flag "is_slow")], by simp [documented], fun e he => List.mem_append_left _ (hsub e he),
      fun _ e he => List.mem_append_left _ he, by simp⟩

theorem topology_doc (d : Conv) (hd : d ∈ topologyConvs) : ∃ doc, (d, doc) ∈ documented ∧
    (∀ e ∈ docTopologyAgg, (e.1 ≠ "dst_node" ∧ e.1 ≠ "dst_pod") → e ∈ doc) ∧
    (d ∈ [detailTopology, detailTopologySlow] → ∀ e ∈ docTopology, e ∈ doc) ∧
    (d ∈ [aggTopologySlow, detailTopologySlow] → ("is_slow", Src.flag "is_slow") ∈ doc) := by
  have hsub : ∀ e ∈ docTopologyAgg, (e.1 ≠ "dst_node" ∧ e.1 ≠ "dst_pod") → e ∈ docTopology := by decide +kernel
  have n1 : aggTopology ≠ detailTopology ∧ aggTopology ≠ detailTopologySlow ∧ aggTopology ≠ aggTopologySlow := by
    refine ⟨?_, ?_, ?_⟩ <;> (intro h; have := congrArg (fun c => dictOf c .http) h; revert this; decide +kernel)
  have n2 : aggTopologySlow ≠ detailTopology ∧ aggTopologySlow ≠ detailTopologySlow ∧ detailTopology ≠ detailTopologySlow := by
    refine ⟨?_, ?_, ?_⟩ <;> (intro h; have := congrArg (fun c => dictOf c .http) h; revert this; decide +kernel)
  simp only [topologyConvs, List.mem_cons, List.not_mem_nil, or_false] at hd
  rcases hd with rfl | rfl | rfl | rfl
  · exact ⟨docTopologyAgg, by simp [documented], fun e he _ => he, by simp [n1], by simp [n1]⟩
  · exact ⟨docTopologyAgg ++ [("is_slow", .flag "is_slow")], by simp [documented], fun e he _ => List.mem_append_left _ he, by simp [n2], by simp⟩
  · exact ⟨docTopology, by simp [documented], hsub, fun _ e he => he, by simp [n2, Ne.symm n2.1]⟩
  · exact ⟨docTopology ++ [("is_slow", .flag "is_slow")], by simp [documented], fun e he hn => List.mem_append_left _ (hsub e he hn),
      fun _ e he => List.mem_append_left _ he, by simp⟩

theorem detail_entity (d : Conv) (hd : d ∈ [detailEntity, detailEntitySlow]) : d ∈ entityConvs := by
  simp only [List.mem_cons, List.not_mem_nil, or_false] at hd
  rcases hd with rfl | rfl <;> simp [entityConvs]

theorem detail_topology (d : Conv) (hd : d ∈ [detailTopology, detailTopologySlow]) : d ∈ topologyConvs := by
  simp only [List.mem_cons, List.not_mem_nil, or_false] at hd
  rcases hd with rfl | rfl <;> simp [topologyConvs]

open Kindling.Proc.K8s.Table (destination Dst.cont str int) in
/-- C98.  Metrics of a server in a known container: they name the container and the pod it belongs to. -/
theorem server_named {m : Meta} {x : Info} {a : Attrs} {l : Agg.Labels} (h : Handled m x a l) (hg : bs x.protocol ≠ bs "grpc")
    (hs : x.isServer = true) (c : K8s.Cont) (hc : m.byId (bs x.containerId) = some c) :
    (∀ d ∈ [detailEntity, detailEntitySlow], Has x l d "pod" (.str c.pod.name) ∧ Has x l d "node" (.str c.pod.node) ∧
      Has x l d "container" (.str c.name) ∧ Has x l d "container_id" (.str c.cid) ∧
      Has x l d "ip" (.str (if bs x.dstIp = [] then c.pod.ip else bs x.dstIp)) ∧ Has x l d "port" (.int x.dstPort)) ∧
    (∀ d ∈ entityConvs, Has x l d "namespace" (.str c.pod.ns) ∧ Has x l d "workload_kind" (.str c.pod.wkind) ∧
      Has x l d "workload_name" (.str c.pod.wname) ∧ Has x l d "service" (.str (match m.svcOf c.pod with | some s => s | none => [])) ∧
      Has x l d "protocol" (.str (bs x.protocol)) ∧
      (d ∈ [aggEntitySlow, detailEntitySlow] → Has x l d "is_slow" (.bool x.slow))) := by
  have hd : destination m (seen x) = .plain (.container c) := by
    simp only [destination, seen, hs, if_true, str, hc]
  have hsv : (seen x).isServer = true := hs
  refine ⟨fun d hdm => ?_, fun d hdm => ?_⟩
  · obtain ⟨doc, h1, _, h2, _⟩ := entity_doc d (detail_entity d hdm)
    have hsl := fun n k he => has_sl h hg d doc h1 n k (h2 hdm _ he)
    have v1 := hsl "pod" .dstPod (by decide +kernel)
    have v2 := hsl "node" .dstNode (by decide +kernel)
    have v3 := hsl "container" .dstContainer (by decide +kernel)
    have v4 := hsl "container_id" .dstContainerId (by decide +kernel)
    have v5 := hsl "ip" .dstIp (by decide +kernel)
    have v6 := has_of h hg d doc h1 ("port", .num "dst_port") (h2 hdm _ (by decide +kernel))
    simp only [endLabel, isSource, Bool.false_eq_true, if_false, destinationLabel, hd, Dst.cont] at v1 v2 v3 v4 v5
    refine ⟨v1, v2, v3, v4, ?_, ?_⟩
    · have : ∀ b : Bytes, str (seen x) .dstIp = bs x.dstIp := fun _ => rfl
      rw [this []] at v5
      by_cases he : bs x.dstIp = []
      · rw [if_pos he] at v5; rw [if_pos he]; exact v5
      · rw [if_neg he] at v5; rw [if_neg he]; exact v5
    · have e : Src.val (kept (told m x a)) (.num "dst_port") = .int (endPort m x .dstPort) := by simp only [Src.val]; exact congrArg _ (told_il m x a .dstPort)
      rw [e] at v6
      simp only [endPort, portLabel, hd] at v6
      exact v6
  · obtain ⟨doc, h1, h2, _, h3⟩ := entity_doc d hdm
    have hsl := fun n k he => has_sl h hg d doc h1 n k (h2 _ he)
    have v1 := hsl "namespace" .dstNamespace (by decide +kernel)
    have v2 := hsl "workload_kind" .dstWorkloadKind (by decide +kernel)
    have v3 := hsl "workload_name" .dstWorkloadName (by decide +kernel)
    have v4 := hsl "service" .dstService (by decide +kernel)
    simp only [endLabel, isSource, Bool.false_eq_true, if_false, destinationLabel, hd, Dst.cont, hsv, if_true] at v1 v2 v3 v4
    refine ⟨v1, v2, v3, ?_, has_of h hg d doc h1 ("protocol", .text "protocol") (h2 _ (by decide +kernel)),
      fun hsl => has_of h hg d doc h1 ("is_slow", .flag "is_slow") (h3 hsl)⟩
    cases hso : m.svcOf c.pod with
    | some s => rw [hso] at v4; exact v4
    | none => rw [hso] at v4; exact v4

open Kindling.Proc.K8s.Table (destination Dst.cont str int) in
/-- C98.  Metrics of a server in no known container: the own node, inside the cluster, no pod; the id of the container as seen. -/
theorem server_unknown {m : Meta} {x : Info} {a : Attrs} {l : Agg.Labels} (h : Handled m x a l) (hg : bs x.protocol ≠ bs "grpc")
    (hs : x.isServer = true) (hc : m.byId (bs x.containerId) = none) :
    (∀ d ∈ [detailEntity, detailEntitySlow], Has x l d "pod" (.str []) ∧ Has x l d "node" (.str m.nodeName) ∧
      Has x l d "container" (.str []) ∧ Has x l d "container_id" (.str (bs x.containerId)) ∧ Has x l d "ip" (.str (bs x.dstIp))) ∧
    (∀ d ∈ entityConvs, Has x l d "namespace" (.str (bs "NOT_FOUND_INTERNAL")) ∧ Has x l d "workload_kind" (.str []) ∧
      Has x l d "workload_name" (.str []) ∧ Has x l d "service" (.str [])) := by
  have hd : destination m (seen x) = .plain .own := by
    simp only [destination, seen, hs, if_true, str, hc]
  have hsv : (seen x).isServer = true := hs
  refine ⟨fun d hdm => ?_, fun d hdm => ?_⟩
  · obtain ⟨doc, h1, _, h2, _⟩ := entity_doc d (detail_entity d hdm)
    have hsl := fun n k he => has_sl h hg d doc h1 n k (h2 hdm _ he)
    have v1 := hsl "pod" .dstPod (by decide +kernel)
    have v2 := hsl "node" .dstNode (by decide +kernel)
    have v3 := hsl "container" .dstContainer (by decide +kernel)
    have v4 := hsl "container_id" .dstContainerId (by decide +kernel)
    have v5 := hsl "ip" .dstIp (by decide +kernel)
    simp only [endLabel, isSource, Bool.false_eq_true, if_false, destinationLabel, hd, Dst.cont, hsv, if_true] at v1 v2 v3 v4 v5
    exact ⟨v1, v2, v3, v4, v5⟩
  · obtain ⟨doc, h1, h2, _, h3⟩ := entity_doc d hdm
    have hsl := fun n k he => has_sl h hg d doc h1 n k (h2 _ he)
    have v1 := hsl "namespace" .dstNamespace (by decide +kernel)
    have v2 := hsl "workload_kind" .dstWorkloadKind (by decide +kernel)
    have v3 := hsl "workload_name" .dstWorkloadName (by decide +kernel)
    have v4 := hsl "service" .dstService (by decide +kernel)
    simp only [endLabel, isSource, Bool.false_eq_true, if_false, destinationLabel, hd, Dst.cont] at v1 v2 v3 v4
    exact ⟨v1, v2, v3, v4⟩

open Kindling.Proc.K8s.Table (source Who.podOf str int) in
/-- C98.  Metrics of a client in a known container: the source is the pod of the container. -/
theorem client_named {m : Meta} {x : Info} {a : Attrs} {l : Agg.Labels} (h : Handled m x a l) (hg : bs x.protocol ≠ bs "grpc")
    (hs : x.isServer = false) (c : K8s.Cont) (hid : bs x.containerId ≠ []) (hc : m.byId (bs x.containerId) = some c) :
    (∀ d ∈ [detailTopology, detailTopologySlow], Has x l d "src_pod" (.str c.pod.name) ∧ Has x l d "src_node" (.str c.pod.node) ∧
      Has x l d "src_container" (.str c.name) ∧ Has x l d "src_container_id" (.str c.cid) ∧ Has x l d "src_ip" (.str c.pod.ip)) ∧
    (∀ d ∈ topologyConvs, Has x l d "src_namespace" (.str c.pod.ns) ∧ Has x l d "src_workload_kind" (.str c.pod.wkind) ∧
      Has x l d "src_workload_name" (.str c.pod.wname) ∧ Has x l d "src_service" (.str (match m.svcOf c.pod with | some s => s | none => []))) := by
  have hd : source m (seen x) = .container c := by
    have h1 : str (seen x) .containerId = bs x.containerId := rfl
    have h2 : (seen x).isServer = false := hs
    simp only [source, h1, h2, hid, hc, ne_eq, not_false_eq_true, and_self, if_true]
  refine ⟨fun d hdm => ?_, fun d hdm => ?_⟩
  · obtain ⟨doc, h1, _, h2, _⟩ := topology_doc d (detail_topology d hdm)
    have hsl := fun n k he => has_sl h hg d doc h1 n k (h2 hdm _ he)
    have v1 := hsl "src_pod" .srcPod (by decide +kernel)
    have v2 := hsl "src_node" .srcNode (by decide +kernel)
    have v3 := hsl "src_container" .srcContainer (by decide +kernel)
    have v4 := hsl "src_container_id" .srcContainerId (by decide +kernel)
    have v5 := hsl "src_ip" .srcIp (by decide +kernel)
    simp only [endLabel, isSource, if_true, sourceLabel, hd, Who.podOf] at v1 v2 v3 v4 v5
    exact ⟨v1, v2, v3, v4, v5⟩
  · obtain ⟨doc, h1, h2, _, h3⟩ := topology_doc d hdm
    have hsl := fun n k he hn => has_sl h hg d doc h1 n k (h2 _ he hn)
    have v1 := hsl "src_namespace" .srcNamespace (by decide +kernel) (by decide)
    have v2 := hsl "src_workload_kind" .srcWorkloadKind (by decide +kernel) (by decide)
    have v3 := hsl "src_workload_name" .srcWorkloadName (by decide +kernel) (by decide)
    have v4 := hsl "src_service" .srcService (by decide +kernel) (by decide)
    simp only [endLabel, isSource, if_true, sourceLabel, hd, Who.podOf, Option.bind_some] at v1 v2 v3 v4
    refine ⟨v1, v2, v3, ?_⟩
    cases hso : m.svcOf c.pod with
    | some s => rw [hso] at v4; exact v4
    | none => rw [hso] at v4; exact v4

theorem nat_told (m : Meta) (x : Info) (a : Attrs) :
    (kept (told m x a)).gs (bs "dnat_ip") = bs ((x.nat.map (·.1)).getD "") ∧ (kept (told m x a)).gi (bs "dnat_port") = (x.nat.map (·.2)).getD (-1) :=
  ⟨told_sl m x a .dnatIp, told_il m x a .dnatPort⟩

open Kindling.Proc.K8s.Table (destination behind dstAddr Dst.cont str int port) in
/-- C98.  Metrics of a client that calls a service: the service, and behind it the pod that the translated address belongs to; the detailed
metrics show the translated address. -/
theorem service_named {m : Meta} {x : Info} {a : Attrs} {l : Agg.Labels} (h : Handled m x a l) (hg : bs x.protocol ≠ bs "grpc")
    (hs : x.isServer = false) (hlo : bs x.dstIp ≠ bs "127.0.0.1") (s : Proc.K8s.SvcI) (hsvc : m.svc (bs x.dstIp) (port x.dstPort) = some s)
    (ip : String) (p : Int) (hn : x.nat = some (ip, p)) (hip : bs ip ≠ []) (hp : 0 < p) (c : K8s.Cont) (hc : m.byIpPort (bs ip) (port p) = some c) :
    (∀ d ∈ [detailTopology, detailTopologySlow], Has x l d "dst_pod" (.str c.pod.name) ∧ Has x l d "dst_node" (.str c.pod.node) ∧
      Has x l d "dst_container" (.str c.name) ∧ Has x l d "dst_container_id" (.str c.cid) ∧ Has x l d "dst_ip" (.str (bs ip)) ∧
      Has x l d "dst_port" (.int p)) ∧
    (∀ d ∈ topologyConvs, Has x l d "dst_service" (.str s.name) ∧ Has x l d "dst_namespace" (.str c.pod.ns) ∧
      Has x l d "dst_workload_kind" (.str c.pod.wkind) ∧ Has x l d "dst_workload_name" (.str c.pod.wname)) := by
  have h1 : str (seen x) .dstIp = bs x.dstIp := rfl
  have h2 : (seen x).isServer = false := hs
  have h3 : str (seen x) .dnatIp = bs ip := by simp only [str, seen, hn]; rfl
  have h4 : int (seen x) .dnatPort = p := by simp only [int, seen, hn]; rfl
  have h5 : int (seen x) .dstPort = x.dstPort := rfl
  have hd : destination m (seen x) = .service s (.container c) := by
    have ha : dstAddr m (seen x) = bs x.dstIp := by simp only [dstAddr, h1, hlo, if_false]
    have hb : behind m (seen x) = .container c := by
      simp only [behind, h3, h4, hc]
      rw [if_pos ⟨hip, by omega⟩]
    simp only [destination, h2, Bool.false_eq_true, if_false, ha, h5, hsvc, hb]
  have hnat : Export.Documented.Nat (kept (told m x a)) := by
    obtain ⟨n1, n2⟩ := nat_told m x a
    unfold Export.Documented.Nat
    rw [n1, n2, hn]
    exact ⟨hip, hp⟩
  refine ⟨fun d hdm => ?_, fun d hdm => ?_⟩
  · obtain ⟨doc, h1, _, h2, _⟩ := topology_doc d (detail_topology d hdm)
    have hsl := fun n k he => has_sl h hg d doc h1 n k (h2 hdm _ he)
    have v1 := hsl "dst_pod" .dstPod (by decide +kernel)
    have v2 := hsl "dst_node" .dstNode (by decide +kernel)
    have v3 := hsl "dst_container" .dstContainer (by decide +kernel)
    have v4 := hsl "dst_container_id" .dstContainerId (by decide +kernel)
    have v5 := has_of h hg d doc h1 ("dst_ip", .dstIp) (h2 hdm _ (by decide +kernel))
    have v6 := has_of h hg d doc h1 ("dst_port", .dstPort) (h2 hdm _ (by decide +kernel))
    simp only [endLabel, isSource, Bool.false_eq_true, if_false, destinationLabel, hd, Dst.cont] at v1 v2 v3 v4
    simp only [Src.val, if_pos hnat, (nat_told m x a).1, (nat_told m x a).2, hn] at v5 v6
    exact ⟨v1, v2, v3, v4, v5, v6⟩
  · obtain ⟨doc, h1, h2, _, h3⟩ := topology_doc d hdm
    have hsl := fun n k he hn => has_sl h hg d doc h1 n k (h2 _ he hn)
    have v1 := hsl "dst_service" .dstService (by decide +kernel) (by decide)
    have v2 := hsl "dst_namespace" .dstNamespace (by decide +kernel) (by decide)
    have v3 := hsl "dst_workload_kind" .dstWorkloadKind (by decide +kernel) (by decide)
    have v4 := hsl "dst_workload_name" .dstWorkloadName (by decide +kernel) (by decide)
    simp only [endLabel, isSource, Bool.false_eq_true, if_false, destinationLabel, hd, Dst.cont] at v1 v2 v3 v4
    exact ⟨v1, v2, v3, v4⟩

open Kindling.Proc.K8s.Table (destination dstAddr Dst.cont str int port) in
/-- C98.  Metrics of a client whose destination nothing is known of: outside the cluster, the address as seen and neither pod nor service. -/
theorem outside_named {m : Meta} {x : Info} {a : Attrs} {l : Agg.Labels} (h : Handled m x a l) (hg : bs x.protocol ≠ bs "grpc")
    (hs : x.isServer = false) (hlo : bs x.dstIp ≠ bs "127.0.0.1") (hsvc : m.svc (bs x.dstIp) (port x.dstPort) = none)
    (hc : m.byIpPort (bs x.dstIp) (port x.dstPort) = none) (hh : m.byHost (bs x.dstIp) (port x.dstPort) = none) (hno : m.node (bs x.dstIp) = none)
    (hn : x.nat = none) :
    (∀ d ∈ [detailTopology, detailTopologySlow], Has x l d "dst_pod" (.str []) ∧ Has x l d "dst_node" (.str []) ∧
      Has x l d "dst_ip" (.str (bs x.dstIp)) ∧ Has x l d "dst_port" (.int x.dstPort)) ∧
    (∀ d ∈ topologyConvs, Has x l d "dst_service" (.str []) ∧ Has x l d "dst_namespace" (.str (bs "NOT_FOUND_EXTERNAL")) ∧
      Has x l d "dst_workload_kind" (.str []) ∧ Has x l d "dst_workload_name" (.str [])) := by
  have h1 : str (seen x) .dstIp = bs x.dstIp := rfl
  have h2 : (seen x).isServer = false := hs
  have h5 : int (seen x) .dstPort = x.dstPort := rfl
  have hd : destination m (seen x) = .plain .outside := by
    have ha : dstAddr m (seen x) = bs x.dstIp := by simp only [dstAddr, h1, hlo, if_false]
    simp only [destination, h2, Bool.false_eq_true, if_false, ha, h5, hsvc, hc, hh, hno]
  have hhere : Proc.K8s.Table.dstHere (seen x) = false := by
    simp only [Proc.K8s.Table.dstHere, h2, h1, hlo, decide_false, Bool.and_false]
  have hnat : ¬ Export.Documented.Nat (kept (told m x a)) := by
    obtain ⟨n1, n2⟩ := nat_told m x a
    unfold Export.Documented.Nat
    rw [n1, n2, hn]
    rintro ⟨hc, _⟩
    exact hc rfl
  refine ⟨fun d hdm => ?_, fun d hdm => ?_⟩
  · obtain ⟨doc, h1, _, h2, _⟩ := topology_doc d (detail_topology d hdm)
    have hsl := fun n k he => has_sl h hg d doc h1 n k (h2 hdm _ he)
    have v1 := hsl "dst_pod" .dstPod (by decide +kernel)
    have v2 := hsl "dst_node" .dstNode (by decide +kernel)
    have v5 := has_of h hg d doc h1 ("dst_ip", .dstIp) (h2 hdm _ (by decide +kernel))
    have v6 := has_of h hg d doc h1 ("dst_port", .dstPort) (h2 hdm _ (by decide +kernel))
    have e5 : (kept (told m x a)).gs (bs "dst_ip") = endLabel m x .dstIp := told_sl m x a .dstIp
    have e6 : (kept (told m x a)).gi (bs "dst_port") = endPort m x .dstPort := told_il m x a .dstPort
    simp only [Src.val, if_neg hnat, e5, e6, endLabel, endPort, portLabel, isSource, Bool.false_eq_true, if_false, destinationLabel, hd, Dst.cont,
      hhere] at v1 v2 v5 v6
    exact ⟨v1, v2, v5, v6⟩
  · obtain ⟨doc, h1, h2, _, h3⟩ := topology_doc d hdm
    have hsl := fun n k he hn => has_sl h hg d doc h1 n k (h2 _ he hn)
    have v1 := hsl "dst_service" .dstService (by decide +kernel) (by decide)
    have v2 := hsl "dst_namespace" .dstNamespace (by decide +kernel) (by decide)
    have v3 := hsl "dst_workload_kind" .dstWorkloadKind (by decide +kernel) (by decide)
    have v4 := hsl "dst_workload_name" .dstWorkloadName (by decide +kernel) (by decide)
    simp only [endLabel, isSource, Bool.false_eq_true, if_false, destinationLabel, hd, Dst.cont] at v1 v2 v3 v4
    exact ⟨v1, v2, v3, v4⟩

/-- The conditions can always be met: every parsed exchange has a record that is handled, whatever is in the cache. -/
theorem handled_exists (m : Meta) (ks : List Bytes) (a : Attrs) (hp : Parsed ks a) (hai : ∀ k n, AMap.get a k = some (.int n) → I64 n)
    (text : Bytes → String) (limit : Nat) (x : Info) (hxa : x.attrs = vmapOf a)
    (hq : x.protocol = "dubbo" → 16 < limit → 16 ≤ x.request.length ∧ ∀ t ts d, x.response = some (t, ts, d) → 16 ≤ d.length)
    (hi : I64 x.pid ∧ I64 x.requestTid ∧ I64 x.srcPort ∧ I64 x.dstPort ∧ (∀ r, x.response = some r → I64 r.1 ∧ I64 r.2.1) ∧ (∀ r, x.nat = some r → I64 r.2))
    (hm : ∀ ip p c k n, m.byHost ip p = some c → AMap.get c.hostPortMap k = some n → I64 n) :
    ∃ l, Handled m x a l := by
  obtain ⟨r, l0, h0, h1, h2⟩ := record_exists ks a hp hai text limit x hxa hq hi
  refine ⟨enrich m l0, ⟨ks, hp⟩, hxa, ⟨text, limit, emptyV, r, l0, .fresh, hq, h0, h1, (fun k v hv => by cases hv), rfl⟩, ?_⟩
  obtain ⟨e1, e2, e3⟩ := enrich_get m l0
  obtain ⟨v1, v2, v3⟩ := view_seen hp hxa .fresh hq h0 h1 (fun k v hv => by cases hv)
  obtain ⟨_, c2⟩ := tables_congr m (view l0) (seen x) v1 v2 v3
  intro k i hk
  by_cases hmn : k ∈ metaNames
  · rcases List.mem_append.1 (show k ∈ allSL.map SL.text ++ allIL.map ilText from hmn) with hs | hs
    · obtain ⟨s, _, rfl⟩ := List.mem_map.1 hs
      rw [e1] at hk
      cases hg : (Proc.K8s.process m false (view l0)).str s <;> rw [hg] at hk <;> cases hk
    · obtain ⟨s, _, rfl⟩ := List.mem_map.1 hs
      rw [e2, c2, Proc.K8s.Table.request_ports] at hk
      have hz : I64 0 := by unfold I64; omega
      show I64 i
      cases s with
      | srcPort => simp only [portLabel, seen, Option.map_some, Option.some.injEq, AttrVal.int.injEq] at hk; rw [← hk]; exact hi.2.2.1
      | dnatPort =>
        simp only [portLabel, seen, Option.map_some, Option.some.injEq, AttrVal.int.injEq] at hk
        rw [← hk]
        cases hr : x.nat with
        | none => unfold I64; decide
        | some q => exact hi.2.2.2.2.2 q hr
      | dstPort =>
        have hplain : (seen x).int .dstPort = some x.dstPort := rfl
        simp only [portLabel] at hk
        cases hd : Proc.K8s.Table.destination m (seen x) with
        | host c =>
          rw [hd] at hk
          simp only at hk
          have hb : ∃ ip p, m.byHost ip p = some c := by
            revert hd
            unfold Proc.K8s.Table.destination
            split
            · split <;> (intro hd; cases hd)
            · split <;> intro hd <;> cases hd
              rename_i hb
              exact ⟨_, _, hb⟩
          obtain ⟨ip, p, hb⟩ := hb
          cases hg : AMap.get c.hostPortMap (Proc.K8s.Table.port (Proc.K8s.Table.int (seen x) .dstPort)) with
          | none => rw [hg] at hk; cases hk; exact hz
          | some n => rw [hg] at hk; cases hk; exact hm ip p c _ n hb hg
        | service _ _ => rw [hd] at hk; simp only [hplain] at hk; cases hk; exact hi.2.2.2.1
        | plain _ => rw [hd] at hk; simp only [hplain] at hk; cases hk; exact hi.2.2.2.1
  · rw [e3 k hmn] at hk
    exact h2 k i hk

/-- A request for `/a`, served by a container of the pod "web-0" in the namespace "shop". -/
example : ∃ (m : Meta) (x : Info) (a : Attrs) (l : Agg.Labels), Handled m x a l ∧ x.isServer = true ∧ bs x.protocol ≠ bs "grpc" ∧
    Has x l detailEntity "pod" (.str (bs "web-0")) ∧ Has x l aggEntity "namespace" (.str (bs "shop")) ∧
    Has x l aggEntity "request_content" (.str (bs "/a")) := by
  let c : K8s.Cont := ⟨bs "c1", bs "nginx", [], ⟨bs "u1", bs "10.0.0.1", bs "web-0", bs "shop", [80], [], [bs "c1"], [], bs "StatefulSet", bs "web",
    bs "node-1", bs "192.168.0.1", false⟩⟩
  let m : Meta := ⟨fun i => if i = bs "c1" then some c else none, fun _ _ => none, fun _ _ => none, fun _ => none, fun _ _ => none,
    fun _ => none, fun _ => none, bs "192.168.0.1", bs "node-1"⟩
  let a : Attrs := [(bs "http_method", .str (bs "GET")), (bs "http_url", .str (bs "/a")), (bs "content_key", .str (bs "/a"))]
  let x : Info := ⟨1, 1, "nginx", "10.0.0.9", "10.0.0.1", 40000, 80, "c1", true, false, "http", vmapOf a, [], none, none⟩
  have hpa : Parsed httpKeys a := .httpQ id (bs "GET /a HTTP/1.1\r\n\r\n") true ⟨bs "GET /a HTTP/1.1\r\n\r\n", 0, a⟩ (by decide +kernel)
  have hno : ∀ p ∈ a, ∀ n, p.2 ≠ .int n := by
    intro p hp n
    simp only [a, List.mem_cons, List.not_mem_nil, or_false] at hp
    rcases hp with rfl | rfl | rfl <;> simp
  obtain ⟨l, hl⟩ := handled_exists m httpKeys a hpa (fun k n hk => absurd rfl (hno _ (AMap.mem_of_get hk) n)) (fun _ => "") 0 x rfl
    (fun _ h0 => absurd h0 (by decide)) ⟨by unfold I64; decide, by unfold I64; decide, by unfold I64; decide, by unfold I64; decide, (by intro r hr; cases hr),
      (by intro r hr; cases hr)⟩ (by intro ip p c k n hb; cases hb)
  have hg : bs x.protocol ≠ bs "grpc" := by decide
  have h := server_named hl hg rfl c (by decide +kernel)
  have hr := has_of hl hg aggEntity docEntityAgg (by simp [documented]) ("request_content", .request) (by decide +kernel)
  have hv : Src.val (kept (told m x a)) .request = .str (bs "/a") := by decide +kernel
  rw [hv] at hr
  exact ⟨m, x, a, l, hl, rfl, hg, (h.1 detailEntity (by simp)).1, (h.2 aggEntity (by simp [entityConvs])).1,
    hr⟩

end Kindling.Flow.Who
