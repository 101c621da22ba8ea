import Verif.Flow.Attrs
import Verif.Net.UdpProps
/-
C121: DNS over UDP from the payloads to the record.  The parsers (`Proto/Dns.lean`), the store of queries (`Net/Udp.lean`)
and the record (`Net/Record.lean`) put together as network_analyzer.go does.
-/
namespace Kindling.Flow.DnsUdp
open Kindling Kindling.Net Kindling.Net.Udp Kindling.Net.Record Kindling.Proto Kindling.Proto.Dns Kindling.Model.Attr

variable {κ : Type} [DecidableEq κ]

/-- What happens on DNS sockets over UDP: a message sent (each message of a `sendmmsg` on its own,
network_analyzer.go:226-235, 292-299), a message received (237), a pass of the scanner (322-343). -/
inductive UEv (κ : Type) where
  | sent (k : κ) (e : Evt)
  | received (k : κ) (e : Evt)
  | scan (now : Int)

/-- udp_cache.go:42-51 `parseDnsUdpRequest`: the attribute `dns_id` is set iff the parser got to its end
(dns_request.go:46-61). -/
def parsedQ (d : Bytes) : Option DnsAttrs :=
  if fastfail d then none else match Dns.parseRequest d 0 with
    | .ok x => some x
    | _ => none

/-- udp_cache.go:53-64 `parseDnsUdpResponse`. -/
def parsedR (ignore3 : Bool) (d : Bytes) : Option DnsAttrs :=
  if fastfail d then none else match Dns.parseResponse ignore3 d 0 with
    | .ok x => some x
    | _ => none

/-- network_analyzer.go:222-262 and 292-299: what an event does to the store of queries. -/
def ops (ignore3 : Bool) : UEv κ → List (Op κ)
  | .sent k e => match parsedQ e.data with
    | some x => [.request k ⟨x.id, e⟩]
    | none => []
  | .received k e => match parsedR ignore3 e.data with
    | some x => [.response k x.id e]
    | none => []
  | .scan now => [.scan now]

/-- The analyzer on a sequence of events. -/
def drive (cfg : Cfg) (ignore3 : Bool) (m : Mon κ) (l : List (UEv κ)) : Mon κ × List (Rep κ) :=
  Udp.run cfg m (l.flatMap (ops ignore3))

/-- The attributes of the record: those of the response (network_analyzer.go:249), those of the query if there is none
(337).  The query's are kept with it (udp_cache.go:66-78); they are a function of its payload. -/
def attrsOf (ignore3 : Bool) (r : Rep κ) : Attrs :=
  match r.resp with
  | some e => match parsedR ignore3 e.data with
    | some x => (dnsResponseAttrs ⟨e.data, 0, []⟩ x).attrs
    | none => []
  | none => match parsedQ r.req.ev.data with
    | some x => (dnsRequestAttrs ⟨r.req.ev.data, 0, []⟩ x).attrs
    | none => []

/-- message_pair.go:347-353 `getDuration`. -/
def duration (r : Rep κ) : UInt64 :=
  match r.resp with
  | none => 0
  | some a => a.ts + r.req.ev.latency - r.req.ev.ts

/-- What an event says besides the fields of `Evt` (kindling_event_helper.go): command, addresses, container, side. -/
structure Side where
  comm : String
  srcIp : String
  dstIp : String
  containerId : String
  isServer : Bool

/-- network_analyzer.go:750-774 `getRecordWithSinglePair`, called with protocol DNS and without an address translation
(245-249, 334-337). -/
def infoOf (ignore3 : Bool) (side : Evt → Side) (table : AMap String Int) (global : Int) (r : Rep κ) : Info where
  pid := r.req.ev.pid
  requestTid := r.req.ev.tid
  comm := (side r.req.ev).comm
  srcIp := (side r.req.ev).srcIp
  dstIp := (side r.req.ev).dstIp
  srcPort := r.req.ev.sport
  dstPort := r.req.ev.dport
  containerId := (side r.req.ev).containerId
  isServer := (side r.req.ev).isServer
  slow := isSlow table global (duration r) "dns"
  protocol := "dns"
  attrs := vmapOf (attrsOf ignore3 r)
  request := r.req.ev.data
  response := r.resp.map (fun a => ((a.tid : Int), toI64 a.ts, a.data))
  nat := none

/-- network_analyzer.go:793-799 with message_pair.go:309-353: connect, sent, waiting, download and total time, sizes. -/
structure Times where
  connect : Int
  sent : Int
  waiting : Int
  download : Int
  total : Int
  requestIo : Int
  responseIo : Int
deriving DecidableEq

/-- `uint64(x)` of an `int64` (message_pair.go:337, 344). -/
def u64 (i : Int) : UInt64 := UInt64.ofNat (i % 2 ^ 64).toNat

def timesOf (r : Rep κ) : Times where
  connect := 0
  sent := toI64 r.req.ev.latency
  waiting := match r.resp with
    | none => -1
    | some a => toI64 (a.ts - a.latency - r.req.ev.ts)
  download := match r.resp with
    | none => -1
    | some a => toI64 a.latency
  total := toI64 (duration r)
  requestIo := toI64 (u64 r.req.ev.res)
  responseIo := match r.resp with
    | none => 0
    | some a => toI64 (u64 a.res)

/-! ## Specification -/

/-- An event that does not concern the query `q` with transaction id `id` on socket `k`: other sockets, other ids,
payloads that are no DNS messages, passes of the scanner before the query's time is over. -/
def Quiet (cfg : Cfg) (ignore3 : Bool) (k : κ) (id : Nat) (q : Evt) : UEv κ → Prop
  | .sent k' e => k' = k → ∀ x, parsedQ e.data = some x → x.id ≠ id
  | .received k' e => k' = k → ∀ x, parsedR ignore3 e.data = some x → x.id ≠ id
  | .scan now => now.tdiv 1000000000 - (toI64 q.ts).tdiv 1000000000 < cfg.getNoResponseThreshold

/-- A message with one question on the wire (RFC 1035). -/
structure Asks (h : Header) (q : Question) (d : Bytes) : Prop where
  fits : h.Fits
  legal : Legal q.labels
  one : h.nq = 1
  data : ∃ rest, d = h.enc ++ q.enc ++ rest

/-! ## The parsers -/

theorem parsedQ_wire {h : Header} {q : Question} {d : Bytes} (a : Asks h q d) :
    parsedQ d = some { id := h.id, domain := nameText q.labels } := by
  obtain ⟨rest, rfl⟩ := a.data
  have h1 := dns_request_parsed h q a.fits a.legal a.one [] rest
  have h2 := (dns_message_tried h q [] rest).1
  simp only [List.nil_append, List.length_nil] at h1 h2
  unfold parsedQ
  rw [h2, h1]
  rfl

theorem parsedR_wire (ignore3 : Bool) {h : Header} {q : Question} {d : Bytes} (a : Asks h q d) :
    ∃ x, parsedR ignore3 d = some x ∧ x.id = h.id ∧ x.domain = nameText q.labels ∧ x.rcode = some h.rcode ∧
      (x.isError = true ↔ h.rcode ≠ 0 ∧ ¬ (h.rcode = 3 ∧ ignore3 = true)) := by
  obtain ⟨rest, rfl⟩ := a.data
  obtain ⟨x, h1, h3⟩ := dns_response_parsed ignore3 h q a.fits a.legal a.one [] rest
  have h2 := (dns_message_tried h q [] rest).1
  simp only [List.nil_append, List.length_nil] at h1 h2
  refine ⟨x, ?_, h3⟩
  unfold parsedR
  rw [h2, h1]
  rfl

/-! ## The store -/

theorem slotRun_append (cfg : Cfg) (k : κ) (id : Int) (a b : List (Op κ)) (cur : Option UReq) :
    slotRun cfg k id cur (a ++ b) =
      ((slotRun cfg k id (slotRun cfg k id cur a).1 b).1, (slotRun cfg k id cur a).2 ++ (slotRun cfg k id (slotRun cfg k id cur a).1 b).2) := by
  induction a generalizing cur with
  | nil => simp [slotRun]
  | cons op a ih => simp only [List.cons_append, slotRun, ih, List.append_assoc]

theorem quiet_ops {cfg : Cfg} {ignore3 : Bool} {k : κ} {id : Nat} {q : Evt} {u : UEv κ} (h : Quiet cfg ignore3 k id q u) :
    slotRun cfg k id (some ⟨id, q⟩) (ops ignore3 u) = (some ⟨id, q⟩, []) := by
  cases u with
  | sent k' e =>
    simp only [ops]
    cases hp : parsedQ e.data with
    | none => rfl
    | some x =>
      have : ¬ (k' = k ∧ (x.id : Int) = id) := fun ⟨e1, e2⟩ => h e1 x hp (by omega)
      simp [slotRun, slot, this]
  | received k' e =>
    simp only [ops]
    cases hp : parsedR ignore3 e.data with
    | none => rfl
    | some x =>
      have : ¬ (k' = k ∧ (x.id : Int) = id) := fun ⟨e1, e2⟩ => h e1 x hp (by omega)
      simp [slotRun, slot, this]
  | scan now =>
    have : expired cfg now ⟨id, q⟩ = false := by
      simp only [expired, decide_eq_false_iff_not]
      simp only [Quiet] at h
      omega
    simp [ops, slotRun, slot, this]

theorem quiet_run {cfg : Cfg} {ignore3 : Bool} {k : κ} {id : Nat} {q : Evt} (l : List (UEv κ))
    (h : ∀ u ∈ l, Quiet cfg ignore3 k id q u) :
    slotRun cfg k id (some ⟨id, q⟩) (l.flatMap (ops ignore3)) = (some ⟨id, q⟩, []) := by
  induction l with
  | nil => rfl
  | cons u l ih =>
    rw [List.flatMap_cons, slotRun_append, quiet_ops (h u (by simp)), ih (fun v hv => h v (by simp [hv]))]
    rfl

theorem drive_slot {cfg : Cfg} {ignore3 : Bool} {m : Mon κ} (hm : Inv m) (l : List (UEv κ)) (k : κ) (id : Int) :
    stored (drive cfg ignore3 m l).1 k id = (slotRun cfg k id (stored m k id) (l.flatMap (ops ignore3))).1 ∧
    ofSlot k id (drive cfg ignore3 m l).2 = (slotRun cfg k id (stored m k id) (l.flatMap (ops ignore3))).2 := by
  have h := run_slot (cfg := cfg) (l.flatMap (ops ignore3)) hm k id
  exact ⟨congrArg Prod.fst h, congrArg Prod.snd h⟩

theorem drive_inv (cfg : Cfg) (ignore3 : Bool) (l : List (UEv κ)) : Inv (drive cfg ignore3 ([] : Mon κ) l).1 :=
  inv_run _ inv_empty

/-- C121: whatever went before, a query and the first answer with its transaction id on its socket give one exchange of
this query and this answer, and nothing else under this id; the query is then no longer stored. -/
theorem answered_once (cfg : Cfg) (ignore3 : Bool) (before mid : List (UEv κ)) (k : κ) (q a : Evt)
    {hq ha : Header} {qq qa : Question} (wq : Asks hq qq q.data) (wa : Asks ha qa a.data) (hid : ha.id = hq.id)
    (hmid : ∀ u ∈ mid, Quiet cfg ignore3 k hq.id q u) :
    let m := (drive cfg ignore3 [] before).1
    ofSlot k hq.id (drive cfg ignore3 m (.sent k q :: mid ++ [.received k a])).2 = [⟨k, ⟨hq.id, q⟩, some a⟩] ∧
    stored (drive cfg ignore3 m (.sent k q :: mid ++ [.received k a])).1 k hq.id = none := by
  intro m
  obtain ⟨x, hx, hxi, -⟩ := parsedR_wire ignore3 wa
  have hs : slotRun cfg k hq.id (stored m k hq.id) ((UEv.sent k q :: mid ++ [UEv.received k a]).flatMap (ops ignore3)) =
      (none, [⟨k, ⟨hq.id, q⟩, some a⟩]) := by
    rw [List.flatMap_append, List.flatMap_cons, List.append_assoc, slotRun_append]
    have e1 : slotRun cfg k hq.id (stored m k hq.id) (ops ignore3 (.sent k q)) = (some ⟨hq.id, q⟩, []) := by
      simp [ops, parsedQ_wire wq, slotRun, slot]
    rw [e1, slotRun_append, quiet_run mid hmid]
    simp [ops, hx, slotRun, slot, hxi, hid]
  obtain ⟨h1, h2⟩ := drive_slot (cfg := cfg) (ignore3 := ignore3) (drive_inv cfg ignore3 before) (.sent k q :: mid ++ [.received k a]) k (hq.id : Int)
  exact ⟨h2.trans (congrArg Prod.snd hs), h1.trans (congrArg Prod.fst hs)⟩

/-- C121: a query without an answer is reported once, by the first pass of the scanner after its time. -/
theorem unanswered_once (cfg : Cfg) (ignore3 : Bool) (before mid : List (UEv κ)) (k : κ) (q : Evt)
    {hq : Header} {qq : Question} (wq : Asks hq qq q.data) (now : Int)
    (hmid : ∀ u ∈ mid, Quiet cfg ignore3 k hq.id q u)
    (hnow : cfg.getNoResponseThreshold ≤ now.tdiv 1000000000 - (toI64 q.ts).tdiv 1000000000) :
    let m := (drive cfg ignore3 [] before).1
    ofSlot k hq.id (drive cfg ignore3 m (.sent k q :: mid ++ [.scan now])).2 = [⟨k, ⟨hq.id, q⟩, none⟩] ∧
    stored (drive cfg ignore3 m (.sent k q :: mid ++ [.scan now])).1 k hq.id = none := by
  intro m
  have hs : slotRun cfg k hq.id (stored m k hq.id) ((UEv.sent k q :: mid ++ [UEv.scan now]).flatMap (ops ignore3)) =
      (none, [⟨k, ⟨hq.id, q⟩, none⟩]) := by
    rw [List.flatMap_append, List.flatMap_cons, List.append_assoc, slotRun_append]
    have e1 : slotRun cfg k hq.id (stored m k hq.id) (ops ignore3 (.sent k q)) = (some ⟨hq.id, q⟩, []) := by
      simp [ops, parsedQ_wire wq, slotRun, slot]
    have e2 : expired cfg now ⟨hq.id, q⟩ = true := by simp only [expired, decide_eq_true_eq]; omega
    rw [e1, slotRun_append, quiet_run mid hmid]
    simp [ops, slotRun, slot, e2]
  obtain ⟨h1, h2⟩ := drive_slot (cfg := cfg) (ignore3 := ignore3) (drive_inv cfg ignore3 before) (.sent k q :: mid ++ [.scan now]) k (hq.id : Int)
  exact ⟨h2.trans (congrArg Prod.snd hs), h1.trans (congrArg Prod.fst hs)⟩

/-- C121: a payload of at most twelve bytes or without a question changes nothing, in either direction. -/
theorem no_message_ignored (cfg : Cfg) (ignore3 : Bool) (m : Mon κ) (k : κ) (e : Evt)
    (h : e.data.length ≤ 12 ∨ u16OrZero e.data 4 = 0) :
    drive cfg ignore3 m [.sent k e] = (m, []) ∧ drive cfg ignore3 m [.received k e] = (m, []) := by
  have h1 : parsedQ e.data = none := by
    unfold parsedQ
    rcases h with h | h
    · rw [if_pos (show fastfail e.data = true from decide_eq_true h)]
    · simp [Dns.parseRequest, h]
  have h2 : parsedR ignore3 e.data = none := by
    unfold parsedR
    rcases h with h | h
    · rw [if_pos (show fastfail e.data = true from decide_eq_true h)]
    · simp [Dns.parseResponse, h]
  simp [drive, ops, h1, h2, Udp.run]

/-! ## The record -/

set_option linter.unusedSimpArgs false in
theorem dnsR_get (d : Bytes) (x : DnsAttrs) :
    AMap.get (dnsResponseAttrs ⟨d, 0, []⟩ x).attrs kDomain = some (.str x.domain) ∧
    AMap.get (dnsResponseAttrs ⟨d, 0, []⟩ x).attrs kDnsId = some (.int x.id) ∧
    AMap.get (dnsResponseAttrs ⟨d, 0, []⟩ x).attrs kRcode = some (.int (x.rcode.getD 0)) ∧
    AMap.get (dnsResponseAttrs ⟨d, 0, []⟩ x).attrs kDnsIp = (if joinIps x.ips = [] then none else some (.str (joinIps x.ips))) ∧
    (AMap.get (dnsResponseAttrs ⟨d, 0, []⟩ x).attrs kIsError).isSome = x.isError := by
  have n : kDomain ≠ kDnsId ∧ kDomain ≠ kRcode ∧ kDomain ≠ kDnsIp ∧ kDnsId ≠ kRcode ∧ kDnsId ≠ kDnsIp ∧ kRcode ≠ kDnsIp ∧
      kDomain ≠ kIsError ∧ kDomain ≠ kErrorType ∧ kDnsId ≠ kIsError ∧ kDnsId ≠ kErrorType ∧ kRcode ≠ kIsError ∧
      kRcode ≠ kErrorType ∧ kDnsIp ≠ kIsError ∧ kDnsIp ≠ kErrorType ∧ kIsError ≠ kErrorType := by decide +kernel
  obtain ⟨a1, a2, a3, a4, a5, a6, a7, a8, a9, b1, b2, b3, b4, b5, b6⟩ := n
  unfold dnsResponseAttrs
  by_cases hi : joinIps x.ips = [] <;> by_cases he : x.isError = true <;>
    simp [hi, he, Msg.add, AMap.get_set, a1, a2, a3, a4, a5, a6, a7, a8, a9, b1, b2, b3, b4, b5, b6, a1.symm, a2.symm, a3.symm, a4.symm,
      a5.symm, a6.symm, a7.symm, a8.symm, a9.symm, b1.symm, b2.symm, b3.symm, b4.symm, b5.symm, b6.symm, AMap.get]

theorem dnsQ_get (d : Bytes) (x : DnsAttrs) :
    AMap.get (dnsRequestAttrs ⟨d, 0, []⟩ x).attrs kDomain = some (.str x.domain) ∧
    AMap.get (dnsRequestAttrs ⟨d, 0, []⟩ x).attrs kDnsId = some (.int x.id) ∧
    AMap.get (dnsRequestAttrs ⟨d, 0, []⟩ x).attrs kIsError = none := by
  have n : kDomain ≠ kDnsId ∧ kDomain ≠ kIsError ∧ kDnsId ≠ kIsError := by decide +kernel
  obtain ⟨a1, a2, a3⟩ := n
  simp [dnsRequestAttrs, Msg.add, AMap.get_set, a1, a2, a3, AMap.get]

theorem name_bytes : dec (bs "dns_domain") = "dns_domain" ∧ dec (bs "dns_id") = "dns_id" ∧ dec (bs "dns_rcode") = "dns_rcode" ∧
    dec (bs "dns_ip") = "dns_ip" ∧ dec (bs "is_error") = "is_error" :=
  ⟨dec_of (by decide), dec_of (by decide), dec_of (by decide), dec_of (by decide), dec_of (by decide)⟩

omit [DecidableEq κ] in
/-- C121: the record of an answered query, on any record the pool hands out: it is made without a panic, carries the
socket of the query, the transaction id, the name in the answer, the response code, no error for the codes that are none
and a protocol error for the others, the answer's end time and threads, and both payloads as far as they are kept. -/
theorem answered_record (ignore3 : Bool) (side : Evt → Side) (table : AMap String Int) (global : Int) (text : Bytes → String)
    (limit : Nat) (lab : VMap) (hlab : Typed lab) (k : κ) (i : Int) (q a : Evt)
    {ha : Header} {qa : Question} (wa : Asks ha qa a.data) :
    ∃ r, recordLabels text limit lab (infoOf ignore3 side table global (⟨k, ⟨i, q⟩, some a⟩ : Rep κ)) = some r ∧
      r "protocol" = some (.str "dns") ∧ r "dns_id" = some (.int ha.id) ∧
      r "dns_domain" = some (.str (dec (nameText qa.labels))) ∧ r "dns_rcode" = some (.int ha.rcode) ∧
      r "is_error" = some (.bool (decide (ha.rcode ≠ 0 ∧ ¬ (ha.rcode = 3 ∧ ignore3 = true)))) ∧
      r "error_type" = some (.int (if ha.rcode ≠ 0 ∧ ¬ (ha.rcode = 3 ∧ ignore3 = true) then 3 else 0)) ∧
      r "pid" = some (.int q.pid) ∧ r "request_tid" = some (.int q.tid) ∧ r "response_tid" = some (.int a.tid) ∧
      r "src_ip" = some (.str (side q).srcIp) ∧ r "dst_ip" = some (.str (side q).dstIp) ∧
      r "src_port" = some (.int q.sport) ∧ r "dst_port" = some (.int q.dport) ∧
      r "dnat_ip" = some (.str "") ∧ r "dnat_port" = some (.int (-1)) ∧
      r "container_id" = some (.str (side q).containerId) ∧ r "comm" = some (.str (side q).comm) ∧
      r "is_server" = some (.bool (side q).isServer) ∧
      r "is_slow" = some (.bool (isSlow table global (a.ts + q.latency - q.ts) "dns")) ∧
      r "end_timestamp" = some (.int (toI64 a.ts)) ∧
      (∀ b, payload limit "dns" q.data = some b → r "request_payload" = some (.str (text b))) ∧
      (∀ b, payload limit "dns" a.data = some b → r "response_payload" = some (.str (text b))) := by
  obtain ⟨x, hx, x1, x2, x3, x4⟩ := parsedR_wire ignore3 wa
  have hpr : Dns.parseResponse ignore3 a.data 0 = .ok x := by
    unfold parsedR at hx
    split at hx
    · cases hx
    · split at hx
      · cases hx; assumption
      · cases hx
  have hat : attrsOf ignore3 (⟨k, ⟨i, q⟩, some a⟩ : Rep κ) = (dnsResponseAttrs ⟨a.data, 0, []⟩ x).attrs := by simp [attrsOf, hx]
  have hpa : ParserAttrs (infoOf ignore3 side table global (⟨k, ⟨i, q⟩, some a⟩ : Rep κ)).attrs := by
    simp only [infoOf, hat]
    exact parsed_attrs dnsKeys _ (Parsed.dnsR ignore3 a.data 0 x hpr)
  obtain ⟨g1, g2, g3, _, g5⟩ := dnsR_get a.data x
  obtain ⟨n1, n2, n3, n4, n5⟩ := name_bytes
  have hv : ∀ s : String, dec (bs s) = s → (infoOf ignore3 side table global (⟨k, ⟨i, q⟩, some a⟩ : Rep κ)).attrs s =
      (AMap.get (dnsResponseAttrs ⟨a.data, 0, []⟩ x).attrs (bs s)).map valOf := by
    intro s hs
    simp only [infoOf, hat, vmapOf, hs, if_true]
  have herr : protocolSaysError (infoOf ignore3 side table global (⟨k, ⟨i, q⟩, some a⟩ : Rep κ)) =
      decide (ha.rcode ≠ 0 ∧ ¬ (ha.rcode = 3 ∧ ignore3 = true)) := by
    unfold protocolSaysError
    rw [hv _ n5, Option.isSome_map, show bs "is_error" = kIsError from rfl, g5, Bool.eq_iff_iff, x4, decide_eq_true_eq]
  obtain ⟨r, hr, _, c1, c2, c3, c4, c5, c6, c7, c8, c9, c10, c11, c12, c13, c14, c15, c16, c17, c18, _, c20, c21, _⟩ :=
    record_labels text limit lab hlab (infoOf ignore3 side table global (⟨k, ⟨i, q⟩, some a⟩ : Rep κ)) hpa
      (by intro h; simp [infoOf] at h)
  rw [herr] at c13 c14
  refine ⟨r, hr, c12, ?_, ?_, ?_, ?_, ?_, c1, c2, c3, c5, c6, c7, c8, c15, c16, c9, c4, c11, c10, c17 _ rfl, c18, ?_⟩
  · rw [c21 "dns_id" (by simp [baseTy]), hv _ n2, show bs "dns_id" = kDnsId from rfl, g2]
    simp [valOf, x1]
  · rw [c21 "dns_domain" (by simp [baseTy]), hv _ n1, show bs "dns_domain" = kDomain from rfl, g1]
    simp [valOf, x2]
  · rw [c21 "dns_rcode" (by simp [baseTy]), hv _ n3, show bs "dns_rcode" = kRcode from rfl, g3]
    simp [valOf, x3]
  · rw [c13]
    exact congrArg (fun b => some (Val.bool b)) (Bool.or_false _)
  · rw [c14]
    simp only [decide_eq_true_eq]
    rfl
  · intro b hb
    exact c20 _ b rfl hb

omit [DecidableEq κ] in
/-- C121: the record of a query that got no answer: its own name and id, no response code of its own, the error "no
response". -/
theorem unanswered_record (ignore3 : Bool) (side : Evt → Side) (table : AMap String Int) (global : Int) (text : Bytes → String)
    (limit : Nat) (lab : VMap) (hlab : Typed lab) (k : κ) (i : Int) (q : Evt)
    {hq : Header} {qq : Question} (wq : Asks hq qq q.data) :
    ∃ r, recordLabels text limit lab (infoOf ignore3 side table global (⟨k, ⟨i, q⟩, none⟩ : Rep κ)) = some r ∧
      r "protocol" = some (.str "dns") ∧ r "dns_id" = some (.int hq.id) ∧
      r "dns_domain" = some (.str (dec (nameText qq.labels))) ∧ r "dns_rcode" = lab "dns_rcode" ∧
      r "is_error" = some (.bool true) ∧ r "error_type" = some (.int 2) ∧
      r "pid" = some (.int q.pid) ∧ r "request_tid" = some (.int q.tid) ∧ r "response_tid" = some (.int 0) ∧
      r "src_ip" = some (.str (side q).srcIp) ∧ r "dst_ip" = some (.str (side q).dstIp) ∧
      r "src_port" = some (.int q.sport) ∧ r "dst_port" = some (.int q.dport) ∧
      r "is_slow" = some (.bool (isSlow table global 0 "dns")) ∧
      r "response_payload" = some (.str "") := by
  have hx := parsedQ_wire wq
  have hpr : Dns.parseRequest q.data 0 = .ok { id := hq.id, domain := nameText qq.labels } := by
    unfold parsedQ at hx
    split at hx
    · cases hx
    · split at hx
      · cases hx; assumption
      · cases hx
  have hat : attrsOf ignore3 (⟨k, ⟨i, q⟩, none⟩ : Rep κ) = (dnsRequestAttrs ⟨q.data, 0, []⟩ { id := hq.id, domain := nameText qq.labels }).attrs := by
    simp [attrsOf, hx]
  have hpa : ParserAttrs (infoOf ignore3 side table global (⟨k, ⟨i, q⟩, none⟩ : Rep κ)).attrs := by
    simp only [infoOf, hat]
    exact parsed_attrs dnsKeys _ (Parsed.dnsQ q.data 0 _ hpr)
  obtain ⟨g1, g2, g3⟩ := dnsQ_get q.data { id := hq.id, domain := nameText qq.labels }
  obtain ⟨n1, n2, n3, n4, n5⟩ := name_bytes
  have hv : ∀ s : String, dec (bs s) = s → (infoOf ignore3 side table global (⟨k, ⟨i, q⟩, none⟩ : Rep κ)).attrs s =
      (AMap.get (dnsRequestAttrs ⟨q.data, 0, []⟩ { id := hq.id, domain := nameText qq.labels }).attrs (bs s)).map valOf := by
    intro s hs
    simp only [infoOf, hat, vmapOf, hs, if_true]
  have herr : protocolSaysError (infoOf ignore3 side table global (⟨k, ⟨i, q⟩, none⟩ : Rep κ)) = false := by
    unfold protocolSaysError
    rw [hv _ n5, Option.isSome_map, show bs "is_error" = kIsError from rfl, g3]
    rfl
  have hrc : AMap.get (dnsRequestAttrs ⟨q.data, 0, []⟩ { id := hq.id, domain := nameText qq.labels }).attrs kRcode = none := by
    have n : kDomain ≠ kRcode ∧ kDnsId ≠ kRcode := by decide +kernel
    simp [dnsRequestAttrs, Msg.add, AMap.get_set, n.1, n.2, AMap.get]
  obtain ⟨r, hr, _, c1, c2, c3, c4, c5, c6, c7, c8, c9, c10, c11, c12, c13, c14, c15, c16, _, _, c19, _, c21, _⟩ :=
    record_labels text limit lab hlab (infoOf ignore3 side table global (⟨k, ⟨i, q⟩, none⟩ : Rep κ)) hpa
      (by intro h; simp [infoOf] at h)
  rw [herr] at c13 c14
  refine ⟨r, hr, c12, ?_, ?_, ?_, ?_, ?_, c1, c2, c3, c5, c6, c7, c8, c10, c19 rfl⟩
  · rw [c21 "dns_id" (by simp [baseTy]), hv _ n2, show bs "dns_id" = kDnsId from rfl, g2]
    simp [valOf]
  · rw [c21 "dns_domain" (by simp [baseTy]), hv _ n1, show bs "dns_domain" = kDomain from rfl, g1]
    simp [valOf]
  · rw [c21 "dns_rcode" (by simp [baseTy]), hv _ n3, show bs "dns_rcode" = kRcode from rfl, hrc]
    simp
  · rw [c13]; simp [infoOf]
  · rw [c14]; simp [infoOf]

/-- C121: the name is not compared: an answer about another name under the same transaction id is taken for the answer,
and the record has the other name. -/
theorem other_name_taken (cfg : Cfg) (ignore3 : Bool) (before mid : List (UEv κ)) (k : κ) (q a : Evt)
    {hq ha : Header} {qq qa : Question} (wq : Asks hq qq q.data) (wa : Asks ha qa a.data) (hid : ha.id = hq.id)
    (hmid : ∀ u ∈ mid, Quiet cfg ignore3 k hq.id q u) (hne : qa.labels ≠ qq.labels)
    (side : Evt → Side) (table : AMap String Int) (global : Int) (text : Bytes → String) (limit : Nat) (lab : VMap) (hlab : Typed lab) :
    ∃ rep ∈ (drive cfg ignore3 (drive cfg ignore3 [] before).1 (.sent k q :: mid ++ [.received k a])).2,
      rep.req.ev = q ∧ ∃ r s, recordLabels text limit lab (infoOf ignore3 side table global rep) = some r ∧
        r "dns_domain" = some (.str s) ∧ s ≠ dec (nameText qq.labels) := by
  have h1 := (answered_once cfg ignore3 before mid k q a wq wa hid hmid).1
  refine ⟨⟨k, ⟨hq.id, q⟩, some a⟩, ?_, rfl, ?_⟩
  · have : (⟨k, ⟨hq.id, q⟩, some a⟩ : Rep κ) ∈ ofSlot k hq.id (drive cfg ignore3 (drive cfg ignore3 [] before).1 (.sent k q :: mid ++ [.received k a])).2 := by
      rw [h1]; simp
    exact (List.mem_filter.1 this).1
  · obtain ⟨r, hr, _, _, hd, _⟩ := answered_record ignore3 side table global text limit lab hlab k hq.id q a wa
    refine ⟨r, _, hr, hd, fun he => hne ?_⟩
    have h2 : nameText qa.labels = nameText qq.labels := by rw [← bs_dec (nameText qa.labels), ← bs_dec (nameText qq.labels), he]
    exact nameText_inj _ _ (fun l hl e => by have := (wa.legal.1 l hl).1; simp [e] at this)
      (fun l hl e => by have := (wq.legal.1 l hl).1; simp [e] at this) h2

/-! ## Times -/

theorem toI64_small {u : UInt64} (h : u.toNat < 2 ^ 63) : toI64 u = u.toNat := by simp [toI64, h]

omit [DecidableEq κ] in
/-- C121: the times of an answered query: sent, waiting and download time add up to the total, which is the time from the
start of the query to the end of the answer, if the answer was not read before the query was sent and no clock value
reaches 2⁶³ ns. -/
theorem times_add_up (k : κ) (i : Int) (q a : Evt) (h1 : q.latency.toNat ≤ q.ts.toNat)
    (h2 : q.ts.toNat + a.latency.toNat ≤ a.ts.toNat) (h3 : a.ts.toNat < 2 ^ 63) :
    let t := timesOf (⟨k, ⟨i, q⟩, some a⟩ : Rep κ)
    t.sent = q.latency.toNat ∧ t.waiting = (a.ts.toNat : Int) - a.latency.toNat - q.ts.toNat ∧
    t.download = a.latency.toNat ∧ t.total = (a.ts.toNat : Int) - (q.ts.toNat - q.latency.toNat : Nat) ∧
    t.sent + t.waiting + t.download = t.total ∧ 0 ≤ t.waiting := by
  intro t
  have e1 : (a.ts - a.latency - q.ts).toNat = a.ts.toNat - a.latency.toNat - q.ts.toNat := by
    rw [UInt64.toNat_sub_of_le, UInt64.toNat_sub_of_le]
    · rw [UInt64.le_iff_toNat_le]; omega
    · rw [UInt64.le_iff_toNat_le, UInt64.toNat_sub_of_le _ _ (by rw [UInt64.le_iff_toNat_le]; omega)]; omega
  have e2 : (a.ts + q.latency - q.ts).toNat = a.ts.toNat + q.latency.toNat - q.ts.toNat := by
    have hs : (a.ts + q.latency).toNat = a.ts.toNat + q.latency.toNat := by
      rw [UInt64.toNat_add]; omega
    rw [UInt64.toNat_sub_of_le _ _ (by rw [UInt64.le_iff_toNat_le, hs]; omega), hs]
  have t1 : t.sent = q.latency.toNat := by
    show toI64 q.latency = _
    exact toI64_small (by omega)
  have t2 : t.waiting = (a.ts.toNat : Int) - a.latency.toNat - q.ts.toNat := by
    show toI64 (a.ts - a.latency - q.ts) = _
    rw [toI64_small (by omega), e1]; omega
  have t3 : t.download = a.latency.toNat := by
    show toI64 a.latency = _
    exact toI64_small (by omega)
  have t4 : t.total = (a.ts.toNat : Int) - (q.ts.toNat - q.latency.toNat : Nat) := by
    show toI64 (a.ts + q.latency - q.ts) = _
    rw [toI64_small (by omega), e2]; omega
  refine ⟨t1, t2, t3, t4, ?_, ?_⟩ <;> omega

omit [DecidableEq κ] in
/-- C121: without an answer the total is 0 and the query is slow only if the threshold is not positive. -/
theorem unanswered_times (k : κ) (i : Int) (q : Evt) (table : AMap String Int) (global : Int) :
    (timesOf (⟨k, ⟨i, q⟩, none⟩ : Rep κ)).total = 0 ∧ (timesOf (⟨k, ⟨i, q⟩, none⟩ : Rep κ)).waiting = -1 ∧
    (timesOf (⟨k, ⟨i, q⟩, none⟩ : Rep κ)).download = -1 ∧
    (isSlow table global 0 "dns" = true ↔ slowThreshold table global "dns" ≤ 0) := by
  refine ⟨rfl, rfl, rfl, ?_⟩
  simp only [isSlow, decide_eq_true_eq]
  rw [show toI64 0 = 0 from rfl]
  omega

theorem toI64_u64 {i : Int} (h1 : -2 ^ 63 ≤ i) (h2 : i < 2 ^ 63) : toI64 (u64 i) = i := by
  have hn : (u64 i).toNat = (i % 2 ^ 64).toNat := by
    simp only [u64, UInt64.toNat_ofNat']
    omega
  simp only [toI64, hn]
  split <;> omega

omit [DecidableEq κ] in
/-- C121: the sizes in the record are the results of the two calls; a failed call would be recorded with its negative
result, the UDP branch does not look at it. -/
theorem sizes_are_results (k : κ) (i : Int) (q a : Evt) (hq : -2 ^ 63 ≤ q.res ∧ q.res < 2 ^ 63) (ha : -2 ^ 63 ≤ a.res ∧ a.res < 2 ^ 63) :
    (timesOf (⟨k, ⟨i, q⟩, some a⟩ : Rep κ)).requestIo = q.res ∧ (timesOf (⟨k, ⟨i, q⟩, some a⟩ : Rep κ)).responseIo = a.res ∧
    (timesOf (⟨k, ⟨i, q⟩, none⟩ : Rep κ)).requestIo = q.res ∧ (timesOf (⟨k, ⟨i, q⟩, none⟩ : Rep κ)).responseIo = 0 :=
  ⟨toI64_u64 hq.1 hq.2, toI64_u64 ha.1 ha.2, toI64_u64 hq.1 hq.2, rfl⟩

/-! ## An instance -/

def hQ : Header := ⟨7, 0x0100, 1, 0, 0, 0⟩
def hA : Header := ⟨7, 0x8183, 1, 0, 0, 0⟩
def nm : Question := ⟨[bs "a", bs "io"], 1, 1⟩
def other : Question := ⟨[bs "b", bs "io"], 1, 1⟩
def eQ : Evt := { pid := 5, fd := 3, tid := 6, sport := 4000, dport := 53, ts := 1000, latency := 10, res := 22, data := hQ.enc ++ nm.enc }
def eA : Evt := { pid := 5, fd := 3, tid := 6, sport := 4000, dport := 53, ts := 3000, latency := 20, res := 22, data := hA.enc ++ nm.enc }
def eB : Evt := { eA with data := hA.enc ++ other.enc }

theorem asks_ex (h : Header) (q : Question) (hf : h.Fits) (hl : Legal q.labels) (h1 : h.nq = 1) : Asks h q (h.enc ++ q.enc) :=
  ⟨hf, hl, h1, [], by simp⟩

theorem legal_nm : Legal nm.labels := ⟨by decide, by decide⟩
theorem legal_other : Legal other.labels := ⟨by decide, by decide⟩
theorem fits_hQ : hQ.Fits := by simp only [Header.Fits, hQ]; decide
theorem fits_hA : hA.Fits := by simp only [Header.Fits, hA]; decide

example : Asks hQ nm eQ.data ∧ Asks hA nm eA.data ∧ Asks hA other eB.data ∧ hA.id = hQ.id :=
  ⟨asks_ex hQ nm fits_hQ legal_nm rfl, asks_ex hA nm fits_hA legal_nm rfl, asks_ex hA other fits_hA legal_other rfl, rfl⟩

example : other.labels ≠ nm.labels := by decide

example : Quiet {} false 0 hQ.id eQ (.scan 5000) := by
  show (5000 : Int).tdiv 1000000000 - (toI64 1000).tdiv 1000000000 < Cfg.getNoResponseThreshold {}
  decide

example : Quiet {} false 0 hQ.id eQ (.sent 0 { eQ with data := [1, 2, 3] }) := by
  intro _ x hx
  have : parsedQ [1, 2, 3] = none := if_pos rfl
  rw [this] at hx
  cases hx

example : (10 : UInt64).toNat ≤ (1000 : UInt64).toNat ∧ (1000 : UInt64).toNat + (20 : UInt64).toNat ≤ (3000 : UInt64).toNat ∧
    (3000 : UInt64).toNat < 2 ^ 63 := by decide

end Kindling.Flow.DnsUdp
