import Verif.Net.Model
import Verif.Tools.Text
import Verif.Model.Attr
/-
The record of an exchange, and the pool the records come from.

`getRecords`, `getRecordWithSinglePair`, `getConnectFailRecords` (network_analyzer.go:652-803),
`addProtocolPayload` (830-838), `GetPayloadString` (protocol_parser.go:500-520) and
datagroup_pool.go.  Labels are the plain maps of `Model/Attr.lean`; its theorem `attribute_maps_partial`
is what allows this (`Merge` gives up the parser's map).

Simplified: labels only (the seven times and sizes are `latency_parts_reported` and
`merged_counts_exact`); Go strings made of payload bytes go through a function `text` of which
nothing is assumed; the two record functions set the labels in the same way, so one function
models both, with the slow flag they compute differently as input.
-/
namespace Kindling.Net.Record
open Kindling.Model.Attr

/-! ### Payload -/

/-- `getSubstrBytes` (protocol_parser.go:511-520); `none` is the panic of slicing beyond the end. -/
def substr (limit offset : Nat) (data : Bytes) : Option Bytes :=
  if limit ≤ offset then some []
  else if data.length < offset + limit then
    (if offset ≤ data.length then some (data.drop offset) else none)
  else some ((data.drop offset).take limit)

/-- `GetPayloadString` (protocol_parser.go:500-509). -/
def payload (limit : Nat) (protocol : String) (data : Bytes) : Option Bytes :=
  if protocol = "http" ∨ protocol = "redis" then (substr limit 0 data).map Text.formatUtf8
  else if protocol = "dubbo" then (substr limit 16 data).map Text.asciiString
  else (substr limit 0 data).map Text.asciiString

/-- Only Dubbo payloads shorter than the Dubbo header can fail. -/
theorem payload_ok_partial (limit : Nat) (protocol : String) (data : Bytes)
    (h : protocol = "dubbo" → 16 < limit → 16 ≤ data.length) : ∃ b, payload limit protocol data = some b := by
  unfold payload substr
  split
  · split
    · exact ⟨_, rfl⟩
    · simp only [Nat.zero_le, ↓reduceIte]; split <;> exact ⟨_, rfl⟩
  · split
    · rename_i hd
      split
      · exact ⟨_, rfl⟩
      · rename_i hl
        have := h hd (by omega)
        rw [if_pos this]
        split <;> exact ⟨_, rfl⟩
    · split
      · exact ⟨_, rfl⟩
      · simp only [Nat.zero_le, ↓reduceIte]; split <;> exact ⟨_, rfl⟩

/-- And they do: a payload of less than 16 bytes reported as Dubbo panics the analyzer. -/
theorem short_dubbo_payload_panics (limit : Nat) (hl : 16 < limit) (data : Bytes) (h : data.length < 16) :
    payload limit "dubbo" data = none := by
  unfold payload substr
  rw [if_neg (by decide), if_pos rfl, if_neg (by omega), if_pos (by omega), if_neg (by omega)]
  rfl

/-! ### Labels -/

/-- The labels both record functions set themselves, with their types. -/
def baseTy : List (String × Ty) := [
  ("pid", .int), ("request_tid", .int), ("response_tid", .int), ("comm", .str), ("src_ip", .str),
  ("dst_ip", .str), ("src_port", .int), ("dst_port", .int), ("dnat_ip", .str), ("dnat_port", .int),
  ("container_id", .str), ("is_error", .bool), ("error_type", .int), ("is_slow", .bool),
  ("is_server", .bool), ("protocol", .str), ("end_timestamp", .int), ("request_payload", .str),
  ("response_payload", .str)]

/-- `constlabels.NoError`, `ConnectFail`, `NoResponse`, `ProtocolError` (const.go:3-8). -/
def noError : Int := 0
def connectFail : Int := 1
def noResponse : Int := 2
def protocolError : Int := 3

/-- What is known of an exchange when its record is made. -/
structure Info where
  pid : Int
  requestTid : Int
  comm : String
  srcIp : String
  dstIp : String
  srcPort : Int
  dstPort : Int
  containerId : String
  isServer : Bool
  slow : Bool
  protocol : String
  attrs : VMap
  request : Bytes
  /-- thread, end time and payload of the response -/
  response : Option (Int × Int × Bytes)
  nat : Option (String × Int)

/-- A sequence of `UpdateAdd...Value` calls; `none` is a panic. -/
def setAll (f : VMap) : List (String × Val) → Option VMap
  | [] => some f
  | (k, v) :: r => match f k with
    | none => setAll (upd f k (some v)) r
    | some w => if w.ty = v.ty then setAll (upd f k (some v)) r else none

/-- network_analyzer.go:699-716 and 757-774. -/
def baseLabels (x : Info) : List (String × Val) := [
  ("pid", .int x.pid), ("request_tid", .int x.requestTid),
  ("response_tid", .int ((x.response.map (·.1)).getD 0)), ("comm", .str x.comm), ("src_ip", .str x.srcIp),
  ("dst_ip", .str x.dstIp), ("src_port", .int x.srcPort), ("dst_port", .int x.dstPort),
  ("dnat_ip", .str ""), ("dnat_port", .int (-1)), ("container_id", .str x.containerId),
  ("is_error", .bool false), ("error_type", .int noError), ("is_slow", .bool x.slow),
  ("is_server", .bool x.isServer), ("protocol", .str x.protocol)]

/-- End time and payloads (network_analyzer.go:720-729, 777-784). -/
def payloadLabels (text : Bytes → String) (limit : Nat) (x : Info) : Option (List (String × Val)) :=
  match payload limit x.protocol x.request with
  | none => none
  | some q => match x.response with
    | none => some [("request_payload", .str (text q)), ("response_payload", .str "")]
    | some (_, ts, d) => match payload limit x.protocol d with
      | none => none
      | some a => some [("end_timestamp", .int ts), ("request_payload", .str (text q)), ("response_payload", .str (text a))]

/-- Lines 731-740 and 786-795: the missing response and the address translation. -/
def lastLabels (f : VMap) (x : Info) : List (String × Val) :=
  (if getBool (f "is_error") = false ∧ x.response = none then
    [("is_error", .bool true), ("error_type", .int noResponse)] else []) ++
  (match x.nat with
    | none => []
    | some (ip, port) => [("dnat_ip", .str ip), ("dnat_port", .int port)])

/-- The labels of `getRecords` (network_analyzer.go:697-740) and `getRecordWithSinglePair` (755-795)
on a record from the pool whose labels are `lab`.  `AddBoolValue`/`AddIntValue` at 733-734 store
a new pointer instead of writing through it; as the names hold values of these types already the
effect is the same. -/
def recordLabels (text : Bytes → String) (limit : Nat) (lab : VMap) (x : Info) : Option VMap :=
  match setAll lab (baseLabels x) with
  | none => none
  | some f1 =>
    let f2 : VMap := fun k => (x.attrs k).or (f1 k)
    match payloadLabels text limit x with
    | none => none
    | some pl => match setAll f2 pl with
      | none => none
      | some f3 => setAll f3 (lastLabels f3 x)

/-- The labels of `getConnectFailRecords` (network_analyzer.go:657-671). -/
def connectFailLabels (lab : VMap) (x : Info) : Option VMap :=
  setAll lab [("pid", .int x.pid), ("request_tid", .int 0), ("response_tid", .int 0), ("comm", .str x.comm),
    ("src_ip", .str x.srcIp), ("dst_ip", .str x.dstIp), ("src_port", .int x.srcPort), ("dst_port", .int x.dstPort),
    ("dnat_ip", .str ""), ("dnat_port", .int (-1)), ("container_id", .str x.containerId),
    ("is_error", .bool true), ("error_type", .int connectFail), ("is_slow", .bool false),
    ("is_server", .bool x.isServer)]

/-- `isSlow` as `getRecords` asks it (network_analyzer.go:691-694). -/
def slowOf (table : AMap String Int) (global : Int) (p : Pairs) (protocol : String) : Option Bool :=
  match p.responses with
  | none => some false
  | some _ => p.duration.map (fun d => isSlow table global d protocol)

/-! ### Typed labels -/

/-- The labels the record functions set have their types. -/
def Typed (f : VMap) : Prop := ∀ k t v, (k, t) ∈ baseTy → f k = some v → v.ty = t

/-- What a list of assignments does to a map. -/
def assign (f : VMap) : List (String × Val) → VMap
  | [] => f
  | (k, v) :: r => assign (upd f k (some v)) r

theorem baseTy_unique {k : String} {t t' : Ty} (h : (k, t) ∈ baseTy) (h' : (k, t') ∈ baseTy) : t = t' := by
  have hnd : (baseTy.map (·.1)).Nodup := by decide
  have e1 := AMap.get_of_mem (m := baseTy) hnd h
  have e2 := AMap.get_of_mem (m := baseTy) hnd h'
  rw [e1] at e2; exact Option.some.inj e2

theorem typed_upd {f : VMap} (h : Typed f) {k : String} {v : Val} (hv : (k, v.ty) ∈ baseTy) :
    Typed (upd f k (some v)) := by
  intro k' t v' hk hv'
  unfold upd at hv'
  split at hv'
  · subst_vars; cases hv'; exact baseTy_unique hv hk
  · exact h k' t v' hk hv'

theorem setAll_typed {f : VMap} (h : Typed f) (l : List (String × Val)) (hl : ∀ p ∈ l, (p.1, p.2.ty) ∈ baseTy) :
    setAll f l = some (assign f l) ∧ Typed (assign f l) := by
  induction l generalizing f with
  | nil => exact ⟨rfl, h⟩
  | cons p r ih =>
    obtain ⟨k, v⟩ := p
    have hv := hl (k, v) (by simp)
    obtain ⟨h1, h2⟩ := ih (typed_upd h hv) (fun p hp => hl p (by simp [hp]))
    refine ⟨?_, h2⟩
    simp only [setAll, assign]
    cases hf : f k with
    | none => exact h1
    | some w => simp only [h k _ w hv hf, ↓reduceIte]; exact h1

/-- Later assignments win. -/
theorem assign_get (f : VMap) (l : List (String × Val)) (k : String) :
    assign f l k = (AMap.get l.reverse k).or (f k) := by
  induction l generalizing f with
  | nil => rfl
  | cons p r ih =>
    obtain ⟨k0, v⟩ := p
    simp only [assign, ih, List.reverse_cons]
    have happ : ∀ (a b : AMap String Val), AMap.get (a ++ b) k = (AMap.get a k).or (AMap.get b k) := by
      intro a b
      induction a with
      | nil => rfl
      | cons e t iha =>
        obtain ⟨k1, v1⟩ := e
        simp only [List.cons_append, AMap.get]
        split
        · rfl
        · exact iha
    rw [happ]
    simp only [AMap.get, upd]
    by_cases h : k0 = k
    · subst h
      simp only [↓reduceIte]
      cases AMap.get r.reverse k0 <;> rfl
    · simp only [h, Ne.symm h, ↓reduceIte, Option.or_none]

/-- What the parsers promise (they only add `is_error` and `error_type` among the labels above, both
together: redis_error.go:27-28, mysql_response.go:57-58, http_response.go:70-71,
dubbo_response.go:23-24, dns_response.go:80-81, rocketmq_response.go:59-60). -/
structure ParserAttrs (a : VMap) : Prop where
  own : ∀ k t, (k, t) ∈ baseTy → k ≠ "is_error" → k ≠ "error_type" → a k = none
  both : (a "is_error" = none ∧ a "error_type" = none) ∨
    (a "is_error" = some (.bool true) ∧ a "error_type" = some (.int protocolError))

/-- Whether the protocol itself reported an error. -/
def protocolSaysError (x : Info) : Bool := (x.attrs "is_error").isSome

theorem payloadLabels_ok (text : Bytes → String) (limit : Nat) (x : Info)
    (hq : x.protocol = "dubbo" → 16 < limit → 16 ≤ x.request.length ∧
      ∀ t ts d, x.response = some (t, ts, d) → 16 ≤ d.length) :
    ∃ pl q a, payloadLabels text limit x = some pl ∧ payload limit x.protocol x.request = some q ∧
      (∀ t ts d, x.response = some (t, ts, d) → payload limit x.protocol d = some a) ∧
      pl = (match x.response with | none => [] | some r => [("end_timestamp", Val.int r.2.1)]) ++
        [("request_payload", Val.str (text q)), ("response_payload", Val.str (if x.response.isSome then text a else ""))] := by
  obtain ⟨q, hq1⟩ := payload_ok_partial limit x.protocol x.request (fun h1 h2 => (hq h1 h2).1)
  unfold payloadLabels
  rw [hq1]
  cases hr : x.response with
  | none => exact ⟨_, q, [], rfl, rfl, (by intro t ts d h; cases h), by simp⟩
  | some r =>
    obtain ⟨t, ts, d⟩ := r
    obtain ⟨a, ha⟩ := payload_ok_partial limit x.protocol d (fun h1 h2 => (hq h1 h2).2 t ts d hr)
    simp only [ha]
    exact ⟨_, q, a, rfl, rfl, (by intro t' ts' d' h; cases h; exact ha), by simp⟩

/-- C69.  The record of an exchange: on any record the pool hands out, with any attributes a parser
produces, making the labels does not fail (short Dubbo payloads apart, see
`short_dubbo_payload_panics`), and:
the socket's identity, the slow flag, the side and the protocol are those of the exchange; it is
an error exactly when the protocol says so or there is no response, and the error type tells
which; the destination is the translated one when there is a translation; the end time is the
response's; and every attribute of the parser is in the record. -/
theorem record_labels (text : Bytes → String) (limit : Nat) (lab : VMap) (hlab : Typed lab) (x : Info)
    (hx : ParserAttrs x.attrs)
    (hq : x.protocol = "dubbo" → 16 < limit → 16 ≤ x.request.length ∧
      ∀ t ts d, x.response = some (t, ts, d) → 16 ≤ d.length) :
    ∃ r, recordLabels text limit lab x = some r ∧ Typed r ∧
      r "pid" = some (.int x.pid) ∧ r "request_tid" = some (.int x.requestTid) ∧
      r "response_tid" = some (.int ((x.response.map (·.1)).getD 0)) ∧
      r "comm" = some (.str x.comm) ∧ r "src_ip" = some (.str x.srcIp) ∧ r "dst_ip" = some (.str x.dstIp) ∧
      r "src_port" = some (.int x.srcPort) ∧ r "dst_port" = some (.int x.dstPort) ∧
      r "container_id" = some (.str x.containerId) ∧ r "is_slow" = some (.bool x.slow) ∧
      r "is_server" = some (.bool x.isServer) ∧ r "protocol" = some (.str x.protocol) ∧
      r "is_error" = some (.bool (protocolSaysError x || x.response.isNone)) ∧
      r "error_type" = some (.int (if protocolSaysError x then 3
        else if x.response.isNone then 2 else 0)) ∧
      r "dnat_ip" = some (.str ((x.nat.map (·.1)).getD "")) ∧
      r "dnat_port" = some (.int ((x.nat.map (·.2)).getD (-1))) ∧
      (∀ rsp, x.response = some rsp → r "end_timestamp" = some (.int rsp.2.1)) ∧
      (∀ q, payload limit x.protocol x.request = some q → r "request_payload" = some (.str (text q))) ∧
      (x.response = none → r "response_payload" = some (.str "")) ∧
      (∀ rsp b, x.response = some rsp → payload limit x.protocol rsp.2.2 = some b →
        r "response_payload" = some (.str (text b))) ∧
      (∀ k, (∀ t, (k, t) ∉ baseTy) → r k = (x.attrs k).or (lab k)) ∧
      (x.response = none → r "end_timestamp" = lab "end_timestamp") := by
  rw [show (if protocolSaysError x then (3 : Int) else if x.response.isNone then 2 else 0) =
    (if protocolSaysError x then protocolError else if x.response.isNone then noResponse else noError) from rfl]
  have hbase : ∀ p ∈ baseLabels x, (p.1, p.2.ty) ∈ baseTy := by
    intro p hp
    simp only [baseLabels, List.mem_cons, List.not_mem_nil, or_false] at hp
    rcases hp with h | h | h | h | h | h | h | h | h | h | h | h | h | h | h | h <;>
      (subst h; simp [baseTy, Val.ty])
  obtain ⟨e1, t1⟩ := setAll_typed hlab (baseLabels x) hbase
  have t2 : Typed (fun k => (x.attrs k).or (assign lab (baseLabels x) k)) := by
    intro k t v hk hv
    by_cases h1 : k = "is_error"
    · subst h1
      have ht : t = .bool := baseTy_unique hk (by simp [baseTy])
      rcases hx.both with ⟨h, _⟩ | ⟨h, _⟩
      · simp only [h, Option.none_or] at hv; exact t1 _ t v hk hv
      · simp only [h, Option.some_or, Option.some.injEq] at hv; subst hv; rw [ht]; rfl
    · by_cases h2 : k = "error_type"
      · subst h2
        have ht : t = .int := baseTy_unique hk (by simp [baseTy])
        rcases hx.both with ⟨_, h⟩ | ⟨_, h⟩
        · simp only [h, Option.none_or] at hv; exact t1 _ t v hk hv
        · simp only [h, Option.some_or, Option.some.injEq] at hv; subst hv; rw [ht]; rfl
      · simp only [hx.own k t hk h1 h2, Option.none_or] at hv
        exact t1 k t v hk hv
  obtain ⟨pl, q, a, hpl, hqp, hap, hple⟩ := payloadLabels_ok text limit x hq
  have hplt : ∀ p ∈ pl, (p.1, p.2.ty) ∈ baseTy := by
    intro p hp
    rw [hple] at hp
    simp only [List.mem_append, List.mem_cons, List.not_mem_nil, or_false] at hp
    rcases hp with h | h | h
    · cases hr : x.response with
      | none => rw [hr] at h; simp at h
      | some r => rw [hr] at h; simp at h; subst h; simp [baseTy, Val.ty]
    · subst h; simp [baseTy, Val.ty]
    · subst h; simp [baseTy, Val.ty]
  obtain ⟨e3, t3⟩ := setAll_typed t2 pl hplt
  generalize hf2 : (fun k => (x.attrs k).or (assign lab (baseLabels x) k)) = f2 at *
  have hlast : ∀ p ∈ lastLabels (assign f2 pl) x, (p.1, p.2.ty) ∈ baseTy := by
    intro p hp
    simp only [lastLabels, List.mem_append] at hp
    rcases hp with h | h
    · split at h
      · simp only [List.mem_cons, List.not_mem_nil, or_false] at h
        rcases h with h | h <;> (subst h; simp [baseTy, Val.ty])
      · simp at h
    · cases hn : x.nat with
      | none => rw [hn] at h; simp at h
      | some n =>
        rw [hn] at h
        simp only [List.mem_cons, List.not_mem_nil, or_false] at h
        rcases h with h | h <;> (subst h; simp [baseTy, Val.ty])
  obtain ⟨e4, t4⟩ := setAll_typed t3 (lastLabels (assign f2 pl) x) hlast
  -- the value of every label
  have hplget : ∀ k, k ≠ "end_timestamp" → k ≠ "request_payload" → k ≠ "response_payload" → assign f2 pl k = f2 k := by
    intro k h1 h2 h3
    rw [assign_get, hple]
    cases x.response <;> simp [AMap.get, Ne.symm h1, Ne.symm h2, Ne.symm h3]
  have hbaseget : ∀ k v, AMap.get (baseLabels x).reverse k = some v → x.attrs k = none → f2 k = some v := by
    intro k v h ha
    rw [← hf2]; simp only [ha, Option.none_or, assign_get, h, Option.some_or]
  have herr : getBool (assign f2 pl "is_error") = protocolSaysError x := by
    rw [hplget _ (by decide) (by decide) (by decide)]
    unfold protocolSaysError
    rcases hx.both with ⟨h, _⟩ | ⟨h, _⟩
    · rw [hbaseget "is_error" (.bool false) (by simp [baseLabels, AMap.get]) h, h]; rfl
    · rw [← hf2]; simp [h, getBool]
  have hlastget : ∀ k, k ≠ "is_error" → k ≠ "error_type" → k ≠ "dnat_ip" → k ≠ "dnat_port" →
      assign (assign f2 pl) (lastLabels (assign f2 pl) x) k = assign f2 pl k := by
    intro k h1 h2 h3 h4
    rw [assign_get]
    have : AMap.get (lastLabels (assign f2 pl) x).reverse k = none := by
      unfold lastLabels
      cases x.nat <;> by_cases hc : (getBool (assign f2 pl "is_error") = false ∧ x.response = none)
      · simp [hc, AMap.get, Ne.symm h1, Ne.symm h2]
      · simp [hc]
      · simp [hc, AMap.get, Ne.symm h1, Ne.symm h2, Ne.symm h3, Ne.symm h4]
      · simp [hc, AMap.get, Ne.symm h3, Ne.symm h4]
    rw [this, Option.none_or]
  have hplain : ∀ k t v, (k, t) ∈ baseTy → k ≠ "is_error" → k ≠ "error_type" → k ≠ "dnat_ip" → k ≠ "dnat_port" →
      k ≠ "end_timestamp" → k ≠ "request_payload" → k ≠ "response_payload" →
      AMap.get (baseLabels x).reverse k = some v →
      assign (assign f2 pl) (lastLabels (assign f2 pl) x) k = some v := by
    intro k t v hk h1 h2 h3 h4 h5 h6 h7 hv
    rw [hlastget k h1 h2 h3 h4, hplget k h5 h6 h7]
    exact hbaseget k v hv (hx.own k t hk h1 h2)
  refine ⟨assign (assign f2 pl) (lastLabels (assign f2 pl) x), ?_, t4, ?_, ?_, ?_, ?_, ?_, ?_, ?_, ?_, ?_, ?_, ?_, ?_, ?_, ?_, ?_, ?_, ?_, ?_, ?_, ?_, ?_, ?_⟩
  · unfold recordLabels
    simp only [e1, hpl]
    rw [hf2, e3]
    exact e4
  · exact hplain "pid" .int _ (by simp [baseTy]) (by decide) (by decide) (by decide) (by decide) (by decide) (by decide) (by decide) (by simp [baseLabels, AMap.get])
  · exact hplain "request_tid" .int _ (by simp [baseTy]) (by decide) (by decide) (by decide) (by decide) (by decide) (by decide) (by decide) (by simp [baseLabels, AMap.get])
  · exact hplain "response_tid" .int _ (by simp [baseTy]) (by decide) (by decide) (by decide) (by decide) (by decide) (by decide) (by decide) (by simp [baseLabels, AMap.get])
  · exact hplain "comm" .str _ (by simp [baseTy]) (by decide) (by decide) (by decide) (by decide) (by decide) (by decide) (by decide) (by simp [baseLabels, AMap.get])
  · exact hplain "src_ip" .str _ (by simp [baseTy]) (by decide) (by decide) (by decide) (by decide) (by decide) (by decide) (by decide) (by simp [baseLabels, AMap.get])
  · exact hplain "dst_ip" .str _ (by simp [baseTy]) (by decide) (by decide) (by decide) (by decide) (by decide) (by decide) (by decide) (by simp [baseLabels, AMap.get])
  · exact hplain "src_port" .int _ (by simp [baseTy]) (by decide) (by decide) (by decide) (by decide) (by decide) (by decide) (by decide) (by simp [baseLabels, AMap.get])
  · exact hplain "dst_port" .int _ (by simp [baseTy]) (by decide) (by decide) (by decide) (by decide) (by decide) (by decide) (by decide) (by simp [baseLabels, AMap.get])
  · exact hplain "container_id" .str _ (by simp [baseTy]) (by decide) (by decide) (by decide) (by decide) (by decide) (by decide) (by decide) (by simp [baseLabels, AMap.get])
  · exact hplain "is_slow" .bool _ (by simp [baseTy]) (by decide) (by decide) (by decide) (by decide) (by decide) (by decide) (by decide) (by simp [baseLabels, AMap.get])
  · exact hplain "is_server" .bool _ (by simp [baseTy]) (by decide) (by decide) (by decide) (by decide) (by decide) (by decide) (by decide) (by simp [baseLabels, AMap.get])
  · exact hplain "protocol" .str _ (by simp [baseTy]) (by decide) (by decide) (by decide) (by decide) (by decide) (by decide) (by decide) (by simp [baseLabels, AMap.get])
  · -- is_error
    rw [assign_get]
    unfold lastLabels
    rw [herr]
    have hp := hplget "is_error" (by decide) (by decide) (by decide)
    rcases hx.both with ⟨h, _⟩ | ⟨h, _⟩
    · have hs : protocolSaysError x = false := by simp [protocolSaysError, h]
      cases hr : x.response with
      | none => cases x.nat <;> simp [hs, AMap.get]
      | some r =>
        rw [hp, hbaseget "is_error" (.bool false) (by simp [baseLabels, AMap.get]) h]
        cases x.nat <;> simp [hs, AMap.get]
    · have hs : protocolSaysError x = true := by simp [protocolSaysError, h]
      rw [hp, ← hf2]
      cases x.nat <;> simp [hs, AMap.get, h]
  · -- error_type
    rw [assign_get]
    unfold lastLabels
    rw [herr]
    have hp := hplget "error_type" (by decide) (by decide) (by decide)
    rcases hx.both with ⟨h, h'⟩ | ⟨h, h'⟩
    · have hs : protocolSaysError x = false := by simp [protocolSaysError, h]
      cases hr : x.response with
      | none => cases x.nat <;> simp [hs, AMap.get]
      | some r =>
        rw [hp, hbaseget "error_type" (.int noError) (by simp [baseLabels, AMap.get]) h']
        cases x.nat <;> simp [hs, AMap.get]
    · have hs : protocolSaysError x = true := by simp [protocolSaysError, h]
      rw [hp, ← hf2]
      cases x.nat <;> simp [hs, AMap.get, h']
  · -- dnat_ip
    rw [assign_get, hplget _ (by decide) (by decide) (by decide),
      hbaseget "dnat_ip" (.str "") (by simp [baseLabels, AMap.get]) (hx.own "dnat_ip" .str (by simp [baseTy]) (by decide) (by decide))]
    unfold lastLabels
    cases x.nat with
    | none => by_cases hc : (getBool (assign f2 pl "is_error") = false ∧ x.response = none) <;> simp [hc, AMap.get]
    | some n => simp [AMap.get]
  · -- dnat_port
    rw [assign_get, hplget _ (by decide) (by decide) (by decide),
      hbaseget "dnat_port" (.int (-1)) (by simp [baseLabels, AMap.get]) (hx.own "dnat_port" .int (by simp [baseTy]) (by decide) (by decide))]
    unfold lastLabels
    cases x.nat with
    | none => by_cases hc : (getBool (assign f2 pl "is_error") = false ∧ x.response = none) <;> simp [hc, AMap.get]
    | some n => simp [AMap.get]
  · intro rsp hr
    rw [hlastget _ (by decide) (by decide) (by decide) (by decide), assign_get, hple, hr]
    simp [AMap.get]
  · intro q' hq'
    rw [hqp] at hq'; cases hq'
    rw [hlastget _ (by decide) (by decide) (by decide) (by decide), assign_get, hple]
    cases x.response <;> simp [AMap.get]
  · intro hr
    rw [hlastget _ (by decide) (by decide) (by decide) (by decide), assign_get, hple, hr]
    simp [AMap.get]
  · intro rsp b hr hb
    have := hap rsp.1 rsp.2.1 rsp.2.2 hr
    rw [this] at hb; cases hb
    rw [hlastget _ (by decide) (by decide) (by decide) (by decide), assign_get, hple, hr]
    simp [AMap.get]
  · intro k hk
    have hne : ∀ k', (∃ t, (k', t) ∈ baseTy) → k ≠ k' := by
      rintro k' ⟨t, ht⟩ rfl; exact hk t ht
    rw [hlastget _ (hne _ ⟨.bool, by simp [baseTy]⟩) (hne _ ⟨.int, by simp [baseTy]⟩) (hne _ ⟨.str, by simp [baseTy]⟩) (hne _ ⟨.int, by simp [baseTy]⟩),
      hplget _ (hne _ ⟨.int, by simp [baseTy]⟩) (hne _ ⟨.str, by simp [baseTy]⟩) (hne _ ⟨.str, by simp [baseTy]⟩), ← hf2]
    simp only [assign_get]
    have : AMap.get (baseLabels x).reverse k = none := by
      rw [AMap.get_eq_none_iff]
      intro hm
      simp only [AMap.keys, List.map_reverse, List.mem_reverse, List.mem_map] at hm
      obtain ⟨p, hp, rfl⟩ := hm
      exact hk _ (hbase p hp)
    rw [this, Option.none_or]
  · intro hr
    rw [hlastget _ (by decide) (by decide) (by decide) (by decide), assign_get, hple, hr]
    have ha := hx.own "end_timestamp" .int (by simp [baseTy]) (by decide) (by decide)
    rw [← hf2]
    simp only [ha, Option.none_or, assign_get]
    simp [AMap.get, baseLabels]

/-! ### The pool (C70) -/

/-- `Reset` (data_group.go:90-97), the labels. -/
def resetLabels (f : VMap) : VMap := fun k => (f k).map (fun v => Val.zero v.ty)

/-- A pooled label map between uses: fresh, or reset after a use in which the analyzer made a record
of it and the consumers changed it in any way that kept the types of the analyzer's labels. -/
inductive Pooled (text : Bytes → String) (limit : Nat) : VMap → Prop
  | fresh : Pooled text limit emptyV
  | reuse {lab r c : VMap} {x : Info} : Pooled text limit lab → ParserAttrs x.attrs →
      recordLabels text limit lab x = some r → Typed c → Pooled text limit (resetLabels c)
  | reuseFail {lab r c : VMap} {x : Info} : Pooled text limit lab →
      connectFailLabels lab x = some r → Typed c → Pooled text limit (resetLabels c)

theorem zero_ty (t : Ty) : (Val.zero t).ty = t := by cases t <;> rfl

/-- Every map in the pool is well typed and holds only zero values. -/
theorem pooled_zero {text : Bytes → String} {limit : Nat} {lab : VMap} (h : Pooled text limit lab) :
    Typed lab ∧ ∀ k v, lab k = some v → v = Val.zero v.ty := by
  have key : ∀ c, Typed c → Typed (resetLabels c) ∧ ∀ k v, resetLabels c k = some v → v = Val.zero v.ty := by
    intro c hc
    constructor
    · intro k t v hk hv
      simp only [resetLabels, Option.map_eq_some_iff] at hv
      obtain ⟨w, hw, rfl⟩ := hv
      rw [zero_ty]; exact hc k t w hk hw
    · intro k v hv
      simp only [resetLabels, Option.map_eq_some_iff] at hv
      obtain ⟨w, hw, rfl⟩ := hv
      rw [zero_ty]
  cases h with
  | fresh => exact ⟨fun k t v _ h => by simp [emptyV] at h, fun k v h => by simp [emptyV] at h⟩
  | reuse _ _ _ hc => exact key _ hc
  | reuseFail _ _ hc => exact key _ hc

/-- C70 (proved part).  A record made of a recycled one reads like a record made of a new one: for
every name and every type the values read are the same. -/
theorem recycled_reads_alike_partial (text : Bytes → String) (limit : Nat) {lab : VMap} (hlab : Pooled text limit lab)
    (x : Info) (hx : ParserAttrs x.attrs)
    (hq : x.protocol = "dubbo" → 16 < limit → 16 ≤ x.request.length ∧
      ∀ t ts d, x.response = some (t, ts, d) → 16 ≤ d.length) :
    ∃ r r', recordLabels text limit lab x = some r ∧ recordLabels text limit emptyV x = some r' ∧
      ∀ k, getStr (r k) = getStr (r' k) ∧ getInt (r k) = getInt (r' k) ∧ getBool (r k) = getBool (r' k) := by
  obtain ⟨ht, hz⟩ := pooled_zero hlab
  obtain ⟨r, h0, _, h1, h2, h3, h4, h5, h6, h7, h8, h9, h10, h11, h12, h13, h14, h15, h16, h17, h18, h19, h20, h21, h22⟩ :=
    record_labels text limit lab ht x hx hq
  obtain ⟨r', g0, _, g1, g2, g3, g4, g5, g6, g7, g8, g9, g10, g11, g12, g13, g14, g15, g16, g17, g18, g19, g20, g21, g22⟩ :=
    record_labels text limit emptyV (fun k t v _ h => by simp [emptyV] at h) x hx hq
  refine ⟨r, r', h0, g0, fun k => ?_⟩
  have hzero : ∀ w : Option Val, (∀ v, w = some v → v = Val.zero v.ty) →
      getStr w = "" ∧ getInt w = 0 ∧ getBool w = false := by
    intro w hw
    cases w with
    | none => exact ⟨rfl, rfl, rfl⟩
    | some v =>
      have := hw v rfl
      cases v <;> simp only [Val.ty, Val.zero] at this <;> rw [this] <;> exact ⟨rfl, rfl, rfl⟩
  by_cases hk : ∃ t, (k, t) ∈ baseTy
  · obtain ⟨t, hk⟩ := hk
    by_cases he : k = "end_timestamp" ∧ x.response = none
    · obtain ⟨rfl, he⟩ := he
      rw [h22 he, g22 he]
      obtain ⟨z1, z2, z3⟩ := hzero (lab "end_timestamp") (hz _)
      rw [z1, z2, z3]; exact ⟨rfl, rfl, rfl⟩
    · have hrr : r k = r' k := by
        simp only [baseTy, List.mem_cons, Prod.mk.injEq, List.not_mem_nil, or_false] at hk
        rcases hk with h | h | h | h | h | h | h | h | h | h | h | h | h | h | h | h | h | h | h <;>
          obtain ⟨rfl, _⟩ := h
        · rw [h1, g1]
        · rw [h2, g2]
        · rw [h3, g3]
        · rw [h4, g4]
        · rw [h5, g5]
        · rw [h6, g6]
        · rw [h7, g7]
        · rw [h8, g8]
        · rw [h15, g15]
        · rw [h16, g16]
        · rw [h9, g9]
        · rw [h13, g13]
        · rw [h14, g14]
        · rw [h10, g10]
        · rw [h11, g11]
        · rw [h12, g12]
        · cases hr : x.response with
          | none => exact absurd ⟨rfl, hr⟩ he
          | some rsp => rw [h17 rsp hr, g17 rsp hr]
        · obtain ⟨q, hq1⟩ := payload_ok_partial limit x.protocol x.request (fun h1 h2 => (hq h1 h2).1)
          rw [h18 q hq1, g18 q hq1]
        · cases hr : x.response with
          | none => rw [h19 hr, g19 hr]
          | some rsp =>
            obtain ⟨b, hb⟩ := payload_ok_partial limit x.protocol rsp.2.2 (fun h1 h2 => (hq h1 h2).2 rsp.1 rsp.2.1 rsp.2.2 hr)
            rw [h20 rsp b hr hb, g20 rsp b hr hb]
      rw [hrr]; exact ⟨rfl, rfl, rfl⟩
  · have hk' : ∀ t, (k, t) ∉ baseTy := fun t ht => hk ⟨t, ht⟩
    rw [h21 k hk', g21 k hk']
    cases ha : x.attrs k with
    | some v => exact ⟨rfl, rfl, rfl⟩
    | none =>
      simp only [Option.none_or]
      obtain ⟨z1, z2, z3⟩ := hzero (lab k) (hz _)
      rw [z1, z2, z3]; exact ⟨rfl, rfl, rfl⟩

/-- The full claim — the record has the labels of its own exchange and no others — fails: every name
of an earlier use that is not one of the analyzer's own and that this exchange does not set is
in the record, with a zero value. -/
theorem recycled_keeps_names (text : Bytes → String) (limit : Nat) {lab : VMap} (hlab : Pooled text limit lab)
    (x : Info) (hx : ParserAttrs x.attrs)
    (hq : x.protocol = "dubbo" → 16 < limit → 16 ≤ x.request.length ∧
      ∀ t ts d, x.response = some (t, ts, d) → 16 ≤ d.length)
    {k : String} (hk : ∀ t, (k, t) ∉ baseTy) {v : Val} (hv : lab k = some v) (hno : x.attrs k = none) :
    ∃ r r', recordLabels text limit lab x = some r ∧ recordLabels text limit emptyV x = some r' ∧
      r k = some (Val.zero v.ty) ∧ r' k = none := by
  obtain ⟨ht, hz⟩ := pooled_zero hlab
  obtain ⟨r, h0, _, _, _, _, _, _, _, _, _, _, _, _, _, _, _, _, _, _, _, _, _, h21, _⟩ :=
    record_labels text limit lab ht x hx hq
  obtain ⟨r', g0, _, _, _, _, _, _, _, _, _, _, _, _, _, _, _, _, _, _, _, _, _, g21, _⟩ :=
    record_labels text limit emptyV (fun k t v _ h => by simp [emptyV] at h) x hx hq
  refine ⟨r, r', h0, g0, ?_, ?_⟩
  · rw [h21 k hk, hno, Option.none_or, hv]
    exact congrArg some (hz k v hv)
  · rw [g21 k hk, hno]; rfl

/-- A connect failure is an error of type 1, whatever the pool hands out. -/
theorem connect_fail_labels {lab : VMap} (hlab : Typed lab) (x : Info) :
    ∃ r, connectFailLabels lab x = some r ∧ Typed r ∧ r "is_error" = some (.bool true) ∧
      r "error_type" = some (.int 1) ∧ r "is_slow" = some (.bool false) ∧
      r "pid" = some (.int x.pid) ∧ r "dst_ip" = some (.str x.dstIp) ∧ r "dst_port" = some (.int x.dstPort) ∧
      r "src_ip" = some (.str x.srcIp) ∧ r "src_port" = some (.int x.srcPort) ∧
      r "is_server" = some (.bool x.isServer) ∧
      ∀ k, (∀ t, (k, t) ∉ baseTy) → r k = lab k := by
  rw [show (1 : Int) = connectFail from rfl]
  unfold connectFailLabels
  have hl : ∀ p ∈ ([("pid", .int x.pid), ("request_tid", .int 0), ("response_tid", .int 0), ("comm", .str x.comm),
    ("src_ip", .str x.srcIp), ("dst_ip", .str x.dstIp), ("src_port", .int x.srcPort), ("dst_port", .int x.dstPort),
    ("dnat_ip", .str ""), ("dnat_port", .int (-1)), ("container_id", .str x.containerId),
    ("is_error", .bool true), ("error_type", .int connectFail), ("is_slow", .bool false),
    ("is_server", .bool x.isServer)] : List (String × Val)), (p.1, p.2.ty) ∈ baseTy := by
    intro p hp
    simp only [List.mem_cons, List.not_mem_nil, or_false] at hp
    rcases hp with h | h | h | h | h | h | h | h | h | h | h | h | h | h | h <;>
      (subst h; simp [baseTy, Val.ty])
  obtain ⟨e, t⟩ := setAll_typed hlab _ hl
  refine ⟨_, e, t, ?_, ?_, ?_, ?_, ?_, ?_, ?_, ?_, ?_, ?_⟩
  all_goals try (rw [assign_get]; simp [AMap.get])
  intro k hk
  rw [assign_get]
  have hne : AMap.get (List.reverse ([("pid", .int x.pid), ("request_tid", .int 0), ("response_tid", .int 0), ("comm", .str x.comm),
    ("src_ip", .str x.srcIp), ("dst_ip", .str x.dstIp), ("src_port", .int x.srcPort), ("dst_port", .int x.dstPort),
    ("dnat_ip", .str ""), ("dnat_port", .int (-1)), ("container_id", .str x.containerId),
    ("is_error", .bool true), ("error_type", .int connectFail), ("is_slow", .bool false),
    ("is_server", .bool x.isServer)] : List (String × Val))) k = none := by
    rw [AMap.get_eq_none_iff]
    intro hm
    simp only [AMap.keys, List.map_reverse, List.mem_reverse] at hm
    obtain ⟨p, hp, rfl⟩ := List.mem_map.1 hm
    exact hk _ (hl p hp)
  rw [hne, Option.none_or]

/-- A request without response is never slow, and a response is slow by its duration. -/
theorem slowOf_iff (table : AMap String Int) (global : Int) (p : Pairs) (protocol : String) (r : Events)
    (hr : p.requests = some r) :
    slowOf table global p protocol = some (match p.responses with
      | none => false
      | some s => isSlow table global (s.lastTs - r.event.startTime) protocol) := by
  unfold slowOf Pairs.duration
  cases p.responses with
  | none => rfl
  | some s => simp [hr]

/-- An HTTP exchange with a 404, then an unanswered MySQL query on the recycled record: the record of
the query carries the name `http_status_code`. -/
def httpInfo : Info := ⟨1, 2, "c", "10.0.0.1", "10.0.0.2", 40000, 80, "", true, false, "http",
  fun k => if k = "http_status_code" then some (.int 404) else if k = "is_error" then some (.bool true)
    else if k = "error_type" then some (.int 3) else none, [71], some (3, 9, [72]), none⟩
def mysqlInfo : Info := ⟨1, 2, "c", "10.0.0.1", "10.0.0.2", 40000, 3306, "", true, false, "mysql",
  fun k => if k = "sql" then some (.str "select 1") else none, [3], none, some ("10.0.0.9", 3306)⟩

example : ∃ lab, Pooled (fun _ => "") 200 lab ∧ ParserAttrs mysqlInfo.attrs ∧
    lab "http_status_code" = some (.int 0) ∧ mysqlInfo.attrs "http_status_code" = none := by
  have hx : ParserAttrs httpInfo.attrs := by
    refine ⟨?_, Or.inr ⟨rfl, rfl⟩⟩
    intro k t hk h1 h2
    simp only [httpInfo, h1, h2, ↓reduceIte]
    rw [if_neg]
    rintro rfl
    simp [baseTy] at hk
  have hy : ParserAttrs mysqlInfo.attrs := by
    refine ⟨?_, Or.inl ⟨rfl, rfl⟩⟩
    intro k t hk h1 h2
    simp only [mysqlInfo]
    rw [if_neg]
    rintro rfl
    simp [baseTy] at hk
  obtain ⟨r, h0, ht, hr⟩ := record_labels (fun _ => "") 200 emptyV (fun k t v _ h => by simp [emptyV] at h) httpInfo hx
    (by intro h; simp [httpInfo] at h)
  have hr21 := hr.2.2.2.2.2.2.2.2.2.2.2.2.2.2.2.2.2.2.2.2.1
  refine ⟨resetLabels r, .reuse .fresh hx h0 ht, hy, ?_, rfl⟩
  simp only [resetLabels]
  rw [hr21 "http_status_code" (by intro t; simp [baseTy])]
  rfl

end Kindling.Net.Record
