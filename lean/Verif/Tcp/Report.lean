import Verif.Tcp.Connect
import Verif.Tcp.Metric
/-
From the events of the probe to the reports on connect attempts: the decoding of
`tcpconnectanalyzer/internal/connect_monitor.go:41-216, 299-340`, the filter and the dispatch of
`tcpconnectanalyzer/analyzer.go:92-157`, and the data groups of `analyzer.go:159-234`.  The life of the attempts is in
`Verif.Tcp.Connect`.
-/
namespace Kindling.Tcp.Report
open Kindling Kindling.Model Kindling.Tcp
open Kindling.Tcp.Metric (Attr getUint getInt signed Dnat findDnat)

/-- The context of an event (model/kindling_event.go:338-418): category, protocol of the descriptor (TCP is 1), its addresses, its
ports, and the thread.  A nil list of addresses and an empty one are not distinguished (cgoreceiver.go:143-148 makes four). -/
structure Ctx where
  category : Nat
  protocol : Nat
  sip : List UInt32
  dip : List UInt32
  sport : UInt32
  dport : UInt32
  who : Who

/-- An event: name, parameters and timestamp, and the context. -/
structure Raw where
  ev : Metric.Ev
  ctx : Ctx

/-- `GetSip`, `GetSport`, `GetDip`, `GetDport` (kindling_event_helper.go:195-257) as a key; an empty list of addresses is an index out
of range (`none`). -/
def fdKey (x : Ctx) : Option Key := match x.sip, x.dip with
  | s :: _, d :: _ => some ⟨Ip.ipLong2String s, x.sport.toNat, Ip.ipLong2String d, x.dport.toNat⟩
  | _, _ => none

/-- `getConnKeyForTcpConnect` (connect_monitor.go:299-340). -/
def tupleKey (e : Metric.Ev) : Res Key :=
  match getAttr e "sip", getAttr e "sport", getAttr e "dip", getAttr e "dport" with
  | some sip, some sport, some dip, some dport =>
    match getUint sip, getUint sport, getUint dip, getUint dport with
    | some si, some sp, some di, some dp =>
      .ok ⟨Ip.ipLong2String (UInt32.ofNat si), sp % 2 ^ 32, Ip.ipLong2String (UInt32.ofNat di), dp % 2 ^ 32⟩
    | _, _, _, _ => .panic
  | a, b, c, d =>
    if (a.any (fun x => (getUint x).isNone)) || (b.any (fun x => (getUint x).isNone)) || (c.any (fun x => (getUint x).isNone)) ||
      (d.any (fun x => (getUint x).isNone)) then .panic else .err

/-- `filterRequestEvent` (analyzer.go:135-157): whether the event is left out.  The context and its parts are never nil
(kindling_event.go:304-306, 345-351). -/
def filterRequest (x : Ctx) : Bool := x.category != 3 || x.protocol != 1 || x.sip.isEmpty || x.dip.isEmpty

/-- `consumeChannelEvent` (analyzer.go:92-120) with the decoding in `ReadInConnectExitSyscall`, `ReadInTcpConnect`, `ReadInTcpSetState` and
`ReadSendRequestSyscall` (connect_monitor.go:41-54, 83-90, 111-120, 160-172): `none` is a panic, `some none` an event without effect. -/
def decode (r : Raw) : Option (Option Ev) :=
  if r.ev.name = "connect" then
    if r.ctx.protocol ≠ 1 then some none
    else match getAttr r.ev "res" with
      | none => some none
      | some a => match getInt a, fdKey r.ctx with
        | some res, some k => some (some (.connectExit k res r.ev.rest r.ctx.who))
        | _, _ => none
  else if r.ev.name = "tcp_connect" then
    match tupleKey r.ev with
    | .panic => none
    | .err => some none
    | .ok k => match getAttr r.ev "retval" with
      | none => some none
      | some a => match getUint a with
        | none => none
        | some v => some (some (.tcpConnect k (signed 8 v) r.ev.rest))
  else if r.ev.name = "tcp_set_state" then
    match tupleKey r.ev with
    | .panic => none
    | .err => some none
    | .ok k => match getAttr r.ev "old_state", getAttr r.ev "new_state" with
      | some o, some n => match getInt o, getInt n with
        | some o, some n => some (some (.setState k o n r.ev.rest))
        | _, _ => none
      | _, _ => some none
  else if r.ev.name = "write" ∨ r.ev.name = "writev" ∨ r.ev.name = "sendto" ∨ r.ev.name = "sendmsg" then
    if filterRequest r.ctx then some none
    else match fdKey r.ctx with
      | some k => some (some (.sendRequest k r.ev.rest r.ctx.who))
      | none => none
  else some none

/-- What the loop of the analyzer takes (analyzer.go:70-83): an event, or a tick of the clock with the time and the tables of /proc it
will see. -/
inductive In
  | event (r : Raw)
  | tick (now : Int) (proc : Proc)

/-- The loop, up to the reports; `none` is a panic. -/
def loop (wait : Int) : ConnMap → List In → Option (ConnMap × List Conn)
  | m, [] => some (m, [])
  | m, .event r :: l => match decode r with
    | none => none
    | some none => loop wait m l
    | some (some e) =>
      let x := step wait m e
      (loop wait x.1 l).map (fun y => (y.1, x.2 ++ y.2))
  | m, .tick now proc :: l =>
    let x := step wait m (.trim now proc)
    (loop wait x.1 l).map (fun y => (y.1, x.2 ++ y.2))

/-! ### The data group of a report -/

inductive Val
  | str (s : Bytes)
  | int (n : Int)
  | bool (b : Bool)
deriving DecidableEq, Repr

structure Group where
  name : String
  labels : AMap String Val
  ts : Nat
  metrics : List (String × Int)
deriving DecidableEq, Repr

/-- `GetConnectDuration` (connection_stats.go:40-42), with the wrapping of `uint64`. -/
def duration (c : Conn) : Int := signed 8 ((c.stop + 2 ^ 64 - c.initial) % 2 ^ 64)

/-- `generateLabels` (analyzer.go:197-223). -/
def labels (d : Dnat) (needProcess : Bool) (c : Conn) : AMap String Val :=
  let l : AMap String Val := AMap.set [] "is_server" (.bool false)
  let l := if needProcess then AMap.set (AMap.set l "pid" (.int c.who.pid)) "comm" (.str c.who.comm) else l
  let l := AMap.set l "container_id" (.str c.who.container)
  let l := AMap.set l "errno" (.int c.code)
  let l := AMap.set l "success" (.bool (decide (c.state = .success)))
  let l := AMap.set l "src_ip" (.str c.key.srcIP)
  let l := AMap.set l "dst_ip" (.str c.key.dstIP)
  let l := AMap.set l "src_port" (.int c.key.srcPort)
  let l := AMap.set l "dst_port" (.int c.key.dstPort)
  let n := findDnat d c.key.srcIP c.key.srcPort c.key.dstIP c.key.dstPort
  AMap.set (AMap.set l "dnat_ip" (.str n.1)) "dnat_port" (.int n.2)

/-- `generateDataGroup` (analyzer.go:179-195). -/
def group (d : Dnat) (needProcess : Bool) (c : Conn) : Group :=
  { name := "tcp_connect_metric_group", labels := labels d needProcess c, ts := c.stop,
    metrics := ("kindling_tcp_connect_total", 1) ::
      if c.state = .success then [("kindling_tcp_connect_duration_nanoseconds_total", duration c)] else [] }

/-! ### What the probe sends -/

/-- What happens to a connection. -/
inductive Happening
  | tcpConnect (ret : Int)
  | setState (old new : Int)
  | connect (res : Int) (who : Who)
  | send (who : Who)

/-- The 4-tuple of a connection, in text. -/
def keyOf (c : Metric.Conn) : Key :=
  ⟨Metric.dotted c.s0 c.s1 c.s2 c.s3, c.sport.toNat, Metric.dotted c.d0 c.d1 c.d2 c.d3, c.dport.toNat⟩

/-- The descriptor of a connection: the addresses in network byte order in a 32-bit word (kindling.cpp:311-322 and cgoreceiver.go:143-150). -/
def IsFd (c : Metric.Conn) (x : Ctx) : Prop :=
  x.category = 3 ∧ x.protocol = 1 ∧ (∃ r, x.sip = UInt32.ofNat (leValue [c.s0, c.s1, c.s2, c.s3]) :: r) ∧
  (∃ r, x.dip = UInt32.ofNat (leValue [c.d0, c.d1, c.d2, c.d3]) :: r) ∧ x.sport.toNat = c.sport.toNat ∧ x.dport.toNat = c.dport.toNat

/-- The event by which the probe tells of a happening at time `ts` (kindling.cpp:372-411, 427-447): kernel functions carry the tuple as
parameters, system calls have the descriptor and the result among their parameters. -/
inductive Tells (c : Metric.Conn) (ts : Nat) : Happening → Raw → Prop
  | tcpConnect (ret : Int) (x : Ctx) (h1 : -(2 ^ 63) ≤ ret) (h2 : ret < 2 ^ 63) :
      Tells c ts (.tcpConnect ret) ⟨Metric.event "tcp_connect" c [("retval", 8, leBytes 8 (ret % (2 ^ 64 : Nat)).toNat)] ts, x⟩
  | setState (old new : Int) (x : Ctx) (h1 : -(2 ^ 31) ≤ old) (h2 : old < 2 ^ 31) (h3 : -(2 ^ 31) ≤ new) (h4 : new < 2 ^ 31) :
      Tells c ts (.setState old new) ⟨Metric.event "tcp_set_state" c [("old_state", 3, leBytes 4 (old % (2 ^ 32 : Nat)).toNat),
        ("new_state", 3, leBytes 4 (new % (2 ^ 32 : Nat)).toNat)] ts, x⟩
  | connect (res : Int) (r : Raw) (h1 : -(2 ^ 63) ≤ res) (h2 : res < 2 ^ 63) (hn : r.ev.name = "connect") (ht : r.ev.rest = ts) (hx : IsFd c r.ctx)
      (hr : getAttr r.ev "res" = some ("res", 4, leBytes 8 (res % (2 ^ 64 : Nat)).toNat)) : Tells c ts (.connect res r.ctx.who) r
  | send (r : Raw) (hn : r.ev.name ∈ ["write", "writev", "sendto", "sendmsg"]) (ht : r.ev.rest = ts) (hx : IsFd c r.ctx) : Tells c ts (.send r.ctx.who) r

/-- The happening as an event of the connection's life. -/
def Happening.ev (h : Happening) (k : Key) (ts : Nat) : Ev := match h with
  | .tcpConnect ret => .tcpConnect k ret ts
  | .setState old new => .setState k old new ts
  | .connect res who => .connectExit k res ts who
  | .send who => .sendRequest k ts who

theorem text_of_bytes (a b c d : UInt8) : Ip.ipLong2String (UInt32.ofNat (leValue [a, b, c, d])) = Metric.dotted a b c d := by
  rw [Metric.leValue4, Ip.ip_text_of_bytes]; rfl

theorem tupleKey_event (name : String) (c : Metric.Conn) (more : List Attr) (ts : Nat) :
    tupleKey (Metric.event name c more ts) = .ok (keyOf c) := by
  have hs := UInt16.toNat_lt c.sport
  have hd := UInt16.toNat_lt c.dport
  have e1 : getUint ("sip", Metric.UINT32, [c.s0, c.s1, c.s2, c.s3]) = some (leValue [c.s0, c.s1, c.s2, c.s3]) := rfl
  have e2 : getUint ("dip", Metric.UINT32, [c.d0, c.d1, c.d2, c.d3]) = some (leValue [c.d0, c.d1, c.d2, c.d3]) := rfl
  have e3 : getUint ("sport", Metric.UINT16, leBytes 2 c.sport.toNat) = some c.sport.toNat := by
    have : getUint ("sport", Metric.UINT16, leBytes 2 c.sport.toNat) = Metric.readLE 2 (leBytes 2 c.sport.toNat) := rfl
    rw [this, Metric.readLE_leBytes 2 _ (by simpa using hs)]
  have e4 : getUint ("dport", Metric.UINT16, leBytes 2 c.dport.toNat) = some c.dport.toNat := by
    have : getUint ("dport", Metric.UINT16, leBytes 2 c.dport.toNat) = Metric.readLE 2 (leBytes 2 c.dport.toNat) := rfl
    rw [this, Metric.readLE_leBytes 2 _ (by simpa using hd)]
  simp only [tupleKey, Metric.attr_sip, Metric.attr_sport, Metric.attr_dip, Metric.attr_dport, e1, e2, e3, e4, text_of_bytes, keyOf]
  rw [Nat.mod_eq_of_lt (by omega), Nat.mod_eq_of_lt (by omega)]

theorem fdKey_of {c : Metric.Conn} {x : Ctx} (h : IsFd c x) : fdKey x = some (keyOf c) := by
  obtain ⟨_, _, ⟨r, h1⟩, ⟨r', h2⟩, h3, h4⟩ := h
  simp only [fdKey, h1, h2, h3, h4, text_of_bytes, keyOf]

theorem signed_of (ret : Int) (h1 : -(2 ^ 63) ≤ ret) (h2 : ret < 2 ^ 63) :
    getUint ("retval", 8, leBytes 8 (ret % (2 ^ 64 : Nat)).toNat) = some (ret % (2 ^ 64 : Nat)).toNat ∧
    signed 8 (ret % (2 ^ 64 : Nat)).toNat = ret := by
  constructor
  · have := (Metric.uint_read "retval").1 8 8 (ret % (2 ^ 64 : Nat)).toNat [] (by decide) (by omega)
    simpa using this
  · unfold signed
    split <;> omega

/-- C95: whatever the probe tells of a connection — by the parameters of a kernel function or by the descriptor of a system call — is
taken as an event of that connection, with the result, the time and the process it was sent with. -/
theorem told_is_understood {c : Metric.Conn} {ts : Nat} {h : Happening} {r : Raw} (ht : Tells c ts h r) :
    decode r = some (some (h.ev (keyOf c) ts)) := by
  cases ht with
  | tcpConnect ret x h1 h2 =>
    obtain ⟨s1, s2⟩ := signed_of ret h1 h2
    have hn : (Metric.event "tcp_connect" c [("retval", 8, leBytes 8 (ret % (2 ^ 64 : Nat)).toNat)] ts).name = "tcp_connect" := rfl
    have hr : (Metric.event "tcp_connect" c [("retval", 8, leBytes 8 (ret % (2 ^ 64 : Nat)).toNat)] ts).rest = ts := rfl
    unfold decode
    simp only [hn, hr, tupleKey_event]
    rw [if_neg (by decide), if_pos trivial, Metric.attr_more _ _ _ _ _ (by decide)]
    have : List.find? (fun a : Attr => a.1 == "retval") [("retval", 8, leBytes 8 (ret % (2 ^ 64 : Nat)).toNat)] =
      some ("retval", 8, leBytes 8 (ret % (2 ^ 64 : Nat)).toNat) := rfl
    simp only [this, s1, s2]
    rfl
  | setState old new x h1 h2 h3 h4 =>
    have hi : ∀ (k : String) (z : Int), -(2 ^ 31) ≤ z → z < 2 ^ 31 → getInt (k, 3, leBytes 4 (z % (2 ^ 32 : Nat)).toNat) = some z := by
      intro k z hz1 hz2
      have := (Metric.int_read k).1 3 4 z [] (by decide) (by omega) (by omega)
      simpa using this
    unfold decode
    rw [show (Metric.event "tcp_set_state" c [("old_state", 3, leBytes 4 (old % (2 ^ 32 : Nat)).toNat),
        ("new_state", 3, leBytes 4 (new % (2 ^ 32 : Nat)).toNat)] ts).name = "tcp_set_state" from rfl]
    simp only [tupleKey_event]
    rw [if_neg (by decide), if_neg (by decide), if_pos trivial, Metric.attr_more _ _ _ _ _ (by decide), Metric.attr_more _ _ _ _ _ (by decide)]
    have e1 : ∀ a b : Bytes, List.find? (fun a : Attr => a.1 == "old_state") [("old_state", 3, a), ("new_state", 3, b)] = some ("old_state", 3, a) := by
      intro a b; rfl
    have e2 : ∀ a b : Bytes, List.find? (fun a : Attr => a.1 == "new_state") [("old_state", 3, a), ("new_state", 3, b)] = some ("new_state", 3, b) := by
      intro a b; rfl
    simp only [e1, e2, hi _ _ h1 h2, hi _ _ h3 h4]
    rfl
  | connect res _ h1 h2 hn ht hx hr =>
    have hi : getInt ("res", 4, leBytes 8 (res % (2 ^ 64 : Nat)).toNat) = some res := by
      have := (Metric.int_read "res").1 4 8 res [] (by decide) (by omega) (by omega)
      simpa using this
    unfold decode
    rw [if_pos hn, if_neg (by simp [hx.2.1])]
    simp only [hr, hi, fdKey_of hx, ht]
    rfl
  | send _ hn ht hx =>
    have hf : filterRequest r.ctx = false := by
      obtain ⟨h1, h2, ⟨_, h3⟩, ⟨_, h4⟩, _⟩ := hx
      simp [filterRequest, h1, h2, h3, h4]
    have hne : r.ev.name ≠ "connect" ∧ r.ev.name ≠ "tcp_connect" ∧ r.ev.name ≠ "tcp_set_state" := by
      simp only [List.mem_cons, List.not_mem_nil, or_false] at hn
      rcases hn with h | h | h | h <;> rw [h] <;> decide
    unfold decode
    rw [if_neg hne.1, if_neg hne.2.1, if_neg hne.2.2, if_pos (by simpa using hn), if_neg (by simp [hf])]
    simp only [fdKey_of hx, ht]
    rfl

/-- C95: different connections never share an entry. -/
theorem key_injective {c c' : Metric.Conn} (h : keyOf c = keyOf c') : c = c' := by
  simp only [keyOf, Key.mk.injEq, ← text_of_bytes] at h
  obtain ⟨h1, h2, h3, h4⟩ := h
  have e1 := Ip.ip_text_injective _ _ h1
  have e3 := Ip.ip_text_injective _ _ h3
  rw [Metric.leValue4, Metric.leValue4] at e1 e3
  have b1 := congrArg Ip.int32ToIp e1
  have b3 := congrArg Ip.int32ToIp e3
  rw [Ip.bytes_pack, Ip.bytes_pack] at b1 b3
  simp only [List.cons.injEq, and_true] at b1 b3
  obtain ⟨a0, a1, a2, a3⟩ := b1
  obtain ⟨d0, d1, d2, d3⟩ := b3
  cases c; cases c'
  simp only [Metric.Conn.mk.injEq]
  exact ⟨a0, a1, a2, a3, UInt16.toNat_inj.1 h2, d0, d1, d2, d3, UInt16.toNat_inj.1 h4⟩

/-! ### Reports -/

/-- What an operator should see of an attempt on `c` that ended as `rep` says. -/
def Describes (d : Dnat) (needProcess : Bool) (c : Metric.Conn) (rep : Report) (g : Group) : Prop :=
  g.name = "tcp_connect_metric_group" ∧ g.ts = rep.att.stop ∧
  (rep.success = false → g.metrics = [("kindling_tcp_connect_total", 1)]) ∧
  (rep.success = true → ∃ n, g.metrics = [("kindling_tcp_connect_total", 1), ("kindling_tcp_connect_duration_nanoseconds_total", n)] ∧
    (rep.att.initial < 2 ^ 64 → rep.att.stop < 2 ^ 64 →
      -2 ^ 63 ≤ n ∧ n < 2 ^ 63 ∧ (n - ((rep.att.stop : Int) - rep.att.initial)) % 2 ^ 64 = 0)) ∧
  ∀ name, AMap.get g.labels name =
    if name = "is_server" then some (.bool false)
    else if name = "success" then some (.bool rep.success)
    else if name = "errno" then some (.int rep.att.code)
    else if name = "pid" then (if needProcess then some (.int rep.att.who.pid) else none)
    else if name = "comm" then (if needProcess then some (.str rep.att.who.comm) else none)
    else if name = "container_id" then some (.str rep.att.who.container)
    else if name = "src_ip" then some (.str (Metric.dotted c.s0 c.s1 c.s2 c.s3))
    else if name = "src_port" then some (.int c.sport.toNat)
    else if name = "dst_ip" then some (.str (Metric.dotted c.d0 c.d1 c.d2 c.d3))
    else if name = "dst_port" then some (.int c.dport.toNat)
    else if name = "dnat_ip" then
      some (.str (match d (Metric.dotted c.s0 c.s1 c.s2 c.s3) (Metric.dotted c.d0 c.d1 c.d2 c.d3) c.sport.toNat c.dport.toNat with
        | none => [] | some t => t.1))
    else if name = "dnat_port" then
      some (.int (match d (Metric.dotted c.s0 c.s1 c.s2 c.s3) (Metric.dotted c.d0 c.d1 c.d2 c.d3) c.sport.toNat c.dport.toNat with
        | none => -1 | some t => t.2))
    else none

theorem describes_group (d : Dnat) (np : Bool) (c : Metric.Conn) (x : Conn) (hk : x.key = keyOf c) : Describes d np c x.report (group d np x) := by
  refine ⟨rfl, rfl, ?_, ?_, ?_⟩
  · intro h
    have : ¬ x.state = .success := by simpa [Conn.report] using h
    simp only [group, if_neg this]
  · intro h
    have : x.state = .success := by simpa [Conn.report] using h
    refine ⟨duration x, by simp only [group, if_pos this], ?_⟩
    intro h1 h2
    simp only [Conn.report, Conn.att] at h1 h2 ⊢
    unfold duration signed
    split <;> omega
  · intro name
    have hs := UInt16.toNat_lt c.sport
    have hd := UInt16.toNat_lt c.dport
    have hf : findDnat d x.key.srcIP x.key.srcPort x.key.dstIP x.key.dstPort =
        match d (Metric.dotted c.s0 c.s1 c.s2 c.s3) (Metric.dotted c.d0 c.d1 c.d2 c.d3) c.sport.toNat c.dport.toNat with
        | none => ([], -1) | some t => (t.1, (t.2 : Int)) := by
      rw [hk]
      simp only [findDnat, keyOf]
      rw [Nat.mod_eq_of_lt (by omega), Nat.mod_eq_of_lt (by omega)]
      cases d (Metric.dotted c.s0 c.s1 c.s2 c.s3) (Metric.dotted c.d0 c.d1 c.d2 c.d3) c.sport.toNat c.dport.toNat <;> rfl
    have hk1 : x.key.srcIP = Metric.dotted c.s0 c.s1 c.s2 c.s3 := by rw [hk]; rfl
    have hk2 : x.key.dstIP = Metric.dotted c.d0 c.d1 c.d2 c.d3 := by rw [hk]; rfl
    have hk3 : x.key.srcPort = c.sport.toNat := by rw [hk]; rfl
    have hk4 : x.key.dstPort = c.dport.toNat := by rw [hk]; rfl
    have hc : ∀ (b : Bool) (a e : AMap String Val), AMap.get (if b then a else e) name = if b then AMap.get a name else AMap.get e name := by
      intro b a e; cases b <;> rfl
    show AMap.get (labels d np x) name = _
    unfold labels
    simp only [hf]
    rw [AMap.get_set, AMap.get_set, AMap.get_set, AMap.get_set, AMap.get_set, AMap.get_set, AMap.get_set, AMap.get_set, AMap.get_set, hc, AMap.get_set,
      AMap.get_set, AMap.get_set, hk1, hk2, hk3, hk4]
    simp only [eq_comm (b := name), Conn.report, Conn.att]
    by_cases h0 : name = "is_server"
    · subst h0
      cases np <;> cases d (Metric.dotted c.s0 c.s1 c.s2 c.s3) (Metric.dotted c.d0 c.d1 c.d2 c.d3) c.sport.toNat c.dport.toNat <;> simp
    by_cases h1 : name = "success"
    · subst h1
      cases np <;> cases d (Metric.dotted c.s0 c.s1 c.s2 c.s3) (Metric.dotted c.d0 c.d1 c.d2 c.d3) c.sport.toNat c.dport.toNat <;> simp
    by_cases h2 : name = "errno"
    · subst h2
      cases np <;> cases d (Metric.dotted c.s0 c.s1 c.s2 c.s3) (Metric.dotted c.d0 c.d1 c.d2 c.d3) c.sport.toNat c.dport.toNat <;> simp
    by_cases h3 : name = "pid"
    · subst h3
      cases np <;> cases d (Metric.dotted c.s0 c.s1 c.s2 c.s3) (Metric.dotted c.d0 c.d1 c.d2 c.d3) c.sport.toNat c.dport.toNat <;> simp
    by_cases h4 : name = "comm"
    · subst h4
      cases np <;> cases d (Metric.dotted c.s0 c.s1 c.s2 c.s3) (Metric.dotted c.d0 c.d1 c.d2 c.d3) c.sport.toNat c.dport.toNat <;> simp
    by_cases h5 : name = "container_id"
    · subst h5
      cases np <;> cases d (Metric.dotted c.s0 c.s1 c.s2 c.s3) (Metric.dotted c.d0 c.d1 c.d2 c.d3) c.sport.toNat c.dport.toNat <;> simp
    by_cases h6 : name = "src_ip"
    · subst h6
      cases np <;> cases d (Metric.dotted c.s0 c.s1 c.s2 c.s3) (Metric.dotted c.d0 c.d1 c.d2 c.d3) c.sport.toNat c.dport.toNat <;> simp
    by_cases h7 : name = "src_port"
    · subst h7
      cases np <;> cases d (Metric.dotted c.s0 c.s1 c.s2 c.s3) (Metric.dotted c.d0 c.d1 c.d2 c.d3) c.sport.toNat c.dport.toNat <;> simp
    by_cases h8 : name = "dst_ip"
    · subst h8
      cases np <;> cases d (Metric.dotted c.s0 c.s1 c.s2 c.s3) (Metric.dotted c.d0 c.d1 c.d2 c.d3) c.sport.toNat c.dport.toNat <;> simp
    by_cases h9 : name = "dst_port"
    · subst h9
      cases np <;> cases d (Metric.dotted c.s0 c.s1 c.s2 c.s3) (Metric.dotted c.d0 c.d1 c.d2 c.d3) c.sport.toNat c.dport.toNat <;> simp
    by_cases h10 : name = "dnat_ip"
    · subst h10
      cases np <;> cases d (Metric.dotted c.s0 c.s1 c.s2 c.s3) (Metric.dotted c.d0 c.d1 c.d2 c.d3) c.sport.toNat c.dport.toNat <;> simp
    by_cases h11 : name = "dnat_port"
    · subst h11
      cases np <;> cases d (Metric.dotted c.s0 c.s1 c.s2 c.s3) (Metric.dotted c.d0 c.d1 c.d2 c.d3) c.sport.toNat c.dport.toNat <;> simp
    cases np <;> simp [h0, h1, h2, h3, h4, h5, h6, h7, h8, h9, h10, h11]

/-- What a list of happenings and ticks means for the life of connections. -/
inductive Story
  | happens (c : Metric.Conn) (ts : Nat) (h : Happening)
  | tick (now : Int) (proc : Proc)
  | noise

def Story.ev : Story → List Ev
  | .happens c ts h => [h.ev (keyOf c) ts]
  | .tick now proc => [.trim now proc]
  | .noise => []

/-- How the analyzer is told of it. -/
inductive Told : Story → In → Prop
  | happens {c ts h r} (ht : Tells c ts h r) : Told (.happens c ts h) (.event r)
  | tick (now : Int) (proc : Proc) : Told (.tick now proc) (.tick now proc)
  | noise {r : Raw} (hr : decode r = some none) : Told .noise (.event r)

theorem loop_eq (wait : Int) (ss : List Story) (l : List In) (h : All2 Told ss l) (m : ConnMap) :
    loop wait m l = some (run wait m (ss.flatMap Story.ev)) := by
  induction h generalizing m with
  | nil => rfl
  | cons hd _ ih =>
    cases hd with
    | happens ht =>
      simp only [loop, told_is_understood ht, ih]
      rfl
    | tick now proc =>
      simp only [loop, ih]
      rfl
    | noise hr =>
      simp only [loop, hr, ih]
      rfl

theorem all2_map {α β γ : Type} {R : β → γ → Prop} (f : α → β) (g : α → γ) (l : List α) (h : ∀ x ∈ l, R (f x) (g x)) : All2 R (l.map f) (l.map g) := by
  induction l with
  | nil => exact .nil
  | cons a l ih => exact .cons (h a (by simp)) (ih (fun x hx => h x (by simp [hx])))

/-- C95: for any sequence of events about any connections, sweeps, and other events, the data groups passed on about a connection
(with a source port) are, in order, exactly the descriptions of the reports in the life of its attempts: one group for each attempt that
ended, with its outcome, its error number, the process last seen with it, its addresses and ports, and their translation. -/
theorem reports_exact_partial (d : Dnat) (np : Bool) (wait : Int) (ss : List Story) (l : List In) (h : All2 Told ss l) (c : Metric.Conn) (hc : c.sport ≠ 0) :
    ∃ m out, loop wait [] l = some (m, out) ∧
      All2 (Describes d np c) (specRun wait (keyOf c) none (ss.flatMap Story.ev)).2
        ((out.filter (fun x => decide (x.key = keyOf c))).map (group d np)) := by
  refine ⟨_, _, by rw [loop_eq wait ss l h []], ?_⟩
  have hk : (keyOf c).srcPort ≠ 0 := by
    intro h0
    exact hc (UInt16.toNat_inj.1 (by simpa [keyOf] using h0))
  obtain ⟨_, _, h3⟩ := attempts_reported_once_partial wait (ss.flatMap Story.ev) (m := []) ⟨AMap.wf_nil, by intro k c h; simp at h⟩ (keyOf c) hk
  have hv : view [] (keyOf c) = none := rfl
  rw [hv] at h3
  rw [← h3]
  unfold reportsOf
  refine all2_map _ _ _ ?_
  intro x hx
  rw [List.mem_filter] at hx
  exact describes_group d np c x (by simpa using hx.2)

/-- C95: events that say nothing of an attempt have no effect: other events, connects that are not TCP, events without their tuple or
result, and data sent on anything but a TCP socket. -/
theorem noise_ignored (r : Raw) :
    (r.ev.name ∉ ["connect", "tcp_connect", "tcp_set_state", "write", "writev", "sendto", "sendmsg"] → decode r = some none) ∧
    (r.ev.name = "connect" → r.ctx.protocol ≠ 1 ∨ getAttr r.ev "res" = none → decode r = some none) ∧
    (r.ev.name = "tcp_connect" ∨ r.ev.name = "tcp_set_state" →
      (∀ a, getAttr r.ev "sip" = some a ∨ getAttr r.ev "sport" = some a ∨ getAttr r.ev "dip" = some a ∨ getAttr r.ev "dport" = some a →
        getUint a ≠ none) →
      (∃ k ∈ ["sip", "sport", "dip", "dport"], getAttr r.ev k = none) → decode r = some none) ∧
    (r.ev.name ∈ ["write", "writev", "sendto", "sendmsg"] → r.ctx.category ≠ 3 ∨ r.ctx.protocol ≠ 1 → decode r = some none) := by
  refine ⟨?_, ?_, ?_, ?_⟩
  · intro h
    simp only [List.mem_cons, List.not_mem_nil, or_false, not_or] at h
    obtain ⟨h1, h2, h3, h4, h5, h6, h7⟩ := h
    unfold decode
    rw [if_neg h1, if_neg h2, if_neg h3, if_neg (by simp [h4, h5, h6, h7])]
  · intro h hr
    unfold decode
    rw [if_pos h]
    by_cases hp : r.ctx.protocol = 1
    · rw [if_neg (by simp [hp])]
      rcases hr with hr | hr
      · exact absurd hp hr
      · simp only [hr]
    · rw [if_pos hp]
  · intro h hu hk
    have ht : tupleKey r.ev = .err := by
      have hany : ∀ o : Option Attr, (∀ a, o = some a → getUint a ≠ none) → o.any (fun x => (getUint x).isNone) = false := by
        intro o ho
        cases o with
        | none => rfl
        | some a =>
          have := ho a rfl
          cases hg : getUint a with
          | none => exact absurd hg this
          | some v => simp [hg]
      have a1 := hany (getAttr r.ev "sip") (fun a ha => hu a (Or.inl ha))
      have a2 := hany (getAttr r.ev "sport") (fun a ha => hu a (Or.inr (Or.inl ha)))
      have a3 := hany (getAttr r.ev "dip") (fun a ha => hu a (Or.inr (Or.inr (Or.inl ha))))
      have a4 := hany (getAttr r.ev "dport") (fun a ha => hu a (Or.inr (Or.inr (Or.inr ha))))
      unfold tupleKey
      split
      · rename_i e1 e2 e3 e4
        obtain ⟨k, hk1, hk2⟩ := hk
        simp only [List.mem_cons, List.not_mem_nil, or_false] at hk1
        rcases hk1 with rfl | rfl | rfl | rfl <;> simp_all
      · rw [a1, a2, a3, a4]
        rfl
    unfold decode
    rcases h with h | h
    · rw [if_neg (by rw [h]; decide), if_pos h, ht]
    · rw [if_neg (by rw [h]; decide), if_neg (by rw [h]; decide), if_pos h, ht]
  · intro h hr
    have hne : r.ev.name ≠ "connect" ∧ r.ev.name ≠ "tcp_connect" ∧ r.ev.name ≠ "tcp_set_state" := by
      simp only [List.mem_cons, List.not_mem_nil, or_false] at h
      rcases h with h | h | h | h <;> rw [h] <;> decide
    unfold decode
    rw [if_neg hne.1, if_neg hne.2.1, if_neg hne.2.2, if_pos (by simpa using h)]
    exact if_pos (by rcases hr with hr | hr <;> simp [filterRequest, hr])

/-- C95, finding: a connection that is established before the system call `connect` returns — the usual case — is reported by the change of its
state, without its process, command and container; the system call comes too late and says nothing. -/
theorem process_lost (wait : Int) (c : Metric.Conn) (old : Int) (t0 t1 t2 : Nat) (res : Int) (w : Who) :
    specRun wait (keyOf c) none ([.happens c t0 (.tcpConnect 0), .happens c t1 (.setState old 1), .happens c t2 (.connect res w)].flatMap Story.ev) =
      (none, [⟨true, ⟨⟨0, [], []⟩, t0, t1, 0⟩⟩]) := by
  simp [specRun, specStep, judge, Story.ev, Happening.ev, nobody]

/-- C95, finding: an attempt that ran into its time limit is reported as a failure with error number 0. -/
theorem timeout_without_errno (wait now : Int) (proc : Proc) (c : Metric.Conn) (t0 t1 : Nat) (w : Who) (hw : w.pid ≠ 0) (hn : wait ≤ now - t0)
    (hp : (proc w.pid).bind (· (keyOf c)) = none) :
    specRun wait (keyOf c) none ([.happens c t0 (.tcpConnect 0), .happens c t1 (.connect (-115) w), .tick now proc].flatMap Story.ev) =
      (none, [⟨false, ⟨w, t0, t1, 0⟩⟩]) := by
  have h1 : ¬ (w.pid = 0 ∨ now - (t0 : Int) < wait) := by omega
  simp [specRun, specStep, judge, Story.ev, Happening.ev, h1, hp]

/-- C95, finding: a parameter with too few bytes crashes the collector. -/
theorem short_result_panics (r : Raw) (hn : r.ev.name = "connect") (hp : r.ctx.protocol = 1) (b : Bytes) (hb : b.length < 8)
    (hr : getAttr r.ev "res" = some ("res", 4, b)) (m : ConnMap) (wait : Int) (l : List In) : loop wait m (.event r :: l) = none := by
  have hi : getInt ("res", 4, b) = none := (Metric.int_read "res").2.1 4 8 b (by decide) hb
  have : decode r = none := by
    unfold decode
    rw [if_pos hn, if_neg (by simp [hp])]
    simp only [hr, hi]
  simp only [loop, this]

/-- A connection, its descriptor and process. -/
def conn1 : Metric.Conn := ⟨10, 0, 0, 1, 40000, 10, 0, 0, 2, 80⟩
def ctx1 : Ctx := ⟨3, 1, [0x0100000a, 0, 0, 0], [0x0200000a, 0, 0, 0], 40000, 80, ⟨7, bs "curl", bs "c1"⟩⟩
def connect1 : Raw := ⟨⟨"connect", 2, ("fd", 4, leBytes 8 5) :: ("res", 4, leBytes 8 (2 ^ 64 - 111)) :: List.replicate 14 ("", 0, []), 9⟩, ctx1⟩

example : IsFd conn1 ctx1 := ⟨rfl, rfl, ⟨[0, 0, 0], by decide +kernel⟩, ⟨[0, 0, 0], by decide +kernel⟩, rfl, rfl⟩
example : Tells conn1 9 (.connect (-111) ⟨7, bs "curl", bs "c1"⟩) connect1 :=
  .connect (-111) connect1 (by decide) (by decide) rfl rfl ⟨rfl, rfl, ⟨[0, 0, 0], by decide +kernel⟩, ⟨[0, 0, 0], by decide +kernel⟩, rfl, rfl⟩ (by decide +kernel)
example : All2 Told [.happens conn1 5 (.tcpConnect 0), .happens conn1 9 (.connect (-111) ⟨7, bs "curl", bs "c1"⟩)]
    [.event ⟨Metric.event "tcp_connect" conn1 [("retval", 8, leBytes 8 ((0 : Int) % (2 ^ 64 : Nat)).toNat)] 5, ctx1⟩, .event connect1] :=
  .cons (.happens (.tcpConnect 0 ctx1 (by decide) (by decide)))
    (.cons (.happens (.connect (-111) connect1 (by decide) (by decide) rfl rfl
      ⟨rfl, rfl, ⟨[0, 0, 0], by decide +kernel⟩, ⟨[0, 0, 0], by decide +kernel⟩, rfl, rfl⟩ (by decide +kernel))) .nil)
example : (specRun 10 (keyOf conn1) none ([.happens conn1 5 (.tcpConnect 0), .happens conn1 9 (.connect (-111) ⟨7, bs "curl", bs "c1"⟩)].flatMap Story.ev)).2 =
    [⟨false, ⟨⟨7, bs "curl", bs "c1"⟩, 5, 9, -111⟩⟩] := by decide +kernel

/-- C95: the ports of a key are 32-bit numbers, whatever the probe sent. -/
theorem tupleKey_ports {e : Metric.Ev} {k : Key} (h : tupleKey e = .ok k) : k.srcPort < 2 ^ 32 ∧ k.dstPort < 2 ^ 32 := by
  unfold tupleKey at h
  split at h
  · split at h
    · cases h; exact ⟨Nat.mod_lt _ (by decide), Nat.mod_lt _ (by decide)⟩
    · cases h
  · split at h <;> cases h

end Kindling.Tcp.Report
