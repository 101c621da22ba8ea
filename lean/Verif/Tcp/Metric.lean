import Verif.Model.Event
import Verif.Tools.Ip
/-
The TCP metrics: `collector/pkg/component/analyzer/tcpmetricanalyzer/tcp_analyzer.go`, the numbers in event parameters
(`model/kindling_event_helper.go:56-75, 316-342`), and what the probe puts into the events
(`probe/src/cgo/kindling.cpp:357-370, 388-427, 764-797`).
-/
namespace Kindling.Tcp.Metric
open Kindling Kindling.Model

/-- Events with numeric value types (model/kindling_event.go:104-119); `rest` is the timestamp. -/
abbrev Ev := Event Nat Nat

abbrev Attr := String × Nat × Bytes

def INT8 : Nat := 1
def INT16 : Nat := 2
def INT32 : Nat := 3
def INT64 : Nat := 4
def UINT8 : Nat := 5
def UINT16 : Nat := 6
def UINT32 : Nat := 7
def UINT64 : Nat := 8

/-- `byteOrder.UintN` of the first `w` bytes; fewer bytes are a panic (`none`). -/
def readLE (w : Nat) (b : Bytes) : Option Nat := if w ≤ b.length then some (leValue (b.take w)) else none

/-- `intN(uintN)` and `int64(uint64)`: two's complement of `w` bytes. -/
def signed (w n : Nat) : Int := if 2 * n < 256 ^ w then (n : Int) else (n : Int) - (256 ^ w : Nat)

/-- `GetUintValue` (kindling_event_helper.go:316-328). -/
def getUint (a : Attr) : Option Nat :=
  if a.2.1 = UINT8 then readLE 1 a.2.2
  else if a.2.1 = UINT16 then readLE 2 a.2.2
  else if a.2.1 = UINT32 then readLE 4 a.2.2
  else if a.2.1 = UINT64 then readLE 8 a.2.2
  else some 0

/-- `GetIntValue` (kindling_event_helper.go:330-342). -/
def getInt (a : Attr) : Option Int :=
  if a.2.1 = INT8 then (readLE 1 a.2.2).map (signed 1)
  else if a.2.1 = INT16 then (readLE 2 a.2.2).map (signed 2)
  else if a.2.1 = INT32 then (readLE 4 a.2.2).map (signed 4)
  else if a.2.1 = INT64 then (readLE 8 a.2.2).map (signed 8)
  else some 0

/-- `GetUintUserAttribute` (kindling_event_helper.go:61-67). -/
def getUintUser (e : Ev) (key : String) : Option Nat := match getAttr e key with
  | none => some 0
  | some a => getUint a

/-- The labels (tcp_analyzer.go:155-165). -/
structure Labels where
  srcIp : Bytes
  srcPort : Int
  dstIp : Bytes
  dstPort : Int
  dnatIp : Bytes
  dnatPort : Int
deriving DecidableEq, Repr

/-- `GetDNATTupleWithString` of the conntracker, for TCP: any function of the two address texts and 16-bit ports, giving the text of
the translated address and its port.  (The tracker itself is in `Verif.Conn`.) -/
abbrev Dnat := Bytes → Bytes → Nat → Nat → Option (Bytes × Nat)

/-- `findDNatTuple` (tcp_analyzer.go:168-176). -/
def findDnat (d : Dnat) (sIp : Bytes) (sPort : Nat) (dIp : Bytes) (dPort : Nat) : Bytes × Int :=
  match d sIp dIp (sPort % 65536) (dPort % 65536) with
  | none => ([], -1)
  | some (ip, port) => (ip, port)

/-- `getTupleLabels` (tcp_analyzer.go:137-166): panic, error (a missing parameter), or the labels. -/
def tupleLabels (d : Dnat) (e : Ev) : Res Labels :=
  match getAttr e "sip", getAttr e "sport", getAttr e "dip", getAttr e "dport" with
  | some sip, some sport, some dip, some dport =>
    match getUint sip, getUint sport, getUint dip, getUint dport with
    | some si, some sp, some di, some dp =>
      let st := Ip.ipLong2String (UInt32.ofNat si)
      let dt := Ip.ipLong2String (UInt32.ofNat di)
      let n := findDnat d st sp dt dp
      .ok ⟨st, signed 8 sp, dt, signed 8 dp, n.1, n.2⟩
    | _, _, _, _ => .panic
  | _, _, _, _ => .err

/-- A `DataGroup` with one integer metric. -/
structure Group where
  name : String
  labels : Labels
  ts : Nat
  metric : String
  value : Int
deriving DecidableEq, Repr

/-- `generateRtt` (tcp_analyzer.go:95-109). -/
def generateRtt (d : Dnat) (e : Ev) : Res (Option Group) := match tupleLabels d e with
  | .err => .err
  | .panic => .panic
  | .ok l => match getUintUser e "rtt" with
    | none => .panic
    | some r => .ok (if r = 0 then none else some ⟨"tcp_rtt_metric_group", l, e.rest, "kindling_tcp_srtt_microseconds", signed 8 r⟩)

/-- The number of segments (tcp_analyzer.go:117-121). -/
def segments (e : Ev) : Option Int := match getAttr e "segs" with
  | none => some 1
  | some a => if a.2.1 = INT32 then getInt a else some 1

/-- `generateRetransmit` (tcp_analyzer.go:111-125). -/
def generateRetransmit (d : Dnat) (e : Ev) : Res (Option Group) := match tupleLabels d e with
  | .err => .err
  | .panic => .panic
  | .ok l => match segments e with
    | none => .panic
    | some n => .ok (some ⟨"tcp_retransmit_metric_group", l, e.rest, "kindling_tcp_retransmit_total", n⟩)

/-- `generateDrop` (tcp_analyzer.go:127-134). -/
def generateDrop (d : Dnat) (e : Ev) : Res (Option Group) := match tupleLabels d e with
  | .err => .err
  | .panic => .panic
  | .ok l => .ok (some ⟨"tcp_drop_metric_group", l, e.rest, "kindling_tcp_packet_loss_total", 1⟩)

/-- `ConsumeEvent` (tcp_analyzer.go:54-93) up to the consumers: what they all get; `none` is a panic, `some none` nothing.  The code also
passes on the errors of the consumers. -/
def consume (d : Dnat) (e : Ev) : Option (Option Group) :=
  let r := if e.name = "tcp_close" ∨ e.name = "tcp_rcv_established" then generateRtt d e
    else if e.name = "tcp_drop" then generateDrop d e
    else if e.name = "tcp_retransmit_skb" then generateRetransmit d e
    else .ok none
  match r with
  | .ok g => some g
  | .err => some none
  | .panic => none

/-! ### What the probe sends -/

/-- A connection of IPv4: the four bytes of each address and the ports. -/
structure Conn where
  s0 : UInt8
  s1 : UInt8
  s2 : UInt8
  s3 : UInt8
  sport : UInt16
  d0 : UInt8
  d1 : UInt8
  d2 : UInt8
  d3 : UInt8
  dport : UInt16

/-- `setTuple` (kindling.cpp:764-797): the address bytes in network order, the ports in the byte order of the machine. -/
def Conn.attrs (c : Conn) : List Attr :=
  [("sip", UINT32, [c.s0, c.s1, c.s2, c.s3]), ("sport", UINT16, leBytes 2 c.sport.toNat),
   ("dip", UINT32, [c.d0, c.d1, c.d2, c.d3]), ("dport", UINT16, leBytes 2 c.dport.toNat)]

/-- Dotted text of an address. -/
def dotted (a b c d : UInt8) : Bytes := Dec.digits a.toNat ++ [46] ++ Dec.digits b.toNat ++ [46] ++ Dec.digits c.toNat ++ [46] ++ Dec.digits d.toNat

/-- The labels an operator expects. -/
def Conn.expected (c : Conn) (d : Dnat) : Labels :=
  let st := dotted c.s0 c.s1 c.s2 c.s3
  let dt := dotted c.d0 c.d1 c.d2 c.d3
  match d st dt c.sport.toNat c.dport.toNat with
  | none => ⟨st, c.sport.toNat, dt, c.dport.toNat, [], -1⟩
  | some (ip, port) => ⟨st, c.sport.toNat, dt, c.dport.toNat, ip, port⟩

/-- An event of the probe about a connection, with more parameters after the tuple. -/
def event (name : String) (c : Conn) (more : List Attr) (ts : Nat) : Ev :=
  { name := name, paramsNumber := 4 + more.length, attrs := c.attrs ++ more ++ List.replicate (12 - more.length) ("", 0, []), rest := ts }

theorem attr_sip (name : String) (c : Conn) (more : List Attr) (ts : Nat) : getAttr (event name c more ts) "sip" = some ("sip", UINT32, [c.s0, c.s1, c.s2, c.s3]) := by
  rw [getAttr, event, Nat.add_comm 4]; rfl
theorem attr_sport (name : String) (c : Conn) (more : List Attr) (ts : Nat) : getAttr (event name c more ts) "sport" = some ("sport", UINT16, leBytes 2 c.sport.toNat) := by
  rw [getAttr, event, Nat.add_comm 4]; rfl
theorem attr_dip (name : String) (c : Conn) (more : List Attr) (ts : Nat) : getAttr (event name c more ts) "dip" = some ("dip", UINT32, [c.d0, c.d1, c.d2, c.d3]) := by
  rw [getAttr, event, Nat.add_comm 4]; rfl
theorem attr_dport (name : String) (c : Conn) (more : List Attr) (ts : Nat) : getAttr (event name c more ts) "dport" = some ("dport", UINT16, leBytes 2 c.dport.toNat) := by
  rw [getAttr, event, Nat.add_comm 4]; rfl

/-- A parameter after the tuple is found under its name. -/
theorem attr_more (name : String) (c : Conn) (more : List Attr) (ts : Nat) (k : String) (hk : k ∉ ["sip", "sport", "dip", "dport"]) :
    getAttr (event name c more ts) k = more.find? (fun a => a.1 == k) := by
  have e : (event name c more ts).attrs.take (event name c more ts).paramsNumber = c.attrs ++ more := by
    simp only [event]
    rw [List.take_append_of_le_length (by simp [Conn.attrs]; omega), List.take_of_length_le (by simp [Conn.attrs]; omega)]
  rw [getAttr, e, List.find?_append]
  simp only [List.mem_cons, List.not_mem_nil, or_false, not_or] at hk
  obtain ⟨h1, h2, h3, h4⟩ := hk
  have : List.find? (fun a : Attr => a.1 == k) c.attrs = none := by
    simp only [Conn.attrs, List.find?_eq_none, List.mem_cons, List.not_mem_nil, or_false, forall_eq_or_imp, forall_eq, beq_iff_eq]
    exact ⟨Ne.symm h1, Ne.symm h2, Ne.symm h3, Ne.symm h4⟩
  rw [this]; rfl

theorem leValue4 (a b c d : UInt8) : UInt32.ofNat (leValue [a, b, c, d]) = Ip.pack a.toUInt32 b.toUInt32 c.toUInt32 d.toUInt32 := by
  apply UInt32.toNat_inj.1
  have ha := UInt8.toNat_lt a
  have hb := UInt8.toNat_lt b
  have hc := UInt8.toNat_lt c
  have hd := UInt8.toNat_lt d
  rw [Ip.pack_toNat]
  simp only [leValue, UInt32.toNat_ofNat']
  omega

theorem readLE_leBytes (w n : Nat) (h : n < 256 ^ w) : readLE w (leBytes w n) = some n := by
  have hl := leBytes_length w n
  rw [readLE, if_pos (by omega), List.take_of_length_le (by omega), leValue_leBytes w n h]

theorem signed_small (n : Nat) (h : n < 2 ^ 32) : signed 8 n = n := by
  unfold signed
  rw [if_pos (by omega)]

/-- C86: the labels of every event about an IPv4 connection are the dotted addresses and the ports the kernel saw, and the
translation the conntracker has for exactly that connection. -/
theorem labels_exact (d : Dnat) (name : String) (c : Conn) (more : List Attr) (ts : Nat) :
    tupleLabels d (event name c more ts) = .ok (c.expected d) := by
  have hs := UInt16.toNat_lt c.sport
  have hd := UInt16.toNat_lt c.dport
  have e1 : getUint ("sip", UINT32, [c.s0, c.s1, c.s2, c.s3]) = some (leValue [c.s0, c.s1, c.s2, c.s3]) := rfl
  have e2 : getUint ("dip", UINT32, [c.d0, c.d1, c.d2, c.d3]) = some (leValue [c.d0, c.d1, c.d2, c.d3]) := rfl
  have e3 : getUint ("sport", UINT16, leBytes 2 c.sport.toNat) = some c.sport.toNat := by
    have : getUint ("sport", UINT16, leBytes 2 c.sport.toNat) = readLE 2 (leBytes 2 c.sport.toNat) := rfl
    rw [this, readLE_leBytes 2 _ (by simpa using hs)]
  have e4 : getUint ("dport", UINT16, leBytes 2 c.dport.toNat) = some c.dport.toNat := by
    have : getUint ("dport", UINT16, leBytes 2 c.dport.toNat) = readLE 2 (leBytes 2 c.dport.toNat) := rfl
    rw [this, readLE_leBytes 2 _ (by simpa using hd)]
  have t1 : Ip.ipLong2String (UInt32.ofNat (leValue [c.s0, c.s1, c.s2, c.s3])) = dotted c.s0 c.s1 c.s2 c.s3 := by
    rw [leValue4, Ip.ip_text_of_bytes]; rfl
  have t2 : Ip.ipLong2String (UInt32.ofNat (leValue [c.d0, c.d1, c.d2, c.d3])) = dotted c.d0 c.d1 c.d2 c.d3 := by
    rw [leValue4, Ip.ip_text_of_bytes]; rfl
  simp only [tupleLabels, attr_sip, attr_sport, attr_dip, attr_dport, e1, e2, e3, e4, t1, t2, Conn.expected, findDnat]
  rw [signed_small _ (by omega), signed_small _ (by omega), Nat.mod_eq_of_lt (by omega), Nat.mod_eq_of_lt (by omega)]
  cases d (dotted c.s0 c.s1 c.s2 c.s3) (dotted c.d0 c.d1 c.d2 c.d3) c.sport.toNat c.dport.toNat with
  | none => rfl
  | some p => rfl

/-- C86: a round-trip time that is not zero is reported, exactly once, with its value; zero is not reported. -/
theorem rtt_reported (d : Dnat) (name : String) (hn : name = "tcp_close" ∨ name = "tcp_rcv_established") (c : Conn) (rtt : UInt32) (ts : Nat) :
    consume d (event name c [("rtt", UINT32, leBytes 4 rtt.toNat)] ts) =
      some (if rtt = 0 then none else some ⟨"tcp_rtt_metric_group", c.expected d, ts, "kindling_tcp_srtt_microseconds", rtt.toNat⟩) := by
  have hr := UInt32.toNat_lt rtt
  have hname : (event name c [("rtt", UINT32, leBytes 4 rtt.toNat)] ts).name = name := rfl
  have hg : getUintUser (event name c [("rtt", UINT32, leBytes 4 rtt.toNat)] ts) "rtt" = some rtt.toNat := by
    rw [getUintUser, attr_more _ _ _ _ _ (by decide)]
    have : List.find? (fun a : Attr => a.1 == "rtt") [("rtt", UINT32, leBytes 4 rtt.toNat)] = some ("rtt", UINT32, leBytes 4 rtt.toNat) := rfl
    rw [this]
    have : getUint ("rtt", UINT32, leBytes 4 rtt.toNat) = readLE 4 (leBytes 4 rtt.toNat) := rfl
    simp only [this, readLE_leBytes 4 _ (by simpa using hr)]
  unfold consume
  rw [hname, if_pos hn]
  simp only [generateRtt, labels_exact, hg, signed_small _ hr]
  have : rtt.toNat = 0 ↔ rtt = 0 := by
    constructor
    · intro h; exact UInt32.toNat_inj.1 (by simpa using h)
    · rintro rfl; rfl
  simp only [this]
  rfl

/-- C86: every drop is counted once, whatever else the event says. -/
theorem drop_reported (d : Dnat) (c : Conn) (more : List Attr) (ts : Nat) :
    consume d (event "tcp_drop" c more ts) = some (some ⟨"tcp_drop_metric_group", c.expected d, ts, "kindling_tcp_packet_loss_total", 1⟩) := by
  have hname : (event "tcp_drop" c more ts).name = "tcp_drop" := rfl
  unfold consume
  rw [hname, if_neg (by decide), if_pos rfl]
  simp only [generateDrop, labels_exact]
  rfl

/-- C86: a retransmission is counted with the number of segments the kernel gave, or as one without it. -/
theorem retransmit_reported (d : Dnat) (c : Conn) (ts : Nat) (segs : Option (Fin (2 ^ 31))) :
    consume d (event "tcp_retransmit_skb" c (match segs with | none => [] | some n => [("segs", INT32, leBytes 4 n.val)]) ts) =
      some (some ⟨"tcp_retransmit_metric_group", c.expected d, ts, "kindling_tcp_retransmit_total", match segs with | none => 1 | some n => n.val⟩) := by
  unfold consume
  cases segs with
  | none =>
    have hname : (event "tcp_retransmit_skb" c [] ts).name = "tcp_retransmit_skb" := rfl
    simp only [hname]
    rw [if_neg (by decide), if_neg (by decide), if_pos trivial]
    have hs : segments (event "tcp_retransmit_skb" c [] ts) = some 1 := by
      rw [segments, attr_more _ _ _ _ _ (by decide)]; rfl
    simp only [generateRetransmit, labels_exact, hs]
    rfl
  | some n =>
    have hname : (event "tcp_retransmit_skb" c [("segs", INT32, leBytes 4 n.val)] ts).name = "tcp_retransmit_skb" := rfl
    simp only [hname]
    rw [if_neg (by decide), if_neg (by decide), if_pos trivial]
    have hn := n.isLt
    have hs : segments (event "tcp_retransmit_skb" c [("segs", INT32, leBytes 4 n.val)] ts) = some (n.val : Int) := by
      rw [segments, attr_more _ _ _ _ _ (by decide)]
      have : List.find? (fun a : Attr => a.1 == "segs") [("segs", INT32, leBytes 4 n.val)] = some ("segs", INT32, leBytes 4 n.val) := rfl
      rw [this]
      have : getInt ("segs", INT32, leBytes 4 n.val) = (readLE 4 (leBytes 4 n.val)).map (signed 4) := rfl
      simp only [if_true, this, readLE_leBytes 4 n.val (by omega), Option.map_some]
      rw [signed, if_pos (by omega)]
    simp only [generateRetransmit, labels_exact, hs]
    rfl

/-- C86: events of other names give nothing. -/
theorem other_events (d : Dnat) (e : Ev) (h : e.name ∉ ["tcp_close", "tcp_rcv_established", "tcp_drop", "tcp_retransmit_skb"]) :
    consume d e = some none := by
  simp only [List.mem_cons, List.not_mem_nil, or_false, not_or] at h
  obtain ⟨h1, h2, h3, h4⟩ := h
  unfold consume
  rw [if_neg (by simp [h1, h2]), if_neg h3, if_neg h4]

/-- C86: an event without one of the four parameters of the connection gives nothing and does not crash. -/
theorem incomplete_events (d : Dnat) (e : Ev) (k : String) (hk : k ∈ ["sip", "sport", "dip", "dport"]) (h : getAttr e k = none) :
    consume d e = some none := by
  have ht : tupleLabels d e = .err := by
    simp only [List.mem_cons, List.not_mem_nil, or_false] at hk
    unfold tupleLabels
    rcases hk with rfl | rfl | rfl | rfl
    · rw [h]
    · rw [h]; cases getAttr e "sip" <;> rfl
    · rw [h]; cases getAttr e "sip" <;> cases getAttr e "sport" <;> rfl
    · rw [h]; cases getAttr e "sip" <;> cases getAttr e "sport" <;> cases getAttr e "dip" <;> rfl
  unfold consume
  simp only [generateRtt, generateDrop, generateRetransmit, ht]
  split <;> rename_i hg
  · split at hg
    · exact absurd hg (by simp)
    · split at hg
      · exact absurd hg (by simp)
      · split at hg
        · exact absurd hg (by simp)
        · injection hg with hg; rw [← hg]
  · rfl
  · split at hg
    · exact absurd hg (by simp)
    · split at hg
      · exact absurd hg (by simp)
      · split at hg
        · exact absurd hg (by simp)
        · exact absurd hg (by simp)

/-- C86, finding: an event with a parameter shorter than its type says crashes the collector. -/
theorem short_param_panics (d : Dnat) (e : Ev) (hn : e.name ∈ ["tcp_close", "tcp_rcv_established", "tcp_drop", "tcp_retransmit_skb"])
    (sip sport dip dport : Attr) (h1 : getAttr e "sip" = some sip) (h2 : getAttr e "sport" = some sport) (h3 : getAttr e "dip" = some dip)
    (h4 : getAttr e "dport" = some dport) (ht : sip.2.1 = UINT32) (hs : sip.2.2.length < 4) : consume d e = none := by
  have hu : getUint sip = none := by
    unfold getUint readLE
    rw [ht, if_neg (by decide), if_neg (by decide), if_pos rfl, if_neg (by omega)]
  have hl : tupleLabels d e = .panic := by simp only [tupleLabels, h1, h2, h3, h4, hu]
  simp only [List.mem_cons, List.not_mem_nil, or_false] at hn
  unfold consume
  simp only [generateRtt, generateDrop, generateRetransmit, hl]
  rcases hn with hn | hn | hn | hn <;> simp [hn]

example : consume (fun _ _ _ _ => some (bs "172.16.0.9", 8080)) (event "tcp_close" ⟨10, 0, 0, 1, 40000, 10, 96, 0, 7, 80⟩ [("rtt", UINT32, [0xe8, 3, 0, 0])] 77) =
    some (some ⟨"tcp_rtt_metric_group", ⟨bs "10.0.0.1", 40000, bs "10.96.0.7", 80, bs "172.16.0.9", 8080⟩, 77, "kindling_tcp_srtt_microseconds", 1000⟩) := by
  decide +kernel
example : (event "tcp_drop" ⟨10, 0, 0, 1, 40000, 10, 96, 0, 7, 80⟩ [] 77).attrs.length = 16 := by decide

/-! ### One tracker for all analyzers -/

/-- `NewConntracker` (conntracker_linux.go:20-49): `once`, so the first call decides; `none` is a call without a configuration.  `mk` is
`internal.NewConntracker`, which may fail.  Gives the tracker everybody shares: `none` is the one that never translates. -/
def shared {C X : Type} (enabled : C → Bool) (mk : C → Option X) : List (Option C) → Option (Option X)
  | [] => none
  | none :: _ => some none
  | some c :: _ => some (if enabled c then mk c else none)

/-- C86, finding: a configuration that enables tracking has no effect if any analyzer asked for the tracker before without one. -/
theorem later_config_ignored {C X : Type} (enabled : C → Bool) (mk : C → Option X) (cs : List (Option C)) :
    shared enabled mk (none :: cs) = some none ∧ ∀ c x, enabled c = true → mk c = some x → shared enabled mk (some c :: cs) = some (some x) := by
  refine ⟨rfl, fun c x h h' => ?_⟩
  simp only [shared, h, if_true, h']

/-! ### Numbers of every type -/

theorem readLE_prefix (w n : Nat) (r : Bytes) (h : n < 256 ^ w) : readLE w (leBytes w n ++ r) = some n := by
  have hl := leBytes_length w n
  rw [readLE, if_pos (by rw [List.length_append]; omega), List.take_append_of_le_length (by omega), List.take_of_length_le (by omega),
    leValue_leBytes w n h]

/-- C86: an unsigned number of any of the four widths reads back as it was written, whatever bytes follow; a parameter of any other
type counts as zero; too few bytes crash.  The type codes are those of the probe (model/kindling_event.go:104-119). -/
theorem uint_read (k : String) :
    (∀ t w n r, (t, w) ∈ [(5, 1), (6, 2), (7, 4), (8, 8)] → n < 256 ^ w → getUint (k, t, leBytes w n ++ r) = some n) ∧
    (∀ t w b, (t, w) ∈ [(5, 1), (6, 2), (7, 4), (8, 8)] → b.length < w → getUint (k, t, b) = none) ∧
    ∀ t b, t ∉ [5, 6, 7, 8] → getUint (k, t, b) = some 0 := by
  refine ⟨?_, ?_, ?_⟩
  · intro t w n r h hn
    simp only [List.mem_cons, List.not_mem_nil, or_false, Prod.mk.injEq] at h
    rcases h with ⟨rfl, rfl⟩ | ⟨rfl, rfl⟩ | ⟨rfl, rfl⟩ | ⟨rfl, rfl⟩ <;> simp [getUint, UINT8, UINT16, UINT32, UINT64, readLE_prefix _ n r hn]
  · intro t w b h hb
    simp only [List.mem_cons, List.not_mem_nil, or_false, Prod.mk.injEq] at h
    rcases h with ⟨rfl, rfl⟩ | ⟨rfl, rfl⟩ | ⟨rfl, rfl⟩ | ⟨rfl, rfl⟩ <;> simp [getUint, UINT8, UINT16, UINT32, UINT64, readLE] <;> first | omega | (intro h; omega) | exact List.eq_nil_of_length_eq_zero (by omega)
  · intro t b h
    simp only [List.mem_cons, List.not_mem_nil, or_false, not_or] at h
    obtain ⟨h1, h2, h3, h4⟩ := h
    simp [getUint, UINT8, UINT16, UINT32, UINT64, h1, h2, h3, h4]

/-- C86: the same for signed numbers, in two's complement. -/
theorem int_read (k : String) :
    (∀ t w (z : Int) r, (t, w) ∈ [(1, 1), (2, 2), (3, 4), (4, 8)] → -(256 ^ w : Nat) ≤ 2 * z → 2 * z < (256 ^ w : Nat) →
      getInt (k, t, leBytes w (z % (256 ^ w : Nat)).toNat ++ r) = some z) ∧
    (∀ t w b, (t, w) ∈ [(1, 1), (2, 2), (3, 4), (4, 8)] → b.length < w → getInt (k, t, b) = none) ∧
    ∀ t b, t ∉ [1, 2, 3, 4] → getInt (k, t, b) = some 0 := by
  refine ⟨?_, ?_, ?_⟩
  · intro t w z r h h1 h2
    have hn : (z % (256 ^ w : Nat)).toNat < 256 ^ w := by
      have : (0 : Int) < (256 ^ w : Nat) := by exact_mod_cast Nat.pow_pos (by decide)
      have := Int.emod_lt_of_pos z this
      have := Int.emod_nonneg z (b := (256 ^ w : Nat)) (by omega)
      omega
    have hs : signed w (z % (256 ^ w : Nat)).toNat = z := by
      unfold signed
      have hp : (0 : Int) < (256 ^ w : Nat) := by exact_mod_cast Nat.pow_pos (by decide)
      have hnn := Int.emod_nonneg z (b := (256 ^ w : Nat)) (by omega)
      by_cases hz : 0 ≤ z
      · have e : z % (256 ^ w : Nat) = z := Int.emod_eq_of_lt hz (by omega)
        rw [if_pos (by omega)]; omega
      · have e : z % (256 ^ w : Nat) = z + (256 ^ w : Nat) := by
          rw [← Int.add_emod_right]; exact Int.emod_eq_of_lt (by omega) (by omega)
        rw [if_neg (by omega)]; omega
    simp only [List.mem_cons, List.not_mem_nil, or_false, Prod.mk.injEq] at h
    rcases h with ⟨rfl, rfl⟩ | ⟨rfl, rfl⟩ | ⟨rfl, rfl⟩ | ⟨rfl, rfl⟩ <;>
      simp only [getInt, INT8, INT16, INT32, INT64, readLE_prefix _ _ r hn, Option.map_some, hs] <;> rfl
  · intro t w b h hb
    simp only [List.mem_cons, List.not_mem_nil, or_false, Prod.mk.injEq] at h
    rcases h with ⟨rfl, rfl⟩ | ⟨rfl, rfl⟩ | ⟨rfl, rfl⟩ | ⟨rfl, rfl⟩ <;> simp [getInt, INT8, INT16, INT32, INT64, readLE] <;> first | omega | (intro h; omega) | exact List.eq_nil_of_length_eq_zero (by omega)
  · intro t b h
    simp only [List.mem_cons, List.not_mem_nil, or_false, not_or] at h
    obtain ⟨h1, h2, h3, h4⟩ := h
    simp [getInt, INT8, INT16, INT32, INT64, h1, h2, h3, h4]

/-- C86: a retransmission whose number of segments is not a 32-bit integer counts as one; a round trip event without a time is not
reported. -/
theorem unusual_parameters (d : Dnat) (c : Conn) (ts : Nat) (t : Nat) (b : Bytes) (ht : t ≠ 3) (name : String)
    (hn : name = "tcp_close" ∨ name = "tcp_rcv_established") :
    consume d (event "tcp_retransmit_skb" c [("segs", t, b)] ts) =
      some (some ⟨"tcp_retransmit_metric_group", c.expected d, ts, "kindling_tcp_retransmit_total", 1⟩) ∧
    consume d (event name c [] ts) = some none := by
  constructor
  · unfold consume
    have hname : (event "tcp_retransmit_skb" c [("segs", t, b)] ts).name = "tcp_retransmit_skb" := rfl
    simp only [hname]
    rw [if_neg (by decide), if_neg (by decide), if_pos trivial]
    have hs : segments (event "tcp_retransmit_skb" c [("segs", t, b)] ts) = some 1 := by
      rw [segments, attr_more _ _ _ _ _ (by decide)]
      have : List.find? (fun a : Attr => a.1 == "segs") [("segs", t, b)] = some ("segs", t, b) := rfl
      rw [this]
      exact if_neg ht
    simp only [generateRetransmit, labels_exact, hs]
    rfl
  · unfold consume
    have hname : (event name c [] ts).name = name := rfl
    have hg : getUintUser (event name c [] ts) "rtt" = some 0 := by
      rw [getUintUser, attr_more _ _ _ _ _ (by decide)]; rfl
    rw [hname, if_pos hn]
    simp only [generateRtt, labels_exact, hg]
    rfl

/-- C86: the conntracker is asked about the ports as 16-bit numbers. -/
theorem tracker_ports (d : Dnat) (s t : Bytes) (p q : UInt16) (i j : Nat) :
    findDnat d s (p.toNat + 2 ^ 16 * i) t (q.toNat + 2 ^ 16 * j) =
      match d s t p.toNat q.toNat with | none => ([], -1) | some (ip, port) => (ip, (port : Int)) := by
  have hp := UInt16.toNat_lt p
  have hq := UInt16.toNat_lt q
  have e1 : (p.toNat + 2 ^ 16 * i) % 65536 = p.toNat := by omega
  have e2 : (q.toNat + 2 ^ 16 * j) % 65536 = q.toNat := by omega
  simp only [findDnat, e1, e2]

example : getInt ("segs", 3, leBytes 4 ((-5 : Int) % (256 ^ 4 : Nat)).toNat ++ [9]) = some (-5) := by decide +kernel

end Kindling.Tcp.Metric
