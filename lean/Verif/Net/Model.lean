import Verif.Basic
import Verif.Dec
/-
Model of collector/pkg/component/analyzer/network/message_pair.go and of the TCP part of
network_analyzer.go, each exported step taken atomically (interleavings: Verif/Net/Conc.lean).

Simplifications, for the whole file:
* byte counts (`resVal`) are unbounded integers instead of int64;
* slices are values: `append` never overwrites memory that another slice shares;
* conntrack (network_analyzer.go:459-470) only adds a label to the exchange and is left out;
* `isSend` is not needed when steps are atomic: a distributed exchange is no longer stored.
-/
namespace Kindling.Net
open Kindling

/-- Go's conversion `int64(uint64)`. -/
def toI64 (u : UInt64) : Int :=
  if u.toNat < 2 ^ 63 then u.toNat else u.toNat - 2 ^ 64

/-- kindling_event.go: the fields the analyzer reads.  `res` is `GetResVal`
(kindling_event_helper.go:49-55), `data` is `GetData` (32-38). -/
structure Evt where
  pid : Nat
  fd : Int
  tid : Nat := 0
  sport : Nat := 0
  dport : Nat := 0
  ts : UInt64 := 0
  latency : UInt64 := 0
  res : Int := 0
  data : Bytes := []
deriving DecidableEq, Repr

/-- kindling_event_helper.go:101-103 `GetStartTime` (wraps around). -/
def Evt.startTime (e : Evt) : UInt64 := e.ts - e.latency

/-- message_pair.go:12-19 `mergableEvent`. -/
structure Mergable where
  events : List Evt
  latency : UInt64
  resVal : Int
  ts : UInt64
  data : Bytes
deriving DecidableEq, Repr

/-- message_pair.go:21-25 `events`. -/
structure Events where
  event : Evt
  mergable : Option Mergable
  maxLen : Int
deriving DecidableEq, Repr

/-- message_pair.go:27-32 `newEvents`. -/
def newEvents (e : Evt) (maxLen : Int) : Events := { event := e, mergable := none, maxLen := maxLen }

/-- message_pair.go:34-39 `size`. -/
def Events.size (s : Events) : Nat :=
  match s.mergable with
  | none => 1
  | some m => m.events.length

/-- message_pair.go:41-49 `getEvent`; `none` is nil. -/
def Events.getEvent (s : Events) (i : Nat) : Option Evt :=
  if i = 0 then some s.event
  else match s.mergable with
    | none => none
    | some m => m.events[i]?

/-- message_pair.go:90-102 `getAppendLength`. -/
def appendLength (maxLen : Int) (have_ new : Nat) : Nat :=
  let remaining := maxLen - have_
  if remaining ≤ 0 then 0
  else if remaining > new then new
  else remaining.toNat

/-- message_pair.go:59-68: the merge record, created on the first merge. -/
def Events.merged (s : Events) : Mergable :=
  match s.mergable with
  | some m => m
  | none => { events := [s.event], latency := s.event.latency, resVal := s.event.res, ts := s.event.ts, data := s.event.data }

/-- message_pair.go:58-86 `mergeEvent`. -/
def Events.merge (s : Events) (e : Evt) : Events :=
  let m := s.merged
  let m' : Mergable :=
    { events := if m.events.length < 10 then m.events ++ [e] else m.events
      latency := e.ts - m.ts + m.latency
      resVal := m.resVal + e.res
      ts := e.ts
      data := m.data ++ e.data.take (appendLength s.maxLen m.data.length e.data.length) }
  { s with mergable := some m' }

/-- message_pair.go:51-56 `putEventBack`. -/
def Events.putBack (s origin : Events) : Events :=
  Events.merge { s with event := origin.event, mergable := origin.mergable } s.event

/-- message_pair.go:104-109 `getData`. -/
def Events.getData (s : Events) : Bytes :=
  match s.mergable with
  | none => s.event.data
  | some m => m.data

/-- message_pair.go:111-113 `getFirstTimestamp`. -/
def Events.firstTs (s : Events) : UInt64 := s.event.ts

/-- message_pair.go:115-120 `getLastTimestamp`. -/
def Events.lastTs (s : Events) : UInt64 :=
  match s.mergable with
  | none => s.event.ts
  | some m => m.ts

/-- message_pair.go:122-134 `IsTimeout`; `timeout` in seconds (`uint64(timeout)*uint64(time.Second)`). -/
def Events.isTimeout (s : Events) (e : Evt) (timeout : Nat) : Bool :=
  let start := s.event.ts - s.event.latency
  if e.ts < start then false
  else decide (e.ts - start > UInt64.ofNat timeout * 1000000000) || e.sport != s.event.sport

/-- message_pair.go:136-138 `IsSportChanged`. -/
def Events.sportChanged (s : Events) (e : Evt) : Bool := e.sport != s.event.sport

/-- message_pair.go:140-150 `getDuration`. -/
def Events.duration (s : Events) : UInt64 :=
  match s.mergable with
  | none => s.event.latency
  | some m => m.latency

/-- message_pair.go:282-302: the byte count of one direction. -/
def Events.resVal (s : Events) : Int :=
  match s.mergable with
  | none => s.event.res
  | some m => m.resVal

/-- message_pair.go:152-160 `messagePairs`. -/
structure Pairs where
  connects : Option Events := none
  requests : Option Events := none
  responses : Option Events := none
  maxLen : Int
deriving DecidableEq, Repr

/-- message_pair.go:343-353 `messagePairKey`. -/
structure Key where
  pid : Nat
  fd : Int
deriving DecidableEq, Repr

def keyOf (e : Evt) : Key := ⟨e.pid, e.fd⟩

/-- message_pair.go:167-176 `getKey`. -/
def Pairs.key (p : Pairs) : Key :=
  match p.connects, p.requests, p.responses with
  | some c, _, _ => keyOf c.event
  | none, some r, _ => keyOf r.event
  | none, none, some r => keyOf r.event
  | none, none, none => ⟨0, 0⟩

/-- message_pair.go:178-186 `mergeConnect`; `none`: nil dereference of `connects`. -/
def Pairs.mergeConnect (p : Pairs) (e : Evt) : Option Pairs :=
  match p.requests with
  | none => some { p with connects := some (newEvents e p.maxLen) }
  | some _ => match p.connects with
    | none => none
    | some c => some { p with connects := some (c.merge e) }

/-- message_pair.go:188-196 `putRequestBack`. -/
def Pairs.putRequestBack (p : Pairs) (s : Events) : Pairs :=
  match p.requests with
  | none => { p with requests := some s }
  | some r => { p with requests := some (r.putBack s) }

/-- Body shared by message_pair.go:198-206 and 208-216. -/
def mergeSide (side : Option Events) (maxLen : Int) (e : Evt) : Events :=
  match side with
  | none => newEvents e maxLen
  | some s => s.merge e

/-- message_pair.go:198-206 `mergeRequest`. -/
def Pairs.mergeRequest (p : Pairs) (e : Evt) : Pairs :=
  { p with requests := some (mergeSide p.requests p.maxLen e) }

/-- message_pair.go:208-216 `mergeResponse`. -/
def Pairs.mergeResponse (p : Pairs) (e : Evt) : Pairs :=
  { p with responses := some (mergeSide p.responses p.maxLen e) }

/-- message_pair.go:218-226 `getPort`. -/
def Pairs.port (p : Pairs) : Nat :=
  match p.requests, p.responses with
  | some r, _ => r.event.dport
  | none, some r => r.event.dport
  | none, none => 0

/-- message_pair.go:228-239 `getTimeoutTs`. -/
def Pairs.timeoutTs (p : Pairs) : UInt64 :=
  match p.responses, p.requests, p.connects with
  | some s, _, _ => s.lastTs
  | none, some s, _ => s.lastTs
  | none, none, some s => s.lastTs
  | none, none, none => 0

/-- message_pair.go:241-247 `getConnectDuration`. -/
def Pairs.connectDuration (p : Pairs) : UInt64 :=
  match p.connects with
  | none => 0
  | some c => c.duration

/-- message_pair.go:249-255 `getSentTime`. -/
def Pairs.sentTime (p : Pairs) : Int :=
  match p.requests with
  | none => -1
  | some r => toI64 r.duration

/-- message_pair.go:257-263 `getWaitingTime`; `none`: nil dereference. -/
def Pairs.waitingTime (p : Pairs) : Option Int :=
  match p.responses, p.requests with
  | none, _ => some (-1)
  | some s, some r => some (toI64 (s.firstTs - s.event.latency - r.lastTs))
  | some _, none => none

/-- message_pair.go:265-271 `getDownloadTime`. -/
def Pairs.downloadTime (p : Pairs) : Int :=
  match p.responses with
  | none => -1
  | some s => toI64 s.duration

/-- message_pair.go:273-279 `getDuration`; `none`: nil dereference. -/
def Pairs.duration (p : Pairs) : Option UInt64 :=
  match p.responses, p.requests with
  | none, _ => some 0
  | some s, some r => some (s.lastTs - r.event.startTime)
  | some _, none => none

/-- message_pair.go:281-290 `getRquestSize`. -/
def Pairs.requestSize (p : Pairs) : Int :=
  match p.requests with
  | none => 0
  | some s => s.resVal

/-- message_pair.go:292-301 `getResponseSize`. -/
def Pairs.responseSize (p : Pairs) : Int :=
  match p.responses with
  | none => 0
  | some s => s.resVal

/-! ## Analyzer (network_analyzer.go) -/

/-- config.go:11-29: the time limits, in seconds; getters config.go:92-123 replace a non-positive
value by the default. -/
structure Cfg where
  connectTimeout : Int := 100
  fdReuseTimeout : Int := 15
  noResponseThreshold : Int := 120
  snaplen : Int := 1000

def orDefault (v d : Int) : Int := if v > 0 then v else d

/-- config.go:92-98. -/
def Cfg.getConnectTimeout (c : Cfg) : Int := orDefault c.connectTimeout 1
/-- config.go:100-106. -/
def Cfg.getFdReuseTimeout (c : Cfg) : Int := orDefault c.fdReuseTimeout 15
/-- config.go:116-122. -/
def Cfg.getNoResponseThreshold (c : Cfg) : Int := orDefault c.noResponseThreshold 120

/-- network_analyzer.go:39-63: stored exchanges and the published size. -/
structure Mon where
  map : AMap Key Pairs := []
  size : Int := 0

/-- What becomes of an exchange taken out of the monitor: it is reported, or (HTTP 100-continue,
network_analyzer.go:676-685) its response is discarded and its request is put back on the exchange
now stored for the socket (`true`) or lost if there is none (`false`). -/
inductive Out where
  | report (p : Pairs)
  | continued (p : Pairs) (putBack : Bool)
deriving DecidableEq

/-- The protocol parsers (network_analyzer.go:494-582) are represented by the one thing that matters
here: whether they attach the HttpContinue attribute to the exchange. -/
abbrev Parsers := Pairs → Bool

/-- network_analyzer.go:437-478 `distributeTraceMetric` with 676-685 of `getRecords`. -/
def distribute (pa : Parsers) (st : Mon) (old : Pairs) (new : Option Pairs) : Mon × List Out :=
  match old.connects, old.requests with
  | none, none => (st, [])
  | _, _ =>
    let st1 : Mon := match new with
      | some n => { st with map := AMap.set st.map n.key n }
      | none => { map := AMap.del st.map old.key, size := st.size - 1 }
    match old.requests with
    | none => (st1, [.report old])
    | some r =>
      if pa old then
        match AMap.get st1.map (keyOf r.event) with
        | some cur => ({ st1 with map := AMap.set st1.map (keyOf r.event) (cur.putRequestBack r) }, [.continued old true])
        | none => (st1, [.continued old false])
      else (st1, [.report old])

/-- network_analyzer.go:350-376 `analyseConnect`; `none` is a panic. -/
def analyseConnect (cfg : Cfg) (pa : Parsers) (st : Mon) (e : Evt) : Option (Mon × List Out) :=
  let mps : Pairs := { connects := some (newEvents e cfg.snaplen), maxLen := cfg.snaplen }
  match AMap.get st.map mps.key with
  | none => some ({ map := AMap.set st.map mps.key mps, size := st.size + 1 }, [])
  | some old =>
    match old.requests, old.connects with
    | none, some c =>
      if c.isTimeout e cfg.getConnectTimeout.toNat then some (distribute pa st old (some mps))
      else match old.mergeConnect e with
        | none => none
        | some old' => some ({ st with map := AMap.set st.map mps.key old' }, [])
    | _, _ => some (distribute pa st old (some mps))

/-- network_analyzer.go:386-419 `analyseRequest`.  The `Store` of an exchange that is already stored
(line 404) is part of the in-place update. -/
def analyseRequest (cfg : Cfg) (pa : Parsers) (st : Mon) (e : Evt) : Mon × List Out :=
  let mps : Pairs := { requests := some (newEvents e cfg.snaplen), maxLen := cfg.snaplen }
  match AMap.get st.map mps.key with
  | none => ({ map := AMap.set st.map mps.key mps, size := st.size + 1 }, [])
  | some old =>
    match old.requests with
    | none => match old.connects with
      | none => ({ st with map := AMap.set st.map mps.key mps }, [])
      | some _ => ({ st with map := AMap.set st.map mps.key (old.mergeRequest e) }, [])
    | some r =>
      if old.responses.isSome || r.sportChanged e then distribute pa st old (some mps)
      else ({ st with map := AMap.set st.map mps.key (old.mergeRequest e) }, [])

/-- network_analyzer.go:421-435 `analyseResponse`. -/
def analyseResponse (st : Mon) (e : Evt) : Mon × List Out :=
  match AMap.get st.map (keyOf e) with
  | none => (st, [])
  | some old => match old.requests with
    | none => (st, [])
    | some _ => ({ st with map := AMap.set st.map (keyOf e) (old.mergeResponse e) }, [])

/-- network_analyzer.go:307-318: is the exchange flushed by a scan at `now` (UnixNano)?  Go's integer
division truncates towards zero. -/
def due (cfg : Cfg) (now : Int) (p : Pairs) : Bool :=
  let t := p.timeoutTs
  let duration := now.tdiv 1000000000 - (toI64 t).tdiv 1000000000
  decide (t ≠ 0) && ((p.responses.isSome && decide (duration ≥ cfg.getFdReuseTimeout)) ||
    decide (duration ≥ cfg.getNoResponseThreshold))

/-- network_analyzer.go:306-321: one pass of the timeout scan over the stored sockets. -/
def scanKeys (cfg : Cfg) (pa : Parsers) (now : Int) : Mon → List Key → Mon × List Out
  | st, [] => (st, [])
  | st, k :: ks =>
    match AMap.get st.map k with
    | none => scanKeys cfg pa now st ks
    | some p =>
      if due cfg now p then
        let (st1, o1) := distribute pa st p none
        let (st2, o2) := scanKeys cfg pa now st1 ks
        (st2, o1 ++ o2)
      else scanKeys cfg pa now st ks

def scan (cfg : Cfg) (pa : Parsers) (st : Mon) (now : Int) : Mon × List Out :=
  scanKeys cfg pa now st (AMap.keys st.map)

/-- What `processEvent` (network_analyzer.go:195-290) does with TCP events, after the direction has
been decided, and the timer. -/
inductive Op where
  | connect (e : Evt)
  | request (e : Evt)
  | response (e : Evt)
  | scan (now : Int)

def step (cfg : Cfg) (pa : Parsers) (st : Mon) : Op → Option (Mon × List Out)
  | .connect e => analyseConnect cfg pa st e
  | .request e => some (analyseRequest cfg pa st e)
  | .response e => some (analyseResponse st e)
  | .scan now => some (scan cfg pa st now)

def run (cfg : Cfg) (pa : Parsers) : Mon → List Op → Option (Mon × List Out)
  | st, [] => some (st, [])
  | st, op :: ops => match step cfg pa st op with
    | none => none
    | some (st1, o1) => (run cfg pa st1 ops).map (fun r => (r.1, o1 ++ r.2))

/-! ## Slow threshold -/

/-- network_analyzer.go:844-850 `getResponseSlowThreshold` and config.go:108-114. -/
def slowThreshold (table : AMap String Int) (global : Int) (protocol : String) : Int :=
  match AMap.get table protocol with
  | some v => if v > 0 then v else orDefault global 500
  | none => orDefault global 500

/-- network_analyzer.go:840-842 `isSlow`. -/
def isSlow (table : AMap String Int) (global : Int) (duration : UInt64) (protocol : String) : Bool :=
  decide (toI64 duration ≥ slowThreshold table global protocol * 1000000)

end Kindling.Net
