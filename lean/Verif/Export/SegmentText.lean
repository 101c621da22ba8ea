import Verif.Export.TraceText
import Verif.Cpu.Events
/-
What a stored group of CPU events contains: JSON texts inside a JSON text.  component/analyzer/cpuanalyzer/model.go,
cpu_analyzer.go:333-339, 360-365, send_trigger.go:196-211, component/consumer/exporter/cameraexporter/exporter.go:75-87.
-/
namespace Kindling.Export.SegmentText
open Kindling.Text Kindling.Export.Json Kindling.Export.Files Kindling.Export.TraceText
open Kindling.Cpu.Events (CpuEv FutexEv SpanEv TxEv)

/-! ### Events as JSON -/

/-- `CpuEvent` (model.go:196-206) with its slices; `none` is a nil slice, of an attribute the probe did not send. -/
structure Cpu where
  start : Nat
  stop : Nat
  typeSpecs : Option (List Nat)
  runq : Option (List Nat)
  timeType : Option (List UInt8)
  onInfo : Bytes
  offInfo : Bytes
  log : Bytes
  stack : Bytes
deriving DecidableEq

/-- The event without the difference between nil and empty slices. -/
def Cpu.ev (c : Cpu) : CpuEv :=
  ⟨c.start, c.stop, c.typeSpecs.getD [], c.runq.getD [], c.timeType.getD [], c.onInfo, c.offInfo, c.log, c.stack⟩

/-- `InnerCall` (model.go:282-286).  The trace is never nil (cpu_analyzer.go:209-213). -/
structure Inner where
  start : Nat
  stop : Nat
  trace : Group

/-- `Segment` (model.go:46-56) without `IndexTimestamp`, which is not sent.  The five lists are never nil (model.go:58-70). -/
structure Seg where
  start : Nat
  stop : Nat
  cpu : List Cpu
  futex : List FutexEv
  tx : List TxEv
  spans : List SpanEv
  inner : List Inner
  isSend : Nat

/-- `newSegment` (model.go:58-70). -/
def newSegment (a b : Nat) : Seg := ⟨a, b, [], [], [], [], [], 0⟩

/-- `TimeSegments` (model.go:34-40): the thread of a segment. -/
structure Thread where
  pid : Nat
  tid : Nat
  name : Bytes

def natsJ (l : Option (List Nat)) : J := intsJ (l.map (·.map Int.ofNat))

/-- `CPUType.MarshalJSON` (model.go:185-187) makes numbers of the bytes, where a `[]uint8` would become base64. -/
def typesJ (l : Option (List UInt8)) : J := natsJ (l.map (·.map UInt8.toNat))

/-- The tags of `CpuEvent` (model.go:196-206). -/
def cpuJ (c : Cpu) : J := .obj (ofPairs [(bs "startTime", .num c.start), (bs "endTime", .num c.stop), (bs "typeSpecs", natsJ c.typeSpecs),
  (bs "runqLatency", natsJ c.runq), (bs "timeType", typesJ c.timeType), (bs "onInfo", .str c.onInfo), (bs "offInfo", .str c.offInfo),
  (bs "log", .str c.log), (bs "stack", .str c.stack)])

/-- The tags of `JavaFutexEvent` (model.go:220-224). -/
def futexJ (e : FutexEv) : J := .obj (ofPairs [(bs "startTime", .num e.start), (bs "endTime", .num e.stop), (bs "dataValue", .str e.data)])

/-- The tags of `TransactionIdEvent` (model.go:238-246). -/
def txJ (e : TxEv) : J := .obj (ofPairs [(bs "timestamp", .num e.time), (bs "traceId", .str e.traceId), (bs "isEntry", .num e.isEntry),
  (bs "protocol", .str e.protocol), (bs "url", .str e.url), (bs "pidString", .str e.pid), (bs "containerId", .str e.containerId)])

/-- The tags of `ApmSpanEvent` (model.go:260-265). -/
def spanJ (e : SpanEv) : J := .obj (ofPairs [(bs "startTime", .num e.start), (bs "endTime", .num e.stop), (bs "traceId", .str e.traceId),
  (bs "name", .str e.name)])

/-- The tags of `InnerCall` (model.go:282-286). -/
def innerJ (e : Inner) : J := .obj (ofPairs [(bs "startTime", .num e.start), (bs "endTime", .num e.stop), (bs "trace", groupJ e.trace)])

/-- `string(json.Marshal(list))` (model.go:96-115). -/
def listText {α : Type} (f : α → J) (l : List α) : Bytes := print (.arr (ofList (l.map f)))

/-- The labels of `toDataGroup` (model.go:88-115).  `json.Marshal` does not fail on these types. -/
def segLabels (s : Seg) (t : Thread) : AMap Bytes V :=
  ((((((((((AMap.set [] (bs "pid") (.int t.pid)).set (bs "tid") (.int t.tid)).set (bs "isSent") (.int s.isSend)).set
    (bs "threadName") (.str t.name)).set (bs "startTime") (.int (toI64 s.start))).set (bs "endTime") (.int (toI64 s.stop))).set
    (bs "cpuEvents") (.str (listText cpuJ s.cpu))).set (bs "javaFutexEvents") (.str (listText futexJ s.futex))).set
    (bs "transactionIds") (.str (listText txJ s.tx))).set (bs "spans") (.str (listText spanJ s.spans))).set
    (bs "innerCalls") (.str (listText innerJ s.inner))

/-- The group `sendEvents` hands on: `toDataGroup` (model.go:88-117), merged with the elements of the trace (send_trigger.go:205-206). -/
def sent (s : Seg) (t : Thread) (e : Elems) : Group :=
  ⟨bs "camera_event_group", none, some (merge (segLabels s t) (toAttributes e)), s.start⟩

/-! ### A reader -/

def field {α : Type} (k : String) (f : J → Option α) (l : Ms) : Option α := (member (bs k) l).bind f

def asByte (j : J) : Option UInt8 := (asNat j).bind (fun n => if n < 256 then some (UInt8.ofNat n) else none)

/-- A CPU event whose kinds of time are read by `ty`. -/
def cpuWith (ty : J → Option UInt8) : J → Option Cpu
  | .obj l => match field "startTime" asNat l, field "endTime" asNat l, field "typeSpecs" (asMany asNat) l, field "runqLatency" (asMany asNat) l,
      field "timeType" (asMany ty) l, field "onInfo" asStr l, field "offInfo" asStr l, field "log" asStr l, field "stack" asStr l with
    | some a, some b, some c, some d, some e, some f, some g, some h, some i => some ⟨a, b, c, d, e, f, g, h, i⟩
    | _, _, _, _, _, _, _, _, _ => none
  | _ => none

def asCpu : J → Option Cpu := cpuWith asByte

def asFutex : J → Option FutexEv
  | .obj l => match field "startTime" asNat l, field "endTime" asNat l, field "dataValue" asStr l with
    | some a, some b, some c => some ⟨a, b, c⟩
    | _, _, _ => none
  | _ => none

def asTx : J → Option TxEv
  | .obj l => match field "timestamp" asNat l, field "traceId" asStr l, field "isEntry" asNat l, field "protocol" asStr l, field "url" asStr l,
      field "pidString" asStr l, field "containerId" asStr l with
    | some a, some b, some c, some d, some e, some f, some g => some ⟨a, b, c, d, e, f, g⟩
    | _, _, _, _, _, _, _ => none
  | _ => none

def asSpan : J → Option SpanEv
  | .obj l => match field "startTime" asNat l, field "endTime" asNat l, field "traceId" asStr l, field "name" asStr l with
    | some a, some b, some c, some d => some ⟨a, b, c, d⟩
    | _, _, _, _ => none
  | _ => none

def asInner : J → Option Inner
  | .obj l => match field "startTime" asNat l, field "endTime" asNat l, field "trace" asGroup l with
    | some a, some b, some c => some ⟨a, b, c⟩
    | _, _, _ => none
  | _ => none

def asArr {α : Type} (f : J → Option α) : J → Option (List α)
  | .arr l => mapOpt f (toList l)
  | _ => none

/-- The list in a label of a stored group. -/
def listLabel {α : Type} (f : J → Option α) (m : AMap Bytes V) (k : Bytes) : Option (List α) := match m.get k with
  | some (.str s) => (Json.read s).bind (asArr f)
  | _ => none

/-- What a reader of a file finds of a segment. -/
structure Seen where
  pid : Int
  tid : Int
  isSent : Int
  thread : Bytes
  start : Nat
  stop : Nat
  cpu : List Cpu
  futex : List FutexEv
  tx : List TxEv
  spans : List SpanEv
  inner : List Inner

def readSeg (g : Group) : Option Seen := match g.labels with
  | none => none
  | some m => match listLabel asCpu m (bs "cpuEvents"), listLabel asFutex m (bs "javaFutexEvents"), listLabel asTx m (bs "transactionIds"),
      listLabel asSpan m (bs "spans"), listLabel asInner m (bs "innerCalls") with
    | some a, some b, some c, some d, some e => some ⟨gi m (bs "pid"), gi m (bs "tid"), gi m (bs "isSent"), gs m (bs "threadName"),
        toU64 (gi m (bs "startTime")), toU64 (gi m (bs "endTime")), a, b, c, d, e⟩
    | _, _, _, _, _ => none

/-! ### Round trip -/

def cleanCpu (c : Cpu) : Cpu := { c with onInfo := clean c.onInfo, offInfo := clean c.offInfo, log := clean c.log, stack := clean c.stack }
def cleanFutex (e : FutexEv) : FutexEv := { e with data := clean e.data }
def cleanTx (e : TxEv) : TxEv :=
  { e with traceId := clean e.traceId, protocol := clean e.protocol, url := clean e.url, pid := clean e.pid, containerId := clean e.containerId }
def cleanSpan (e : SpanEv) : SpanEv := { e with traceId := clean e.traceId, name := clean e.name }
def cleanInner (e : Inner) : Inner := { e with trace := stored e.trace }

/-- What is left of a segment: everything, stray bytes as U+FFFD. -/
def seen (s : Seg) (t : Thread) : Seen :=
  ⟨t.pid, t.tid, s.isSend, clean t.name, s.start, s.stop, s.cpu.map cleanCpu, s.futex.map cleanFutex, s.tx.map cleanTx, s.spans.map cleanSpan,
    s.inner.map cleanInner⟩

theorem valid_append {a b : Bytes} (ha : ValidUtf8 a) (hb : ValidUtf8 b) : ValidUtf8 (a ++ b) := by
  obtain ⟨x, hx, rfl⟩ := ha
  obtain ⟨y, hy, rfl⟩ := hb
  refine ⟨x ++ y, ?_, by simp [text]⟩
  intro c hc
  rcases List.mem_append.mp hc with h | h
  · exact hx c h
  · exact hy c h

theorem valid_nil : ValidUtf8 [] := ⟨[], by simp, rfl⟩

theorem valid_flatMap {α : Type} (f : α → Bytes) (l : List α) (h : ∀ a ∈ l, ValidUtf8 (f a)) : ValidUtf8 (l.flatMap f) := by
  induction l with
  | nil => exact valid_nil
  | cons a r ih =>
    rw [List.flatMap_cons]
    exact valid_append (h a (List.mem_cons_self ..)) (ih (fun b hb => h b (List.mem_cons_of_mem _ hb)))

theorem hex_ascii {n : Nat} (h : n < 16) : (hex n).toNat < 0x80 := by rw [hex_toNat h]; split <;> omega

theorem hex4_valid (c : Nat) : ValidUtf8 (92 :: 117 :: hex4 c : Bytes) := by
  refine ascii_valid ?_
  intro b hb
  simp only [hex4, List.mem_cons, List.not_mem_nil, or_false] at hb
  rcases hb with rfl | rfl | rfl | rfl | rfl | rfl
  · decide
  · decide
  all_goals exact hex_ascii (by omega)

theorem esc_valid {c : Nat} (hc : Scalar c) : ValidUtf8 (esc c) := by
  unfold esc
  split
  · exact ascii_valid (by decide)
  split
  · exact ascii_valid (by decide)
  split
  · exact ascii_valid (by decide)
  split
  · exact ascii_valid (by decide)
  split
  · exact ascii_valid (by decide)
  split
  · exact hex4_valid c
  · exact ⟨[c], by simpa using hc, by simp [text]⟩

theorem tok_valid (t : Tok) : ValidUtf8 t.bytes := by
  cases t with
  | str s =>
    refine valid_append (a := [34]) (ascii_valid (by decide)) (valid_append (valid_flatMap _ _ ?_) (ascii_valid (by decide)))
    intro o ho
    cases o with
    | none => exact hex4_valid _
    | some c => exact esc_valid (runes_scalar s c ho)
  | num i =>
    refine ascii_valid ?_
    intro b hb
    simp only [Tok.bytes, Dec.formatInt] at hb
    split at hb
    · simp only [List.mem_cons] at hb
      rcases hb with rfl | hb
      · decide
      · have := Dec.digits_all _ b hb; omega
    · have := Dec.digits_all _ b hb; omega
  | _ => exact ascii_valid (by decide)

/-- What `json.Marshal` writes is UTF-8, whatever the strings were: a text inside a text loses nothing. -/
theorem print_valid (j : J) : ValidUtf8 (print j) := valid_flatMap _ _ (fun t _ => tok_valid t)

theorem member_clean (l : List (Bytes × J)) (hl : l.all (fun e => e.1.all (fun b => decide (b.toNat < 0x80))) = true) (k : Bytes) :
    member k (ofPairs l).clean = (l.find? (fun e => e.1 == k)).map (fun e => e.2.clean) := by
  rw [clean_ofPairs, member, toPairs_ofPairs]
  induction l with
  | nil => rfl
  | cons e r ih =>
    simp only [List.all_cons, Bool.and_eq_true] at hl
    rw [List.map_cons, List.find?_cons, List.find?_cons]
    simp only [clean_key e.1 hl.1]
    split
    · rfl
    · exact ih hl.2

theorem asNat_num (n : Nat) : asNat (J.clean (.num (n : Int))) = some n := by simp [J.clean, asNat, asInt]

theorem asStr_str (s : Bytes) : asStr (J.clean (.str s)) = some (clean s) := rfl

theorem asNats_natsJ (l : Option (List Nat)) : asMany asNat (natsJ l).clean = some l := asNats_clean l

theorem asTypes_clean (l : Option (List UInt8)) : asMany asByte (typesJ l).clean = some l := by
  cases l with
  | none => rfl
  | some l =>
    simp only [typesJ, natsJ, Option.map_some, intsJ, J.clean, clean_ofList, asMany, toList_ofList, List.map_map]
    rw [mapOpt_map _ _ id]
    · simp
    · intro b
      have := b.toNat_lt
      simp only [Function.comp, J.clean, asByte, asNat, asInt]
      simp only [Int.ofNat_eq_natCast, Int.natCast_nonneg, if_true, Int.toNat_natCast, Option.bind_some]
      rw [if_pos (by omega)]
      simp

theorem cpuWith_clean (ty : J → Option UInt8) (hty : ∀ l, asMany ty (typesJ l).clean = some l) (c : Cpu) :
    cpuWith ty (cpuJ c).clean = some (cleanCpu c) := by
  have hm := member_clean [(bs "startTime", .num c.start), (bs "endTime", .num c.stop), (bs "typeSpecs", natsJ c.typeSpecs),
    (bs "runqLatency", natsJ c.runq), (bs "timeType", typesJ c.timeType), (bs "onInfo", .str c.onInfo), (bs "offInfo", .str c.offInfo),
    (bs "log", .str c.log), (bs "stack", .str c.stack)] (by rfl)
  have h1 := hm (bs "startTime")
  have h2 := hm (bs "endTime")
  have h3 := hm (bs "typeSpecs")
  have h4 := hm (bs "runqLatency")
  have h5 := hm (bs "timeType")
  have h6 := hm (bs "onInfo")
  have h7 := hm (bs "offInfo")
  have h8 := hm (bs "log")
  have h9 := hm (bs "stack")
  rw [show List.find? _ _ = some (bs "startTime", J.num c.start) from rfl] at h1
  rw [show List.find? _ _ = some (bs "endTime", J.num c.stop) from rfl] at h2
  rw [show List.find? _ _ = some (bs "typeSpecs", natsJ c.typeSpecs) from rfl] at h3
  rw [show List.find? _ _ = some (bs "runqLatency", natsJ c.runq) from rfl] at h4
  rw [show List.find? _ _ = some (bs "timeType", typesJ c.timeType) from rfl] at h5
  rw [show List.find? _ _ = some (bs "onInfo", J.str c.onInfo) from rfl] at h6
  rw [show List.find? _ _ = some (bs "offInfo", J.str c.offInfo) from rfl] at h7
  rw [show List.find? _ _ = some (bs "log", J.str c.log) from rfl] at h8
  rw [show List.find? _ _ = some (bs "stack", J.str c.stack) from rfl] at h9
  simp only [cpuJ, J.clean.eq_6, cpuWith, field, h1, h2, h3, h4, h5, h6, h7, h8, h9, Option.map_some, Option.bind_some, asNat_num, asStr_str,
    asNats_natsJ, hty, cleanCpu]

theorem asCpu_clean (c : Cpu) : asCpu (cpuJ c).clean = some (cleanCpu c) := cpuWith_clean asByte asTypes_clean c

theorem asFutex_clean (e : FutexEv) : asFutex (futexJ e).clean = some (cleanFutex e) := by
  have hm := member_clean [(bs "startTime", .num e.start), (bs "endTime", .num e.stop), (bs "dataValue", .str e.data)] (by rfl)
  have h1 := hm (bs "startTime")
  have h2 := hm (bs "endTime")
  have h3 := hm (bs "dataValue")
  rw [show List.find? _ _ = some (bs "startTime", J.num e.start) from rfl] at h1
  rw [show List.find? _ _ = some (bs "endTime", J.num e.stop) from rfl] at h2
  rw [show List.find? _ _ = some (bs "dataValue", J.str e.data) from rfl] at h3
  simp only [futexJ, J.clean.eq_6, asFutex, field, h1, h2, h3, Option.map_some, Option.bind_some, asNat_num, asStr_str, cleanFutex]

theorem asTx_clean (e : TxEv) : asTx (txJ e).clean = some (cleanTx e) := by
  have hm := member_clean [(bs "timestamp", .num e.time), (bs "traceId", .str e.traceId), (bs "isEntry", .num e.isEntry),
    (bs "protocol", .str e.protocol), (bs "url", .str e.url), (bs "pidString", .str e.pid), (bs "containerId", .str e.containerId)] (by rfl)
  have h1 := hm (bs "timestamp")
  have h2 := hm (bs "traceId")
  have h3 := hm (bs "isEntry")
  have h4 := hm (bs "protocol")
  have h5 := hm (bs "url")
  have h6 := hm (bs "pidString")
  have h7 := hm (bs "containerId")
  rw [show List.find? _ _ = some (bs "timestamp", J.num e.time) from rfl] at h1
  rw [show List.find? _ _ = some (bs "traceId", J.str e.traceId) from rfl] at h2
  rw [show List.find? _ _ = some (bs "isEntry", J.num e.isEntry) from rfl] at h3
  rw [show List.find? _ _ = some (bs "protocol", J.str e.protocol) from rfl] at h4
  rw [show List.find? _ _ = some (bs "url", J.str e.url) from rfl] at h5
  rw [show List.find? _ _ = some (bs "pidString", J.str e.pid) from rfl] at h6
  rw [show List.find? _ _ = some (bs "containerId", J.str e.containerId) from rfl] at h7
  simp only [txJ, J.clean.eq_6, asTx, field, h1, h2, h3, h4, h5, h6, h7, Option.map_some, Option.bind_some, asNat_num, asStr_str, cleanTx]

theorem asSpan_clean (e : SpanEv) : asSpan (spanJ e).clean = some (cleanSpan e) := by
  have hm := member_clean [(bs "startTime", .num e.start), (bs "endTime", .num e.stop), (bs "traceId", .str e.traceId),
    (bs "name", .str e.name)] (by rfl)
  have h1 := hm (bs "startTime")
  have h2 := hm (bs "endTime")
  have h3 := hm (bs "traceId")
  have h4 := hm (bs "name")
  rw [show List.find? _ _ = some (bs "startTime", J.num e.start) from rfl] at h1
  rw [show List.find? _ _ = some (bs "endTime", J.num e.stop) from rfl] at h2
  rw [show List.find? _ _ = some (bs "traceId", J.str e.traceId) from rfl] at h3
  rw [show List.find? _ _ = some (bs "name", J.str e.name) from rfl] at h4
  simp only [spanJ, J.clean.eq_6, asSpan, field, h1, h2, h3, h4, Option.map_some, Option.bind_some, asNat_num, asStr_str, cleanSpan]

theorem asGroup_clean (g : Group) : asGroup (groupJ g).clean = some (stored g) := by
  have := group_reads_back g
  rwa [readGroup, marshal, read_print, Option.bind_some] at this

theorem asInner_clean (e : Inner) : asInner (innerJ e).clean = some (cleanInner e) := by
  have hm := member_clean [(bs "startTime", .num e.start), (bs "endTime", .num e.stop), (bs "trace", groupJ e.trace)] (by rfl)
  have h1 := hm (bs "startTime")
  have h2 := hm (bs "endTime")
  have h3 := hm (bs "trace")
  rw [show List.find? _ _ = some (bs "startTime", J.num e.start) from rfl] at h1
  rw [show List.find? _ _ = some (bs "endTime", J.num e.stop) from rfl] at h2
  rw [show List.find? _ _ = some (bs "trace", groupJ e.trace) from rfl] at h3
  simp only [innerJ, J.clean.eq_6, asInner, field, h1, h2, h3, Option.map_some, Option.bind_some, asNat_num, asGroup_clean, cleanInner]

theorem asArr_clean {α : Type} (f : J → Option α) (g : α → J) (c : α → α) (h : ∀ a, f (g a).clean = some (c a)) (l : List α) :
    asArr f (J.clean (.arr (ofList (l.map g)))) = some (l.map c) := by
  simp only [J.clean, clean_ofList, asArr, toList_ofList, List.map_map]
  exact mapOpt_map _ _ _ h l

theorem list_back {α : Type} (f : J → Option α) (g : α → J) (c : α → α) (h : ∀ a, f (g a).clean = some (c a)) (l : List α) :
    (Json.read (listText g l)).bind (asArr f) = some (l.map c) := by
  rw [listText, read_print, Option.bind_some, asArr_clean f g c h]

def ascii (s : Bytes) : Bool := s.all (fun b => decide (b.toNat < 0x80))

theorem set_ascii {m : AMap Bytes V} (h : (AMap.keys m).all ascii = true) (k : Bytes) (v : V) (hk : ascii k = true) :
    (AMap.keys (m.set k v)).all ascii = true := by
  rw [List.all_eq_true] at *
  intro x hx
  rcases AMap.mem_keys_set.mp hx with rfl | hx
  · exact hk
  · exact h x hx

theorem sent_keys (s : Seg) (t : Thread) (e : Elems) : (AMap.keys (merge (segLabels s t) (toAttributes e))).all ascii = true := by
  have h0 : (AMap.keys (segLabels s t)).all ascii = true := by
    unfold segLabels
    repeat' (first | (refine set_ascii ?_ _ _ (by decide)) | rfl)
  have h1 : (AMap.keys (toAttributes e)).all ascii = true := by
    unfold toAttributes
    simp only
    split <;> repeat' (first | (refine set_ascii ?_ _ _ (by decide)) | rfl)
  unfold merge
  generalize segLabels s t = m at h0
  generalize toAttributes e = l at h1
  induction l generalizing m with
  | nil => exact h0
  | cons a r ih =>
    simp only [AMap.keys, List.map_cons, List.all_cons, Bool.and_eq_true] at h1
    exact ih _ (set_ascii h0 _ _ h1.1) h1.2

theorem sent_wf (s : Seg) (t : Thread) (e : Elems) : AMap.WF (merge (segLabels s t) (toAttributes e)) := by
  unfold merge
  have h0 : AMap.WF (segLabels s t) :=
    ((((((((((AMap.wf_nil.set _ _).set _ _).set _ _).set _ _).set _ _).set _ _).set _ _).set _ _).set _ _).set _ _).set _ _
  generalize segLabels s t = m at h0
  generalize toAttributes e = l
  induction l generalizing m with
  | nil => exact h0
  | cons a r ih => exact ih _ (h0.set _ _)

/-- The stored value of a label with a name in ASCII. -/
theorem get_stored (m : AMap Bytes V) (hw : AMap.WF m) (hk : (AMap.keys m).all ascii = true) (k : Bytes) :
    AMap.get ((sort m).map (fun e => (clean e.1, cleanV e.2))) k = (m.get k).map cleanV := by
  rw [get_perm (sort_perm m).symm hw k]
  have hk' : ∀ e ∈ sort m, clean e.1 = e.1 := by
    intro e he
    refine clean_key _ ?_
    exact List.all_eq_true.mp hk e.1 (List.mem_map_of_mem ((sort_perm m).mem_iff.mp he))
  generalize sort m = l at hk'
  induction l with
  | nil => rfl
  | cons e r ih =>
    obtain ⟨a, v⟩ := e
    have ha := hk' (a, v) (List.mem_cons_self ..)
    simp only at ha
    simp only [List.map_cons, AMap.get, ha]
    split
    · rfl
    · exact ih (fun e he => hk' e (List.mem_cons_of_mem _ he))

theorem get_sent (s : Seg) (t : Thread) (e : Elems) (k : Bytes) (h : (toAttributes e).get k = none) :
    (merge (segLabels s t) (toAttributes e)).get k = (segLabels s t).get k := by
  rw [get_merge _ _ _ (wf_toAttributes e), h]

/-- None of the names `toDataGroup` uses is one of the path elements. -/
theorem apart (e : Elems) (k : String) (h : k ∈ ["pid", "tid", "isSent", "threadName", "startTime", "endTime", "cpuEvents", "javaFutexEvents",
    "transactionIds", "spans", "innerCalls"]) : (toAttributes e).get (bs k) = none := by
  obtain ⟨a1, a2, a3, a4, a5, a6, a7, a8⟩ := e
  simp only [List.mem_cons, List.not_mem_nil, or_false] at h
  rcases h with rfl | rfl | rfl | rfl | rfl | rfl | rfl | rfl | rfl | rfl | rfl <;> cases a5 <;> rfl

/-- C113.  A reader of a stored group of CPU events gets everything the segment had when it was sent: the thread, the times, and all five
lists, complete, in order and field by field, with stray bytes as U+FFFD. -/
theorem segment_reads_back (s : Seg) (t : Thread) (e : Elems) (h1 : s.start < 2 ^ 64) (h2 : s.stop < 2 ^ 64) :
    (readGroup (marshal (sent s t e))).bind readSeg = some (seen s t) := by
  rw [group_reads_back, Option.bind_some]
  have hg : ∀ k : String, k ∈ ["pid", "tid", "isSent", "threadName", "startTime", "endTime", "cpuEvents", "javaFutexEvents",
    "transactionIds", "spans", "innerCalls"] →
    AMap.get ((sort (merge (segLabels s t) (toAttributes e))).map (fun e => (clean e.1, cleanV e.2))) (bs k) =
      ((segLabels s t).get (bs k)).map cleanV := by
    intro k hk
    rw [get_stored _ (sent_wf s t e) (sent_keys s t e), get_sent s t e _ (apart e k hk)]
  have g1 := hg "pid" (by simp)
  have g2 := hg "tid" (by simp)
  have g3 := hg "isSent" (by simp)
  have g4 := hg "threadName" (by simp)
  have g5 := hg "startTime" (by simp)
  have g6 := hg "endTime" (by simp)
  have g7 := hg "cpuEvents" (by simp)
  have g8 := hg "javaFutexEvents" (by simp)
  have g9 := hg "transactionIds" (by simp)
  have g10 := hg "spans" (by simp)
  have g11 := hg "innerCalls" (by simp)
  rw [show (segLabels s t).get (bs "pid") = some (.int t.pid) from rfl] at g1
  rw [show (segLabels s t).get (bs "tid") = some (.int t.tid) from rfl] at g2
  rw [show (segLabels s t).get (bs "isSent") = some (.int s.isSend) from rfl] at g3
  rw [show (segLabels s t).get (bs "threadName") = some (.str t.name) from rfl] at g4
  rw [show (segLabels s t).get (bs "startTime") = some (.int (toI64 s.start)) from rfl] at g5
  rw [show (segLabels s t).get (bs "endTime") = some (.int (toI64 s.stop)) from rfl] at g6
  rw [show (segLabels s t).get (bs "cpuEvents") = some (.str (listText cpuJ s.cpu)) from rfl] at g7
  rw [show (segLabels s t).get (bs "javaFutexEvents") = some (.str (listText futexJ s.futex)) from rfl] at g8
  rw [show (segLabels s t).get (bs "transactionIds") = some (.str (listText txJ s.tx)) from rfl] at g9
  rw [show (segLabels s t).get (bs "spans") = some (.str (listText spanJ s.spans)) from rfl] at g10
  rw [show (segLabels s t).get (bs "innerCalls") = some (.str (listText innerJ s.inner)) from rfl] at g11
  have hv : ∀ {α : Type} (g : α → J) (l : List α), clean (listText g l) = listText g l := fun g l => clean_valid (print_valid _)
  simp only [readSeg, stored, sent, Option.map_some]
  generalize (sort (merge (segLabels s t) (toAttributes e))).map (fun e => (clean e.1, cleanV e.2)) = m at *
  clear hg
  have b7 : listLabel asCpu m (bs "cpuEvents") = some (s.cpu.map cleanCpu) := by
    simp only [listLabel, g7, Option.map_some, cleanV, hv, list_back _ _ _ asCpu_clean]
  have b8 : listLabel asFutex m (bs "javaFutexEvents") = some (s.futex.map cleanFutex) := by
    simp only [listLabel, g8, Option.map_some, cleanV, hv, list_back _ _ _ asFutex_clean]
  have b9 : listLabel asTx m (bs "transactionIds") = some (s.tx.map cleanTx) := by
    simp only [listLabel, g9, Option.map_some, cleanV, hv, list_back _ _ _ asTx_clean]
  have b10 : listLabel asSpan m (bs "spans") = some (s.spans.map cleanSpan) := by
    simp only [listLabel, g10, Option.map_some, cleanV, hv, list_back _ _ _ asSpan_clean]
  have b11 : listLabel asInner m (bs "innerCalls") = some (s.inner.map cleanInner) := by
    simp only [listLabel, g11, Option.map_some, cleanV, hv, list_back _ _ _ asInner_clean]
  have b1 : gi m (bs "pid") = t.pid := by simp only [gi, g1, Option.map_some, cleanV]
  have b2 : gi m (bs "tid") = t.tid := by simp only [gi, g2, Option.map_some, cleanV]
  have b3 : gi m (bs "isSent") = s.isSend := by simp only [gi, g3, Option.map_some, cleanV]
  have b4 : gs m (bs "threadName") = clean t.name := by simp only [gs, g4, Option.map_some, cleanV]
  have b5 : toU64 (gi m (bs "startTime")) = s.start := by simp only [gi, g5, Option.map_some, cleanV, toU64_toI64 _ h1]
  have b6 : toU64 (gi m (bs "endTime")) = s.stop := by simp only [gi, g6, Option.map_some, cleanV, toU64_toI64 _ h2]
  simp only [b1, b2, b3, b4, b5, b6, b7, b8, b9, b10, b11, seen]

/-- All text of a segment is UTF-8. -/
structure Plain (s : Seg) (t : Thread) : Prop where
  thread : ValidUtf8 t.name
  cpu : ∀ c ∈ s.cpu, ValidUtf8 c.onInfo ∧ ValidUtf8 c.offInfo ∧ ValidUtf8 c.log ∧ ValidUtf8 c.stack
  futex : ∀ e ∈ s.futex, ValidUtf8 e.data
  tx : ∀ e ∈ s.tx, ValidUtf8 e.traceId ∧ ValidUtf8 e.protocol ∧ ValidUtf8 e.url ∧ ValidUtf8 e.pid ∧ ValidUtf8 e.containerId
  spans : ∀ e ∈ s.spans, ValidUtf8 e.traceId ∧ ValidUtf8 e.name

/-- C113.  Nothing of it is changed when the texts are UTF-8. -/
theorem segment_unchanged (s : Seg) (t : Thread) (h : Plain s t) :
    seen s t = ⟨t.pid, t.tid, s.isSend, t.name, s.start, s.stop, s.cpu, s.futex, s.tx, s.spans, s.inner.map cleanInner⟩ := by
  obtain ⟨h0, h1, h2, h3, h4⟩ := h
  have e1 : s.cpu.map cleanCpu = s.cpu := map_same _ _ (fun c hc => by
    obtain ⟨a, b, c', d⟩ := h1 c hc
    simp only [cleanCpu, clean_valid a, clean_valid b, clean_valid c', clean_valid d])
  have e2 : s.futex.map cleanFutex = s.futex := map_same _ _ (fun c hc => by simp only [cleanFutex, clean_valid (h2 c hc)])
  have e3 : s.tx.map cleanTx = s.tx := map_same _ _ (fun c hc => by
    obtain ⟨a, b, c', d, e⟩ := h3 c hc
    simp only [cleanTx, clean_valid a, clean_valid b, clean_valid c', clean_valid d, clean_valid e])
  have e4 : s.spans.map cleanSpan = s.spans := map_same _ _ (fun c hc => by
    obtain ⟨a, b⟩ := h4 c hc
    simp only [cleanSpan, clean_valid a, clean_valid b])
  simp only [seen, e1, e2, e3, e4, clean_valid h0]

/-! ### `Segment.UnmarshalJSON` -/

/-- The members `json.Marshal` writes of a segment (model.go:46-56). -/
def members (s : Seg) (index : Bytes) : List (Bytes × J) :=
  [(bs "startTime", .num s.start), (bs "endTime", .num s.stop), (bs "cpuEvents", .arr (ofList (s.cpu.map cpuJ))),
   (bs "javaFutexEvents", .arr (ofList (s.futex.map futexJ))), (bs "transactionIds", .arr (ofList (s.tx.map txJ))),
   (bs "spans", .arr (ofList (s.spans.map spanJ))), (bs "innerCalls", .arr (ofList (s.inner.map innerJ))), (bs "IsSend", .num s.isSend),
   (bs "indexTimestamp", .str index)]

/-- `CPUType.UnmarshalJSON` (model.go:189-197): a number of 16 bits, of which 8 are kept. -/
def goType (j : J) : Option UInt8 := (asNat j).bind (fun n => if n < 65536 then some (UInt8.ofNat n) else none)

/-- `for _, a := range e { append(&a) }` (model.go:162-164): before Go 1.22 (collector/go.mod says 1.19) there is one variable `a`, and all
pointers are to it. -/
def aliased {α : Type} (l : List α) : List α := match l.getLast? with
  | none => []
  | some x => List.replicate l.length x

/-- The body of the loop of `UnmarshalJSON` (model.go:131-170) for texts `json.Marshal` wrote; `none` is the error. -/
def goStep (s : Seg) (e : Bytes × J) : Option Seg :=
  if e.1 = bs "startTime" then (asNat e.2).map (fun n => { s with start := n })
  else if e.1 = bs "endTime" then (asNat e.2).map (fun n => { s with stop := n })
  else if e.1 = bs "cpuEvents" then (asArr (cpuWith goType) e.2).map (fun l => { s with cpu := s.cpu ++ l })
  else if e.1 = bs "javaFutexEvents" then (asArr asFutex e.2).map (fun l => { s with futex := s.futex ++ aliased l })
  else some s

/-- `UnmarshalJSON` (model.go:123-172), the members in the order in which Go walks the map. -/
def unmarshal (s : Seg) (order : List (Bytes × J)) : Option Seg := order.foldlM goStep s

theorem goTypes_clean (l : Option (List UInt8)) : asMany goType (typesJ l).clean = some l := by
  cases l with
  | none => rfl
  | some l =>
    simp only [typesJ, natsJ, Option.map_some, intsJ, J.clean, clean_ofList, asMany, toList_ofList, List.map_map]
    rw [mapOpt_map _ _ id]
    · simp
    · intro b
      have := b.toNat_lt
      simp only [Function.comp, J.clean, goType, asNat, asInt]
      simp only [Int.ofNat_eq_natCast, Int.natCast_nonneg, if_true, Int.toNat_natCast, Option.bind_some]
      rw [if_pos (by omega)]
      simp

/-- A kind of time beyond 255 becomes another one. -/
theorem type_wraps (n : Nat) (h : n < 65536) : (goType (.num n)).map UInt8.toNat = some (n % 256) := by
  simp [goType, asNat, asInt, h]

theorem unmarshal_fields (a b : Nat) (cs : List Cpu) (fs : List FutexEv) (l : List (Bytes × J)) (s : Seg) (hw : (l.map (·.1)).Nodup)
    (h1 : ∀ e ∈ l, e.1 = bs "startTime" → asNat e.2 = some a) (h2 : ∀ e ∈ l, e.1 = bs "endTime" → asNat e.2 = some b)
    (h3 : ∀ e ∈ l, e.1 = bs "cpuEvents" → asArr (cpuWith goType) e.2 = some cs)
    (h4 : ∀ e ∈ l, e.1 = bs "javaFutexEvents" → asArr asFutex e.2 = some fs) :
    unmarshal s l = some { s with
      start := if bs "startTime" ∈ l.map (·.1) then a else s.start
      stop := if bs "endTime" ∈ l.map (·.1) then b else s.stop
      cpu := if bs "cpuEvents" ∈ l.map (·.1) then s.cpu ++ cs else s.cpu
      futex := if bs "javaFutexEvents" ∈ l.map (·.1) then s.futex ++ aliased fs else s.futex } := by
  induction l generalizing s with
  | nil => simp [unmarshal]
  | cons e r ih =>
    rw [List.map_cons, List.nodup_cons] at hw
    have ih' := fun s => ih s hw.2 (fun x hx => h1 x (List.mem_cons_of_mem _ hx)) (fun x hx => h2 x (List.mem_cons_of_mem _ hx))
      (fun x hx => h3 x (List.mem_cons_of_mem _ hx)) (fun x hx => h4 x (List.mem_cons_of_mem _ hx))
    have me : e ∈ e :: r := List.mem_cons_self ..
    have n12 : bs "startTime" ≠ bs "endTime" := by decide
    have n13 : bs "startTime" ≠ bs "cpuEvents" := by decide
    have n14 : bs "startTime" ≠ bs "javaFutexEvents" := by decide
    have n23 : bs "endTime" ≠ bs "cpuEvents" := by decide
    have n24 : bs "endTime" ≠ bs "javaFutexEvents" := by decide
    have n34 : bs "cpuEvents" ≠ bs "javaFutexEvents" := by decide
    have hs : unmarshal s (e :: r) = (goStep s e).bind (fun s' => unmarshal s' r) := by
      simp only [unmarshal, List.foldlM_cons]; rfl
    rw [hs]
    obtain ⟨hn, -⟩ := hw
    by_cases k1 : e.1 = bs "startTime"
    · rw [goStep, if_pos k1, h1 e me k1, Option.map_some, Option.bind_some, ih']
      rw [k1] at hn
      simp only [List.map_cons, List.mem_cons, k1, n12.symm, n13.symm, n14.symm, false_or, true_or, if_true, if_neg hn]
    by_cases k2 : e.1 = bs "endTime"
    · rw [goStep, if_neg k1, if_pos k2, h2 e me k2, Option.map_some, Option.bind_some, ih']
      rw [k2] at hn
      simp only [List.map_cons, List.mem_cons, k2, n12, n23.symm, n24.symm, false_or, true_or, if_true, if_neg hn]
    by_cases k3 : e.1 = bs "cpuEvents"
    · rw [goStep, if_neg k1, if_neg k2, if_pos k3, h3 e me k3, Option.map_some, Option.bind_some, ih']
      rw [k3] at hn
      simp only [List.map_cons, List.mem_cons, k3, n13, n23, n34.symm, false_or, true_or, if_true, if_neg hn]
    by_cases k4 : e.1 = bs "javaFutexEvents"
    · rw [goStep, if_neg k1, if_neg k2, if_neg k3, if_pos k4, h4 e me k4, Option.map_some, Option.bind_some, ih']
      rw [k4] at hn
      simp only [List.map_cons, List.mem_cons, k4, n14, n24, n34, false_or, true_or, if_true, if_neg hn]
    · rw [goStep, if_neg k1, if_neg k2, if_neg k3, if_neg k4, Option.bind_some, ih']
      simp only [List.map_cons, List.mem_cons, Ne.symm k1, Ne.symm k2, Ne.symm k3, Ne.symm k4, false_or]

/-- The members of a segment as a reader of the text sees them. -/
def readMembers (s : Seg) (index : Bytes) : List (Bytes × J) := (members s index).map (fun e => (clean e.1, e.2.clean))

/-- The text of a segment has these members. -/
theorem members_read (s : Seg) (index : Bytes) :
    ∃ l, Json.read (print (.obj (ofPairs (members s index)))) = some (.obj l) ∧ toPairs l = readMembers s index := by
  refine ⟨(ofPairs (members s index)).clean, by rw [read_print]; simp [J.clean], ?_⟩
  rw [clean_ofPairs, toPairs_ofPairs, readMembers]

theorem readMembers_keys (s : Seg) (index : Bytes) : (readMembers s index).map (·.1) =
    [bs "startTime", bs "endTime", bs "cpuEvents", bs "javaFutexEvents", bs "transactionIds", bs "spans", bs "innerCalls", bs "IsSend",
      bs "indexTimestamp"] := by
  simp only [readMembers, members, List.map_cons, List.map_nil]
  rw [clean_key (bs "startTime") (by decide), clean_key (bs "endTime") (by decide), clean_key (bs "cpuEvents") (by decide),
    clean_key (bs "javaFutexEvents") (by decide), clean_key (bs "transactionIds") (by decide), clean_key (bs "spans") (by decide),
    clean_key (bs "innerCalls") (by decide), clean_key (bs "IsSend") (by decide), clean_key (bs "indexTimestamp") (by decide)]

/-- C113 fails for the reader of the code itself: whatever the order of the map, reading a segment into another one leaves the events of the
other one in front, makes all Java lock events equal to the last one, and leaves out transactions, spans, inner calls and the mark. -/
theorem unmarshal_loses (s s0 : Seg) (index : Bytes) (order : List (Bytes × J)) (h : order.Perm (readMembers s index)) :
    unmarshal s0 order = some ⟨s.start, s.stop, s0.cpu ++ s.cpu.map cleanCpu, s0.futex ++ aliased (s.futex.map cleanFutex), s0.tx, s0.spans,
      s0.inner, s0.isSend⟩ := by
  have hk := (h.map (·.1))
  rw [readMembers_keys] at hk
  have hn : (order.map (·.1)).Nodup := hk.nodup_iff.mpr (by decide)
  have hin : ∀ e ∈ order, e ∈ readMembers s index := fun e he => h.mem_iff.mp he
  have one : ∀ e ∈ readMembers s index, ∀ e' ∈ readMembers s index, e.1 = e'.1 → e.2 = e'.2 := by
    intro e he e' he' hh
    have hw : AMap.WF (readMembers s index) := by
      unfold AMap.WF AMap.keys
      rw [readMembers_keys]; decide
    have g1 := AMap.get_of_mem hw (show (e.1, e.2) ∈ _ from he)
    have g2 := AMap.get_of_mem hw (show (e'.1, e'.2) ∈ _ from he')
    rw [hh, g2] at g1
    exact (Option.some.inj g1).symm
  have m1 : (bs "startTime", J.clean (.num s.start)) ∈ readMembers s index :=
    List.mem_map.mpr ⟨(bs "startTime", .num s.start), by simp [members], by rw [clean_key (bs "startTime") (by decide)]⟩
  have m2 : (bs "endTime", J.clean (.num s.stop)) ∈ readMembers s index :=
    List.mem_map.mpr ⟨(bs "endTime", .num s.stop), by simp [members], by rw [clean_key (bs "endTime") (by decide)]⟩
  have m3 : (bs "cpuEvents", J.clean (.arr (ofList (s.cpu.map cpuJ)))) ∈ readMembers s index :=
    List.mem_map.mpr ⟨(bs "cpuEvents", .arr (ofList (s.cpu.map cpuJ))), by simp [members], by rw [clean_key (bs "cpuEvents") (by decide)]⟩
  have m4 : (bs "javaFutexEvents", J.clean (.arr (ofList (s.futex.map futexJ)))) ∈ readMembers s index :=
    List.mem_map.mpr ⟨(bs "javaFutexEvents", .arr (ofList (s.futex.map futexJ))), by simp [members],
      by rw [clean_key (bs "javaFutexEvents") (by decide)]⟩
  rw [unmarshal_fields s.start s.stop (s.cpu.map cleanCpu) (s.futex.map cleanFutex) order s0 hn
    (fun e he k => by rw [one e (hin e he) _ m1 k, asNat_num])
    (fun e he k => by rw [one e (hin e he) _ m2 k, asNat_num])
    (fun e he k => by rw [one e (hin e he) _ m3 k, asArr_clean _ _ _ (cpuWith_clean goType goTypes_clean)])
    (fun e he k => by rw [one e (hin e he) _ m4 k, asArr_clean _ _ _ asFutex_clean])]
  have i1 : bs "startTime" ∈ order.map (·.1) := hk.mem_iff.mpr (by decide)
  have i2 : bs "endTime" ∈ order.map (·.1) := hk.mem_iff.mpr (by decide)
  have i3 : bs "cpuEvents" ∈ order.map (·.1) := hk.mem_iff.mpr (by decide)
  have i4 : bs "javaFutexEvents" ∈ order.map (·.1) := hk.mem_iff.mpr (by decide)
  simp only [i1, i2, i3, i4, if_true]

/-- All lock events read are the last one. -/
theorem aliased_same {α : Type} (l : List α) : (aliased l).length = l.length ∧ ∀ x ∈ aliased l, l.getLast? = some x := by
  unfold aliased
  split
  · rename_i h
    rw [List.getLast?_eq_none_iff] at h
    subst h; simp
  · rename_i y h
    refine ⟨by simp, ?_⟩
    intro x hx
    rw [List.eq_of_mem_replicate hx, h]

/-- Lock events come back only if they are all equal. -/
theorem aliased_iff {α : Type} (l : List α) : aliased l = l ↔ ∀ x ∈ l, ∀ y ∈ l, x = y := by
  constructor
  · intro h x hx y hy
    rw [← h] at hx hy
    have a := (aliased_same l).2 x hx
    have b := (aliased_same l).2 y hy
    rw [a] at b; exact Option.some.inj b
  · intro h
    unfold aliased
    split
    · rename_i hl
      rw [List.getLast?_eq_none_iff] at hl
      exact hl.symm
    · rename_i y hl
      exact (List.eq_replicate_iff.mpr ⟨rfl, fun b hb => h b hb y (List.mem_of_getLast? hl)⟩).symm

/-! ### Sending a segment again -/

inductive Timed
  | cpu (e : Cpu)
  | futex (e : FutexEv)
  | tx (e : TxEv)
  | span (e : SpanEv)
  | inner (e : Inner)

/-- `putTimedEvent` (model.go:72-85). -/
def putTimed (s : Seg) : Timed → Seg
  | .cpu e => { s with cpu := s.cpu ++ [e] }
  | .futex e => { s with futex := s.futex ++ [e] }
  | .tx e => { s with tx := s.tx ++ [e] }
  | .span e => { s with spans := s.spans ++ [e] }
  | .inner e => { s with inner := s.inner ++ [e] }

/-- Filing an event under a segment (cpu_analyzer.go:335-337, 362-364). -/
def put (s : Seg) (e : Timed) : Seg := { putTimed s e with isSend := 0 }

/-- `isNotEmpty` (model.go:119-121). -/
def notEmpty (s : Seg) : Bool := !s.cpu.isEmpty || !s.futex.isEmpty || !s.tx.isEmpty || !s.spans.isEmpty || !s.inner.isEmpty

/-- What happens to a segment while it is in the window. -/
inductive Op
  | put (e : Timed)
  | send (el : Elems)

/-- A segment, the texts appended to files and the documents Elasticsearch was given. -/
structure World where
  seg : Seg
  files : List (Path × Bytes)
  docs : List Bytes

/-- `sendEvents` for one segment (send_trigger.go:201-211) with an exporter of each kind (cameraexporter/exporter.go:45-51, 75-87). -/
def step (date : Nat → Bytes) (suffix : Bytes) (t : Thread) (w : World) : Op → World
  | .put e => { w with seg := put w.seg e }
  | .send el => if notEmpty w.seg then
      { seg := { w.seg with isSend := 1 }
        files := w.files ++ (match consume date (some .file) (sent w.seg t el) with
          | .ok (.file p) => [(p, marshal (sent w.seg t el))]
          | _ => [])
        docs := w.docs ++ (match consume date (some (.es suffix)) (sent w.seg t el) with
          | .ok (.index _ d) => [d]
          | _ => []) }
    else w

def run (date : Nat → Bytes) (suffix : Bytes) (t : Thread) (w : World) (ops : List Op) : World := ops.foldl (step date suffix t) w

/-- The events put, in order. -/
def puts (ops : List Op) : List Timed := ops.filterMap (fun o => match o with
  | .put e => some e
  | .send _ => none)

def cpus (l : List Timed) : List Cpu := l.filterMap (fun e => match e with | .cpu e => some e | _ => none)
def futexes (l : List Timed) : List FutexEv := l.filterMap (fun e => match e with | .futex e => some e | _ => none)
def txs (l : List Timed) : List TxEv := l.filterMap (fun e => match e with | .tx e => some e | _ => none)
def spansOf (l : List Timed) : List SpanEv := l.filterMap (fun e => match e with | .span e => some e | _ => none)
def inners (l : List Timed) : List Inner := l.filterMap (fun e => match e with | .inner e => some e | _ => none)

/-- What a reader should find of the events put: all of them, by kind and in order. -/
def found (a b : Nat) (t : Thread) (mark : Nat) (l : List Timed) : Seen :=
  ⟨t.pid, t.tid, mark, clean t.name, a, b, (cpus l).map cleanCpu, (futexes l).map cleanFutex, (txs l).map cleanTx, (spansOf l).map cleanSpan,
    (inners l).map cleanInner⟩

theorem isSent_label (s : Seg) (t : Thread) (el : Elems) : gi (labelsOf (sent s t el)) (bs "isSent") = s.isSend := by
  simp only [labelsOf, sent, Option.getD_some, gi]
  rw [get_sent s t el _ (apart el "isSent" (by simp))]
  rw [show (segLabels s t).get (bs "isSent") = some (.int s.isSend) from rfl]

theorem sent_kind (s : Seg) (t : Thread) (el : Elems) : kind (sent s t el) = .events :=
  (what_is_stored (fun _ => []) (sent s t el)).2.2.mp rfl

/-- The segment of a run has everything that was put. -/
structure Holds (a b : Nat) (s : Seg) (l : List Timed) : Prop where
  start : s.start = a
  stop : s.stop = b
  cpu : s.cpu = cpus l
  futex : s.futex = futexes l
  tx : s.tx = txs l
  spans : s.spans = spansOf l
  inner : s.inner = inners l

theorem puts_append (x y : List Op) : puts (x ++ y) = puts x ++ puts y := by simp [puts]

theorem run_append (date : Nat → Bytes) (suffix : Bytes) (t : Thread) (w : World) (x y : List Op) :
    run date suffix t w (x ++ y) = run date suffix t (run date suffix t w x) y := by simp [run]

theorem holds_put {a b : Nat} {s : Seg} {l : List Timed} (h : Holds a b s l) (e : Timed) : Holds a b (put s e) (l ++ [e]) := by
  obtain ⟨h1, h2, h3, h4, h5, h6, h7⟩ := h
  cases e <;> constructor <;>
    simp [put, putTimed, h1, h2, h3, h4, h5, h6, h7, cpus, futexes, txs, spansOf, inners, List.filterMap_append]

theorem holds_run (date : Nat → Bytes) (suffix : Bytes) (t : Thread) (ops : List Op) (w : World) (a b : Nat) (l : List Timed)
    (h : Holds a b w.seg l) : Holds a b (run date suffix t w ops).seg (l ++ puts ops) := by
  induction ops generalizing w l with
  | nil => simpa [run, puts] using h
  | cons o r ih =>
    cases o with
    | put e =>
      have := ih (step date suffix t w (.put e)) (l ++ [e]) (holds_put h e)
      rw [show puts (.put e :: r) = e :: puts r from rfl, ← List.append_cons] at *
      simpa [run] using this
    | send el =>
      refine ih (step date suffix t w (.send el)) l ?_
      simp only [step]
      split
      · obtain ⟨h1, h2, h3, h4, h5, h6, h7⟩ := h
        exact ⟨h1, h2, h3, h4, h5, h6, h7⟩
      · exact h

def start (a b : Nat) : World := ⟨newSegment a b, [], []⟩

theorem holds_start (a b : Nat) : Holds a b (start a b).seg [] := ⟨rfl, rfl, rfl, rfl, rfl, rfl, rfl⟩

theorem notEmpty_holds {a b : Nat} {s : Seg} {l : List Timed} (h : Holds a b s l) : notEmpty s = true ↔ l ≠ [] := by
  obtain ⟨-, -, h3, h4, h5, h6, h7⟩ := h
  simp only [notEmpty, h3, h4, h5, h6, h7]
  constructor
  · rintro h rfl; simp [cpus, futexes, txs, spansOf, inners] at h
  · intro h
    cases l with
    | nil => exact absurd rfl h
    | cons e r => cases e <;> simp [cpus, futexes, txs, spansOf, inners]

theorem seen_holds {a b : Nat} {s : Seg} {l : List Timed} (h : Holds a b s l) (t : Thread) : seen s t = found a b t s.isSend l := by
  obtain ⟨h1, h2, h3, h4, h5, h6, h7⟩ := h
  simp only [seen, found, h1, h2, h3, h4, h5, h6, h7]

/-- C113.  Whenever a segment with an event is sent, the file of the trace gets a line with every event put so far, by kind and in order. -/
theorem file_complete (date : Nat → Bytes) (suffix : Bytes) (t : Thread) (a b : Nat) (ha : a < 2 ^ 64) (hb : b < 2 ^ 64) (ops : List Op)
    (el : Elems) (h : puts ops ≠ []) :
    ∃ p text mark, (run date suffix t (start a b) (ops ++ [.send el])).files = (run date suffix t (start a b) ops).files ++ [(p, text)] ∧
      (readGroup text).bind readSeg = some (found a b t mark (puts ops)) := by
  have hh := holds_run date suffix t ops _ a b [] (holds_start a b)
  rw [List.nil_append] at hh
  have hn := (notEmpty_holds hh).mpr h
  rw [run_append]
  generalize run date suffix t (start a b) ops = w at *
  refine ⟨fileFor date (sent w.seg t el), marshal (sent w.seg t el), w.seg.isSend, ?_, ?_⟩
  · simp [run, step, hn, consume, sent_kind]
  · rw [segment_reads_back w.seg t el (by rw [hh.start]; exact ha) (by rw [hh.stop]; exact hb), seen_holds hh]

/-- The last document has everything while the mark is set. -/
theorem marked_run (date : Nat → Bytes) (suffix : Bytes) (t : Thread) (a b : Nat) (ha : a < 2 ^ 64) (hb : b < 2 ^ 64) (ops : List Op) :
    ((run date suffix t (start a b) ops).seg.isSend = 0 ∨ (run date suffix t (start a b) ops).seg.isSend = 1) ∧
    ((run date suffix t (start a b) ops).seg.isSend = 1 → ∃ ds d, (run date suffix t (start a b) ops).docs = ds ++ [d] ∧
      (readGroup d).bind readSeg = some (found a b t 0 (puts ops))) := by
  induction ops using snoc_ind with
  | nil => exact ⟨.inl rfl, fun h => by cases h⟩
  | snoc ops o ih =>
    have hh := holds_run date suffix t ops _ a b [] (holds_start a b)
    rw [List.nil_append] at hh
    rw [run_append, puts_append]
    generalize run date suffix t (start a b) ops = w at *
    have hr : run date suffix t w [o] = step date suffix t w o := rfl
    rw [hr]
    cases o with
    | put e => exact ⟨.inl rfl, fun h => by simp [step, put] at h⟩
    | send el =>
      rw [show puts [.send el] = [] from rfl, List.append_nil]
      by_cases hn : notEmpty w.seg = true
      · refine ⟨.inr (by simp [step, hn]), fun _ => ?_⟩
        rcases ih.1 with h0 | h1
        · refine ⟨w.docs, marshal (sent w.seg t el), by simp [step, hn, consume, isSent_label, h0], ?_⟩
          rw [segment_reads_back w.seg t el (by rw [hh.start]; exact ha) (by rw [hh.stop]; exact hb), seen_holds hh, h0]
        · obtain ⟨ds, d, e1, e2⟩ := ih.2 h1
          exact ⟨ds, d, by simp [step, hn, consume, isSent_label, h1, e1], e2⟩
      · simp only [step, if_neg hn]
        exact ih

/-- C113.  After a segment with an event was sent, the last document Elasticsearch has of it contains every event put so far. -/
theorem es_complete_partial (date : Nat → Bytes) (suffix : Bytes) (t : Thread) (a b : Nat) (ha : a < 2 ^ 64) (hb : b < 2 ^ 64) (ops : List Op)
    (el : Elems) (h : puts ops ≠ []) :
    ∃ ds d, (run date suffix t (start a b) (ops ++ [.send el])).docs = ds ++ [d] ∧
      (readGroup d).bind readSeg = some (found a b t 0 (puts ops)) := by
  have hm := (marked_run date suffix t a b ha hb (ops ++ [.send el])).2
  rw [puts_append, show puts [.send el] = [] from rfl, List.append_nil] at hm
  refine hm ?_
  have hh := holds_run date suffix t ops _ a b [] (holds_start a b)
  rw [List.nil_append] at hh
  have hn := (notEmpty_holds hh).mpr h
  rw [run_append]
  simp [run, step]
  simp [run] at hn
  simp [hn]

theorem docs_rest (date : Nat → Bytes) (suffix : Bytes) (t : Thread) (els : List Elems) (w : World) (h : w.seg.isSend = 1) :
    (run date suffix t w (els.map .send)).docs = w.docs := by
  induction els generalizing w with
  | nil => rfl
  | cons el r ih =>
    have hs : (step date suffix t w (.send el)).seg.isSend = 1 ∧ (step date suffix t w (.send el)).docs = w.docs := by
      simp only [step]
      split
      · exact ⟨rfl, by simp [consume, isSent_label, h]⟩
      · exact ⟨h, rfl⟩
    have := ih _ hs.1
    rw [hs.2] at this
    exact this

/-- C113 fails for Elasticsearch when several slow traces meet a segment: until a new event is put, the traces after the first one get no
document, while the file of each of them gets all events. -/
theorem es_first_trace_only (date : Nat → Bytes) (suffix : Bytes) (t : Thread) (a b : Nat) (ops : List Op) (h : puts ops ≠ []) (el : Elems)
    (els : List Elems) :
    (run date suffix t (start a b) (ops ++ .send el :: els.map .send)).docs = (run date suffix t (start a b) (ops ++ [.send el])).docs ∧
    (run date suffix t (start a b) (ops ++ .send el :: els.map .send)).files.length =
      (run date suffix t (start a b) ops).files.length + 1 + els.length := by
  have hh := holds_run date suffix t ops _ a b [] (holds_start a b)
  rw [List.nil_append] at hh
  have hn := (notEmpty_holds hh).mpr h
  rw [run_append, run_append]
  generalize run date suffix t (start a b) ops = w at *
  have e1 : run date suffix t w (.send el :: els.map .send) = run date suffix t (step date suffix t w (.send el)) (els.map .send) := rfl
  have e2 : run date suffix t w [.send el] = step date suffix t w (.send el) := rfl
  rw [e1, e2]
  constructor
  · exact docs_rest date suffix t els _ (by simp [step, hn])
  · have hl : ∀ (els : List Elems) (w : World), notEmpty w.seg = true →
        (run date suffix t w (els.map .send)).files.length = w.files.length + els.length := by
      intro els
      induction els with
      | nil => intro w _; rfl
      | cons x r ih =>
        intro w hw
        have := ih (step date suffix t w (.send x)) (by simp only [step, hw, if_true]; exact hw)
        have e3 : run date suffix t w (List.map .send (x :: r)) = run date suffix t (step date suffix t w (.send x)) (r.map .send) := rfl
        rw [e3, this]
        simp [step, hw, consume, sent_kind]
        omega
    rw [hl els _ (by simp only [step, hn, if_true]; exact hn)]
    simp [step, hn, consume, sent_kind]

/-- The events of the probe, as `ConsumeCpuEvent` makes them, are what is found. -/
theorem probe_events_found (a b : Nat) (t : Thread) (mark : Nat) (l : List Timed)
    (h : ∀ c ∈ cpus l, ValidUtf8 c.onInfo ∧ ValidUtf8 c.offInfo ∧ ValidUtf8 c.log ∧ ValidUtf8 c.stack) :
    (found a b t mark l).cpu.map Cpu.ev = (cpus l).map Cpu.ev := by
  rw [found]
  congr 1
  refine map_same _ _ (fun c hc => ?_)
  obtain ⟨x, y, z, u⟩ := h c hc
  simp only [cleanCpu, clean_valid x, clean_valid y, clean_valid z, clean_valid u]

/-! ### Examples -/

def busy : Cpu := ⟨100, 900, some [300, 500], none, some [0, 3], bs "a\"b", [], bs "x<y\n", []⟩
def wait1 : FutexEv := ⟨1, 2, bs "one"⟩
def wait2 : FutexEv := ⟨3, 4, bs "two"⟩
def worker : Thread := ⟨7, 8, bs "worker"⟩
def piece : Seg := ⟨0, 1000, [busy], [wait1, wait2], [], [⟨5, 6, bs "t", bs "n"⟩], [], 0⟩
def elems : Elems := ⟨bs "w", bs "p", bs "c", 7, true, bs "http", 5, bs "/a"⟩

theorem piece_plain : Plain piece worker := by
  refine ⟨ascii_valid (by decide), ?_, ?_, ?_, ?_⟩
  · intro c hc
    simp only [piece, List.mem_singleton] at hc; subst hc
    exact ⟨ascii_valid (by decide), ascii_valid (by decide), ascii_valid (by decide), ascii_valid (by decide)⟩
  · intro c hc
    simp only [piece, List.mem_cons, List.not_mem_nil, or_false] at hc
    rcases hc with rfl | rfl <;> exact ascii_valid (by decide)
  · intro c hc; cases hc
  · intro c hc
    simp only [piece, List.mem_singleton] at hc; subst hc
    exact ⟨ascii_valid (by decide), ascii_valid (by decide)⟩

example : (readGroup (marshal (sent piece worker elems))).bind readSeg =
    some ⟨7, 8, 0, bs "worker", 0, 1000, [busy], [wait1, wait2], [], [⟨5, 6, bs "t", bs "n"⟩], []⟩ := by
  rw [segment_reads_back piece worker elems (by decide) (by decide), segment_unchanged _ _ piece_plain]
  rfl

/-- The reader of the code finds the second lock event twice and no span. -/
example : (unmarshal (newSegment 0 0) (readMembers piece [])).map (fun s => (s.futex, s.spans)) = some ([wait2, wait2], []) := by
  rw [unmarshal_loses piece _ [] _ (List.Perm.refl _)]
  have h := map_same cleanFutex piece.futex (fun c hc => by simp only [cleanFutex, clean_valid (piece_plain.futex c hc)])
  simp only [h]
  decide

example : ¬ ∀ x ∈ piece.futex, ∀ y ∈ piece.futex, x = y := by decide

/-- Of two slow traces that meet a segment, Elasticsearch gets the events for the first. -/
example : (run day [] worker (start 0 1000) [.put (.futex wait1), .send elems, .send { elems with timestamp := 6 }]).docs =
    (run day [] worker (start 0 1000) [.put (.futex wait1), .send elems]).docs :=
  (es_first_trace_only day [] worker 0 1000 [.put (.futex wait1)] (by simp [puts]) elems [{ elems with timestamp := 6 }]).1

example : puts [.put (.futex wait1), .send elems, .put (.futex wait2)] ≠ [] := by simp [puts]

end Kindling.Export.SegmentText
