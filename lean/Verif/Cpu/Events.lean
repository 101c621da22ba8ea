import Verif.Cpu.Window
import Verif.Tcp.Metric
import Verif.Dec
/-
What the CPU analyzer makes of an event of the probe: component/analyzer/cpuanalyzer/cpu_analyzer.go:83-121, 167-263, model.go, and
the events as the probe writes them (probe/src/converter/cpu_converter.cpp:45-166, probe/src/cgo/kindling.cpp:466-665).
-/
namespace Kindling.Cpu.Events
open Kindling Kindling.Model Kindling.Tcp Kindling.Tcp.Metric

/-- `CpuEvent` (model.go:196-206). -/
structure CpuEv where
  start : Nat
  stop : Nat
  typeSpecs : List Nat
  runq : List Nat
  timeType : List UInt8
  onInfo : Bytes
  offInfo : Bytes
  log : Bytes
  stack : Bytes
deriving DecidableEq

def CpuEv.empty : CpuEv := ⟨0, 0, [], [], [], [], [], [], []⟩

/-- `JavaFutexEvent`, `ApmSpanEvent`, `TransactionIdEvent` (model.go:220-224, 238-246, 260-265). -/
structure FutexEv where
  start : Nat
  stop : Nat
  data : Bytes
deriving DecidableEq
structure SpanEv where
  start : Nat
  stop : Nat
  traceId : Bytes
  name : Bytes
deriving DecidableEq
structure TxEv where
  time : Nat
  traceId : Bytes
  isEntry : Nat
  protocol : Bytes
  url : Bytes
  pid : Bytes
  containerId : Bytes
deriving DecidableEq

/-- The digits of `strconv.ParseUint(s, 10, bits)`, with the value it returns along with an error: 0 at a byte that is no digit, the
largest number as soon as the number does not fit. -/
def parseGo (bits : Nat) : Nat → Bytes → Nat
  | n, [] => n
  | n, c :: r => if 48 ≤ c.toNat ∧ c.toNat ≤ 57 then
      (if 2 ^ bits ≤ n * 10 + (c.toNat - 48) then 2 ^ bits - 1 else parseGo bits (n * 10 + (c.toNat - 48)) r) else 0

/-- `x, _ = strconv.ParseUint(s, 10, bits)` (cpu_analyzer.go:105, 174, 190); nothing at all also gives 0. -/
def parseUint (bits : Nat) (s : Bytes) : Nat := parseGo bits 0 s

/-- `make([]uint64, len(val)/8)` and `binary.Read` in little-endian order (cpu_analyzer.go:227-230, 234-237). -/
def words (b : Bytes) : List Nat := if _h : 8 ≤ b.length then leValue (b.take 8) :: words (b.drop 8) else []
termination_by b.length
decreasing_by rw [List.length_drop]; omega

/-- The body of the loop of `ConsumeCpuEvent` (cpu_analyzer.go:221-257); `none` is the panic of a number with too few bytes. -/
def cpuField (ev : CpuEv) (a : Attr) : Option CpuEv :=
  if a.1 = "start_time" then (getUint a).map (fun n => { ev with start := n })
  else if a.1 = "end_time" then (getUint a).map (fun n => { ev with stop := n })
  else if a.1 = "time_specs" then some { ev with typeSpecs := words a.2.2 }
  else if a.1 = "runq_latency" then some { ev with runq := words a.2.2 }
  else if a.1 = "time_type" then some { ev with timeType := a.2.2 }
  else if a.1 = "on_info" then some { ev with onInfo := a.2.2 }
  else if a.1 = "off_info" then some { ev with offInfo := a.2.2 }
  else if a.1 = "log" then some { ev with log := a.2.2 }
  else if a.1 = "stack" then some { ev with stack := a.2.2 }
  else some ev

/-- The loop `for i := 0; i < int(event.ParamsNumber); i++`. -/
def cpuFields : CpuEv → List Attr → Option CpuEv
  | ev, [] => some ev
  | ev, a :: r => match cpuField ev a with
    | none => none
    | some ev' => cpuFields ev' r

/-- The body of the loop of `ConsumeJavaFutexEvent` (cpu_analyzer.go:170-178). -/
def futexField (ev : FutexEv) (a : Attr) : FutexEv :=
  if a.1 = "end_time" then { ev with stop := parseUint 64 a.2.2 }
  else if a.1 = "data" then { ev with data := a.2.2 }
  else ev

/-- The body of the loop of `ConsumeSpanEvent` (cpu_analyzer.go:186-196). -/
def spanField (ev : SpanEv) (a : Attr) : SpanEv :=
  if a.1 = "end_time" then { ev with stop := parseUint 64 a.2.2 }
  else if a.1 = "trace_id" then { ev with traceId := a.2.2 }
  else if a.1 = "span" then { ev with name := a.2.2 }
  else ev

/-- The thread an event comes from (model/kindling_event.go, `Ctx.ThreadInfo`). -/
structure Thread where
  pid : Nat
  tid : Nat
  comm : Bytes
  containerId : Bytes
deriving DecidableEq

inductive Timed
  | cpu (e : CpuEv)
  | futex (e : FutexEv)
  | tx (e : TxEv)
  | span (e : SpanEv)
deriving DecidableEq

/-- What `ConsumeEvent` does: put an event to the segments of a thread, note the end of a thread, or nothing. -/
inductive Action
  | put (pid tid : Nat) (comm : Bytes) (e : Timed)
  | exited (pid tid : Nat)
  | nothing
deriving DecidableEq

/-- `GetStringUserAttribute` (kindling_event_helper.go:93-99). -/
def getString (e : Metric.Ev) (k : String) : Bytes := match getAttr e k with
  | some a => a.2.2
  | none => []

/-- `ConsumeTransactionIdEvent` (cpu_analyzer.go:104-115). -/
def txEvent (e : Metric.Ev) (t : Thread) : TxEv :=
  ⟨e.rest, getString e "trace_id", parseUint 32 (getString e "is_enter"), getString e "protocol", getString e "url", Dec.digits t.pid, t.containerId⟩

/-- `ConsumeEvent` (cpu_analyzer.go:83-102).  `none` is a panic: a number with too few bytes, or more parameters than the array has
(the loops at 170, 186 and 219 do not look at its length). -/
def consume (enabled : Bool) (e : Metric.Ev) (t : Thread) : Option Action :=
  if !enabled then some .nothing
  else if e.name = "cpu_event" then
    (if e.attrs.length < e.paramsNumber then none
      else (cpuFields CpuEv.empty (e.attrs.take e.paramsNumber)).map (fun c => .put t.pid t.tid t.comm (.cpu c)))
  else if e.name = "java_futex_info" then
    (if e.attrs.length < e.paramsNumber then none
      else some (.put t.pid t.tid t.comm (.futex ((e.attrs.take e.paramsNumber).foldl futexField ⟨e.rest, 0, []⟩))))
  else if e.name = "apm_trace_id_event" then some (.put t.pid t.tid t.comm (.tx (txEvent e t)))
  else if e.name = "procexit" then some (.exited t.pid t.tid)
  else if e.name = "apm_span_event" then
    (if e.attrs.length < e.paramsNumber then none
      else some (.put t.pid t.tid t.comm (.span ((e.attrs.take e.paramsNumber).foldl spanField ⟨e.rest, 0, [], []⟩))))
  else some .nothing

/-- `StartTimestamp`, `EndTimestamp`, `Kind` (model.go:208-218, 226-236, 248-258, 267-277) for the window; `id` names the event. -/
def Timed.toEv (id : Nat) : Timed → Cpu.Ev
  | .cpu e => ⟨.cpu, e.start, e.stop, id⟩
  | .futex e => ⟨.javaFutex, e.start, e.stop, id⟩
  | .tx e => ⟨.transactionId, e.time, e.time, id⟩
  | .span e => ⟨.span, e.start, e.stop, id⟩

/-! ### Numbers as text -/

/-- The value of a row of digits. -/
def value (s : Bytes) : Nat := s.foldl (fun n c => n * 10 + (c.toNat - 48)) 0
def isDigit (c : UInt8) : Bool := decide (48 ≤ c.toNat ∧ c.toNat ≤ 57)

theorem value_ge (s : Bytes) (n : Nat) : n ≤ s.foldl (fun n c => n * 10 + (c.toNat - 48)) n := by
  induction s generalizing n with
  | nil => exact Nat.le_refl _
  | cons c r ih => exact Nat.le_trans (show n ≤ n * 10 + (c.toNat - 48) by omega) (ih _)

theorem takeWhile_all {s : Bytes} (h : s.all isDigit = true) : s.takeWhile isDigit = s := by
  induction s with
  | nil => rfl
  | cons c r ih =>
    rw [List.all_cons, Bool.and_eq_true] at h
    rw [List.takeWhile_cons_of_pos h.1, ih h.2]

theorem parseGo_spec (bits : Nat) (s : Bytes) : ∀ n, n < 2 ^ bits → parseGo bits n s =
    (let v := (s.takeWhile isDigit).foldl (fun n c => n * 10 + (c.toNat - 48)) n
     if 2 ^ bits ≤ v then 2 ^ bits - 1 else if s.all isDigit then v else 0) := by
  induction s with
  | nil => intro n h; simp [parseGo]; omega
  | cons c r ih =>
    intro n h
    by_cases hc : isDigit c = true
    · have hc' : 48 ≤ c.toNat ∧ c.toNat ≤ 57 := of_decide_eq_true hc
      simp only [parseGo, if_pos hc', List.takeWhile_cons_of_pos hc, List.foldl_cons, List.all_cons, hc, Bool.true_and]
      by_cases hv : 2 ^ bits ≤ n * 10 + (c.toNat - 48)
      · rw [if_pos hv, if_pos (Nat.le_trans hv (value_ge _ _))]
      · rw [if_neg hv, ih _ (by omega)]
    · have hc' : ¬ (48 ≤ c.toNat ∧ c.toNat ≤ 57) := fun h => hc (decide_eq_true h)
      have hf : isDigit c = false := by simpa using hc
      simp only [parseGo, if_neg hc', List.takeWhile_cons_of_neg hc, List.foldl_nil, List.all_cons, hf, Bool.false_and]
      rw [if_neg (by omega)]
      simp

/-- C94: a number in text is read as the number, whatever zeros stand before it; a text that does not fit gives the largest number,
and any other text 0. -/
theorem parseUint_exact (bits : Nat) (s : Bytes) : parseUint bits s =
    if 2 ^ bits ≤ value (s.takeWhile isDigit) then 2 ^ bits - 1 else if s.all isDigit then value s else 0 := by
  unfold parseUint
  rw [parseGo_spec bits s 0 (Nat.pow_pos (by omega))]
  show (if 2 ^ bits ≤ value (s.takeWhile isDigit) then 2 ^ bits - 1 else if s.all isDigit then value (s.takeWhile isDigit) else 0) = _
  by_cases h : 2 ^ bits ≤ value (s.takeWhile isDigit)
  · rw [if_pos h, if_pos h]
  · rw [if_neg h, if_neg h]
    by_cases ha : s.all isDigit = true
    · rw [if_pos ha, if_pos ha, takeWhile_all ha]
    · rw [if_neg ha, if_neg ha]

theorem foldDigits_value (s : Bytes) : ∀ a n, Dec.foldDigits a s = some n → s.all isDigit = true ∧ s.foldl (fun n c => n * 10 + (c.toNat - 48)) a = n := by
  induction s with
  | nil => intro a n h; simp [Dec.foldDigits] at h; simp [h]
  | cons c r ih =>
    intro a n h
    simp only [Dec.foldDigits] at h
    split at h
    · rename_i hc
      obtain ⟨h1, h2⟩ := ih _ _ h
      refine ⟨?_, h2⟩
      rw [List.all_cons, h1]
      simp only [isDigit, Bool.and_true, decide_eq_true_eq]
      exact hc
    · cases h

theorem parseUint_digits (bits n : Nat) (h : n < 2 ^ bits) : parseUint bits (Dec.digits n) = n := by
  obtain ⟨h1, h2⟩ := foldDigits_value _ _ _ (Dec.foldDigits_digits n)
  rw [parseUint_exact, takeWhile_all h1, show value (Dec.digits n) = n from h2, if_neg (by omega), if_pos h1]

/-! ### Rows of words -/

theorem words_append (w : Nat) (h : w < 256 ^ 8) (r : Bytes) : words (leBytes 8 w ++ r) = w :: words r := by
  have hl := leBytes_length 8 w
  rw [words, dif_pos (by rw [List.length_append, hl]; omega)]
  rw [List.take_append_of_le_length (by omega), List.take_of_length_le (by omega), leValue_leBytes 8 w h,
    List.drop_append_of_le_length (by omega), List.drop_of_length_le (by omega), List.nil_append]

/-- C94: a row of 64-bit numbers comes back as it was, a rest of less than eight bytes is ignored. -/
theorem words_encode (ws : List Nat) (h : ∀ w ∈ ws, w < 2 ^ 64) (junk : Bytes) (hj : junk.length < 8) :
    words (ws.flatMap (leBytes 8) ++ junk) = ws := by
  induction ws with
  | nil => rw [words, dif_neg (by simp; omega)]
  | cons w ws ih =>
    rw [List.flatMap_cons, List.append_assoc, words_append w (h w (by simp)), ih (fun x hx => h x (List.mem_cons_of_mem _ hx))]

/-! ### Events as the probe writes them -/

/-- A text parameter, only written if it is not empty (cpu_converter.cpp:109-137). -/
def textAttr (k : String) (t : Nat) (b : Bytes) : List Attr := if b = [] then [] else [(k, t, b)]

def BYTEBUF : Nat := 10
def CHARBUF : Nat := 9

/-- The parameters of a CPU event (cpu_converter.cpp:69-166). -/
def writeCpu (e : CpuEv) : List Attr :=
  [("start_time", UINT64, leBytes 8 e.start), ("end_time", UINT64, leBytes 8 e.stop), ("time_specs", BYTEBUF, e.typeSpecs.flatMap (leBytes 8)),
    ("runq_latency", BYTEBUF, e.runq.flatMap (leBytes 8)), ("time_type", BYTEBUF, e.timeType)] ++
  textAttr "stack" CHARBUF e.stack ++ textAttr "log" CHARBUF e.log ++ [("on_info", CHARBUF, e.onInfo), ("off_info", CHARBUF, e.offInfo)]

/-- The last parameter of this name. -/
def lastOf (k : String) (l : List Attr) : Option Attr := (l.filter (fun a => decide (a.1 = k))).getLast?

theorem lastOf_cons (k : String) (a : Attr) (l : List Attr) :
    lastOf k (a :: l) = match lastOf k l with
      | some b => some b
      | none => if a.1 = k then some a else none := by
  unfold lastOf
  by_cases h : a.1 = k
  · rw [List.filter_cons_of_pos (by simpa using h), List.getLast?_cons, if_pos h]
    cases (l.filter (fun a => decide (a.1 = k))).getLast? <;> rfl
  · rw [List.filter_cons_of_neg (by simpa using h), if_neg h]
    cases (l.filter (fun a => decide (a.1 = k))).getLast? <;> rfl

theorem lastOf_elim {β : Type} (k : String) (a : Attr) (l : List Attr) (x : β) (f : Attr → β) :
    (lastOf k (a :: l)).elim x f = (lastOf k l).elim (if a.1 = k then f a else x) f := by
  rw [lastOf_cons]
  cases lastOf k l with
  | some b => rfl
  | none => by_cases h : a.1 = k <;> simp [h]

theorem cpuField_spec (ev ev' : CpuEv) (k : String) (t : Nat) (v : Bytes) (h : cpuField ev (k, t, v) = some ev') :
    ev'.start = (if k = "start_time" then (getUint (k, t, v)).getD 0 else ev.start) ∧
    ev'.stop = (if k = "end_time" then (getUint (k, t, v)).getD 0 else ev.stop) ∧
    ev'.typeSpecs = (if k = "time_specs" then words v else ev.typeSpecs) ∧
    ev'.runq = (if k = "runq_latency" then words v else ev.runq) ∧
    ev'.timeType = (if k = "time_type" then v else ev.timeType) ∧
    ev'.onInfo = (if k = "on_info" then v else ev.onInfo) ∧
    ev'.offInfo = (if k = "off_info" then v else ev.offInfo) ∧
    ev'.log = (if k = "log" then v else ev.log) ∧
    ev'.stack = (if k = "stack" then v else ev.stack) := by
  unfold cpuField at h
  simp only at h
  by_cases h1 : k = "start_time"
  · rw [if_pos h1, Option.map_eq_some_iff] at h
    obtain ⟨n, hn, rfl⟩ := h
    rw [hn]; subst h1; simp
  rw [if_neg h1] at h
  by_cases h2 : k = "end_time"
  · rw [if_pos h2, Option.map_eq_some_iff] at h
    obtain ⟨n, hn, rfl⟩ := h
    rw [hn]; subst h2; simp
  rw [if_neg h2] at h
  by_cases h3 : k = "time_specs"
  · rw [if_pos h3] at h; cases h; subst h3; simp
  rw [if_neg h3] at h
  by_cases h4 : k = "runq_latency"
  · rw [if_pos h4] at h; cases h; subst h4; simp
  rw [if_neg h4] at h
  by_cases h5 : k = "time_type"
  · rw [if_pos h5] at h; cases h; subst h5; simp
  rw [if_neg h5] at h
  by_cases h6 : k = "on_info"
  · rw [if_pos h6] at h; cases h; subst h6; simp
  rw [if_neg h6] at h
  by_cases h7 : k = "off_info"
  · rw [if_pos h7] at h; cases h; subst h7; simp
  rw [if_neg h7] at h
  by_cases h8 : k = "log"
  · rw [if_pos h8] at h; cases h; subst h8; simp
  rw [if_neg h8] at h
  by_cases h9 : k = "stack"
  · rw [if_pos h9] at h; cases h; subst h9; simp
  rw [if_neg h9] at h
  cases h
  simp [h1, h2, h3, h4, h5, h6, h7, h8, h9]

/-- C94: of several parameters of a name the last counts, whatever stands between them; without one the field is empty.  The rest is ignored. -/
theorem cpu_last (l : List Attr) : ∀ (ev ev' : CpuEv), cpuFields ev l = some ev' →
    ev'.start = ((lastOf "start_time" l).elim ev.start (fun a => (getUint a).getD 0)) ∧
    ev'.stop = ((lastOf "end_time" l).elim ev.stop (fun a => (getUint a).getD 0)) ∧
    ev'.typeSpecs = ((lastOf "time_specs" l).elim ev.typeSpecs (fun a => words a.2.2)) ∧
    ev'.runq = ((lastOf "runq_latency" l).elim ev.runq (fun a => words a.2.2)) ∧
    ev'.timeType = ((lastOf "time_type" l).elim ev.timeType (fun a => a.2.2)) ∧
    ev'.onInfo = ((lastOf "on_info" l).elim ev.onInfo (fun a => a.2.2)) ∧
    ev'.offInfo = ((lastOf "off_info" l).elim ev.offInfo (fun a => a.2.2)) ∧
    ev'.log = ((lastOf "log" l).elim ev.log (fun a => a.2.2)) ∧
    ev'.stack = ((lastOf "stack" l).elim ev.stack (fun a => a.2.2)) := by
  induction l with
  | nil => intro ev ev' h; simp [cpuFields] at h; subst h; simp [lastOf]
  | cons a l ih =>
    intro ev ev' h
    simp only [cpuFields] at h
    split at h
    · cases h
    · rename_i ev1 h1
      obtain ⟨g1, g2, g3, g4, g5, g6, g7, g8, g9⟩ := ih _ _ h
      obtain ⟨k, t, v⟩ := a
      obtain ⟨f1, f2, f3, f4, f5, f6, f7, f8, f9⟩ := cpuField_spec _ _ _ _ _ h1
      simp only [lastOf_elim]
      refine ⟨g1.trans ?_, g2.trans ?_, g3.trans ?_, g4.trans ?_, g5.trans ?_, g6.trans ?_, g7.trans ?_, g8.trans ?_, g9.trans ?_⟩
      · rw [f1]
      · rw [f2]
      · rw [f3]
      · rw [f4]
      · rw [f5]
      · rw [f6]
      · rw [f7]
      · rw [f8]
      · rw [f9]

/-- C94: the analyzer panics only on a time with too few bytes. -/
theorem cpu_panics (l : List Attr) : ∀ ev : CpuEv, cpuFields ev l = none ↔ ∃ a ∈ l, (a.1 = "start_time" ∨ a.1 = "end_time") ∧ getUint a = none := by
  induction l with
  | nil => intro ev; simp [cpuFields]
  | cons a l ih =>
    intro ev
    simp only [cpuFields]
    have hf : cpuField ev a = none ↔ (a.1 = "start_time" ∨ a.1 = "end_time") ∧ getUint a = none := by
      unfold cpuField
      repeat' split
      all_goals simp_all
    split
    · rename_i h
      simp only [true_iff]
      exact ⟨a, by simp, hf.1 h⟩
    · rename_i ev' h
      rw [ih ev']
      constructor
      · rintro ⟨b, hb, h2⟩; exact ⟨b, List.mem_cons_of_mem _ hb, h2⟩
      · rintro ⟨b, hb, h2⟩
        rcases List.mem_cons.1 hb with rfl | hb
        · rw [hf.2 h2] at h; cases h
        · exact ⟨b, hb, h2⟩

theorem lastOf_perm {p q : List Attr} (h : p.Perm q) (hn : (q.map (·.1)).Nodup) (k : String) : lastOf k p = lastOf k q := by
  unfold lastOf
  have hf := h.filter (fun a => decide (a.1 = k))
  have hq : ((q.filter (fun a => decide (a.1 = k))).map (·.1)).Nodup := hn.sublist (List.Sublist.map _ List.filter_sublist)
  have hk : ∀ a ∈ q.filter (fun a => decide (a.1 = k)), a.1 = k := fun a ha => of_decide_eq_true (List.mem_filter.1 ha).2
  generalize p.filter (fun a => decide (a.1 = k)) = p' at *
  generalize q.filter (fun a => decide (a.1 = k)) = q' at *
  cases q' with
  | nil => rw [List.perm_nil.1 hf]
  | cons a q' =>
    cases q' with
    | nil => rw [List.perm_singleton.1 hf]
    | cons b q' =>
      have h1 := hk a (by simp)
      have h2 := hk b (by simp)
      simp [h1, h2] at hq

/-- The times and numbers of the event fit into 64 bits. -/
def CpuEv.Fits (e : CpuEv) : Prop := e.start < 2 ^ 64 ∧ e.stop < 2 ^ 64 ∧ (∀ w ∈ e.typeSpecs, w < 2 ^ 64) ∧ ∀ w ∈ e.runq, w < 2 ^ 64

theorem getUint_le (k : String) (n : Nat) (h : n < 2 ^ 64) : getUint (k, UINT64, leBytes 8 n) = some n := by
  show readLE 8 (leBytes 8 n) = some n
  unfold readLE
  rw [leBytes_length, if_pos (Nat.le_refl 8), List.take_of_length_le (by rw [leBytes_length]; omega), leValue_leBytes 8 n h]

theorem writeCpu_names (e : CpuEv) : ((writeCpu e).map (·.1)).Nodup := by
  unfold writeCpu textAttr
  by_cases h1 : e.stack = [] <;> by_cases h2 : e.log = [] <;> simp [h1, h2]

/-- C94: a CPU event of the probe is put to the segments of its thread as it was, in whatever order its parameters come. -/
theorem cpu_event_roundtrip (e : CpuEv) (hf : e.Fits) (p : List Attr) (hp : p.Perm (writeCpu e)) (ev : Metric.Ev) (t : Thread)
    (hn : ev.name = "cpu_event") (ha : ev.attrs.take ev.paramsNumber = p) (hl : ev.paramsNumber ≤ ev.attrs.length) :
    consume true ev t = some (.put t.pid t.tid t.comm (.cpu e)) := by
  have hw := writeCpu_names e
  have hdec : cpuFields CpuEv.empty p = some e := by
    cases hc : cpuFields CpuEv.empty p with
    | none =>
      obtain ⟨a, ha, h1, h2⟩ := (cpu_panics p _).1 hc
      have ha' := hp.mem_iff.1 ha
      exfalso
      have hg1 := getUint_le "start_time" e.start hf.1
      have hg2 := getUint_le "end_time" e.stop hf.2.1
      have hnames : ∀ x ∈ writeCpu e, (x.1 = "start_time" → x = ("start_time", UINT64, leBytes 8 e.start)) ∧
          (x.1 = "end_time" → x = ("end_time", UINT64, leBytes 8 e.stop)) := by
        unfold writeCpu textAttr
        by_cases h1' : e.stack = [] <;> by_cases h2' : e.log = [] <;> simp [h1', h2']
      rcases h1 with h1 | h1
      · rw [(hnames a ha').1 h1, hg1] at h2; cases h2
      · rw [(hnames a ha').2 h1, hg2] at h2; cases h2
    | some e' =>
      obtain ⟨g1, g2, g3, g4, g5, g6, g7, g8, g9⟩ := cpu_last p _ _ hc
      rw [lastOf_perm hp hw] at g1 g2 g3 g4 g5 g6 g7 g8 g9
      have hs := words_encode e.typeSpecs hf.2.2.1 [] (by decide)
      have hr := words_encode e.runq hf.2.2.2 [] (by decide)
      rw [List.append_nil] at hs hr
      have hg1 := getUint_le "start_time" e.start hf.1
      have hg2 := getUint_le "end_time" e.stop hf.2.1
      have : e' = e := by
        obtain ⟨a, b, c, d, f, g, h, i, j⟩ := e
        obtain ⟨a', b', c', d', f', g', h', i', j'⟩ := e'
        simp only at *
        unfold writeCpu textAttr lastOf at g1 g2 g3 g4 g5 g6 g7 g8 g9
        by_cases h1 : j = [] <;> by_cases h2 : i = [] <;>
          simp [h1, h2, CpuEv.empty, hg1, hg2, hs, hr] at g1 g2 g3 g4 g5 g6 g7 g8 g9 <;>
          subst_vars <;> rfl
      rw [this]
  unfold consume
  rw [if_neg (by decide), if_pos hn, if_neg (by omega), ha, hdec]
  rfl

/-! ### The other events -/

/-- C94: what is done with an event, by its name; nothing while the profile is off. -/
theorem dispatch (ev : Metric.Ev) (t : Thread) (hl : ev.paramsNumber ≤ ev.attrs.length) :
    consume false ev t = some .nothing ∧
    (ev.name = "java_futex_info" → ∃ e, consume true ev t = some (.put t.pid t.tid t.comm (.futex e)) ∧ e.start = ev.rest) ∧
    (ev.name = "apm_span_event" → ∃ e, consume true ev t = some (.put t.pid t.tid t.comm (.span e)) ∧ e.start = ev.rest) ∧
    (ev.name = "apm_trace_id_event" → ∃ e, consume true ev t = some (.put t.pid t.tid t.comm (.tx e)) ∧ e.time = ev.rest) ∧
    (ev.name = "procexit" → consume true ev t = some (.exited t.pid t.tid)) ∧
    (ev.name ∉ ["cpu_event", "java_futex_info", "apm_span_event", "apm_trace_id_event", "procexit"] → consume true ev t = some .nothing) := by
  have hfs : ∀ (l : List Attr) (x : FutexEv), (l.foldl futexField x).start = x.start := by
    intro l
    induction l with
    | nil => exact fun _ => rfl
    | cons a l ih =>
      intro x
      rw [List.foldl_cons, ih]
      unfold futexField
      repeat' split
      all_goals rfl
  have hss : ∀ (l : List Attr) (x : SpanEv), (l.foldl spanField x).start = x.start := by
    intro l
    induction l with
    | nil => exact fun _ => rfl
    | cons a l ih =>
      intro x
      rw [List.foldl_cons, ih]
      unfold spanField
      repeat' split
      all_goals rfl
  have hlt : ¬ ev.attrs.length < ev.paramsNumber := by omega
  refine ⟨rfl, fun h => ?_, fun h => ?_, fun h => ?_, fun h => ?_, fun h => ?_⟩
  · refine ⟨_, by unfold consume; simp [h, hlt]; rfl, ?_⟩
    rw [hfs]
  · refine ⟨_, by unfold consume; simp [h, hlt]; rfl, ?_⟩
    rw [hss]
  · exact ⟨_, by unfold consume; simp [h]; rfl, rfl⟩
  · unfold consume; simp [h]
  · simp only [List.mem_cons, List.not_mem_nil, or_false, not_or] at h
    obtain ⟨h1, h2, h3, h4, h5⟩ := h
    unfold consume
    simp [h1, h2, h3, h4, h5]

theorem digits_length (k : Nat) : ∀ n, 10 ^ k ≤ n → n < 10 ^ (k + 1) → (Dec.digits n).length = k + 1 := by
  induction k with
  | zero => intro n h1 h2; unfold Dec.digits; rw [if_pos (by simpa using h2)]; rfl
  | succ k ih =>
    intro n h1 h2
    rw [Nat.pow_succ] at h1 h2
    have h3 : 10 ≤ n := Nat.le_trans (Nat.le_mul_of_pos_left 10 (Nat.pow_pos (by omega))) h1
    unfold Dec.digits
    rw [if_neg (by omega), List.length_append, ih (n / 10) (by omega) (by omega)]
    rfl

/-- The 19 bytes the probe copies from the text of a time (kindling.cpp:497-500, 644-648), which may be longer (`junk` follows the
text in memory). -/
def timeText (n : Nat) (junk : Bytes) : Bytes := (Dec.digits n ++ junk).take 19

theorem timeText_read (n : Nat) (h1 : 10 ^ 18 ≤ n) (h2 : n < 10 ^ 19) (junk : Bytes) : parseUint 64 (timeText n junk) = n := by
  have hl := digits_length 18 n h1 h2
  unfold timeText
  rw [List.take_append_of_le_length (by omega), List.take_of_length_le (by omega), parseUint_digits 64 n (by omega)]

/-- C94: a lock event of the JVM that ends after 2001-09-09 and before 2286-11-20 (19 digits) is put to its thread as it was. -/
theorem futex_event_roundtrip_partial (e : FutexEv) (h1 : 10 ^ 18 ≤ e.stop) (h2 : e.stop < 10 ^ 19) (junk : Bytes) (ev : Metric.Ev) (t : Thread)
    (hn : ev.name = "java_futex_info") (hs : ev.rest = e.start)
    (ha : ev.attrs.take ev.paramsNumber = [("end_time", UINT64, timeText e.stop junk), ("data", CHARBUF, e.data)]) (hl : ev.paramsNumber ≤ ev.attrs.length) :
    consume true ev t = some (.put t.pid t.tid t.comm (.futex e)) := by
  unfold consume
  rw [if_neg (by decide), if_neg (by rw [hn]; decide), if_pos hn, if_neg (by omega), ha, hs]
  simp [futexField, timeText_read e.stop h1 h2]

/-- C94: the same for a span of the tracing agent. -/
theorem span_event_roundtrip (e : SpanEv) (h1 : 10 ^ 18 ≤ e.stop) (h2 : e.stop < 10 ^ 19) (junk : Bytes) (ev : Metric.Ev) (t : Thread)
    (hn : ev.name = "apm_span_event") (hs : ev.rest = e.start)
    (ha : ev.attrs.take ev.paramsNumber = [("end_time", UINT64, timeText e.stop junk), ("trace_id", CHARBUF, e.traceId), ("span", CHARBUF, e.name)])
    (hl : ev.paramsNumber ≤ ev.attrs.length) :
    consume true ev t = some (.put t.pid t.tid t.comm (.span e)) := by
  unfold consume
  rw [if_neg (by decide), if_neg (by rw [hn]; decide), if_neg (by rw [hn]; decide), if_neg (by rw [hn]; decide), if_neg (by rw [hn]; decide), if_pos hn,
    if_neg (by omega), ha, hs]
  simp [spanField, timeText_read e.stop h1 h2]

/-- C94: the same for the start or end of a transaction (kindling.cpp:564-592); `is_enter` is one digit. -/
theorem tx_event_roundtrip (e : TxEv) (c : UInt8) (hc : isDigit c = true) (he : e.isEntry = c.toNat - 48) (ev : Metric.Ev) (t : Thread)
    (hn : ev.name = "apm_trace_id_event") (hs : ev.rest = e.time) (hp : e.pid = Dec.digits t.pid) (hi : e.containerId = t.containerId)
    (ha : ev.attrs.take ev.paramsNumber = [("trace_id", CHARBUF, e.traceId), ("is_enter", CHARBUF, [c]), ("protocol", CHARBUF, e.protocol), ("url", CHARBUF, e.url)]) :
    consume true ev t = some (.put t.pid t.tid t.comm (.tx e)) := by
  have hv : parseUint 32 [c] = c.toNat - 48 := by
    have hc' : 48 ≤ c.toNat ∧ c.toNat ≤ 57 := of_decide_eq_true hc
    simp only [parseUint, parseGo, if_pos hc']
    rw [if_neg (by omega)]
    omega
  unfold consume
  rw [if_neg (by decide), if_neg (by rw [hn]; decide), if_neg (by rw [hn]; decide), if_pos hn]
  unfold txEvent getString getAttr
  rw [ha, hs]
  obtain ⟨a, b, x, d, f, g, i⟩ := e
  simp only at *
  subst he hp hi
  simp [hv]

/-- C94, disagreement: an event whose end cannot be read counts as ended in 1970 and is in no second of the window of its thread (from
the second second of 1970 on). -/
theorem unreadable_end_lost (n : Nat) (name : String) (id start : Nat) (s data : Bytes) (hs : parseUint 64 s = 0) (hst : nano ≤ start) :
    ∃ r, putNew n name (Timed.toEv id (.futex ((futexField ⟨start, 0, data⟩ ("end_time", UINT64, s))))) = some r ∧
      ∀ c, r.base ≤ c → c < r.base + n → r.at c = some (newSeg c) := by
  have e : futexField ⟨start, 0, data⟩ ("end_time", UINT64, s) = ⟨start, 0, data⟩ := by simp [futexField, hs]
  rw [e]
  obtain ⟨r, h1, h2, h3⟩ := put_new n name (Timed.toEv id (.futex ⟨start, 0, data⟩))
  refine ⟨r, h1, fun c hc1 hc2 => ?_⟩
  rw [h3.has c hc1 hc2, if_neg]
  rw [covers_iff]
  rintro ⟨h4, h5⟩
  have h6 : (Timed.toEv id (.futex ⟨start, 0, data⟩)).start = start := rfl
  have h7 : (Timed.toEv id (.futex ⟨start, 0, data⟩)).stop = 0 := rfl
  rw [h6] at h4
  rw [h7, Nat.zero_div] at h5
  have : 1 ≤ start / nano := (Nat.le_div_iff_mul_le (by unfold nano; omega)).2 (by omega)
  omega

/-! ### Requests of a thread -/

/-- `ConsumeTraces` (cpu_analyzer.go:200-215): the labels `pid` and `request_tid`, the metric `request_total_time` (`some none`: it is a
histogram, whose integer is nil), and what is put: thread, start, end.  `none` is a panic. -/
def consumeTrace (ts : Nat) (pid tid : Int) (duration : Option (Option Int)) : Option (Option (Nat × Nat × Nat × Nat)) :=
  match duration with
  | none => some none
  | some none => none
  | some (some d) => some (some ((pid % 4294967296).toNat, (tid % 4294967296).toNat, ts, (((ts : Int) + d) % 18446744073709551616).toNat))

/-- C94: a request with its duration is put to its thread from its start to its end. -/
theorem trace_put (ts pid tid : Nat) (d : Int) (hp : pid < 2 ^ 32) (ht : tid < 2 ^ 32) (h0 : 0 ≤ (ts : Int) + d) (h1 : (ts : Int) + d < 2 ^ 64) :
    consumeTrace ts pid tid (some (some d)) = some (some (pid, tid, ts, ((ts : Int) + d).toNat)) := by
  unfold consumeTrace
  simp only [Option.some.injEq, Prod.mk.injEq]
  refine ⟨?_, ?_, trivial, ?_⟩ <;> omega

/-! ### Cases -/

def sample : CpuEv := ⟨1700000000000000000, 1700000000500000000, [300000000, 200000000], [7], [0, 2], bs "on", [], bs "log", []⟩
example : sample.Fits := ⟨by decide, by decide, by decide, by decide⟩
example : consume true ⟨"cpu_event", 8, writeCpu sample, 5⟩ ⟨1, 2, bs "java", []⟩ = some (.put 1 2 (bs "java") (.cpu sample)) :=
  cpu_event_roundtrip sample ⟨by decide, by decide, by decide, by decide⟩ _ (List.Perm.refl _) _ _ rfl rfl (by decide)
example : parseUint 64 (bs "12x") = 0 ∧ parseUint 32 (bs "99999999999x") = 4294967295 ∧ parseUint 64 (bs "007") = 7 := by decide

/-- C94: whatever the labels hold, thread and process are their lower 32 bits. -/
theorem trace_ids (ts : Nat) (pid tid d : Int) : ∃ p t e, consumeTrace ts pid tid (some (some d)) = some (some (p, t, ts, e)) ∧
    p < 2 ^ 32 ∧ t < 2 ^ 32 ∧ e < 2 ^ 64 ∧ (∃ k : Int, (p : Int) = pid + k * 2 ^ 32) ∧ (∃ k : Int, (t : Int) = tid + k * 2 ^ 32) ∧
    ∃ k : Int, (e : Int) = ts + d + k * 2 ^ 64 := by
  refine ⟨_, _, _, rfl, by omega, by omega, by omega, ⟨-(pid / 4294967296), by omega⟩, ⟨-(tid / 4294967296), by omega⟩,
    ⟨-(((ts : Int) + d) / 18446744073709551616), by omega⟩⟩

/-- C94: what the probe did not send is zero or empty. -/
theorem cpu_absent {l : List Attr} {e : CpuEv} (h : cpuFields CpuEv.empty l = some e) :
    ((∀ a ∈ l, a.1 ≠ "start_time") → e.start = 0) ∧ ((∀ a ∈ l, a.1 ≠ "end_time") → e.stop = 0) := by
  obtain ⟨g1, g2, -⟩ := cpu_last l _ _ h
  have hn : ∀ k : String, (∀ a ∈ l, a.1 ≠ k) → lastOf k l = none := by
    intro k hk
    unfold lastOf
    rw [List.filter_eq_nil_iff.2 (by simpa using hk)]; rfl
  constructor
  · intro hk; rw [hn _ hk] at g1; simpa [CpuEv.empty] using g1
  · intro hk; rw [hn _ hk] at g2; simpa [CpuEv.empty] using g2

/-- C94: an event without an end counts as ended in 1970 (cpu_analyzer.go:166-197 leave the field at zero). -/
theorem no_end_time (ev : Metric.Ev) (t : Thread) (hl : ev.paramsNumber ≤ ev.attrs.length) (hno : ∀ a ∈ ev.attrs.take ev.paramsNumber, a.1 ≠ "end_time") :
    (ev.name = "java_futex_info" → ∃ e, consume true ev t = some (.put t.pid t.tid t.comm (.futex e)) ∧ e.stop = 0) ∧
    (ev.name = "apm_span_event" → ∃ e, consume true ev t = some (.put t.pid t.tid t.comm (.span e)) ∧ e.stop = 0) := by
  have hf : ∀ (l : List Attr) (x : FutexEv), (∀ a ∈ l, a.1 ≠ "end_time") → (l.foldl futexField x).stop = x.stop := by
    intro l
    induction l with
    | nil => exact fun _ _ => rfl
    | cons a l ih =>
      intro x h
      rw [List.foldl_cons, ih _ (fun b hb => h b (List.mem_cons_of_mem _ hb))]
      unfold futexField
      rw [if_neg (h a (List.mem_cons_self ..))]
      split <;> rfl
  have hs : ∀ (l : List Attr) (x : SpanEv), (∀ a ∈ l, a.1 ≠ "end_time") → (l.foldl spanField x).stop = x.stop := by
    intro l
    induction l with
    | nil => exact fun _ _ => rfl
    | cons a l ih =>
      intro x h
      rw [List.foldl_cons, ih _ (fun b hb => h b (List.mem_cons_of_mem _ hb))]
      unfold spanField
      rw [if_neg (h a (List.mem_cons_self ..))]
      repeat' split
      all_goals rfl
  constructor
  · intro hn
    refine ⟨_, ?_, hf _ ⟨ev.rest, 0, []⟩ hno⟩
    unfold consume
    rw [if_neg (by decide), if_neg (by rw [hn]; decide), if_pos hn, if_neg (by omega)]
  · intro hn
    refine ⟨_, ?_, hs _ ⟨ev.rest, 0, [], []⟩ hno⟩
    unfold consume
    rw [if_neg (by decide), if_neg (by rw [hn]; decide), if_neg (by rw [hn]; decide), if_neg (by rw [hn]; decide), if_neg (by rw [hn]; decide),
      if_pos hn, if_neg (by omega)]

end Kindling.Cpu.Events
