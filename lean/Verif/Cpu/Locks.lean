import Verif.Lock.Model
/-
The mutexes of the CPU analyzer.  analyzer/cpuanalyzer/cpu_analyzer.go, delete_tid.go, delete_javatrace.go, send_trigger.go,
module_control.go.
-/
namespace Kindling.Cpu.Locks
open Kindling.Lock

/-- `tidExpiredQueue.queueMutex`, `ca.lock`, `javaTraceExpiredQueue.queueMutex`, `ca.jtlock` (cpu_analyzer.go:30-39), and the
mutex `cMut` of the metadata cache. -/
inductive Lk where
  | tidQ | seg | jtQ | jt | cache
deriving DecidableEq, Repr

/-- `cpuPidEvents` with the segments, the fields `IndexTimestamp` and `IsSend` of segments, the queue of exited threads, the
map of entered transactions, their queue, `isInstallApm` (send_trigger.go:20) and the containers of the metadata cache;
`enableProfile` and the variables that hold the channels: `traceChan`, `triggerEventChan` (send_trigger.go:16-18) and
`ca.stopProfileChan` (cpu_analyzer.go:41).  What is in the channels is in Session.lean. -/
inductive Var where
  | events | marks | tids | traces | jts | apm | ids | flag | traceC | trigC | stopC
deriving DecidableEq, Repr

def Var.all : List Var := [.events, .marks, .tids, .traces, .jts, .apm, .ids, .flag, .traceC, .trigC, .stopC]

abbrev Tr := List (Act Lk Var)

/-- `PutEventToSegments` (cpu_analyzer.go:267-364): `IsSend` is written too. -/
def putEvent : Tr := lk .seg .w [.get .flag, .put .events, .put .marks]

/-- One segment in `sendEvents` (send_trigger.go:192-207): the mark is written, the segment read, given to the exporters, and
the mark written again. -/
def sendSeg : Tr := [.get .events, .put .marks, .get .events, .send, .put .marks]

/-- `sendEvents` (send_trigger.go:162-211) with `n` segments to send. -/
def sendEvents (n : Nat) : Tr := lk .seg .r (.get .flag :: .get .events :: (List.replicate n ()).flatMap fun _ => sendSeg)

/-- `trimExitedThread` (cpu_analyzer.go:366-373). -/
def trim : Tr := lk .tidQ .w [.put .tids]

/-- One round of `TidDelete` (delete_tid.go:46-73) with `n` expired threads. -/
def tidRound (n : Nat) : Tr :=
  lk .tidQ .w ((List.replicate n ()).flatMap (fun _ => .get .tids :: lk .seg .w [.put .events, .put .tids]) ++ [.get .tids])

/-- How `analyzerJavaTraceTime` goes (cpu_analyzer.go:122-165): the entry of a transaction, the exit of an unknown or a fast one,
or of a slow one, which is looked up in the metadata cache if there is one. -/
inductive Tx where
  | enter
  | fast
  | slow (k8s : Bool)
deriving DecidableEq, Repr

/-- `analyzerJavaTraceTime`.  `Push` is called without the mutex of the queue, `ReceiveDataGroupAsSignal` (send_trigger.go:25-38)
writes `isInstallApm` without any. -/
def jtBody : Tx → Tr
  | .enter => [.put .jts, .put .traces]
  | .fast => [.put .jts, .get .traces]
  | .slow k8s => [.put .jts, .get .traces] ++ (if k8s then lk .cache .r [.get .ids] else []) ++ [.get .flag, .put .apm]

/-- One round of `JavaTraceDelete` (delete_javatrace.go:45-74) with `n` expired entries. -/
def jtRound (n : Nat) : Tr :=
  lk .jtQ .w ((List.replicate n ()).flatMap (fun _ => .get .jts :: lk .jt .w [.put .traces, .put .jts]) ++ [.get .jts])

inductive Op where
  /-- an event that is filed (cpu_analyzer.go:83-101, 180, 197, 214) -/
  | event
  /-- a transaction ID, with the sampling of Java traces (cpu_analyzer.go:103-120) -/
  | tx (t : Tx)
  | exit
  | tidSweep (n : Nat)
  | jtSweep (n : Nat)
  | send (n : Nat)
  /-- `ReceiveDataGroupAsSignal` for a slow trace of the network analyzer, of the server or the client side
  (send_trigger.go:25-28, 39-57), called from the goroutines of that analyzer (aggregateprocessor/processor.go:122) -/
  | signal (server : Bool)
  /-- a round of `ReadTraceChan` with a trace (send_trigger.go:69-78, cpu_analyzer.go:262) -/
  | readTrace
  /-- a round of `ReadTriggerEventChan` (send_trigger.go:81-110); the exporters are called without a mutex -/
  | readTrigger
  /-- a round of `sampleSend` with `n` sampled traces (send_trigger.go:133-160) -/
  | sample (n : Nat)
  | startProfile
  | stopProfile
  /-- `Shutdown` of a running profile (cpu_analyzer.go:76-81) -/
  | shutdown

/-- `StopProfile` (module_control.go:30-44). -/
def stop : Tr := lk .seg .w [.put .flag, .get .stopC, .put .events, .put .trigC, .put .traceC, .put .apm]

/-- What an operation does.  `ConsumeEvent` reads `enableProfile` before anything else (cpu_analyzer.go:84); a `select` reads the
variables of all its channels. -/
def Op.tr : Op → Tr
  | .event => .get .flag :: putEvent
  | .tx t => .get .flag :: (putEvent ++ lk .jt .w (jtBody t))
  | .exit => .get .flag :: trim
  | .tidSweep n => .get .stopC :: tidRound n
  | .jtSweep n => .get .stopC :: jtRound n
  | .send n => sendEvents n
  | .signal true => [.get .flag, .get .apm]
  | .signal false => [.get .flag, .get .traceC]
  | .readTrace => .get .traceC :: .get .stopC :: putEvent
  | .readTrigger => [.get .trigC, .get .stopC]
  | .sample n => .get .stopC :: List.replicate n (.get .trigC)
  /- module_control.go:14-28 -/
  | .startProfile => [.put .trigC, .put .traceC, .put .apm, .put .stopC, .put .flag]
  | .stopProfile => stop
  | .shutdown => .get .flag :: stop

def begin (ps : List (List Op)) : List (Thread Lk Var) := start (ps.map fun os => os.flatMap Op.tr)

/-! ### The order of the mutexes and the mutex of each variable -/

def rank : Lk → Nat
  | .tidQ => 0 | .seg => 1 | .jtQ => 2 | .jt => 3 | .cache => 4

def lockOf : Var → Option Lk
  | .events => some .seg | .marks => some .seg | .tids => some .tidQ | .traces => some .jt | .jts => some .jtQ
  | .ids => some .cache | .apm => none | .flag => none | .traceC => none | .trigC => none | .stopC => none

def guardEx (ex : List Var) (v : Var) : Option Lk := if v ∈ ex then none else lockOf v

variable {ex : List Var}

theorem guardEx_mem {v : Var} {l : Lk} (h : guardEx ex v = some l) : v ∉ ex ∧ lockOf v = some l := by
  unfold guardEx at h
  split at h
  · cases h
  · next hn => exact ⟨hn, h⟩

theorem guardEx_free {v : Var} (h : v ∈ ex ∨ lockOf v = none) : ∀ l, guardEx ex v ≠ some l := by
  intro l e
  obtain ⟨h1, h2⟩ := guardEx_mem e
  rcases h with h | h
  · exact h1 h
  · rw [h] at h2; cases h2

abbrev B (ex : List Var) (n : Nat) (t : Tr) : Prop := Block rank (guardEx ex) n t

/-- The condition on a read and a write, met when the mutex of the variable is held. -/
theorem can_get {v : Var} {H : List (Lk × Md)} (h : ∀ l, lockOf v = some l → v ∉ ex → (l, Md.r) ∈ H ∨ (l, Md.w) ∈ H) :
    ∀ l ∈ guardEx ex v, (l, Md.r) ∈ H ∨ (l, Md.w) ∈ H := fun l hl => h l (guardEx_mem hl).2 (guardEx_mem hl).1

theorem can_put {v : Var} {H : List (Lk × Md)} (h : ∀ l, lockOf v = some l → v ∉ ex → (l, Md.w) ∈ H) :
    ∀ l ∈ guardEx ex v, (l, Md.w) ∈ H := fun l hl => h l (guardEx_mem hl).2 (guardEx_mem hl).1

theorem b_putEvent : B ex 1 putEvent := by
  refine Block.lk (by decide) ?_
  intro H _
  simp only [chk]
  rw [if_pos (can_get (by rintro _ ⟨⟩)), if_pos (can_put (by rintro _ ⟨⟩ _; simp)), if_pos (can_put (by rintro _ ⟨⟩ _; simp))]

theorem b_sendEvents (h : .marks ∈ ex) (n : Nat) : B ex 1 (sendEvents n) := by
  refine Block.lk (by decide) ?_
  intro H _
  simp only [chk]
  rw [if_pos (can_get (by rintro _ ⟨⟩)), if_pos (can_get (by rintro _ ⟨⟩ _; simp))]
  have hb : ∀ n, chk rank (guardEx ex) ((.seg, .r) :: H) ((List.replicate n ()).flatMap fun _ => sendSeg) = some ((.seg, .r) :: H) := by
    intro n
    induction n with
    | zero => rfl
    | succ n ih =>
      rw [List.replicate_succ, List.flatMap_cons, chk_append]
      have : chk rank (guardEx ex) ((.seg, .r) :: H) sendSeg = some ((.seg, .r) :: H) := by
        simp only [sendSeg, chk]
        rw [if_pos (can_get (by rintro _ ⟨⟩ _; simp)), if_pos (can_put (by intro _ _ hn; exact absurd h hn)),
          if_pos (can_get (by rintro _ ⟨⟩ _; simp)), if_pos (can_put (by intro _ _ hn; exact absurd h hn))]
      rw [this]
      exact ih
  exact hb n

theorem b_trim : B ex 0 trim := Block.put (by decide) fun l hl => by
  have := (guardEx_mem hl).2
  cases this
  rfl

/-- The loops of the two sweepers. -/
theorem b_sweep {q l : Lk} {v u : Var} (hq : lockOf v = some q) (hu : lockOf u = some l) (hlt : rank q < rank l) {n0 : Nat}
    (hn0 : n0 ≤ rank q) (n : Nat) :
    B ex n0 (lk q .w ((List.replicate n ()).flatMap (fun _ => .get v :: lk l .w [.put u, .put v]) ++ [.get v])) := by
  refine Block.lk hn0 ?_
  intro H hH
  have hget : ∀ l' ∈ guardEx ex v, (l', Md.r) ∈ ((q, .w) :: H) ∨ (l', Md.w) ∈ ((q, .w) :: H) :=
    can_get (by intro l' h _; rw [hq] at h; cases h; simp)
  have hb : ∀ n, chk rank (guardEx ex) ((q, .w) :: H) ((List.replicate n ()).flatMap fun _ => .get v :: lk l .w [.put u, .put v]) =
      some ((q, .w) :: H) := by
    intro n
    induction n with
    | zero => rfl
    | succ n ih =>
      rw [List.replicate_succ, List.flatMap_cons, chk_append]
      have : chk rank (guardEx ex) ((q, .w) :: H) (.get v :: lk l .w [.put u, .put v]) = some ((q, .w) :: H) := by
        simp only [chk, lk, List.cons_append, List.nil_append]
        rw [if_pos hget, if_pos, if_pos (can_put (by intro l' h _; rw [hu] at h; cases h; simp)),
          if_pos (can_put (by intro l' h _; rw [hq] at h; cases h; simp)), if_pos (by simp)]
        · simp
        · intro x hx
          rcases List.mem_cons.1 hx with rfl | hx
          · exact hlt
          · have := hH x hx
            omega
      rw [this]
      exact ih
  rw [chk_append, hb n]
  simp only [Option.bind_some, chk]
  rw [if_pos hget]

theorem b_jt (h : .jts ∈ ex) (t : Tx) : B ex 3 (lk .jt .w (jtBody t)) := by
  refine Block.lk (by decide) ?_
  intro H hH
  cases t with
  | enter =>
    simp only [jtBody, chk]
    rw [if_pos (can_put (by intro _ _ hn; exact absurd h hn)), if_pos (can_put (by rintro _ ⟨⟩ _; simp))]
  | fast =>
    simp only [jtBody, chk]
    rw [if_pos (can_put (by intro _ _ hn; exact absurd h hn)), if_pos (can_get (by rintro _ ⟨⟩ _; simp))]
  | slow k =>
    have hm : ∀ x ∈ (Lk.jt, Md.w) :: H, rank x.1 < rank .cache := by
      intro x hx
      rcases List.mem_cons.1 hx with rfl | hx
      · decide
      · exact Nat.lt_trans (hH x hx) (by decide)
    cases k
    · simp only [jtBody, chk, if_false, List.cons_append, List.nil_append, Bool.false_eq_true]
      rw [if_pos (can_put (by intro _ _ hn; exact absurd h hn)), if_pos (can_get (by rintro _ ⟨⟩ _; simp)),
        if_pos (can_get (by rintro _ ⟨⟩)), if_pos (can_put (by rintro _ ⟨⟩))]
    · simp only [jtBody, chk, lk, if_true, List.cons_append, List.nil_append]
      rw [if_pos (can_put (by intro _ _ hn; exact absurd h hn)), if_pos (can_get (by rintro _ ⟨⟩ _; simp)), if_pos hm,
        if_pos (can_get (by rintro _ ⟨⟩ _; simp)), if_pos (by simp), if_pos (can_get (by rintro _ ⟨⟩)), if_pos (can_put (by rintro _ ⟨⟩))]
      simp

/-- The variables an operation uses without their mutex held in the needed way. -/
def Op.bare : Op → List Var
  | .tx _ => [.jts]
  | .send _ => [.marks]
  | _ => []

/-- A read of a variable that has no mutex may stand anywhere. -/
theorem b_free {v : Var} (hv : lockOf v = none) {n : Nat} {t : Tr} (h : B ex n t) : B ex n (.get v :: t) := by
  intro H hH
  simp only [chk]
  rw [if_pos (can_get (by intro l hl; rw [hv] at hl; cases hl))]
  exact h H hH

theorem b_nil (n : Nat) : B ex n [] := fun _ _ => rfl

theorem b_stop : B ex 1 stop := by
  refine Block.lk (by decide) ?_
  intro H _
  simp only [chk]
  rw [if_pos (can_put (by rintro _ ⟨⟩)), if_pos (can_get (by rintro _ ⟨⟩)), if_pos (can_put (by rintro _ ⟨⟩ _; simp)),
    if_pos (can_put (by rintro _ ⟨⟩)), if_pos (can_put (by rintro _ ⟨⟩)), if_pos (can_put (by rintro _ ⟨⟩))]

theorem b_op (o : Op) (h : ∀ v ∈ o.bare, v ∈ ex) : B ex 0 o.tr := by
  cases o with
  | event => exact b_free rfl (b_putEvent.mono (by decide))
  | tx t => exact b_free rfl ((b_putEvent.mono (by decide)).append ((b_jt (h _ (by simp [Op.bare])) t).mono (by decide)))
  | exit => exact b_free rfl b_trim
  | tidSweep n => exact b_free rfl (b_sweep rfl rfl (by decide) (by decide) n)
  | jtSweep n => exact b_free rfl (b_sweep rfl rfl (by decide) (by decide) n)
  | send n => exact (b_sendEvents (h _ (by simp [Op.bare])) n).mono (by decide)
  | signal server => cases server <;> exact b_free rfl (b_free rfl (b_nil _))
  | readTrace => exact b_free rfl (b_free rfl (b_putEvent.mono (by decide)))
  | readTrigger => exact b_free rfl (b_free rfl (b_nil _))
  | sample n =>
    refine b_free rfl ?_
    induction n with
    | zero => exact b_nil _
    | succ n ih => exact b_free rfl (ih (by simp [Op.bare]))
  | startProfile =>
    intro H _
    simp only [Op.tr, chk]
    rw [if_pos (can_put (by rintro _ ⟨⟩)), if_pos (can_put (by rintro _ ⟨⟩)), if_pos (can_put (by rintro _ ⟨⟩)),
      if_pos (can_put (by rintro _ ⟨⟩)), if_pos (can_put (by rintro _ ⟨⟩))]
  | stopProfile => exact b_stop.mono (by decide)
  | shutdown => exact b_free rfl (b_stop.mono (by decide))

theorem inv_begin (ps : List (List Op)) (h : ∀ os ∈ ps, ∀ o ∈ os, ∀ v ∈ o.bare, v ∈ ex) :
    Inv rank (guardEx ex) (begin ps) := by
  apply inv_start
  intro p hp
  obtain ⟨os, hos, rfl⟩ := List.mem_map.1 hp
  exact .flatMap fun o ho => b_op o (h os hos o ho)

theorem mem_all (v : Var) : v ∈ Var.all := by cases v <;> decide

/-! ### Theorems -/

/-- Whatever the goroutines of the analyzer do and however they are scheduled, as long as one has something to do one of them
steps. -/
theorem no_deadlock (ps : List (List Op)) (is : List Nat) (ts : List (Thread Lk Var)) (hr : Run (begin ps) is ts)
    (h : ∃ t ∈ ts, t.rest ≠ []) : ∃ i ts', Step ts i ts' :=
  progress (run_inv hr (inv_begin (ex := Var.all) ps fun _ _ _ _ v _ => mem_all v)) h

/-- Every state can be continued until all operations are done. -/
theorem all_complete (ps : List (List Op)) (is : List Nat) (ts : List (Thread Lk Var)) (hr : Run (begin ps) is ts) :
    ∃ js ts', Run ts js ts' ∧ ∀ t ∈ ts', t.rest = [] :=
  finishes (run_inv hr (inv_begin (ex := Var.all) ps fun _ _ _ _ v _ => mem_all v))

/-- The segments, the queue of exited threads and the map of transactions are never used by two goroutines at once with one of
them writing. -/
theorem guarded_partial (ps : List (List Op)) (is : List Nat) (ts : List (Thread Lk Var)) (hr : Run (begin ps) is ts) (v : Var)
    (hv : v = .events ∨ v = .tids ∨ v = .traces) : ¬ Race ts v := by
  have hi : Inv rank (guardEx [.marks, .jts]) ts := run_inv hr (inv_begin ps (by
    intro os _ o _ v hv
    cases o <;> simp [Op.bare] at hv <;> simp [hv]))
  rcases hv with rfl | rfl | rfl
  · exact no_race hi (l := .seg) rfl
  · exact no_race hi (l := .tidQ) rfl
  · exact no_race hi (l := .jt) rfl

/-- Without the sampling of Java traces the same holds for the queue of transactions. -/
theorem guarded_jts (ps : List (List Op)) (h : ∀ os ∈ ps, ∀ o ∈ os, ∀ t, o ≠ .tx t) (is : List Nat) (ts : List (Thread Lk Var))
    (hr : Run (begin ps) is ts) : ¬ Race ts .jts := by
  have hi : Inv rank (guardEx [.marks]) ts := run_inv hr (inv_begin ps (by
    intro os hos o ho v hv
    cases o <;> simp [Op.bare] at hv <;> simp [hv]
    exact (h os hos _ ho _ rfl).elim))
  exact no_race hi (l := .jtQ) rfl

/-- Nothing is done that was not to be done at the beginning. -/
theorem rest_mem {ts ts' : List (Thread Lk Var)} {is : List Nat} (h : Run ts is ts') :
    ∀ t' ∈ ts', ∀ a ∈ t'.rest, ∃ t ∈ ts, a ∈ t.rest := by
  have one : ∀ {ts ts' : List (Thread Lk Var)} {i : Nat}, Step ts i ts' → ∀ t' ∈ ts', ∀ a ∈ t'.rest, ∃ t ∈ ts, a ∈ t.rest := by
    intro ts ts' i h t' ht' a ha
    have key : ∀ (u : Thread Lk Var) (t : Thread Lk Var), ts[i]? = some u → (∀ a ∈ t.rest, a ∈ u.rest) → t' ∈ ts.set i t → ∃ t ∈ ts, a ∈ t.rest := by
      intro u t hu hsub hm
      rcases List.mem_or_eq_of_mem_set hm with hm | rfl
      · exact ⟨t', hm, ha⟩
      · exact ⟨u, List.mem_of_getElem? hu, hsub a ha⟩
    cases h with
    | ask h ho => exact key _ ⟨_, _, true⟩ h (fun a ha => ha) ht'
    | read h ho => exact key _ _ h (fun a ha => List.mem_cons_of_mem _ ha) ht'
    | write h hf => exact key _ _ h (fun a ha => List.mem_cons_of_mem _ ha) ht'
    | rel h hm => exact key _ _ h (fun a ha => List.mem_cons_of_mem _ ha) ht'
    | get h => exact key _ _ h (fun a ha => List.mem_cons_of_mem _ ha) ht'
    | put h => exact key _ _ h (fun a ha => List.mem_cons_of_mem _ ha) ht'
    | send h => exact key _ _ h (fun a ha => List.mem_cons_of_mem _ ha) ht'
  induction h with
  | nil => intro t' ht' a ha; exact ⟨t', ht', ha⟩
  | cons s _ ih =>
    intro t' ht' a ha
    obtain ⟨t, ht, hat⟩ := ih t' ht' a ha
    exact one s t ht a hat

/-- The operations that start or stop the profile. -/
def Op.control : Op → Bool
  | .startProfile => true
  | .stopProfile => true
  | .shutdown => true
  | _ => false

/-- As long as the profile is neither started nor stopped, the flag and the variables of the channels, which have no mutex, are
only read. -/
theorem guarded_between (ps : List (List Op)) (h : ∀ os ∈ ps, ∀ o ∈ os, o.control = false) (is : List Nat) (ts : List (Thread Lk Var))
    (hr : Run (begin ps) is ts) (v : Var) (hv : v = .flag ∨ v = .traceC ∨ v = .trigC ∨ v = .stopC) : ¬ Race ts v := by
  rintro ⟨i, j, ti, tj, k, k', -, hi, -, hti, -⟩
  obtain ⟨t, ht, ha⟩ := rest_mem hr ti (List.mem_of_getElem? hi) (.put v) (by rw [hti]; simp)
  simp only [begin, start, List.map_map, List.mem_map] at ht
  obtain ⟨os, hos, rfl⟩ := ht
  obtain ⟨o, ho, hao⟩ := List.mem_flatMap.1 ha
  have hc := h os hos o ho
  cases o with
  | tx t =>
    cases t with
    | enter => rcases hv with rfl | rfl | rfl | rfl <;> revert hao <;> decide
    | fast => rcases hv with rfl | rfl | rfl | rfl <;> revert hao <;> decide
    | slow k => cases k <;> rcases hv with rfl | rfl | rfl | rfl <;> revert hao <;> decide
  | event => rcases hv with rfl | rfl | rfl | rfl <;> revert hao <;> decide
  | exit => rcases hv with rfl | rfl | rfl | rfl <;> revert hao <;> decide
  | tidSweep n => rcases hv with rfl | rfl | rfl | rfl <;> simp [Op.tr, tidRound, lk] at hao
  | jtSweep n => rcases hv with rfl | rfl | rfl | rfl <;> simp [Op.tr, jtRound, lk] at hao
  | send n => rcases hv with rfl | rfl | rfl | rfl <;> simp [Op.tr, sendEvents, sendSeg, lk] at hao
  | signal server => cases server <;> rcases hv with rfl | rfl | rfl | rfl <;> revert hao <;> decide
  | readTrace => rcases hv with rfl | rfl | rfl | rfl <;> revert hao <;> decide
  | readTrigger => rcases hv with rfl | rfl | rfl | rfl <;> revert hao <;> decide
  | sample n => simp [Op.tr] at hao
  | startProfile => cases hc
  | stopProfile => cases hc
  | shutdown => cases hc

/-- Two goroutines, the first stepping through `a`, then the second through `b`. -/
theorem pair {p q a b k k' : Tr} {H H' : List (Lk × Md)} (hp : p = a ++ k) (hq : q = b ++ k')
    (ha : chk rank (fun _ => none) [] a = some H) (hb : chk rank (fun _ => none) [] b = some H')
    (hd : ∀ l m, .acq l m ∈ b → ∀ m', (l, m') ∉ H) :
    ∃ is, Run (start [p, q]) is [⟨H, k, false⟩, ⟨H', k', false⟩] := by
  subst hp hq
  obtain ⟨is, _, h1⟩ := solo rank (i := 0) a (start [a ++ k, b ++ k']) [] H k rfl ha (by
    intro j tj hj htj l m _
    match j, hj, htj with
    | 1, _, htj =>
      simp only [start, List.map_cons, List.getElem?_cons_succ, List.getElem?_cons_zero, Option.some.injEq] at htj
      subst htj
      exact ⟨fun m' => by simp, fun h => by cases h.1⟩
    | j + 2, _, htj => simp [start] at htj)
  obtain ⟨js, _, h2⟩ := solo rank (i := 1) b ((start [a ++ k, b ++ k']).set 0 ⟨H, k, false⟩) [] H' k' rfl hb (by
    intro j tj hj htj l m hm
    match j, hj, htj with
    | 0, _, htj =>
      simp only [start, List.map_cons, List.set_cons_zero, List.getElem?_cons_zero, Option.some.injEq] at htj
      subst htj
      exact ⟨hd l m hm, fun h => by cases h.1⟩
    | j + 2, _, htj => simp [start] at htj)
  exact ⟨is ++ js, h1.trans h2⟩

/-- A transaction ID arrives while expired transactions are removed: both change the queue.  What one of them wrote is
lost. -/
theorem java_queue_race (t : Tx) (n : Nat) (os os' : List Op) :
    ∃ is ts, Run (begin [.tx t :: os, .jtSweep n :: os']) is ts ∧ Race ts .jts := by
  have hk : ∃ k1, jtBody t = .put .jts :: k1 := by
    cases t with
    | enter => exact ⟨_, rfl⟩
    | fast => exact ⟨_, rfl⟩
    | slow k => exact ⟨_, rfl⟩
  obtain ⟨k1, hk1⟩ := hk
  have hk2 : ∃ k2, jtRound n = .acq .jtQ .w :: .get .jts :: k2 := by
    cases n with
    | zero => exact ⟨_, rfl⟩
    | succ n => exact ⟨_, rfl⟩
  obtain ⟨k2, hk2⟩ := hk2
  obtain ⟨is, h⟩ := pair (p := (Op.tx t :: os).flatMap Op.tr) (q := (Op.jtSweep n :: os').flatMap Op.tr)
    (a := .get .flag :: (putEvent ++ [.acq .jt .w])) (k := .put .jts :: (k1 ++ [.rel .jt .w] ++ os.flatMap Op.tr)) (b := [.get .stopC, .acq .jtQ .w])
    (k' := .get .jts :: (k2 ++ os'.flatMap Op.tr)) (H := [(.jt, .w)]) (H' := [(.jtQ, .w)])
    (by simp [Op.tr, hk1, lk]) (by simp [Op.tr, hk2]) (by decide) (by decide)
    (by intro l m hm m'; simp only [List.mem_cons, List.mem_nil_iff, or_false, Act.acq.injEq, reduceCtorEq, false_or] at hm
        obtain ⟨rfl, rfl⟩ := hm; simp)
  exact ⟨is, _, h, 0, 1, _, _, _, _, by decide, rfl, rfl, rfl, .inr rfl⟩

/-- The exit of a slow transaction while a slow trace of the network analyzer arrives: the Go runtime aborts the process at the
read of a map that is being written. -/
theorem apm_race (k8s : Bool) (os os' : List Op) :
    ∃ is ts, Run (begin [.tx (.slow k8s) :: os, .signal true :: os']) is ts ∧ Race ts .apm := by
  obtain ⟨is, h⟩ := pair (p := (Op.tx (.slow k8s) :: os).flatMap Op.tr) (q := (Op.signal true :: os').flatMap Op.tr)
    (a := .get .flag :: (putEvent ++ [.acq .jt .w, .put .jts, .get .traces] ++ (if k8s then lk .cache .r [.get .ids] else []) ++ [.get .flag]))
    (k := .put .apm :: .rel .jt .w :: os.flatMap Op.tr) (b := [.get .flag]) (k' := .get .apm :: os'.flatMap Op.tr)
    (H := [(.jt, .w)]) (H' := []) (by simp [Op.tr, lk, jtBody]) (by rfl) (by cases k8s <;> decide) (by decide) (by simp)
  exact ⟨is, _, h, 0, 1, _, _, _, _, by decide, rfl, rfl, rfl, .inr rfl⟩

/-- Two tasks that send segments of one process write the marks at once: `sendEvents` takes the mutex only for reading. -/
theorem marks_race (n m : Nat) (os os' : List Op) :
    ∃ is ts, Run (begin [.send (n + 1) :: os, .send (m + 1) :: os']) is ts ∧ Race ts .marks := by
  have two : ∀ (k k' : Tr) , ∃ is, Run (start [[.acq .seg .r, .get .flag, .get .events, .get .events] ++ k, [.acq .seg .r, .get .flag, .get .events, .get .events] ++ k']) is
      [⟨[(.seg, .r)], k, false⟩, ⟨[(.seg, .r)], k', false⟩] := by
    intro k k'
    refine ⟨[0, 0, 0, 0, 1, 1, 1, 1], ?_⟩
    refine .cons (.read (i := 0) rfl ?_) (.cons (.get rfl) (.cons (.get rfl) (.cons (.get rfl) (.cons (.read (i := 1) rfl ?_)
      (.cons (.get rfl) (.cons (.get rfl) (.cons (.get rfl) (.nil _))))))))
    · intro t ht
      simp only [start, List.map_cons, List.map_nil, List.mem_cons, List.mem_nil_iff, or_false] at ht
      rcases ht with rfl | rfl <;> exact ⟨by simp, fun h => by cases h.1⟩
    · intro t ht
      simp only [start, List.map_cons, List.map_nil, List.set_cons_zero, List.mem_cons, List.mem_nil_iff, or_false] at ht
      rcases ht with rfl | rfl <;> exact ⟨by simp, fun h => by cases h.1⟩
  obtain ⟨is, h⟩ := two
    (.put .marks :: ([.get .events, .send, .put .marks] ++ (List.replicate n ()).flatMap (fun _ => sendSeg) ++ [.rel .seg .r] ++ os.flatMap Op.tr))
    (.put .marks :: ([.get .events, .send, .put .marks] ++ (List.replicate m ()).flatMap (fun _ => sendSeg) ++ [.rel .seg .r] ++ os'.flatMap Op.tr))
  have e : ∀ n (os : List Op), (Op.send (n + 1) :: os).flatMap Op.tr = [.acq .seg .r, .get .flag, .get .events, .get .events] ++
      (.put .marks :: ([.get .events, .send, .put .marks] ++ (List.replicate n ()).flatMap (fun _ => sendSeg) ++ [.rel .seg .r] ++ os.flatMap Op.tr)) := by
    intro n os
    simp [Op.tr, sendEvents, lk, List.replicate_succ, sendSeg]
  rw [← e, ← e] at h
  exact ⟨is, _, h, 0, 1, _, _, _, _, by decide, rfl, rfl, rfl, .inl rfl⟩

/-- The profile is started while an event arrives: `enableProfile` is read without a mutex while it is written. -/
theorem flag_race (os os' : List Op) : ∃ is ts, Run (begin [.startProfile :: os, .event :: os']) is ts ∧ Race ts .flag := by
  obtain ⟨is, h⟩ := pair (p := (Op.startProfile :: os).flatMap Op.tr) (q := (Op.event :: os').flatMap Op.tr)
    (a := [.put .trigC, .put .traceC, .put .apm, .put .stopC]) (k := .put .flag :: os.flatMap Op.tr) (b := [])
    (k' := .get .flag :: (putEvent ++ os'.flatMap Op.tr)) (H := []) (H' := []) (by rfl) (by rfl) (by decide) (by decide) (by simp)
  exact ⟨is, _, h, 0, 1, _, _, _, _, by decide, rfl, rfl, rfl, .inr rfl⟩

/-- The profile is stopped, with the mutex held, while a slow trace of a client arrives: the channel is replaced while it is read
to send to it.  The sender has seen the profile running. -/
theorem trace_channel_race (os os' : List Op) :
    ∃ is ts, Run (begin [.stopProfile :: os, .signal false :: os']) is ts ∧ Race ts .traceC := by
  obtain ⟨is, h⟩ := pair (p := (Op.stopProfile :: os).flatMap Op.tr) (q := (Op.signal false :: os').flatMap Op.tr)
    (a := [.acq .seg .w, .put .flag, .get .stopC, .put .events, .put .trigC]) (k := .put .traceC :: .put .apm :: .rel .seg .w :: os.flatMap Op.tr)
    (b := [.get .flag]) (k' := .get .traceC :: os'.flatMap Op.tr) (H := [(.seg, .w)]) (H' := []) (by rfl) (by rfl) (by decide) (by decide)
    (by simp)
  exact ⟨is, _, h, 0, 1, _, _, _, _, by decide, rfl, rfl, rfl, .inr rfl⟩

/-- The same with the channel of triggers, which the sampler sends to. -/
theorem trigger_channel_race (n : Nat) (os os' : List Op) :
    ∃ is ts, Run (begin [.stopProfile :: os, .sample (n + 1) :: os']) is ts ∧ Race ts .trigC := by
  obtain ⟨is, h⟩ := pair (p := (Op.stopProfile :: os).flatMap Op.tr) (q := (Op.sample (n + 1) :: os').flatMap Op.tr)
    (a := [.acq .seg .w, .put .flag, .get .stopC, .put .events]) (k := .put .trigC :: .put .traceC :: .put .apm :: .rel .seg .w :: os.flatMap Op.tr)
    (b := [.get .stopC]) (k' := .get .trigC :: (List.replicate n (.get .trigC) ++ os'.flatMap Op.tr)) (H := [(.seg, .w)]) (H' := [])
    (by rfl) (by simp [Op.tr, List.replicate_succ]) (by decide) (by decide) (by simp)
  exact ⟨is, _, h, 0, 1, _, _, _, _, by decide, rfl, rfl, rfl, .inr rfl⟩

/-- The profile is started again while a goroutine of the former run, or the sweep of transactions, which lives longer than a
run, reads which channel to wait on. -/
theorem stop_channel_race (n : Nat) (os os' : List Op) :
    ∃ is ts, Run (begin [.startProfile :: os, .jtSweep n :: os']) is ts ∧ Race ts .stopC := by
  obtain ⟨is, h⟩ := pair (p := (Op.startProfile :: os).flatMap Op.tr) (q := (Op.jtSweep n :: os').flatMap Op.tr)
    (a := [.put .trigC, .put .traceC, .put .apm]) (k := .put .stopC :: .put .flag :: os.flatMap Op.tr) (b := [])
    (k' := .get .stopC :: (jtRound n ++ os'.flatMap Op.tr)) (H := []) (H' := []) (by rfl) (by rfl) (by decide) (by decide) (by simp)
  exact ⟨is, _, h, 0, 1, _, _, _, _, by decide, rfl, rfl, rfl, .inr rfl⟩

/-! ### An exporter that does not return -/

def quiet (t : Tr) : Bool := t.all fun x => decide (x ≠ .send)

theorem atSend_quiet {S : List (Lk × Md)} {t : Tr} (h : quiet t = true) (H : List (Lk × Md)) : atSend S H t = true := by
  refine atSend_of_none _ _ ?_ _
  simpa [quiet] using h

theorem quiet_append {a b : Tr} : quiet (a ++ b) = (quiet a && quiet b) := by simp [quiet]
theorem quiet_flatMap {α : Type} {l : List α} {f : α → Tr} (h : ∀ a, quiet (f a) = true) : quiet (l.flatMap f) = true := by
  induction l with
  | nil => rfl
  | cons a l ih => rw [List.flatMap_cons, quiet_append, h, ih]; rfl

theorem atSend_op (o : Op) : atSend [(.seg, .r)] [] o.tr = true := by
  cases o with
  | event => decide
  | tx t =>
    cases t with
    | enter => decide
    | fast => decide
    | slow k => cases k <;> decide
  | exit => decide
  | tidSweep n =>
    apply atSend_quiet
    have : quiet ((List.replicate n ()).flatMap fun _ => (.get .tids :: lk .seg .w [.put .events, .put .tids] : Tr)) = true :=
      quiet_flatMap fun _ => by decide
    simp only [Op.tr, tidRound, lk] at this ⊢
    simp [quiet]
  | jtSweep n =>
    apply atSend_quiet
    have : quiet ((List.replicate n ()).flatMap fun _ => (.get .jts :: lk .jt .w [.put .traces, .put .jts] : Tr)) = true :=
      quiet_flatMap fun _ => by decide
    simp only [Op.tr, jtRound, lk] at this ⊢
    simp [quiet]
  | send n =>
    have : ∀ (n : Nat) (k : Tr), atSend [(Lk.seg, Md.r)] [(Lk.seg, Md.r)] k = true →
        atSend [(Lk.seg, Md.r)] [(.seg, .r)] ((List.replicate n ()).flatMap (fun _ => sendSeg) ++ k) = true := by
      intro n k hk
      induction n with
      | zero => exact hk
      | succ n ih =>
        rw [List.replicate_succ, List.flatMap_cons, List.append_assoc]
        simp only [sendSeg, List.cons_append, List.nil_append, atSend]
        rw [Bool.and_eq_true]
        exact ⟨by decide, ih⟩
    simp only [Op.tr, sendEvents, lk, List.cons_append, atSend]
    exact this n _ (by decide)
  | signal server => cases server <;> decide
  | readTrace => decide
  | readTrigger => decide
  | sample n => apply atSend_quiet; simp [Op.tr, quiet]
  | startProfile => decide
  | stopProfile => decide
  | shutdown => decide

theorem atSend_begin (ps : List (List Op)) : ∀ t ∈ begin ps, atSend [(.seg, .r)] t.held t.rest = true := by
  have hos : ∀ os : List Op, atSend [(Lk.seg, Md.r)] [] (os.flatMap Op.tr) = true := by
    intro os
    induction os with
    | nil => rfl
    | cons o os ih =>
      rw [List.flatMap_cons]
      have hb : B Var.all 0 o.tr := b_op o fun v _ => mem_all v
      exact atSend_append (rank := rank) (guard := guardEx Var.all) _ _ _ _ _ (hb [] (by simp)) (atSend_op o) ih
  intro t ht
  simp only [begin, start, List.map_map, List.mem_map] at ht
  obtain ⟨os, _, rfl⟩ := ht
  exact hos os

/-- While an exporter has not taken a segment, whatever else goes on: no goroutine files an event, removes a thread or stops the
profile. -/
theorem slow_exporter_blocks (ps : List (List Op)) (is : List Nat) (ts : List (Thread Lk Var)) (hr : Run (begin ps) is ts)
    (i : Nat) (H : List (Lk × Md)) (k : Tr) (b : Bool) (hi : ts[i]? = some ⟨H, .send :: k, b⟩)
    (js : List Nat) (hjs : i ∉ js) (ts' : List (Thread Lk Var)) (hr' : Run ts js ts')
    (j : Nat) (tj : Thread Lk Var) (k' : Tr) (hj : ts[j]? = some tj) (hk : tj.rest = .acq .seg .w :: k') :
    ∃ b', ts'[j]? = some ⟨tj.held, .acq .seg .w :: k', b'⟩ := by
  have h := atSend_run hr (atSend_begin ps) _ (List.mem_of_getElem? hi)
  simp only [atSend, Bool.and_eq_true, List.all_eq_true, decide_eq_true_eq] at h
  exact (stalled hr' hjs hi (h.1 _ (List.mem_singleton_self _)) hj hk).2

/-- Such a state is reached, with an event to be filed. -/
example (os : List Op) : ∃ is ts, Run (begin [.send 1 :: os, [.event]]) is ts ∧
    ∃ k, ts = [⟨[(.seg, .r)], .send :: k, false⟩, ⟨[], putEvent, false⟩] := by
  obtain ⟨is, h⟩ := pair (p := (Op.send 1 :: os).flatMap Op.tr) (q := .get .flag :: putEvent)
    (a := [.acq .seg .r, .get .flag, .get .events, .get .events, .put .marks, .get .events])
    (k := .send :: .put .marks :: .rel .seg .r :: os.flatMap Op.tr) (b := [.get .flag]) (k' := putEvent) (H := [(.seg, .r)]) (H' := [])
    (by simp [Op.tr, sendEvents, lk, sendSeg]) (by rfl) (by decide) (by decide) (by simp)
  exact ⟨is, _, h, _, rfl⟩

end Kindling.Cpu.Locks
