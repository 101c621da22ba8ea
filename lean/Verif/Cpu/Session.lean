import Verif.Basic
/-
The CPU analyzer's channels across starts and stops of the profile: `StartProfile`, `StopProfile`
(cpuanalyzer/module_control.go:14-44), the senders `ReceiveDataGroupAsSignal` (send_trigger.go:25-59) and
`sampleSend` (134-160), the readers `ReadTraceChan` (69-78) and `ReadTriggerEventChan` (81-110), the check at the
head of `PutEventToSegments` (cpu_analyzer.go:267-272).

The channels `traceChan`, `triggerEventChan` and `stopProfileChan` are variables.  Both start and stop replace
the first two, start replaces the third; every goroutine looks the variables up again in each turn of its loop,
and a goroutine that is inside a channel operation stays on the channel it looked up.

Simplified: `StartProfile` and `StopProfile` are one step each (`StopProfile` holds the lock that
`PutEventToSegments` takes, nobody else does); a data group is a number; which groups are sent where is
decided in `Cpu/Signal.lean`, here the caller says it; the keys of the sample map are left out (same place), a
tick of the sampler takes all samples at once; what `ReadTriggerEventChan` does with a trigger (consumers, task)
is `sent`.  A second `StartProfile` while the profile runs is left out: `DefaultModule.Start` refuses it (C46).
-/
namespace Kindling.Cpu.Session

/-- `traceChan` or `triggerEventChan`. -/
inductive Kind | trace | trigger
deriving DecidableEq, Repr

/-- A signal.  `ses` is a ghost: how many starts had happened when it passed the check of `enableProfile`. -/
structure Sig where
  id : Nat
  ses : Nat
deriving DecidableEq, Repr

/-- `ReadTraceChan` (send_trigger.go:69-78) and `ReadTriggerEventChan` (81-110): the head of the loop; the data
channel is looked up; both channels are looked up and the goroutine is in the `select`; a signal was received
and is being worked on; returned. -/
inductive RPc | top | half (c : Nat) | wait (c q : Nat) | busy (t : Sig) | done
deriving DecidableEq, Repr

structure Reader where
  kind : Kind
  pc : RPc
deriving DecidableEq, Repr

/-- A call of `ReceiveDataGroupAsSignal` (send_trigger.go:25-59) by the goroutine of some analyzer: past the
check of `enableProfile` (26-28); in `traceChan <- trace` (48) on the channel that was looked up; returned. -/
inductive SPc | passed (k : Kind) (t : Sig) | sending (c : Nat) (t : Sig) | done
deriving DecidableEq, Repr

/-- `sampleSend` (send_trigger.go:134-160): the head of the loop; in the `select` (137-158); in the `Range`
with the samples still to be sent (139-155); in `triggerEventChan <- event` (152); returned. -/
inductive PPc | top | wait (q : Nat) | out (l : List Sig) | send (c : Nat) (t : Sig) (l : List Sig) | done
deriving DecidableEq, Repr

/-- `ready`: the ticker's channel holds a tick. -/
structure Sampler where
  ready : Bool
  pc : PPc
deriving DecidableEq, Repr

structure St where
  /-- `enableProfile` -/
  enabled : Bool
  /-- the channel `traceChan` is -/
  traceC : Nat
  /-- the channel `triggerEventChan` is -/
  trigC : Nat
  /-- the channel `ca.stopProfileChan` is -/
  stopC : Nat
  /-- every data channel made so far with what is in its buffer; a number beyond is the nil channel -/
  chans : List (List Sig)
  /-- every stop channel made so far, and whether it is closed -/
  stops : List Bool
  /-- `sampleMap` -/
  samples : List Sig
  /-- what the time segments hold, `cpuPidEvents` -/
  store : List Sig
  /-- triggers that went to the next consumers -/
  sent : List Sig
  readers : List Reader
  senders : List SPc
  samplers : List Sampler
  /-- ghost: dropped, by `StopProfile` or because the profile is off -/
  gone : List Sig
  /-- ghost: how often the profile was started -/
  ses : Nat
  /-- ghost: what was put into channels, in order -/
  entered : List (Nat × Sig)
deriving DecidableEq, Repr

/-- After `NewCpuAnalyzer`. -/
def init : St := ⟨false, 0, 0, 0, [], [], [], [], [], [], [], [], [], 0, []⟩

inductive Act
  | start | stop
  /-- an analyzer calls `ReceiveDataGroupAsSignal` -/
  | recv (k : Kind) (id : Nat)
  /-- the ticker of a sampler fires -/
  | clock (i : Nat)
  /-- a caller goes past the check: into the sample map, or looks `traceChan` up -/
  | sEval (i : Nat)
  | sPush (i : Nat)
  | rStep (i : Nat) | rTake (i : Nat) | rQuit (i : Nat)
  | pStep (i : Nat) | pPush (i : Nat) | pTick (i : Nat) | pQuit (i : Nat)
deriving DecidableEq, Repr

/-- The channel a reader looks up. -/
def St.chanOf (s : St) : Kind → Nat
  | .trace => s.traceC
  | .trigger => s.trigC

/-- `StartProfile` (module_control.go:14-28). -/
def start (s : St) : St :=
  { s with enabled := true, trigC := s.chans.length, traceC := s.chans.length + 1, chans := s.chans ++ [[], []]
           stopC := s.stops.length, stops := s.stops ++ [false], samples := [], gone := s.gone ++ s.samples
           ses := s.ses + 1, readers := s.readers ++ [⟨.trigger, .top⟩, ⟨.trace, .top⟩]
           samplers := s.samplers ++ [⟨false, .top⟩] }

/-- `StopProfile` (module_control.go:30-44), when the stop channel is open. -/
def stop (s : St) : St :=
  { s with enabled := false, stops := s.stops.set s.stopC true, trigC := s.chans.length, traceC := s.chans.length + 1
           chans := s.chans ++ [[], []], samples := [], store := [], gone := s.gone ++ s.samples ++ s.store }

/-- What a reader does with a signal: `ConsumeTraces` (cpu_analyzer.go:200-215) ends in `PutEventToSegments`,
which drops it when the profile is off (267-272); `ReadTriggerEventChan` passes it on in any case
(send_trigger.go:90-92). -/
def work (s : St) (k : Kind) (t : Sig) : St :=
  match k with
  | .trigger => { s with sent := s.sent ++ [t] }
  | .trace => if s.enabled then { s with store := s.store ++ [t] } else { s with gone := s.gone ++ [t] }

def St.setR (s : St) (i : Nat) (r : Reader) : St := { s with readers := s.readers.set i r }
def St.setS (s : St) (i : Nat) (p : SPc) : St := { s with senders := s.senders.set i p }
def St.setP (s : St) (i : Nat) (p : Sampler) : St := { s with samplers := s.samplers.set i p }

/-- A send that the channel takes: there is room in its buffer. -/
def push (cap : Nat) (s : St) (c : Nat) (t : Sig) : Option St :=
  match s.chans[c]? with
  | none => none
  | some b => if b.length < cap then some { s with chans := s.chans.set c (b ++ [t]), entered := s.entered ++ [(c, t)] } else none

/-- One step; `none`: the goroutine cannot take it (it waits, or is elsewhere), or the call would panic.
`capT`, `capG`: the sizes of the trace and the trigger channel, 1e4 and 3e5 (module_control.go:17-18, 39-40). -/
def step (capT capG : Nat) (s : St) : Act → Option St
  | .start => if s.enabled then none else some (start s)
  | .stop => match s.stops[s.stopC]? with
    | some false => some (stop s)
    | _ => none
  | .recv k id => if s.enabled then some { s with senders := s.senders ++ [.passed k ⟨id, s.ses⟩] } else some s
  | .clock i => match s.samplers[i]? with
    | some p => some (s.setP i { p with ready := true })
    | none => none
  | .sEval i => match s.senders[i]? with
    | some (.passed .trace t) => some (s.setS i (.sending s.traceC t))
    | some (.passed .trigger t) => some { s.setS i .done with samples := s.samples ++ [t] }
    | _ => none
  | .sPush i => match s.senders[i]? with
    | some (.sending c t) => push capT (s.setS i .done) c t
    | _ => none
  | .rStep i => match s.readers[i]? with
    | some ⟨k, .top⟩ => some (s.setR i ⟨k, .half (s.chanOf k)⟩)
    | some ⟨k, .half c⟩ => some (s.setR i ⟨k, .wait c s.stopC⟩)
    | some ⟨k, .busy t⟩ => some (work (s.setR i ⟨k, .top⟩) k t)
    | _ => none
  | .rTake i => match s.readers[i]? with
    | some ⟨k, .wait c _⟩ => match s.chans[c]? with
      | some (t :: b) => some { s.setR i ⟨k, .busy t⟩ with chans := s.chans.set c b }
      | _ => none
    | _ => none
  | .rQuit i => match s.readers[i]? with
    | some ⟨k, .wait _ q⟩ => if s.stops[q]? = some true then some (s.setR i ⟨k, .done⟩) else none
    | _ => none
  | .pStep i => match s.samplers[i]? with
    | some ⟨r, .top⟩ => some (s.setP i ⟨r, .wait s.stopC⟩)
    | some ⟨r, .out []⟩ => some (s.setP i ⟨r, .top⟩)
    | some ⟨r, .out (t :: l)⟩ => some (s.setP i ⟨r, .send s.trigC t l⟩)
    | _ => none
  | .pPush i => match s.samplers[i]? with
    | some ⟨r, .send c t l⟩ => push capG (s.setP i ⟨r, .out l⟩) c t
    | _ => none
  | .pTick i => match s.samplers[i]? with
    | some ⟨true, .wait _⟩ => some { s.setP i ⟨false, .out s.samples⟩ with samples := [] }
    | _ => none
  | .pQuit i => match s.samplers[i]? with
    | some ⟨r, .wait q⟩ => if s.stops[q]? = some true then some (s.setP i ⟨r, .done⟩) else none
    | _ => none

def run (capT capG : Nat) : St → List Act → Option St
  | s, [] => some s
  | s, a :: r => match step capT capG s a with
    | none => none
    | some s' => run capT capG s' r

theorem run_append {ct cg : Nat} {s s' : St} {a b : List Act} :
    run ct cg s (a ++ b) = some s' ↔ ∃ m, run ct cg s a = some m ∧ run ct cg m b = some s' := by
  induction a generalizing s with
  | nil => simp [run]
  | cons x r ih =>
    simp only [List.cons_append, run]
    cases step ct cg s x with
    | none => simp
    | some m => exact ih

theorem run_inv {ct cg : Nat} {P : St → Prop} (hs : ∀ s a s', P s → step ct cg s a = some s' → P s') {s s' : St}
    {l : List Act} (h0 : P s) (hr : run ct cg s l = some s') : P s' := by
  induction l generalizing s with
  | nil => simp only [run, Option.some.injEq] at hr; exact hr ▸ h0
  | cons a r ih =>
    simp only [run] at hr
    cases h : step ct cg s a with
    | none => rw [h] at hr; cases hr
    | some m => rw [h] at hr; exact ih (hs _ _ _ h0 h) hr

/-! ### Every signal is in one place -/

def inR (r : Reader) : List Sig := match r.pc with | .busy t => [t] | _ => []
def inS : SPc → List Sig | .passed _ t => [t] | .sending _ t => [t] | .done => []
def inP (p : Sampler) : List Sig := match p.pc with | .out l => l | .send _ t l => t :: l | _ => []

/-- All places a signal can be in. -/
def places (s : St) : List Sig :=
  s.senders.flatMap inS ++ s.chans.flatten ++ s.readers.flatMap inR ++ s.samplers.flatMap inP ++ s.samples ++
    s.store ++ s.sent ++ s.gone

/-- The signal a step brings in. -/
def news (s : St) : Act → List Sig
  | .recv _ id => if s.enabled then [⟨id, s.ses⟩] else []
  | _ => []

theorem count_set {α : Type} (f : α → List Sig) (t : Sig) (l : List α) (i : Nat) (a b : α) (h : l[i]? = some a) :
    ((l.set i b).flatMap f).count t + (f a).count t = (l.flatMap f).count t + (f b).count t := by
  induction l generalizing i with
  | nil => simp at h
  | cons x r ih =>
    cases i with
    | zero =>
      simp only [List.getElem?_cons_zero, Option.some.injEq] at h
      simp only [List.set_cons_zero, List.flatMap_cons, List.count_append, h]; omega
    | succ n =>
      simp only [List.getElem?_cons_succ] at h
      have := ih n h
      simp only [List.set_cons_succ, List.flatMap_cons, List.count_append]; omega

theorem flatten_eq (l : List (List Sig)) : l.flatten = l.flatMap id := by simp

theorem step_count {ct cg : Nat} {s s' : St} {a : Act} (h : step ct cg s a = some s') (t : Sig) :
    (places s').count t = (places s).count t + (news s a).count t := by
  simp only [places, flatten_eq]
  cases a with
  | start =>
    simp only [step] at h
    split at h
    · cases h
    · cases h
      simp [start, inR, inP, news]
      omega
  | stop =>
    simp only [step] at h
    split at h
    · cases h
      simp [stop, news]
      omega
    · cases h
  | recv k id =>
    simp only [step] at h
    split at h
    · rename_i he
      cases h
      simp only [List.flatMap_append, List.flatMap_cons, List.flatMap_nil, List.count_append, inS, news, he, if_true,
        List.append_nil]; omega
    · rename_i he
      cases h
      simp [news, he]
  | clock i =>
    simp only [step] at h
    split at h
    · rename_i p hp
      cases h
      have := count_set inP t _ i p { p with ready := true } hp
      simp only [St.setP, List.count_append, news, inP, List.count_nil] at *; omega
    · cases h
  | sEval i =>
    simp only [step] at h
    split at h
    · rename_i x hp
      cases h
      have := count_set inS t _ i _ (.sending s.traceC x) hp
      simp only [St.setS, List.count_append, news, inS, List.count_nil] at *; omega
    · rename_i x hp
      cases h
      have := count_set inS t _ i _ .done hp
      simp only [St.setS, List.count_append, news, inS, List.count_nil] at *; omega
    · cases h
  | sPush i =>
    simp only [step] at h
    split at h
    · rename_i c x hp
      simp only [push, St.setS] at h
      split at h
      · cases h
      · rename_i b hb
        split at h
        · cases h
          have h1 := count_set inS t _ i _ .done hp
          have h2 := count_set id t _ c _ (b ++ [x]) hb
          simp only [List.count_append, news, inS, id, List.count_nil] at *; omega
        · cases h
    · cases h
  | rStep i =>
    simp only [step] at h
    split at h
    · rename_i k hp
      cases h
      have := count_set inR t _ i _ ⟨k, .half (s.chanOf k)⟩ hp
      simp only [St.setR, List.count_append, news, inR, List.count_nil] at *; omega
    · rename_i k c hp
      cases h
      have := count_set inR t _ i _ ⟨k, .wait c s.stopC⟩ hp
      simp only [St.setR, List.count_append, news, inR, List.count_nil] at *; omega
    · rename_i k x hp
      cases h
      have := count_set inR t _ i _ ⟨k, .top⟩ hp
      cases k with
      | trigger => simp only [work, St.setR, List.count_append, news, inR, List.count_nil] at *; omega
      | trace =>
        cases he : s.enabled <;>
          simp only [work, he, St.setR, List.count_append, news, inR, List.count_nil, if_true, Bool.false_eq_true,
            if_false] at * <;> omega
    · cases h
  | rTake i =>
    simp only [step] at h
    split at h
    · rename_i k c q hp
      split at h
      · rename_i x b hb
        cases h
        have h1 := count_set inR t _ i _ ⟨k, .busy x⟩ hp
        have h2 := count_set id t _ c _ b hb
        have h3 : ∀ l : List Sig, (x :: l).count t = l.count t + [x].count t := fun l => by
          rw [← List.count_append]; exact (List.perm_append_singleton x l).symm.count_eq t
        simp only [id, h3 b] at h2
        simp only [St.setR, List.count_append, news, inR, List.count_nil] at *; omega
      · cases h
    · cases h
  | rQuit i =>
    simp only [step] at h
    split at h
    · rename_i k c q hp
      split at h
      · cases h
        have := count_set inR t _ i _ ⟨k, .done⟩ hp
        simp only [St.setR, List.count_append, news, inR, List.count_nil] at *; omega
      · cases h
    · cases h
  | pStep i =>
    simp only [step] at h
    split at h
    · rename_i r hp
      cases h
      have := count_set inP t _ i _ ⟨r, .wait s.stopC⟩ hp
      simp only [St.setP, List.count_append, news, inP, List.count_nil] at *; omega
    · rename_i r hp
      cases h
      have := count_set inP t _ i _ ⟨r, .top⟩ hp
      simp only [St.setP, List.count_append, news, inP, List.count_nil] at *; omega
    · rename_i r x l hp
      cases h
      have := count_set inP t _ i _ ⟨r, .send s.trigC x l⟩ hp
      simp only [St.setP, List.count_append, news, inP, List.count_nil] at *; omega
    · cases h
  | pPush i =>
    simp only [step] at h
    split at h
    · rename_i r c x l hp
      simp only [push, St.setP] at h
      split at h
      · cases h
      · rename_i b hb
        split at h
        · cases h
          have h1 := count_set inP t _ i _ ⟨r, .out l⟩ hp
          have h2 := count_set id t _ c _ (b ++ [x]) hb
          have h3 : (x :: l).count t = l.count t + [x].count t := by
            rw [← List.count_append]; exact (List.perm_append_singleton x l).symm.count_eq t
          simp only [inP, h3] at h1
          simp only [List.count_append, news, id, List.count_nil] at *; omega
        · cases h
    · cases h
  | pTick i =>
    simp only [step] at h
    split at h
    · rename_i q hp
      cases h
      have := count_set inP t _ i _ ⟨false, .out s.samples⟩ hp
      simp only [St.setP, List.count_append, news, inP, List.count_nil] at *; omega
    · cases h
  | pQuit i =>
    simp only [step] at h
    split at h
    · rename_i r q hp
      split at h
      · cases h
        have := count_set inP t _ i _ ⟨r, .done⟩ hp
        simp only [St.setP, List.count_append, news, inP, List.count_nil] at *; omega
      · cases h
    · cases h

/-- The signals a history brings in, those that find the profile running. -/
def given (ct cg : Nat) : St → List Act → List Sig
  | _, [] => []
  | s, a :: r => news s a ++ (match step ct cg s a with | none => [] | some s' => given ct cg s' r)

/-- No signal is lost or doubled on its way: whatever the goroutines do, and however often the profile is
started and stopped, each accepted signal is in exactly one of the places. -/
theorem one_place {ct cg : Nat} {s s' : St} {l : List Act} (h : run ct cg s l = some s') :
    (places s').Perm (places s ++ given ct cg s l) := by
  rw [List.perm_iff_count]
  intro t
  induction l generalizing s with
  | nil => simp only [run, Option.some.injEq] at h; simp [given, h]
  | cons a r ih =>
    simp only [run] at h
    cases hs : step ct cg s a with
    | none => rw [hs] at h; cases h
    | some m =>
      rw [hs] at h
      have h1 := ih h
      have h2 := step_count hs t
      simp only [List.count_append, given, hs] at *; omega

/-! ### The channels a goroutine knows -/

theorem mem_set {α : Type} {l : List α} {i : Nat} {a b x : α} (h : l[i]? = some a) (hx : x ∈ l) : x = a ∨ x ∈ l.set i b := by
  rw [List.mem_iff_getElem?] at hx
  obtain ⟨j, hj⟩ := hx
  by_cases he : i = j
  · subst he; rw [h] at hj; exact .inl (Option.some.inj hj).symm
  · right; rw [List.mem_iff_getElem?]; exact ⟨j, by rw [List.getElem?_set_ne he]; exact hj⟩

theorem mem_self {α : Type} {l : List α} {i : Nat} {a b : α} (h : l[i]? = some a) : b ∈ l.set i b := by
  rw [List.mem_iff_getElem?]
  refine ⟨i, ?_⟩
  have := (List.getElem?_eq_some_iff.mp h).1
  simp [this]

/-- The channels of the program counter exist. -/
def RIn (n m : Nat) : RPc → Prop
  | .half c => c < n
  | .wait c q => c < n ∧ q < m
  | _ => True
def SIn (n : Nat) : SPc → Prop
  | .sending c _ => c < n
  | _ => True
def PIn (n m : Nat) : PPc → Prop
  | .wait q => q < m
  | .send c _ _ => c < n
  | _ => True

/-- A reader of the running session: what it has looked up is current. -/
def Cur (c q : Nat) : RPc → Prop
  | .top => True
  | .half c' => c' = c
  | .wait c' q' => c' = c ∧ q' = q
  | .busy _ => True
  | .done => False

structure Inv (s : St) : Prop where
  en : s.enabled = true ↔ s.stops[s.stopC]? = some false
  old : ∀ q, q < s.stops.length → q ≠ s.stopC → s.stops[q]? = some true
  none : s.stops = [] → s.readers = [] ∧ s.samplers = [] ∧ s.senders = []
  cur : s.stops ≠ [] → s.stopC < s.stops.length ∧ s.traceC < s.chans.length ∧ s.trigC < s.chans.length
  rin : ∀ r ∈ s.readers, RIn s.chans.length s.stops.length r.pc
  sin : ∀ p ∈ s.senders, SIn s.chans.length p
  pin : ∀ p ∈ s.samplers, PIn s.chans.length s.stops.length p.pc
  off : s.enabled = false → s.store = []
  own : s.enabled = true → ∀ k, ∃ pc, ⟨k, pc⟩ ∈ s.readers ∧ Cur (s.chanOf k) s.stopC pc

theorem init_inv : Inv init where
  en := by simp [init]
  old := by simp [init]
  none := by simp [init]
  cur := by simp [init]
  rin := by simp [init]
  sin := by simp [init]
  pin := by simp [init]
  off := fun _ => rfl
  own := by simp [init]

theorem Inv.ne {s : St} (h : Inv s) (hn : s.readers ≠ [] ∨ s.samplers ≠ [] ∨ s.senders ≠ []) : s.stops ≠ [] := by
  intro he
  obtain ⟨a, b, c⟩ := h.none he
  simp [a, b, c] at hn

theorem ne_of_get {α : Type} {l : List α} {i : Nat} {a : α} (h : l[i]? = some a) : l ≠ [] := by
  intro he; rw [he] at h; simp at h

theorem Inv.enabled_ne {s : St} (h : Inv s) (he : s.enabled = true) : s.stops ≠ [] :=
  ne_of_get (h.en.mp he)

/-- Steps that only move signals about. -/
theorem Inv.frame {s s' : St} (h : Inv s) (h1 : s'.enabled = s.enabled) (h2 : s'.traceC = s.traceC) (h3 : s'.trigC = s.trigC)
    (h4 : s'.stopC = s.stopC) (h5 : s'.stops = s.stops) (h6 : s'.readers = s.readers) (h7 : s'.senders = s.senders)
    (h8 : s'.samplers = s.samplers) (h9 : s'.chans.length = s.chans.length) (h10 : s.enabled = false → s'.store = []) :
    Inv s' := by
  have hc : ∀ k, s'.chanOf k = s.chanOf k := by intro k; cases k <;> simp [St.chanOf, h2, h3]
  refine ⟨?_, ?_, ?_, ?_, ?_, ?_, ?_, ?_, ?_⟩
  · rw [h1, h5, h4]; exact h.en
  · rw [h5, h4]; exact h.old
  · rw [h5, h6, h7, h8]; exact h.none
  · rw [h5, h4, h2, h3, h9]; exact h.cur
  · rw [h6, h9, h5]; exact h.rin
  · rw [h7, h9]; exact h.sin
  · rw [h8, h9, h5]; exact h.pin
  · rw [h1]; exact h10
  · rw [h1, h6, h4]; intro he k; rw [hc]; exact h.own he k

theorem Inv.setR {s : St} (h : Inv s) {i : Nat} {k : Kind} {p p' : RPc} (hi : s.readers[i]? = some ⟨k, p⟩)
    (hr : RIn s.chans.length s.stops.length p') (hc : s.enabled = true → Cur (s.chanOf k) s.stopC p → Cur (s.chanOf k) s.stopC p') :
    Inv (s.setR i ⟨k, p'⟩) where
  en := h.en
  old := h.old
  none := fun he => absurd he (h.ne (.inl (ne_of_get hi)))
  cur := h.cur
  rin := by
    intro r hr'
    rcases List.mem_or_eq_of_mem_set hr' with hm | rfl
    · exact h.rin r hm
    · exact hr
  sin := h.sin
  pin := h.pin
  off := h.off
  own := by
    intro he k'
    obtain ⟨pc, hm, hcur⟩ := h.own he k'
    rcases mem_set (b := ⟨k, p'⟩) hi hm with heq | hm'
    · obtain ⟨rfl, rfl⟩ := Reader.mk.injEq .. ▸ heq
      exact ⟨p', mem_self hi, hc he hcur⟩
    · exact ⟨pc, hm', hcur⟩

theorem Inv.setS {s : St} (h : Inv s) {i : Nat} {p p' : SPc} (hi : s.senders[i]? = some p) (hr : SIn s.chans.length p') :
    Inv (s.setS i p') where
  en := h.en
  old := h.old
  none := fun he => absurd he (h.ne (.inr (.inr (ne_of_get hi))))
  cur := h.cur
  rin := h.rin
  sin := by
    intro r hr'
    rcases List.mem_or_eq_of_mem_set hr' with hm | rfl
    · exact h.sin r hm
    · exact hr
  pin := h.pin
  off := h.off
  own := h.own

theorem Inv.setP {s : St} (h : Inv s) {i : Nat} {p p' : Sampler} (hi : s.samplers[i]? = some p)
    (hr : PIn s.chans.length s.stops.length p'.pc) : Inv (s.setP i p') where
  en := h.en
  old := h.old
  none := fun he => absurd he (h.ne (.inr (.inl (ne_of_get hi))))
  cur := h.cur
  rin := h.rin
  sin := h.sin
  pin := by
    intro r hr'
    rcases List.mem_or_eq_of_mem_set hr' with hm | rfl
    · exact h.pin r hm
    · exact hr
  off := h.off
  own := h.own

theorem RIn.mono {n m n' m' : Nat} (hn : n ≤ n') (hm : m ≤ m') {p : RPc} (h : RIn n m p) : RIn n' m' p := by
  cases p <;> simp only [RIn] at * <;> omega
theorem SIn.mono {n n' : Nat} (hn : n ≤ n') {p : SPc} (h : SIn n p) : SIn n' p := by
  cases p <;> simp only [SIn] at * <;> omega
theorem PIn.mono {n m n' m' : Nat} (hn : n ≤ n') (hm : m ≤ m') {p : PPc} (h : PIn n m p) : PIn n' m' p := by
  cases p <;> simp only [PIn] at * <;> omega

theorem push_some {cap : Nat} {s s' : St} {c : Nat} {t : Sig} (h : push cap s c t = some s') :
    ∃ b, s.chans[c]? = some b ∧ b.length < cap ∧
      s' = { s with chans := s.chans.set c (b ++ [t]), entered := s.entered ++ [(c, t)] } := by
  simp only [push] at h
  split at h
  · cases h
  · rename_i b hb
    split at h
    · rename_i hl; cases h; exact ⟨b, hb, hl, rfl⟩
    · cases h

theorem Inv.push {cap : Nat} {s s' : St} {c : Nat} {t : Sig} (h : Inv s) (hp : push cap s c t = some s') : Inv s' := by
  obtain ⟨b, _, _, rfl⟩ := push_some hp
  exact h.frame rfl rfl rfl rfl rfl rfl rfl rfl (by simp) h.off

theorem Inv.start {s : St} (h : Inv s) (he : s.enabled = false) : Inv (start s) where
  en := by simp [Session.start]
  old := by
    intro q hq hne
    simp only [Session.start, List.length_append, List.length_cons, List.length_nil] at hq hne ⊢
    have hlt : q < s.stops.length := by omega
    rw [List.getElem?_append_left hlt]
    by_cases hqc : q = s.stopC
    · subst hqc
      have h1 := mt h.en.mpr (by simp [he])
      rw [List.getElem?_eq_getElem hlt] at h1 ⊢
      simpa using h1
    · exact h.old q hlt hqc
  none := by simp [Session.start]
  cur := by simp [Session.start]
  rin := by
    intro r hr
    simp only [Session.start, List.mem_append] at hr
    rcases hr with hr | hr
    · exact (h.rin r hr).mono (by simp [Session.start]) (by simp [Session.start])
    · simp at hr; rcases hr with rfl | rfl <;> trivial
  sin := fun p hp => (h.sin p hp).mono (by simp [Session.start])
  pin := by
    intro r hr
    simp only [Session.start, List.mem_append] at hr
    rcases hr with hr | hr
    · exact (h.pin r hr).mono (by simp [Session.start]) (by simp [Session.start])
    · simp at hr; subst hr; trivial
  off := by simp [Session.start]
  own := by
    intro _ k
    refine ⟨.top, ?_, trivial⟩
    cases k <;> simp [Session.start]

theorem Inv.stop {s : St} (h : Inv s) (he : s.stops[s.stopC]? = some false) : Inv (stop s) where
  en := by
    have := (List.getElem?_eq_some_iff.mp he).1
    simp [Session.stop, this]
  old := by
    intro q hq hne
    simp only [Session.stop, List.length_set] at hq hne ⊢
    rw [List.getElem?_set_ne (Ne.symm hne)]
    exact h.old q hq hne
  none := by
    intro hs
    simp only [Session.stop, List.set_eq_nil_iff] at hs
    exact h.none hs
  cur := by
    have := (List.getElem?_eq_some_iff.mp he).1
    simp [Session.stop, this]
  rin := fun r hr => (h.rin r hr).mono (by simp [Session.stop]) (by simp [Session.stop])
  sin := fun r hr => (h.sin r hr).mono (by simp [Session.stop])
  pin := fun r hr => (h.pin r hr).mono (by simp [Session.stop]) (by simp [Session.stop])
  off := fun _ => rfl
  own := by simp [Session.stop]

theorem step_inv {ct cg : Nat} {s s' : St} {a : Act} (h : Inv s) (hs : step ct cg s a = some s') : Inv s' := by
  cases a with
  | start =>
    simp only [step] at hs
    split at hs
    · cases hs
    · rename_i he; cases hs; exact h.start (by simpa using he)
  | stop =>
    simp only [step] at hs
    split at hs
    · rename_i he; cases hs; exact h.stop he
    · cases hs
  | recv k id =>
    simp only [step] at hs
    split at hs
    · rename_i he
      cases hs
      refine ⟨h.en, h.old, fun hh => absurd hh (h.enabled_ne he), h.cur, h.rin, ?_, h.pin, h.off, h.own⟩
      intro p hp
      simp only [List.mem_append, List.mem_singleton] at hp
      rcases hp with hp | rfl
      · exact h.sin p hp
      · trivial
    · cases hs; exact h
  | clock i =>
    simp only [step] at hs
    split at hs
    · rename_i p hp; cases hs
      exact h.setP hp (h.pin p (List.mem_of_getElem? hp))
    · cases hs
  | sEval i =>
    simp only [step] at hs
    split at hs
    · rename_i t hp; cases hs
      exact h.setS hp (h.cur (h.ne (.inr (.inr (ne_of_get hp))))).2.1
    · rename_i t hp; cases hs
      exact (h.setS (p' := .done) hp trivial).frame rfl rfl rfl rfl rfl rfl rfl rfl rfl h.off
    · cases hs
  | sPush i =>
    simp only [step] at hs
    split at hs
    · rename_i c t hp
      exact (h.setS (p' := .done) hp trivial).push hs
    · cases hs
  | rStep i =>
    simp only [step] at hs
    split at hs
    · rename_i k hp; cases hs
      have hc := h.cur (h.ne (.inl (ne_of_get hp)))
      refine h.setR hp ?_ (fun _ _ => rfl)
      cases k
      · exact hc.2.1
      · exact hc.2.2
    · rename_i k c hp; cases hs
      have hc := h.cur (h.ne (.inl (ne_of_get hp)))
      exact h.setR hp ⟨h.rin _ (List.mem_of_getElem? hp), hc.1⟩ (fun _ hcur => ⟨hcur, rfl⟩)
    · rename_i k t hp; cases hs
      have h1 := h.setR (p' := .top) hp trivial (fun _ _ => trivial)
      cases k with
      | trigger => exact h1.frame rfl rfl rfl rfl rfl rfl rfl rfl rfl h.off
      | trace =>
        cases he : s.enabled with
        | true =>
          simp only [work, St.setR, he, if_true]
          exact h1.frame (by simp [St.setR, he]) rfl rfl rfl rfl rfl rfl rfl rfl (fun hf => by simp [St.setR, he] at hf)
        | false =>
          simp only [work, St.setR, he, Bool.false_eq_true, if_false]
          exact h1.frame (by simp [St.setR, he]) rfl rfl rfl rfl rfl rfl rfl rfl h.off
    · cases hs
  | rTake i =>
    simp only [step] at hs
    split at hs
    · rename_i k c q hp
      split at hs
      · rename_i t b hb; cases hs
        exact (h.setR (p' := .busy t) hp trivial (fun _ _ => trivial)).frame rfl rfl rfl rfl rfl rfl rfl rfl
          (by simp [St.setR]) h.off
      · cases hs
    · cases hs
  | rQuit i =>
    simp only [step] at hs
    split at hs
    · rename_i k c q hp
      split at hs
      · rename_i hq; cases hs
        refine h.setR hp trivial ?_
        intro he hcur
        rw [hcur.2, h.en.mp he] at hq
        simp at hq
      · cases hs
    · cases hs
  | pStep i =>
    simp only [step] at hs
    split at hs
    · rename_i r hp; cases hs
      exact h.setP hp (h.cur (h.ne (.inr (.inl (ne_of_get hp))))).1
    · rename_i r hp; cases hs
      exact h.setP hp trivial
    · rename_i r t l hp; cases hs
      exact h.setP hp (h.cur (h.ne (.inr (.inl (ne_of_get hp))))).2.2
    · cases hs
  | pPush i =>
    simp only [step] at hs
    split at hs
    · rename_i r c t l hp
      exact (h.setP (p' := ⟨r, .out l⟩) hp trivial).push hs
    · cases hs
  | pTick i =>
    simp only [step] at hs
    split at hs
    · rename_i q hp; cases hs
      exact (h.setP (p' := ⟨false, .out s.samples⟩) hp trivial).frame rfl rfl rfl rfl rfl rfl rfl rfl rfl h.off
    · cases hs
  | pQuit i =>
    simp only [step] at hs
    split at hs
    · rename_i r q hp
      split at hs
      · cases hs; exact h.setP hp trivial
      · cases hs
    · cases hs

theorem run_inv' {ct cg : Nat} {s : St} {l : List Act} (h : run ct cg init l = some s) : Inv s :=
  run_inv (fun _ _ _ => step_inv) init_inv h

/-- While the profile is off, the time segments are empty. -/
theorem off_is_empty {ct cg : Nat} {s : St} {l : List Act} (h : run ct cg init l = some s) (he : s.enabled = false) :
    s.store = [] := (run_inv' h).off he

/-- `StopProfile` goes through exactly when the profile runs; otherwise it closes no channel or a closed one,
and panics.  `Shutdown` (cpu_analyzer.go:76-81) asks first, so it never panics. -/
theorem stop_goes_through {ct cg : Nat} {s : St} {l : List Act} (h : run ct cg init l = some s) :
    (step ct cg s .stop).isSome ↔ s.enabled = true := by
  rw [(run_inv' h).en]
  simp only [step]
  split <;> simp_all

/-! ### A stop is final when nobody starts again -/

/-- Steps the goroutines take by themselves. -/
def Inner : Act → Prop
  | .start | .stop | .recv _ _ | .clock _ => False
  | _ => True

def rRank : RPc → Nat
  | .top => 3 | .half _ => 2 | .wait _ _ => 1 | .busy _ => 5 | .done => 0
def sRank : SPc → Nat
  | .passed .trace _ => 8 | .passed .trigger _ => 10 | .sending _ _ => 7 | .done => 0
def pRank (p : Sampler) : Nat :=
  (if p.ready then 6 else 0) +
  match p.pc with
  | .top => 2 | .wait _ => 1 | .out l => 3 + 9 * l.length | .send _ _ l => 10 + 9 * l.length | .done => 0

/-- How much the goroutines have left to do by themselves. -/
def left (s : St) : Nat :=
  (s.readers.map (fun r => rRank r.pc)).sum + (s.senders.map sRank).sum + (s.samplers.map pRank).sum +
    6 * (s.chans.map List.length).sum + 9 * s.samples.length

theorem sum_set {α : Type} (f : α → Nat) (l : List α) (i : Nat) (a b : α) (h : l[i]? = some a) :
    ((l.set i b).map f).sum + f a = (l.map f).sum + f b := by
  induction l generalizing i with
  | nil => simp at h
  | cons x r ih =>
    cases i with
    | zero =>
      simp only [List.getElem?_cons_zero, Option.some.injEq] at h
      simp only [List.set_cons_zero, List.map_cons, List.sum_cons, h]; omega
    | succ n =>
      simp only [List.getElem?_cons_succ] at h
      have := ih n h
      simp only [List.set_cons_succ, List.map_cons, List.sum_cons]; omega

/-- Every step of a goroutine makes what is left smaller. -/
theorem left_falls {ct cg : Nat} {s s' : St} {a : Act} (ha : Inner a) (hs : step ct cg s a = some s') : left s' < left s := by
  cases a with
  | start => exact ha.elim
  | stop => exact ha.elim
  | recv k id => exact ha.elim
  | clock i => exact ha.elim
  | sEval i =>
    simp only [step] at hs
    split at hs
    · rename_i t hp; cases hs
      have := sum_set sRank _ i _ (.sending s.traceC t) hp
      simp only [left, St.setS, sRank] at *; omega
    · rename_i t hp; cases hs
      have := sum_set sRank _ i _ .done hp
      simp only [left, St.setS, sRank, List.length_append, List.length_singleton] at *; omega
    · cases hs
  | sPush i =>
    simp only [step] at hs
    split at hs
    · rename_i c t hp
      obtain ⟨b, hb, _, rfl⟩ := push_some hs
      have h1 := sum_set sRank _ i _ .done hp
      have h2 := sum_set List.length _ c _ (b ++ [t]) hb
      simp only [left, St.setS, sRank, List.length_append, List.length_singleton] at *; omega
    · cases hs
  | rStep i =>
    simp only [step] at hs
    split at hs
    · rename_i k hp; cases hs
      have := sum_set (fun r : Reader => rRank r.pc) _ i _ ⟨k, .half (s.chanOf k)⟩ hp
      simp only [left, St.setR, rRank] at *; omega
    · rename_i k c hp; cases hs
      have := sum_set (fun r : Reader => rRank r.pc) _ i _ ⟨k, .wait c s.stopC⟩ hp
      simp only [left, St.setR, rRank] at *; omega
    · rename_i k t hp; cases hs
      have := sum_set (fun r : Reader => rRank r.pc) _ i _ ⟨k, .top⟩ hp
      cases k with
      | trigger => simp only [left, work, St.setR, rRank] at *; omega
      | trace =>
        cases he : s.enabled <;>
          simp only [left, work, he, St.setR, rRank, if_true, Bool.false_eq_true, if_false] at * <;> omega
    · cases hs
  | rTake i =>
    simp only [step] at hs
    split at hs
    · rename_i k c q hp
      split at hs
      · rename_i t b hb; cases hs
        have h1 := sum_set (fun r : Reader => rRank r.pc) _ i _ ⟨k, .busy t⟩ hp
        have h2 := sum_set List.length _ c _ b hb
        simp only [left, St.setR, rRank, List.length_cons] at *; omega
      · cases hs
    · cases hs
  | rQuit i =>
    simp only [step] at hs
    split at hs
    · rename_i k c q hp
      split at hs
      · cases hs
        have h1 := sum_set (fun r : Reader => rRank r.pc) _ i _ ⟨k, .done⟩ hp
        simp only [left, St.setR, rRank] at *; omega
      · cases hs
    · cases hs
  | pStep i =>
    simp only [step] at hs
    split at hs
    · rename_i r hp; cases hs
      have := sum_set pRank _ i _ ⟨r, .wait s.stopC⟩ hp
      simp only [left, St.setP, pRank] at *; omega
    · rename_i r hp; cases hs
      have := sum_set pRank _ i _ ⟨r, .top⟩ hp
      simp only [left, St.setP, pRank, List.length_nil] at *; omega
    · rename_i r t l hp; cases hs
      have := sum_set pRank _ i _ ⟨r, .send s.trigC t l⟩ hp
      simp only [left, St.setP, pRank, List.length_cons] at *; omega
    · cases hs
  | pPush i =>
    simp only [step] at hs
    split at hs
    · rename_i r c t l hp
      obtain ⟨b, hb, _, rfl⟩ := push_some hs
      have h1 := sum_set pRank _ i _ ⟨r, .out l⟩ hp
      have h2 := sum_set List.length _ c _ (b ++ [t]) hb
      simp only [left, St.setP, pRank, List.length_append, List.length_singleton] at *; omega
    · cases hs
  | pTick i =>
    simp only [step] at hs
    split at hs
    · rename_i q hp; cases hs
      have h1 := sum_set pRank _ i _ ⟨false, .out s.samples⟩ hp
      simp only [left, St.setP, pRank, if_true, Bool.false_eq_true, if_false, List.length_nil] at *; omega
    · cases hs
  | pQuit i =>
    simp only [step] at hs
    split at hs
    · rename_i r q hp
      split at hs
      · cases hs
        have h1 := sum_set pRank _ i _ ⟨r, .done⟩ hp
        simp only [left, St.setP, pRank] at *; omega
      · cases hs
    · cases hs

/-- Left alone, the goroutines come to rest after a bounded number of steps: nothing in here spins. -/
theorem comes_to_rest {ct cg : Nat} {s s' : St} {l : List Act} (hl : ∀ a ∈ l, Inner a) (h : run ct cg s l = some s') :
    l.length + left s' ≤ left s := by
  induction l generalizing s with
  | nil => simp only [run, Option.some.injEq] at h; simp [h]
  | cons a r ih =>
    simp only [run] at h
    cases hs : step ct cg s a with
    | none => rw [hs] at h; cases h
    | some m =>
      rw [hs] at h
      have h1 := ih (fun x hx => hl x (List.mem_cons_of_mem _ hx)) h
      have h2 := left_falls (hl a List.mem_cons_self) hs
      simp only [List.length_cons]; omega

/-- Nobody can take a step by themselves. -/
def Rest (ct cg : Nat) (s : St) : Prop := ∀ a, Inner a → step ct cg s a = none

/-- The channel has no room. -/
def Full (cap : Nat) (s : St) (c : Nat) : Prop := ∃ b, s.chans[c]? = some b ∧ cap ≤ b.length

theorem push_none {cap : Nat} {s : St} {c : Nat} {t : Sig} (hc : c < s.chans.length) (h : push cap s c t = none) : Full cap s c := by
  simp only [push, List.getElem?_eq_getElem hc] at h
  split at h
  · cases h
  · rename_i hl; exact ⟨_, List.getElem?_eq_getElem hc, by omega⟩

theorem rest_sender {ct cg : Nat} {s : St} (hi : Inv s) (hr : Rest ct cg s) {p : SPc} (hp : p ∈ s.senders) :
    p = .done ∨ ∃ c t, p = .sending c t ∧ Full ct s c := by
  obtain ⟨i, hg⟩ := List.mem_iff_getElem?.mp hp
  have h1 := hr (.sEval i) trivial
  have h2 := hr (.sPush i) trivial
  simp only [step, hg] at h1 h2
  cases p with
  | done => exact .inl rfl
  | passed k t => cases k <;> simp at h1
  | sending c t => exact .inr ⟨c, t, rfl, push_none (s := s.setS i .done) (hi.sin _ hp) h2⟩

theorem rest_sampler {ct cg : Nat} {s : St} (hi : Inv s) (hr : Rest ct cg s) {p : Sampler} (hp : p ∈ s.samplers) :
    p.pc = .done ∨ (∃ c t l, p.pc = .send c t l ∧ Full cg s c) ∨ (∃ q, p.pc = .wait q ∧ s.stops[q]? ≠ some true) := by
  obtain ⟨i, hg⟩ := List.mem_iff_getElem?.mp hp
  have h1 := hr (.pStep i) trivial
  have h2 := hr (.pPush i) trivial
  have h3 := hr (.pQuit i) trivial
  obtain ⟨r, pc⟩ := p
  simp only [step, hg] at h1 h2 h3
  cases pc with
  | done => exact .inl rfl
  | top => simp at h1
  | out l => cases l <;> simp at h1
  | send c t l => exact .inr (.inl ⟨c, t, l, rfl, push_none (s := s.setP i ⟨r, .out l⟩) (hi.pin _ hp) h2⟩)
  | wait q =>
    refine .inr (.inr ⟨q, rfl, ?_⟩)
    intro hq
    simp [hq] at h3

theorem rest_reader {ct cg : Nat} {s : St} (hi : Inv s) (hr : Rest ct cg s) {r : Reader} (hp : r ∈ s.readers) :
    r.pc = .done ∨ ∃ c q, r.pc = .wait c q ∧ s.chans[c]? = some [] ∧ s.stops[q]? ≠ some true := by
  obtain ⟨i, hg⟩ := List.mem_iff_getElem?.mp hp
  have h1 := hr (.rStep i) trivial
  have h2 := hr (.rTake i) trivial
  have h3 := hr (.rQuit i) trivial
  obtain ⟨k, pc⟩ := r
  simp only [step, hg] at h1 h2 h3
  cases pc with
  | done => exact .inl rfl
  | top => simp at h1
  | half c => simp at h1
  | busy t => simp at h1
  | wait c q =>
    have hc : c < s.chans.length := (hi.rin _ hp).1
    refine .inr ⟨c, q, rfl, ?_, ?_⟩
    · cases hb : s.chans[c]? with
      | none => rw [List.getElem?_eq_getElem hc] at hb; cases hb
      | some b =>
        cases b with
        | nil => rfl
        | cons t b => simp [hb] at h2
    · intro hq
      simp [hq] at h3

theorem all_closed {s : St} (hi : Inv s) (he : s.enabled = false) {q : Nat} (hq : q < s.stops.length) : s.stops[q]? = some true := by
  by_cases hc : q = s.stopC
  · have h1 := mt hi.en.mpr (by simp [he])
    rw [← hc, List.getElem?_eq_getElem hq] at h1
    rw [List.getElem?_eq_getElem hq]
    simpa using h1
  · exact hi.old q hq hc

/-- Once the profile is off and the goroutines have come to rest, all readers have returned, and so have the
samplers and the callers, except those that stand in front of a full channel. -/
theorem stop_ends_all {ct cg : Nat} {s : St} {l : List Act} (h : run ct cg init l = some s) (he : s.enabled = false)
    (hr : Rest ct cg s) :
    (∀ r ∈ s.readers, r.pc = .done) ∧
    (∀ p ∈ s.samplers, p.pc = .done ∨ ∃ c t l, p.pc = .send c t l ∧ Full cg s c) ∧
    (∀ p ∈ s.senders, p = .done ∨ ∃ c t, p = .sending c t ∧ Full ct s c) := by
  have hi := run_inv' h
  refine ⟨?_, ?_, fun p hp => rest_sender hi hr hp⟩
  · intro r hm
    rcases rest_reader hi hr hm with hd | ⟨c, q, hpc, _, hq⟩
    · exact hd
    · have := hi.rin r hm
      rw [hpc] at this
      exact absurd (all_closed hi he this.2) hq
  · intro p hm
    rcases rest_sampler hi hr hm with hd | hd | ⟨q, hpc, hq⟩
    · exact .inl hd
    · exact .inr hd
    · have := hi.pin p hm
      rw [hpc] at this
      exact absurd (all_closed hi he this) hq

/-- While the profile runs, nobody stays in front of the channels of the session: once the goroutines have come
to rest, both are empty. -/
theorem running_drains {ct cg : Nat} {s : St} {l : List Act} (h : run ct cg init l = some s) (he : s.enabled = true)
    (hr : Rest ct cg s) (k : Kind) : s.chans[s.chanOf k]? = some [] := by
  have hi := run_inv' h
  obtain ⟨pc, hm, hcur⟩ := hi.own he k
  rcases rest_reader hi hr hm with hd | ⟨c, q, hpc, hb, _⟩
  · simp only at hd; rw [hd] at hcur; exact hcur.elim
  · simp only at hpc
    rw [hpc] at hcur
    rw [← hcur.1]; exact hb

/-! ### A caller can be left standing for ever -/

/-- Nobody is on the channel to take something out, and the variables do not name it any more. -/
def Deserted (cap : Nat) (s : St) (c : Nat) : Prop :=
  Full cap s c ∧ c ≠ s.traceC ∧ c ≠ s.trigC ∧ ∀ r ∈ s.readers, (∀ q, r.pc ≠ .wait c q) ∧ r.pc ≠ .half c

theorem get_of_full {cap : Nat} {s : St} {c : Nat} (h : Full cap s c) : c < s.chans.length := by
  obtain ⟨b, hb, _⟩ := h
  exact (List.getElem?_eq_some_iff.mp hb).1

theorem Full.append {cap : Nat} {s s' : St} {c : Nat} {x : List (List Sig)} (h : Full cap s c) (hx : s'.chans = s.chans ++ x) :
    Full cap s' c := by
  have hl := get_of_full h
  obtain ⟨b, hb, hc⟩ := h
  exact ⟨b, by rw [hx, List.getElem?_append_left hl]; exact hb, hc⟩

theorem Full.same {cap : Nat} {s s' : St} {c : Nat} (h : Full cap s c) (hx : s'.chans = s.chans) : Full cap s' c := by
  obtain ⟨b, hb, hc⟩ := h
  exact ⟨b, by rw [hx]; exact hb, hc⟩

theorem Full.put {cap : Nat} {s s' : St} {c d : Nat} {b : List Sig} {t : Sig} (h : Full cap s c) (hb : s.chans[d]? = some b)
    (hx : s'.chans = s.chans.set d (b ++ [t])) : Full cap s' c := by
  have hl := get_of_full h
  obtain ⟨b', hb', hc⟩ := h
  by_cases hd : d = c
  · subst hd
    rw [hb] at hb'; cases hb'
    exact ⟨b ++ [t], by rw [hx, List.getElem?_set_self hl], by simp; omega⟩
  · exact ⟨b', by rw [hx, List.getElem?_set_ne hd]; exact hb', hc⟩

theorem deserted_step {cap ct cg : Nat} {s s' : St} {a : Act} {c : Nat} (hd : Deserted cap s c) (hs : step ct cg s a = some s') :
    Deserted cap s' c := by
  obtain ⟨hf, h1, h2, h3⟩ := hd
  have hl := get_of_full hf
  have hset : ∀ (i : Nat) (r : Reader), (∀ q, r.pc ≠ .wait c q) → r.pc ≠ .half c →
      ∀ r' ∈ s.readers.set i r, (∀ q, r'.pc ≠ .wait c q) ∧ r'.pc ≠ .half c := by
    intro i r ha hb r' hr'
    rcases List.mem_or_eq_of_mem_set hr' with hm | rfl
    · exact h3 r' hm
    · exact ⟨ha, hb⟩
  cases a with
  | start =>
    simp only [step] at hs
    split at hs
    · cases hs
    · cases hs
      refine ⟨hf.append rfl, ?_, ?_, ?_⟩
      · simp only [start]; omega
      · simp only [start]; omega
      · intro r hr
        simp only [start, List.mem_append] at hr
        rcases hr with hr | hr
        · exact h3 r hr
        · simp at hr; rcases hr with rfl | rfl <;> simp
  | stop =>
    simp only [step] at hs
    split at hs
    · cases hs
      refine ⟨hf.append rfl, ?_, ?_, h3⟩
      · simp only [stop]; omega
      · simp only [stop]; omega
    · cases hs
  | recv k id =>
    simp only [step] at hs
    split at hs <;> cases hs <;> exact ⟨hf, h1, h2, h3⟩
  | clock i =>
    simp only [step] at hs
    split at hs
    · cases hs; exact ⟨hf, h1, h2, h3⟩
    · cases hs
  | sEval i =>
    simp only [step] at hs
    split at hs
    · cases hs; exact ⟨hf, h1, h2, h3⟩
    · cases hs; exact ⟨hf, h1, h2, h3⟩
    · cases hs
  | sPush i =>
    simp only [step] at hs
    split at hs
    · obtain ⟨b, hb, _, rfl⟩ := push_some hs
      exact ⟨hf.put hb rfl, h1, h2, h3⟩
    · cases hs
  | rStep i =>
    simp only [step] at hs
    split at hs
    · rename_i k hp; cases hs
      refine ⟨hf, h1, h2, hset i _ (by simp) ?_⟩
      simp only [ne_eq, RPc.half.injEq]
      cases k
      · exact fun h => h1 h.symm
      · exact fun h => h2 h.symm
    · rename_i k d hp; cases hs
      refine ⟨hf, h1, h2, hset i _ ?_ (by simp)⟩
      intro q hq
      simp only [RPc.wait.injEq] at hq
      have := (h3 _ (List.mem_of_getElem? hp)).2
      simp only [ne_eq, RPc.half.injEq] at this
      exact this hq.1
    · rename_i k t hp; cases hs
      have h4 := hset i ⟨k, .top⟩ (by simp) (by simp)
      cases k with
      | trigger => exact ⟨hf, h1, h2, h4⟩
      | trace =>
        cases he : s.enabled <;> simp only [work, St.setR, he, if_true, Bool.false_eq_true, if_false] <;>
          exact ⟨hf.same rfl, h1, h2, h4⟩
    · cases hs
  | rTake i =>
    simp only [step] at hs
    split at hs
    · rename_i k d q hp
      split at hs
      · rename_i t b hb; cases hs
        have hne : d ≠ c := by
          intro hdc; subst hdc
          exact (h3 _ (List.mem_of_getElem? hp)).1 q rfl
        obtain ⟨b', hb', hc⟩ := hf
        exact ⟨⟨b', by rw [List.getElem?_set_ne hne]; exact hb', hc⟩, h1, h2, hset i _ (by simp) (by simp)⟩
      · cases hs
    · cases hs
  | rQuit i =>
    simp only [step] at hs
    split at hs
    · split at hs
      · cases hs; exact ⟨hf, h1, h2, hset i _ (by simp) (by simp)⟩
      · cases hs
    · cases hs
  | pStep i =>
    simp only [step] at hs
    split at hs
    · cases hs; exact ⟨hf, h1, h2, h3⟩
    · cases hs; exact ⟨hf, h1, h2, h3⟩
    · cases hs; exact ⟨hf, h1, h2, h3⟩
    · cases hs
  | pPush i =>
    simp only [step] at hs
    split at hs
    · obtain ⟨b, hb, _, rfl⟩ := push_some hs
      exact ⟨hf.put hb rfl, h1, h2, h3⟩
    · cases hs
  | pTick i =>
    simp only [step] at hs
    split at hs
    · cases hs; exact ⟨hf, h1, h2, h3⟩
    · cases hs
  | pQuit i =>
    simp only [step] at hs
    split at hs
    · split at hs
      · cases hs; exact ⟨hf, h1, h2, h3⟩
      · cases hs
    · cases hs

theorem sender_step {ct cg : Nat} {s s' : St} {a : Act} {i c : Nat} {t : Sig} (hd : Full ct s c)
    (hi : s.senders[i]? = some (.sending c t)) (hs : step ct cg s a = some s') : s'.senders[i]? = some (.sending c t) := by
  have hset : ∀ (j : Nat) (p : SPc), s.senders[j]? ≠ some (.sending c t) → (s.senders.set j p)[i]? = some (.sending c t) := by
    intro j p hj
    rw [List.getElem?_set_ne]
    · exact hi
    · rintro rfl; exact hj hi
  cases a with
  | recv k id =>
    simp only [step] at hs
    split at hs
    · cases hs
      simp only
      rw [List.getElem?_append_left (List.getElem?_eq_some_iff.mp hi).1]; exact hi
    · cases hs; exact hi
  | sEval j =>
    simp only [step] at hs
    split at hs
    · rename_i x hp; cases hs; exact hset j _ (by rw [hp]; simp)
    · rename_i x hp; cases hs; exact hset j _ (by rw [hp]; simp)
    · cases hs
  | sPush j =>
    simp only [step] at hs
    split at hs
    · rename_i d x hp
      obtain ⟨b, hb, hlt, rfl⟩ := push_some hs
      refine hset j _ ?_
      rw [hp]
      intro he
      simp only [Option.some.injEq, SPc.sending.injEq] at he
      obtain ⟨b', hb', hc⟩ := hd
      rw [he.1] at hb
      simp only [St.setS] at hb
      rw [hb] at hb'; cases hb'; omega
    · cases hs
  | rStep j =>
    simp only [step] at hs
    split at hs
    · cases hs; exact hi
    · cases hs; exact hi
    · rename_i k x hp; cases hs
      cases k with
      | trigger => exact hi
      | trace => cases he : s.enabled <;> simp only [work, St.setR, he, if_true, Bool.false_eq_true, if_false] <;> exact hi
    · cases hs
  | pPush j =>
    simp only [step] at hs
    split at hs
    · obtain ⟨b, hb, hlt, rfl⟩ := push_some hs; exact hi
    · cases hs
  | start => simp only [step] at hs; split at hs <;> cases hs; exact hi
  | stop => simp only [step] at hs; split at hs <;> cases hs; exact hi
  | clock j => simp only [step] at hs; split at hs <;> cases hs; exact hi
  | rTake j =>
    simp only [step] at hs
    split at hs
    · split at hs <;> cases hs; exact hi
    · cases hs
  | rQuit j =>
    simp only [step] at hs
    split at hs
    · split at hs <;> cases hs; exact hi
    · cases hs
  | pStep j => simp only [step] at hs; split at hs <;> cases hs <;> exact hi
  | pTick j => simp only [step] at hs; split at hs <;> cases hs; exact hi
  | pQuit j =>
    simp only [step] at hs
    split at hs
    · split at hs <;> cases hs; exact hi
    · cases hs

/-- A caller that stands in front of a full channel the variables do not name any more, with no reader left on
it, stands there for ever: whatever happens, also when the profile is started again.  The caller is the goroutine of
the network analyzer, which handles no further event. -/
theorem left_standing {ct cg : Nat} {s s' : St} {l : List Act} {i c : Nat} {t : Sig} (hd : Deserted ct s c)
    (hi : s.senders[i]? = some (.sending c t)) (h : run ct cg s l = some s') : s'.senders[i]? = some (.sending c t) := by
  have := run_inv (P := fun s => Deserted ct s c ∧ s.senders[i]? = some (.sending c t))
    (fun s a s' hp hs => ⟨deserted_step hp.1 hs, sender_step hp.1.1 hp.2 hs⟩) ⟨hd, hi⟩ h
  exact this.2

theorem sampler_step {ct cg : Nat} {s s' : St} {a : Act} {i c : Nat} {t : Sig} {l : List Sig} (hd : Full cg s c)
    (hi : ∃ r, s.samplers[i]? = some ⟨r, .send c t l⟩) (hs : step ct cg s a = some s') :
    ∃ r, s'.samplers[i]? = some ⟨r, .send c t l⟩ := by
  have hset : ∀ (j : Nat) (p : Sampler), (∀ r, s.samplers[j]? ≠ some ⟨r, .send c t l⟩) →
      ∃ r, (s.samplers.set j p)[i]? = some ⟨r, .send c t l⟩ := by
    intro j p hj
    obtain ⟨r, hr⟩ := hi
    refine ⟨r, ?_⟩
    rw [List.getElem?_set_ne]
    · exact hr
    · rintro rfl; exact hj r hr
  cases a with
  | recv k id => simp only [step] at hs; split at hs <;> cases hs <;> exact hi
  | sEval j => simp only [step] at hs; split at hs <;> cases hs <;> exact hi
  | sPush j =>
    simp only [step] at hs
    split at hs
    · obtain ⟨b, hb, hlt, rfl⟩ := push_some hs; exact hi
    · cases hs
  | rStep j =>
    simp only [step] at hs
    split at hs
    · cases hs; exact hi
    · cases hs; exact hi
    · rename_i k x hp; cases hs
      cases k with
      | trigger => exact hi
      | trace => cases he : s.enabled <;> simp only [work, St.setR, he, if_true, Bool.false_eq_true, if_false] <;> exact hi
    · cases hs
  | pPush j =>
    simp only [step] at hs
    split at hs
    · rename_i r0 d x l' hp
      obtain ⟨b, hb, hlt, rfl⟩ := push_some hs
      refine hset j _ ?_
      intro r he
      rw [hp] at he
      simp only [Option.some.injEq, Sampler.mk.injEq, PPc.send.injEq] at he
      obtain ⟨b', hb', hc⟩ := hd
      rw [he.2.1] at hb
      simp only [St.setP] at hb
      rw [hb] at hb'; cases hb'; omega
    · cases hs
  | start =>
    simp only [step] at hs
    split at hs
    · cases hs
    · cases hs
      obtain ⟨r, hr⟩ := hi
      refine ⟨r, ?_⟩
      simp only [start]
      rw [List.getElem?_append_left (List.getElem?_eq_some_iff.mp hr).1]; exact hr
  | stop => simp only [step] at hs; split at hs <;> cases hs; exact hi
  | clock j =>
    simp only [step] at hs
    split at hs
    · rename_i p hp; cases hs
      by_cases hj : j = i
      · subst hj
        obtain ⟨r, hr⟩ := hi
        rw [hr] at hp; cases hp
        exact ⟨true, by simp only [St.setP]; rw [List.getElem?_set_self (List.getElem?_eq_some_iff.mp hr).1]⟩
      · obtain ⟨r, hr⟩ := hi
        exact ⟨r, by simp only [St.setP]; rw [List.getElem?_set_ne hj]; exact hr⟩
    · cases hs
  | rTake j =>
    simp only [step] at hs
    split at hs
    · split at hs <;> cases hs; exact hi
    · cases hs
  | rQuit j =>
    simp only [step] at hs
    split at hs
    · split at hs <;> cases hs; exact hi
    · cases hs
  | pStep j =>
    simp only [step] at hs
    split at hs
    · rename_i hp; cases hs; exact hset j _ (fun r => by rw [hp]; simp)
    · rename_i hp; cases hs; exact hset j _ (fun r => by rw [hp]; simp)
    · rename_i hp; cases hs; exact hset j _ (fun r => by rw [hp]; simp)
    · cases hs
  | pTick j =>
    simp only [step] at hs
    split at hs
    · rename_i hp; cases hs; exact hset j _ (fun r => by rw [hp]; simp)
    · cases hs
  | pQuit j =>
    simp only [step] at hs
    split at hs
    · rename_i hp
      split at hs
      · cases hs; exact hset j _ (fun r => by rw [hp]; simp)
      · cases hs
    · cases hs

/-- The same for the sampler. -/
theorem sampler_left_standing {ct cg : Nat} {s s' : St} {l : List Act} {i c : Nat} {t : Sig} {m : List Sig} {r : Bool}
    (hd : Deserted cg s c) (hi : s.samplers[i]? = some ⟨r, .send c t m⟩) (h : run ct cg s l = some s') :
    ∃ r', s'.samplers[i]? = some ⟨r', .send c t m⟩ := by
  have := run_inv (P := fun s => Deserted cg s c ∧ ∃ r, s.samplers[i]? = some ⟨r, .send c t m⟩)
    (fun s a s' hp hs => ⟨deserted_step hp.1 hs, sampler_step hp.1.1 hp.2 hs⟩) ⟨hd, r, hi⟩ h
  exact this.2

/-- A running profile whose trace channel holds `n` traces. -/
def filled (n : Nat) : St :=
  { start init with senders := List.replicate n .done, chans := [[], List.replicate n ⟨0, 1⟩]
                    entered := List.replicate n (1, ⟨0, 1⟩) }

theorem fill_one (ct cg n : Nat) (h : n < ct) :
    run ct cg (filled n) [.recv .trace 0, .sEval n, .sPush n] = some (filled (n + 1)) := by
  have e1 : (List.replicate n SPc.done ++ [SPc.passed .trace ⟨0, 1⟩])[n]? = some (.passed .trace ⟨0, 1⟩) := by
    rw [List.getElem?_append_right (by simp)]; simp
  have e2 : (List.replicate n SPc.done ++ [SPc.passed .trace ⟨0, 1⟩]).set n (.sending 1 ⟨0, 1⟩) =
      List.replicate n SPc.done ++ [.sending 1 ⟨0, 1⟩] := by
    rw [List.set_append_right _ _ (by simp)]; simp
  have e3 : (List.replicate n SPc.done ++ [SPc.sending 1 ⟨0, 1⟩])[n]? = some (.sending 1 ⟨0, 1⟩) := by
    rw [List.getElem?_append_right (by simp)]; simp
  have e4 : (List.replicate n SPc.done ++ [SPc.sending 1 ⟨0, 1⟩]).set n .done = List.replicate (n + 1) SPc.done := by
    rw [List.set_append_right _ _ (by simp), List.replicate_succ']; simp
  simp only [run, step, filled, start, init, if_true, e1, St.setS, List.nil_append, List.length_nil, Nat.zero_add]
  rw [e2]
  simp only [e3, e4, push, List.getElem?_cons_succ, List.getElem?_cons_zero, List.length_replicate, h, if_true,
    List.set_cons_succ, List.set_cons_zero, ← List.replicate_succ']

theorem fill (ct cg n : Nat) (h : n ≤ ct) : ∃ l, run ct cg init l = some (filled n) := by
  induction n with
  | zero => exact ⟨[.start], rfl⟩
  | succ n ih =>
    obtain ⟨l, hl⟩ := ih (by omega)
    exact ⟨l ++ [.recv .trace 0, .sEval n, .sPush n], run_append.mpr ⟨_, hl, fill_one ct cg n (by omega)⟩⟩

/-- It happens, whatever the size of the channel: the reader is busy while the channel fills up, one more caller waits
for room, and the profile is stopped. -/
theorem can_be_left_standing (ct cg : Nat) :
    ∃ l s t, run ct cg init l = some s ∧ s.senders[ct]? = some (.sending 1 t) ∧ Deserted ct s 1 ∧ s.enabled = false := by
  obtain ⟨l, hl⟩ := fill ct cg ct (Nat.le_refl ct)
  have e1 : (List.replicate ct SPc.done ++ [SPc.passed .trace ⟨0, 1⟩])[ct]? = some (.passed .trace ⟨0, 1⟩) := by
    rw [List.getElem?_append_right (by simp)]; simp
  have e2 : (List.replicate ct SPc.done ++ [SPc.passed .trace ⟨0, 1⟩]).set ct (.sending 1 ⟨0, 1⟩) =
      List.replicate ct SPc.done ++ [.sending 1 ⟨0, 1⟩] := by
    rw [List.set_append_right _ _ (by simp)]; simp
  refine ⟨l ++ [.recv .trace 0, .sEval ct, .stop], stop { filled ct with senders := List.replicate ct .done ++ [.sending 1 ⟨0, 1⟩] },
    ⟨0, 1⟩, run_append.mpr ⟨_, hl, ?_⟩, ?_, ⟨⟨List.replicate ct ⟨0, 1⟩, rfl, by simp⟩, ?_, ?_, ?_⟩, rfl⟩
  · simp only [run, step, filled, start, init, if_true, e1, St.setS, List.nil_append, List.length_nil, Nat.zero_add]
    rw [e2]
    rfl
  · simp only [stop]
    rw [List.getElem?_append_right (by simp)]; simp
  · simp [stop, filled]
  · simp [stop, filled]
  · simp [stop, filled, start, init]

/-! ### A reader can miss a stop -/

/-- A reader that is not in its `select` while the profile is stopped and started again looks up the new
session's channels: it becomes a reader of the new session, besides the ones that session starts. -/
theorem missed_stop {ct cg : Nat} {s : St} {i : Nat} {k : Kind} (he : s.stops[s.stopC]? = some false)
    (hi : s.readers[i]? = some ⟨k, .top⟩) :
    ∃ s', run ct cg s [.stop, .start, .rStep i, .rStep i] = some s' ∧ s'.enabled = true ∧
      s'.readers[i]? = some ⟨k, .wait (s'.chanOf k) s'.stopC⟩ := by
  have hl := (List.getElem?_eq_some_iff.mp hi).1
  have g1 : (s.readers ++ [⟨.trigger, .top⟩, ⟨.trace, .top⟩])[i]? = some ⟨k, .top⟩ := by
    rw [List.getElem?_append_left hl]; exact hi
  have g2 : ∀ p, ((s.readers ++ [(⟨.trigger, .top⟩ : Reader), ⟨.trace, .top⟩]).set i ⟨k, p⟩)[i]? = some ⟨k, p⟩ := fun p =>
    List.getElem?_set_self (by simp; omega)
  have e1 : step ct cg s .stop = some (stop s) := by simp only [step, he]
  have e2 : step ct cg (stop s) .start = some (start (stop s)) := by simp [step, stop]
  have e3 : step ct cg (start (stop s)) (.rStep i) = some ((start (stop s)).setR i ⟨k, .half ((start (stop s)).chanOf k)⟩) := by
    simp only [step]
    rw [show (start (stop s)).readers[i]? = some ⟨k, .top⟩ from g1]
  have e4 : step ct cg ((start (stop s)).setR i ⟨k, .half ((start (stop s)).chanOf k)⟩) (.rStep i) =
      some (((start (stop s)).setR i ⟨k, .half ((start (stop s)).chanOf k)⟩).setR i
        ⟨k, .wait ((start (stop s)).chanOf k) (start (stop s)).stopC⟩) := by
    simp only [step]
    rw [show ((start (stop s)).setR i ⟨k, .half ((start (stop s)).chanOf k)⟩).readers[i]? = some ⟨k, _⟩ from g2 _]
    rfl
  refine ⟨((start (stop s)).setR i ⟨k, .half ((start (stop s)).chanOf k)⟩).setR i
      ⟨k, .wait ((start (stop s)).chanOf k) (start (stop s)).stopC⟩, by simp only [run, e1, e2, e3, e4], rfl, ?_⟩
  simp only [St.setR, List.set_set]
  cases k <;> exact g2 _

/-- What a reader looks up. -/
def listening (s : St) (r : Reader) : Reader := ⟨r.kind, .wait (s.chanOf r.kind) s.stopC⟩

theorem listen_one (ct cg : Nat) (s : St) (A B : List Reader) (k : Kind) :
    run ct cg { s with readers := A ++ ⟨k, .top⟩ :: B } [.rStep A.length, .rStep A.length] =
      some { s with readers := A ++ listening s ⟨k, .top⟩ :: B } := by
  simp only [run, step, List.getElem?_append_right (Nat.le_refl _), Nat.sub_self, List.getElem?_cons_zero, St.setR,
    List.set_append_right _ _ (Nat.le_refl _), List.set_cons_zero]
  cases k <;> rfl

theorem listen (ct cg : Nat) (s : St) (A B : List Reader) (hB : ∀ r ∈ B, r.pc = .top) :
    ∃ l, run ct cg { s with readers := A ++ B } l = some { s with readers := A ++ B.map (listening s) } := by
  induction B generalizing A with
  | nil => exact ⟨[], by simp [run]⟩
  | cons r B ih =>
    obtain ⟨k, pc⟩ := r
    have hp := hB _ List.mem_cons_self
    simp only at hp
    subst hp
    obtain ⟨l, hl⟩ := ih (A ++ [listening s ⟨k, .top⟩]) (fun r hr => hB r (List.mem_cons_of_mem _ hr))
    refine ⟨[.rStep A.length, .rStep A.length] ++ l, run_append.mpr ⟨_, listen_one ct cg s A B k, ?_⟩⟩
    simp only [List.append_assoc, List.singleton_append] at hl
    exact hl

theorem restarts (ct cg n : Nat) :
    ∃ l s, run ct cg init l = some s ∧ s.enabled = true ∧ s.stops[s.stopC]? = some false ∧
      s.readers = (List.replicate (n + 1) [(⟨.trigger, .top⟩ : Reader), ⟨.trace, .top⟩]).flatten := by
  induction n with
  | zero => exact ⟨[.start], _, rfl, rfl, rfl, rfl⟩
  | succ n ih =>
    obtain ⟨l, s, hl, _, h3, h4⟩ := ih
    refine ⟨l ++ [.stop, .start], start (stop s), run_append.mpr ⟨s, hl, ?_⟩, rfl, by simp [start, stop], ?_⟩
    · simp only [run, step, h3]; rfl
    · rw [List.replicate_succ', List.flatten_append, ← h4]
      simp [start, stop]

/-- So readers pile up: after `n` restarts there can be `n + 1` readers in front of the trace channel, and as many
in front of the trigger channel; no later step of a start takes one away. -/
theorem readers_pile_up (ct cg n : Nat) (k : Kind) :
    ∃ l s, run ct cg init l = some s ∧ s.enabled = true ∧
      (s.readers.filter (fun r => r = ⟨k, .wait (s.chanOf k) s.stopC⟩)).length = n + 1 := by
  obtain ⟨l, s, hl, he, _, h4⟩ := restarts ct cg n
  have ht : ∀ m, ∀ r ∈ (List.replicate m [(⟨.trigger, .top⟩ : Reader), ⟨.trace, .top⟩]).flatten, r.pc = .top := by
    intro m r hr
    rw [List.mem_flatten] at hr
    obtain ⟨x, hx, hr⟩ := hr
    rw [List.eq_of_mem_replicate hx] at hr
    simp at hr
    rcases hr with rfl | rfl <;> rfl
  obtain ⟨l2, hl2⟩ := listen ct cg s [] s.readers (by rw [h4]; exact ht _)
  refine ⟨l ++ l2, _, run_append.mpr ⟨s, hl, hl2⟩, he, ?_⟩
  simp only [List.nil_append, h4]
  show (List.filter _ _).length = _
  generalize hc1 : s.chanOf k = c1
  have key : ∀ m, (((List.replicate m [(⟨.trigger, .top⟩ : Reader), ⟨.trace, .top⟩]).flatten.map (listening s)).filter
      (fun r => decide (r = ⟨k, .wait (s.chanOf k) s.stopC⟩))).length = m := by
    intro m
    induction m with
    | zero => rfl
    | succ m ih =>
      rw [List.replicate_succ, List.flatten_cons, List.map_append, List.filter_append, List.length_append, ih]
      cases k <;> simp [listening] <;> omega
  cases k <;> exact key (n + 1)

/-! ### What a restart keeps when it waits -/

/-- Every start finds all readers returned. -/
def Gentle (ct cg : Nat) : St → List Act → Prop
  | _, [] => True
  | s, a :: r => (a = .start → ∀ x ∈ s.readers, x.pc = .done) ∧
      match step ct cg s a with | none => True | some s' => Gentle ct cg s' r

/-- What was put into a channel, in order. -/
def putInto (s : St) (c : Nat) : List Sig := (s.entered.filter (fun e => e.1 = c)).map (·.2)

/-- While the profile runs, it has one reader of each kind, and the trace reader has handled the traces in the order
in which they were put into the channel. -/
def One (s : St) : Prop :=
  (∀ e ∈ s.entered, e.1 < s.chans.length) ∧ (s.enabled = true → s.trigC ≠ s.traceC ∧ ∃ R p q b,
    s.readers = R ++ [⟨.trigger, p⟩, ⟨.trace, q⟩] ∧ (∀ r ∈ R, r.pc = .done) ∧
    Cur s.trigC s.stopC p ∧ Cur s.traceC s.stopC q ∧ s.chans[s.traceC]? = some b ∧
    s.store ++ inR ⟨.trace, q⟩ ++ b = putInto s s.traceC)

theorem get_last {R : List Reader} {a b x : Reader} {i : Nat} (h : (R ++ [a, b])[i]? = some x) :
    x ∈ R ∨ (i = R.length ∧ x = a) ∨ (i = R.length + 1 ∧ x = b) := by
  by_cases hi : i < R.length
  · rw [List.getElem?_append_left hi] at h
    exact .inl (List.mem_of_getElem? h)
  · rw [List.getElem?_append_right (by omega)] at h
    obtain ⟨n, hn⟩ : ∃ n, i - R.length = n := ⟨_, rfl⟩
    rw [hn] at h
    match n, h with
    | 0, h => exact .inr (.inl ⟨by omega, by simpa using h.symm⟩)
    | 1, h => exact .inr (.inr ⟨by omega, by simpa using h.symm⟩)
    | n + 2, h => simp at h

theorem set_a {R : List Reader} {a b x : Reader} : (R ++ [a, b]).set R.length x = R ++ [x, b] := by
  rw [List.set_append_right _ _ (Nat.le_refl _)]; simp
theorem set_b {R : List Reader} {a b x : Reader} : (R ++ [a, b]).set (R.length + 1) x = R ++ [a, x] := by
  rw [List.set_append_right _ _ (by omega)]; simp

/-- Steps that leave the readers, the session and the order alone. -/
theorem One.frame {s s' : St} (h : One s) (h1 : s'.enabled = s.enabled) (h2 : s'.traceC = s.traceC) (h3 : s'.trigC = s.trigC)
    (h4 : s'.stopC = s.stopC) (h6 : s'.readers = s.readers) (h9 : s'.chans = s.chans) (h10 : s'.store = s.store)
    (h11 : s'.entered = s.entered) : One s' := by
  refine ⟨by rw [h11, h9]; exact h.1, ?_⟩
  rw [h1, h3, h2, h6, h4, h9, h10]
  simp only [putInto, h11]
  exact h.2

theorem One.push {cap : Nat} {s s' : St} {c : Nat} {t : Sig} (h : One s) (hp : push cap s c t = some s') : One s' := by
  obtain ⟨d, hd, _, rfl⟩ := push_some hp
  have hl := (List.getElem?_eq_some_iff.mp hd).1
  refine ⟨?_, ?_⟩
  · intro e he
    simp only [List.mem_append, List.mem_singleton] at he
    simp only [List.length_set]
    rcases he with he | rfl
    · exact h.1 e he
    · exact hl
  · intro he
    obtain ⟨hne, R, p, q, b, hr, hR, hp', hq, hb, hfifo⟩ := h.2 he
    by_cases hc : c = s.traceC
    · subst hc
      rw [hd] at hb; cases hb
      refine ⟨hne, R, p, q, d ++ [t], hr, hR, hp', hq, List.getElem?_set_self hl, ?_⟩
      simp only [putInto, List.filter_append, List.map_append] at hfifo ⊢
      rw [← hfifo]; simp
    · refine ⟨hne, R, p, q, b, hr, hR, hp', hq, by simp only; rw [List.getElem?_set_ne hc]; exact hb, ?_⟩
      simp only [putInto, List.filter_append, List.map_append] at hfifo ⊢
      rw [hfifo]; simp [hc]

theorem step_one {ct cg : Nat} {s s' : St} {a : Act} (hi : Inv s) (h : One s)
    (hg : a = .start → ∀ x ∈ s.readers, x.pc = .done) (hs : step ct cg s a = some s') : One s' := by
  have hlt : ∀ (e : Nat × Sig), e ∈ s.entered → e.1 < s.chans.length := h.1
  cases a with
  | start =>
    simp only [step] at hs
    split at hs
    · cases hs
    · rename_i he
      cases hs
      refine ⟨?_, fun _ => ⟨by simp [start], s.readers, .top, .top, [], rfl, hg rfl, trivial, trivial, ?_, ?_⟩⟩
      · intro e hm
        have := hlt e hm
        simp only [start, List.length_append]; omega
      · simp [start]
      · have hst := hi.off (by simpa using he)
        have hnone : s.entered.filter (fun e => decide (e.1 = s.chans.length + 1)) = [] := by
          rw [List.filter_eq_nil_iff]
          intro e hm
          have := hlt e hm
          simp only [decide_eq_true_eq]; omega
        simp [start, putInto, hst, hnone, inR]
  | stop =>
    simp only [step] at hs
    split at hs
    · cases hs
      refine ⟨?_, by simp [stop]⟩
      intro e hm
      have := hlt e hm
      simp only [stop, List.length_append]; omega
    · cases hs
  | recv k id => simp only [step] at hs; split at hs <;> cases hs <;> exact h.frame rfl rfl rfl rfl rfl rfl rfl rfl
  | clock i => simp only [step] at hs; split at hs <;> cases hs; exact h.frame rfl rfl rfl rfl rfl rfl rfl rfl
  | sEval i => simp only [step] at hs; split at hs <;> cases hs <;> exact h.frame rfl rfl rfl rfl rfl rfl rfl rfl
  | sPush i =>
    simp only [step] at hs
    split at hs
    · exact One.push (s := s.setS i .done) (h.frame rfl rfl rfl rfl rfl rfl rfl rfl) hs
    · cases hs
  | pStep i => simp only [step] at hs; split at hs <;> cases hs <;> exact h.frame rfl rfl rfl rfl rfl rfl rfl rfl
  | pPush i =>
    simp only [step] at hs
    split at hs
    · rename_i r c t l hp
      exact One.push (s := s.setP i ⟨r, .out l⟩) (h.frame rfl rfl rfl rfl rfl rfl rfl rfl) hs
    · cases hs
  | pTick i => simp only [step] at hs; split at hs <;> cases hs; exact h.frame rfl rfl rfl rfl rfl rfl rfl rfl
  | pQuit i =>
    simp only [step] at hs
    split at hs
    · split at hs <;> cases hs; exact h.frame rfl rfl rfl rfl rfl rfl rfl rfl
    · cases hs
  | rStep i =>
    simp only [step] at hs
    split at hs
    · rename_i k hp; cases hs
      refine ⟨h.1, fun he => ?_⟩
      obtain ⟨hne, R, p, q, b, hr, hR, hcp, hcq, hb, hf⟩ := h.2 he
      rw [hr] at hp
      rcases get_last hp with hm | ⟨rfl, hx⟩ | ⟨rfl, hx⟩
      · exact absurd (hR _ hm) (by simp)
      · simp only [Reader.mk.injEq] at hx
        obtain ⟨rfl, rfl⟩ := hx
        refine ⟨hne, R, .half s.trigC, q, b, ?_, hR, rfl, hcq, hb, hf⟩
        simp only [St.setR, hr, set_a]; rfl
      · simp only [Reader.mk.injEq] at hx
        obtain ⟨rfl, rfl⟩ := hx
        refine ⟨hne, R, p, .half s.traceC, b, ?_, hR, hcp, rfl, hb, hf⟩
        simp only [St.setR, hr, set_b]; rfl
    · rename_i k c hp; cases hs
      refine ⟨h.1, fun he => ?_⟩
      obtain ⟨hne, R, p, q, b, hr, hR, hcp, hcq, hb, hf⟩ := h.2 he
      rw [hr] at hp
      rcases get_last hp with hm | ⟨rfl, hx⟩ | ⟨rfl, hx⟩
      · exact absurd (hR _ hm) (by simp)
      · simp only [Reader.mk.injEq] at hx
        obtain ⟨rfl, rfl⟩ := hx
        refine ⟨hne, R, .wait c s.stopC, q, b, ?_, hR, ⟨hcp, rfl⟩, hcq, hb, hf⟩
        simp only [St.setR, hr, set_a]
      · simp only [Reader.mk.injEq] at hx
        obtain ⟨rfl, rfl⟩ := hx
        refine ⟨hne, R, p, .wait c s.stopC, b, ?_, hR, hcp, ⟨hcq, rfl⟩, hb, hf⟩
        simp only [St.setR, hr, set_b]
    · rename_i k t hp; cases hs
      refine ⟨?_, fun he' => ?_⟩
      · cases k with
        | trigger => exact h.1
        | trace => cases he : s.enabled <;> simp only [work, St.setR, he, if_true, Bool.false_eq_true, if_false] <;> exact h.1
      · have he : s.enabled = true := by
          cases k with
          | trigger => exact he'
          | trace =>
            cases he : s.enabled with
            | true => rfl
            | false => simp [work, St.setR, he] at he'
        obtain ⟨hne, R, p, q, b, hr, hR, hcp, hcq, hb, hf⟩ := h.2 he
        rw [hr] at hp
        rcases get_last hp with hm | ⟨rfl, hx⟩ | ⟨rfl, hx⟩
        · exact absurd (hR _ hm) (by simp)
        · simp only [Reader.mk.injEq] at hx
          obtain ⟨rfl, rfl⟩ := hx
          refine ⟨hne, R, .top, q, b, ?_, hR, trivial, hcq, hb, hf⟩
          simp only [work, St.setR, hr, set_a]
        · simp only [Reader.mk.injEq] at hx
          obtain ⟨rfl, rfl⟩ := hx
          simp only [work, St.setR, he, if_true]
          refine ⟨hne, R, p, .top, b, ?_, hR, hcp, trivial, hb, ?_⟩
          · simp only [hr, set_b]
          · simpa [inR, putInto] using hf
    · cases hs
  | rTake i =>
    simp only [step] at hs
    split at hs
    · rename_i k c z hp
      split at hs
      · rename_i t d hd; cases hs
        refine ⟨?_, fun he => ?_⟩
        · intro e hm
          simp only [List.length_set]
          exact hlt e hm
        · obtain ⟨hne, R, p, q, b, hr, hR, hcp, hcq, hb, hf⟩ := h.2 he
          rw [hr] at hp
          rcases get_last hp with hm | ⟨rfl, hx⟩ | ⟨rfl, hx⟩
          · exact absurd (hR _ hm) (by simp)
          · simp only [Reader.mk.injEq] at hx
            obtain ⟨rfl, rfl⟩ := hx
            refine ⟨hne, R, .busy t, q, b, ?_, hR, trivial, hcq, ?_, hf⟩
            · simp only [St.setR, hr, set_a]
            · simp only [St.setR]
              rw [List.getElem?_set_ne (by rw [hcp.1]; exact hne)]; exact hb
          · simp only [Reader.mk.injEq] at hx
            obtain ⟨rfl, rfl⟩ := hx
            have hc := hcq.1
            subst hc
            rw [hd] at hb; cases hb
            refine ⟨hne, R, p, .busy t, d, ?_, hR, hcp, trivial, ?_, ?_⟩
            · simp only [St.setR, hr, set_b]
            · simp only [St.setR]
              rw [List.getElem?_set_self (List.getElem?_eq_some_iff.mp hd).1]
            · have hf' : s.store ++ [t] ++ d = putInto s s.traceC := by rw [← hf]; simp [inR]
              exact hf'
      · cases hs
    · cases hs
  | rQuit i =>
    simp only [step] at hs
    split at hs
    · rename_i k c z hp
      split at hs
      · rename_i hz; cases hs
        refine ⟨h.1, fun he => ?_⟩
        obtain ⟨hne, R, p, q, b, hr, hR, hcp, hcq, hb, hf⟩ := h.2 he
        rw [hr] at hp
        rcases get_last hp with hm | ⟨rfl, hx⟩ | ⟨rfl, hx⟩
        · exact absurd (hR _ hm) (by simp)
        · simp only [Reader.mk.injEq] at hx
          obtain ⟨rfl, rfl⟩ := hx
          rw [hcp.2, hi.en.mp he] at hz; simp at hz
        · simp only [Reader.mk.injEq] at hx
          obtain ⟨rfl, rfl⟩ := hx
          rw [hcq.2, hi.en.mp he] at hz; simp at hz
      · cases hs
    · cases hs

theorem gentle_one {ct cg : Nat} {s s' : St} {l : List Act} (hi : Inv s) (h : One s) (hg : Gentle ct cg s l)
    (hr : run ct cg s l = some s') : One s' := by
  induction l generalizing s with
  | nil => simp only [run, Option.some.injEq] at hr; exact hr ▸ h
  | cons a r ih =>
    simp only [run] at hr
    obtain ⟨hg1, hg2⟩ := hg
    cases hs : step ct cg s a with
    | none => rw [hs] at hr; cases hr
    | some m =>
      rw [hs] at hr hg2
      exact ih (step_inv hi hs) (step_one hi h hg1 hs) hg2 hr

/-- When every start finds the earlier readers returned, a running profile has exactly one reader of each
kind, and its time segments were given the traces of its channel in the order they were put in: what is stored, what the
reader has in hand and what waits make up what was put in. -/
theorem gentle_restart_partial {ct cg : Nat} {s : St} {l : List Act} (hr : run ct cg init l = some s) (hg : Gentle ct cg init l)
    (he : s.enabled = true) :
    (∀ k, (s.readers.filter (fun r => r.kind = k ∧ r.pc ≠ .done)).length = 1) ∧
    ∃ q b, ⟨.trace, q⟩ ∈ s.readers ∧ q ≠ .done ∧ s.chans[s.traceC]? = some b ∧
      s.store ++ inR ⟨.trace, q⟩ ++ b = putInto s s.traceC := by
  have h : One s := gentle_one init_inv ⟨by simp [init], by simp [init]⟩ hg hr
  obtain ⟨_, R, p, q, b, hrd, hR, hp, hq, hb, hf⟩ := h.2 he
  have hp' : p ≠ .done := by rintro rfl; exact hp
  have hq' : q ≠ .done := by rintro rfl; exact hq
  refine ⟨?_, q, b, by rw [hrd]; simp, hq', hb, hf⟩
  intro k
  have hn : R.filter (fun r => decide (r.kind = k ∧ r.pc ≠ .done)) = [] := by
    rw [List.filter_eq_nil_iff]
    intro r hm
    simp [hR r hm]
  rw [hrd, List.filter_append, hn]
  cases k <;> simp [hp', hq']

/-- Every start finds the goroutines of earlier sessions and all earlier callers returned. -/
def Clean (ct cg : Nat) : St → List Act → Prop
  | _, [] => True
  | s, a :: r => (a = .start → (∀ x ∈ s.readers, x.pc = .done) ∧ (∀ x ∈ s.senders, x = .done) ∧ ∀ x ∈ s.samplers, x.pc = .done) ∧
      match step ct cg s a with | none => True | some s' => Clean ct cg s' r

theorem Clean.gentle {ct cg : Nat} {s : St} {l : List Act} (h : Clean ct cg s l) : Gentle ct cg s l := by
  induction l generalizing s with
  | nil => trivial
  | cons a r ih =>
    refine ⟨fun ha => (h.1 ha).1, ?_⟩
    have h2 := h.2
    cases hs : step ct cg s a with
    | none => trivial
    | some m => rw [hs] at h2; exact ih h2

/-- What the running session can still get hold of was accepted in it. -/
structure Own (s : St) : Prop where
  snd : ∀ p ∈ s.senders, ∀ t ∈ inS p, t.ses = s.ses
  rd : ∀ r ∈ s.readers, ∀ t ∈ inR r, t.ses = s.ses
  sm : ∀ p ∈ s.samplers, ∀ t ∈ inP p, t.ses = s.ses
  sp : ∀ t ∈ s.samples, t.ses = s.ses
  st : ∀ t ∈ s.store, t.ses = s.ses
  ch : ∀ k b, s.chans[s.chanOf k]? = some b → ∀ t ∈ b, t.ses = s.ses

theorem all_set {α : Type} {f : α → List Sig} {n : Nat} {l : List α} (h : ∀ x ∈ l, ∀ t ∈ f x, t.ses = n) {i : Nat} {a : α}
    (ha : ∀ t ∈ f a, t.ses = n) : ∀ x ∈ l.set i a, ∀ t ∈ f x, t.ses = n := by
  intro x hx
  rcases List.mem_or_eq_of_mem_set hx with hm | rfl
  · exact h x hm
  · exact ha

theorem Own.push {cap : Nat} {s s' : St} {c : Nat} {t : Sig} (h : Own s) (ht : t.ses = s.ses) (hp : push cap s c t = some s') :
    Own s' := by
  obtain ⟨d, hd, _, rfl⟩ := push_some hp
  have hl := (List.getElem?_eq_some_iff.mp hd).1
  refine ⟨h.snd, h.rd, h.sm, h.sp, h.st, ?_⟩
  intro k b hb x hx
  have hb' : (s.chans.set c (d ++ [t]))[s.chanOf k]? = some b := hb
  by_cases hc : c = s.chanOf k
  · rw [← hc, List.getElem?_set_self hl] at hb'
    cases hb'
    rw [List.mem_append, List.mem_singleton] at hx
    rcases hx with hx | rfl
    · exact h.ch k d (by rw [← hc]; exact hd) x hx
    · exact ht
  · rw [List.getElem?_set_ne hc] at hb'
    exact h.ch k b hb' x hx

theorem step_own {ct cg : Nat} {s s' : St} {a : Act} (hi : Inv s) (h1 : One s) (h : s.enabled = true → Own s)
    (hc : a = .start → (∀ x ∈ s.readers, x.pc = .done) ∧ (∀ x ∈ s.senders, x = .done) ∧ ∀ x ∈ s.samplers, x.pc = .done)
    (hs : step ct cg s a = some s') (he' : s'.enabled = true) : Own s' := by
  cases a with
  | start =>
    simp only [step] at hs
    split at hs
    · cases hs
    · rename_i he
      cases hs
      obtain ⟨c1, c2, c3⟩ := hc rfl
      refine ⟨?_, ?_, ?_, ?_, ?_, ?_⟩
      · intro p hp t ht
        rw [c2 p hp] at ht; cases ht
      · intro r hr t ht
        simp only [start, List.mem_append] at hr
        rcases hr with hr | hr
        · simp [inR, c1 r hr] at ht
        · simp at hr; rcases hr with rfl | rfl <;> cases ht
      · intro p hp t ht
        simp only [start, List.mem_append] at hp
        rcases hp with hp | hp
        · simp [inP, c3 p hp] at ht
        · simp at hp; subst hp; cases ht
      · intro t ht; cases ht
      · intro t ht
        have := hi.off (by simpa using he)
        simp [start, this] at ht
      · intro k b hb t ht
        cases k <;> simp [start, St.chanOf] at hb <;> subst hb <;> cases ht
  | stop =>
    simp only [step] at hs
    split at hs
    · cases hs; simp [stop] at he'
    · cases hs
  | recv k id =>
    simp only [step] at hs
    split at hs
    · rename_i he
      cases hs
      have h := h he
      refine ⟨?_, h.rd, h.sm, h.sp, h.st, h.ch⟩
      intro p hp t ht
      rw [List.mem_append, List.mem_singleton] at hp
      rcases hp with hp | rfl
      · exact h.snd p hp t ht
      · simp only [inS, List.mem_singleton] at ht; subst ht; rfl
    · cases hs; exact h he'
  | clock i =>
    simp only [step] at hs
    split at hs
    · rename_i p hp; cases hs
      have h := h he'
      exact ⟨h.snd, h.rd, all_set h.sm (h.sm p (List.mem_of_getElem? hp)), h.sp, h.st, h.ch⟩
    · cases hs
  | sEval i =>
    simp only [step] at hs
    split at hs
    · rename_i t hp; cases hs
      have h := h he'
      exact ⟨all_set h.snd (h.snd (.passed .trace t) (List.mem_of_getElem? hp)), h.rd, h.sm, h.sp, h.st, h.ch⟩
    · rename_i t hp; cases hs
      have h := h he'
      refine ⟨all_set h.snd (fun t ht => by cases ht), h.rd, h.sm, ?_, h.st, h.ch⟩
      intro x hx
      rw [List.mem_append, List.mem_singleton] at hx
      rcases hx with hx | rfl
      · exact h.sp x hx
      · exact h.snd _ (List.mem_of_getElem? hp) x (by simp [inS])
    · cases hs
  | sPush i =>
    simp only [step] at hs
    split at hs
    · rename_i c t hp
      have h := h (by obtain ⟨_, _, _, rfl⟩ := push_some hs; exact he')
      exact Own.push (s := s.setS i .done) ⟨all_set h.snd (fun t ht => by cases ht), h.rd, h.sm, h.sp, h.st, h.ch⟩
        (h.snd _ (List.mem_of_getElem? hp) t (by simp [inS])) hs
    · cases hs
  | rStep i =>
    simp only [step] at hs
    split at hs
    · rename_i k hp; cases hs
      have h := h he'
      exact ⟨h.snd, all_set h.rd (fun t ht => by cases ht), h.sm, h.sp, h.st, h.ch⟩
    · rename_i k c hp; cases hs
      have h := h he'
      exact ⟨h.snd, all_set h.rd (fun t ht => by cases ht), h.sm, h.sp, h.st, h.ch⟩
    · rename_i k t hp; cases hs
      cases k with
      | trigger =>
        have h := h he'
        exact ⟨h.snd, all_set h.rd (fun t ht => by cases ht), h.sm, h.sp, h.st, h.ch⟩
      | trace =>
        cases he : s.enabled with
        | false => simp [work, St.setR, he] at he'
        | true =>
          have h := h he
          simp only [work, St.setR, he, if_true]
          refine ⟨h.snd, all_set h.rd (fun t ht => by cases ht), h.sm, h.sp, ?_, h.ch⟩
          intro x hx
          rw [List.mem_append, List.mem_singleton] at hx
          rcases hx with hx | rfl
          · exact h.st x hx
          · exact h.rd _ (List.mem_of_getElem? hp) x (by simp [inR])
    · cases hs
  | rTake i =>
    simp only [step] at hs
    split at hs
    · rename_i k c z hp
      split at hs
      · rename_i t d hd; cases hs
        have h := h he'
        obtain ⟨hne, R, p, q, b, hr, hR, hcp, hcq, hb, hf⟩ := h1.2 he'
        have hck : c = s.chanOf k := by
          rw [hr] at hp
          rcases get_last hp with hm | ⟨rfl, hx⟩ | ⟨rfl, hx⟩
          · exact absurd (hR _ hm) (by simp)
          · simp only [Reader.mk.injEq] at hx
            obtain ⟨rfl, rfl⟩ := hx
            exact hcp.1
          · simp only [Reader.mk.injEq] at hx
            obtain ⟨rfl, rfl⟩ := hx
            exact hcq.1
        have hall := h.ch k _ (by rw [← hck]; exact hd)
        refine ⟨h.snd, all_set h.rd ?_, h.sm, h.sp, h.st, ?_⟩
        · intro x hx
          simp only [inR, List.mem_singleton] at hx; subst hx
          exact hall x List.mem_cons_self
        · intro k' b' hb' x hx
          have hb'' : (s.chans.set c d)[s.chanOf k']? = some b' := hb'
          by_cases hk : c = s.chanOf k'
          · rw [← hk, List.getElem?_set_self (List.getElem?_eq_some_iff.mp hd).1] at hb''
            cases hb''
            exact hall x (List.mem_cons_of_mem _ hx)
          · rw [List.getElem?_set_ne hk] at hb''
            exact h.ch k' b' hb'' x hx
      · cases hs
    · cases hs
  | rQuit i =>
    simp only [step] at hs
    split at hs
    · split at hs
      · cases hs
        have h := h he'
        exact ⟨h.snd, all_set h.rd (fun t ht => by cases ht), h.sm, h.sp, h.st, h.ch⟩
      · cases hs
    · cases hs
  | pStep i =>
    simp only [step] at hs
    split at hs
    · cases hs
      have h := h he'
      exact ⟨h.snd, h.rd, all_set h.sm (fun t ht => by cases ht), h.sp, h.st, h.ch⟩
    · cases hs
      have h := h he'
      exact ⟨h.snd, h.rd, all_set h.sm (fun t ht => by cases ht), h.sp, h.st, h.ch⟩
    · rename_i r t l hp; cases hs
      have h := h he'
      exact ⟨h.snd, h.rd, all_set h.sm (h.sm ⟨r, .out (t :: l)⟩ (List.mem_of_getElem? hp)), h.sp, h.st, h.ch⟩
    · cases hs
  | pPush i =>
    simp only [step] at hs
    split at hs
    · rename_i r c t l hp
      have h := h (by obtain ⟨_, _, _, rfl⟩ := push_some hs; exact he')
      have hm := h.sm _ (List.mem_of_getElem? hp)
      exact Own.push (s := s.setP i ⟨r, .out l⟩)
        ⟨h.snd, h.rd, all_set h.sm (fun x hx => hm x (List.mem_cons_of_mem _ hx)), h.sp, h.st, h.ch⟩
        (hm t List.mem_cons_self) hs
    · cases hs
  | pTick i =>
    simp only [step] at hs
    split at hs
    · cases hs
      have h := h he'
      exact ⟨h.snd, h.rd, all_set h.sm h.sp, fun t ht => (by cases ht), h.st, h.ch⟩
    · cases hs
  | pQuit i =>
    simp only [step] at hs
    split at hs
    · split at hs
      · cases hs
        have h := h he'
        exact ⟨h.snd, h.rd, all_set h.sm (fun t ht => by cases ht), h.sp, h.st, h.ch⟩
      · cases hs
    · cases hs

theorem clean_own {ct cg : Nat} {s s' : St} {l : List Act} (hi : Inv s) (h1 : One s) (h : s.enabled = true → Own s)
    (hg : Clean ct cg s l) (hr : run ct cg s l = some s') : s'.enabled = true → Own s' := by
  induction l generalizing s with
  | nil => simp only [run, Option.some.injEq] at hr; exact hr ▸ h
  | cons a r ih =>
    simp only [run] at hr
    obtain ⟨hg1, hg2⟩ := hg
    cases hs : step ct cg s a with
    | none => rw [hs] at hr; cases hr
    | some m =>
      rw [hs] at hr hg2
      exact ih (step_inv hi hs) (step_one hi h1 (fun ha => (hg1 ha).1) hs) (step_own hi h1 h hg1 hs) hg2 hr

/-- When every start also finds the earlier samplers and callers returned, the time segments of a session hold only
signals that were accepted in it. -/
theorem clean_restart {ct cg : Nat} {s : St} {l : List Act} (hr : run ct cg init l = some s) (hg : Clean ct cg init l) :
    ∀ t ∈ s.store, t.ses = s.ses := by
  cases he : s.enabled with
  | false => rw [off_is_empty hr he]; intro t ht; cases ht
  | true => exact (clean_own init_inv ⟨by simp [init], by simp [init]⟩ (by simp [init]) hg hr he).st

/-! ### Without the wait -/

/-- The reader of the first session has trace `x` in hand when the profile is restarted.  It stores it in the
second session, after trace `y` of that session, which the second reader handled. -/
def mixed (x y : Nat) : List Act :=
  [.start, .recv .trace x, .sEval 0, .sPush 0, .rStep 1, .rStep 1, .rTake 1, .stop, .start,
   .recv .trace y, .sEval 1, .sPush 1, .rStep 3, .rStep 3, .rTake 3, .rStep 3, .rStep 1]

/-- Whatever the traces and the sizes of the channels. -/
theorem session_mixes (x y ct cg : Nat) (hc : 0 < ct) :
    ∃ s, run ct cg init (mixed x y) = some s ∧ s.enabled = true ∧ s.store = [⟨y, 2⟩, ⟨x, 1⟩] ∧ s.ses = 2 := by
  obtain ⟨n, rfl⟩ : ∃ n, ct = n + 1 := ⟨ct - 1, by omega⟩
  exact ⟨_, rfl, rfl, rfl, rfl⟩

/-- Two readers of one session, one left from the session before: traces `x` and `y` are stored in the wrong order. -/
def swapped (x y : Nat) : List Act :=
  [.start, .stop, .start, .rStep 1, .rStep 1, .rStep 3, .rStep 3, .recv .trace x, .sEval 0, .sPush 0, .recv .trace y,
   .sEval 1, .sPush 1, .rTake 1, .rTake 3, .rStep 3, .rStep 1]

theorem order_is_lost (x y ct cg : Nat) (hc : 1 < ct) :
    ∃ s, run ct cg init (swapped x y) = some s ∧ s.store = [⟨y, 2⟩, ⟨x, 2⟩] ∧ putInto s s.traceC = [⟨x, 2⟩, ⟨y, 2⟩] := by
  obtain ⟨n, rfl⟩ : ∃ n, ct = n + 2 := ⟨ct - 2, by omega⟩
  exact ⟨_, rfl, rfl, rfl⟩

/-- A caller that passed the check before the restart puts its trace into the next session's channel. -/
def late (x : Nat) : List Act :=
  [.start, .recv .trace x, .stop, .start, .sEval 0, .sPush 0, .rStep 3, .rStep 3, .rTake 3, .rStep 3]

theorem late_caller (x ct cg : Nat) (hc : 0 < ct) :
    ∃ s, run ct cg init (late x) = some s ∧ s.store = [⟨x, 1⟩] ∧ s.ses = 2 := by
  obtain ⟨n, rfl⟩ : ∃ n, ct = n + 1 := ⟨ct - 1, by omega⟩
  exact ⟨_, rfl, rfl, rfl⟩

/-- The sizes in the code. -/
example : ∃ s, run 10000 300000 init (mixed 7 8) = some s ∧ s.store = [⟨8, 2⟩, ⟨7, 1⟩] := by
  obtain ⟨s, h1, -, h2, -⟩ := session_mixes 7 8 10000 300000 (by decide)
  exact ⟨s, h1, h2⟩

/-- A whole session and a second one that waited for the first to end. -/
def tidy : List Act :=
  [.start, .rStep 0, .rStep 0, .rStep 1, .rStep 1, .pStep 0, .recv .trace 1, .recv .trigger 2, .sEval 0, .sPush 0, .sEval 1,
   .rTake 1, .clock 0, .rStep 1, .pTick 0, .pStep 0, .pPush 0, .rTake 0, .rStep 0, .pStep 0, .pStep 0,
   .rStep 0, .rStep 0, .rStep 1, .rStep 1, .stop, .rQuit 0, .rQuit 1, .pQuit 0,
   .start, .recv .trace 3, .sEval 2, .sPush 2, .rStep 3, .rStep 3, .rTake 3, .rStep 3]

def tidyEnd : St := (run 2 2 init tidy).getD init

example : run 2 2 init tidy = some tidyEnd := rfl
example : tidyEnd.store = [⟨3, 2⟩] ∧ tidyEnd.sent = [⟨2, 1⟩] ∧ tidyEnd.gone = [⟨1, 1⟩] ∧ tidyEnd.enabled = true :=
  ⟨rfl, rfl, rfl, rfl⟩
example : Clean 2 2 init tidy := by simp [Clean, tidy, step, init, start, stop, St.setR, St.setS, St.setP, push, work, St.chanOf]
example : given 2 2 init tidy = [⟨1, 1⟩, ⟨2, 1⟩, ⟨3, 2⟩] := rfl

/-- The first session of `tidy` has ended: all have returned. -/
def tidyStopped : St := (run 2 2 init (tidy.take 29)).getD init
example : run 2 2 init (tidy.take 29) = some tidyStopped ∧ tidyStopped.enabled = false ∧
    tidyStopped.readers = [⟨.trigger, .done⟩, ⟨.trace, .done⟩] := ⟨rfl, rfl, rfl⟩

/-- `can_be_left_standing` and `left_standing` together: no later start helps. -/
example : ∃ (s : St) (i c : Nat) (t : Sig), Deserted 2 s c ∧ s.senders[i]? = some (.sending c t) ∧
    ∀ (l : List Act) (s' : St), run 2 2 s l = some s' → s'.senders[i]? = some (.sending c t) := by
  obtain ⟨_, s, t, _, h1, h2, _⟩ := can_be_left_standing 2 2
  exact ⟨s, 2, 1, t, h2, h1, fun l s' h => left_standing h2 h1 h⟩

/-- A sampler in front of a deserted trigger channel of size 1: the reader is not at the channel when the second
sample comes, then the profile is stopped. -/
def sampled : List Act :=
  [.start, .recv .trigger 1, .recv .trigger 2, .sEval 0, .sEval 1, .pStep 0, .clock 0, .pTick 0, .pStep 0, .pPush 0, .pStep 0,
   .stop]
example : ∃ s, run 1 1 init sampled = some s ∧ s.samplers = [⟨false, .send 0 ⟨2, 1⟩ []⟩] ∧ s.chans[0]? = some [⟨1, 1⟩] ∧
    s.trigC = 2 ∧ s.traceC = 3 ∧ s.readers = [⟨.trigger, .top⟩, ⟨.trace, .top⟩] := ⟨_, rfl, rfl, rfl, rfl, rfl, rfl⟩

/-- A running profile at rest. -/
example : ∃ s, run 2 2 init (tidy.take 25) = some s ∧ s.enabled = true ∧ s.chans = [[], []] := ⟨_, rfl, rfl, rfl⟩

end Kindling.Cpu.Session
