import Verif.Export.SegmentText
import Verif.Cpu.Send
/-
From the events of a thread to the lines of the trace files: `PutEventToSegments` (cpuanalyzer/cpu_analyzer.go:267-370), `sendEvents`
(send_trigger.go:162-214), `toDataGroup` (model.go:88-117) and the file writer of the camera exporter, put together.
-/
namespace Kindling.Flow.CpuFile
open Kindling Kindling.Cpu Kindling.Export.Json Kindling.Export.Files Kindling.Export.TraceText
open Kindling.Export.SegmentText (Timed sent seen found readSeg cpus futexes txs spansOf inners segment_reads_back sent_kind)

/-- An event as the window sees it (`StartTimestamp`, `EndTimestamp`, `Kind`, model.go:208-300); `i` names it. -/
def evOf (i : Nat) : Timed → Ev
  | .cpu e => ⟨.cpu, e.start, e.stop, i⟩
  | .futex e => ⟨.javaFutex, e.start, e.stop, i⟩
  | .tx e => ⟨.transactionId, e.time, e.time, i⟩
  | .span e => ⟨.span, e.start, e.stop, i⟩
  | .inner e => ⟨.innerCall, e.start, e.stop, i⟩

/-- A segment of the window with the events themselves in place of their names. -/
def toSeg (tab : Nat → Timed) (s : Cpu.Seg) : Export.SegmentText.Seg :=
  ⟨s.startTime, s.endTime, cpus ((s.lists .cpu).map (fun e => tab e.id)), futexes ((s.lists .javaFutex).map (fun e => tab e.id)),
    txs ((s.lists .transactionId).map (fun e => tab e.id)), spansOf ((s.lists .span).map (fun e => tab e.id)),
    inners ((s.lists .innerCall).map (fun e => tab e.id)), s.isSend⟩

/-- An event of the thread, with the name the thread had, or a sending for a slow trace. -/
inductive Op
  | put (name : String) (i : Nat)
  | send (el : Elems) (a b : Nat)

/-- The thread: pid and tid, and its name as bytes. -/
structure Who where
  pid : Nat
  tid : Nat
  bytes : String → Bytes

def Who.thread (w : Who) (name : String) : Export.SegmentText.Thread := ⟨w.pid, w.tid, w.bytes name⟩

/-- What the file writer appends for a segment (cameraexporter/exporter.go:45-51, filewriter.go:176-215). -/
def lineOf (date : Nat → Bytes) (tab : Nat → Timed) (w : Who) (name : String) (el : Elems) (s : Cpu.Seg) : List (Path × Bytes) :=
  match consume date (some .file) (sent (toSeg tab s) (w.thread name) el) with
  | .ok (.file p) => [(p, marshal (sent (toSeg tab s) (w.thread name) el))]
  | _ => []

/-- One step of a thread: its window, if it has one, and what is appended to files.  `none` is a panic. -/
def step (date : Nat → Bytes) (n : Nat) (tab : Nat → Timed) (w : Who) : Option TS → Op → Option (List (Path × Bytes) × Option TS)
  | none, .put name i => (putNew n name (evOf i (tab i))).map (fun ts => ([], some ts))
  | some ts, .put name i => (putKnown n ts name (evOf i (tab i))).map (fun ts => ([], some ts))
  | none, .send _ _ _ => some ([], none)
  | some ts, .send el a b => (sendThread n a b ts).map (fun r => (r.1.flatMap (lineOf date tab w ts.name el), some r.2))

def run (date : Nat → Bytes) (n : Nat) (tab : Nat → Timed) (w : Who) : Option TS → List Op → Option (List (Path × Bytes) × Option TS)
  | ts, [] => some ([], ts)
  | ts, o :: r => match step date n tab w ts o with
    | none => none
    | some (out, ts') => match run date n tab w ts' r with
      | none => none
      | some (outs, ts'') => some (out ++ outs, ts'')

/-! ### Specification -/

/-- The names of the events of a history, in order of arrival. -/
def arrived (ops : List Op) : List Nat := ops.filterMap (fun o => match o with
  | .put _ i => some i
  | .send _ _ _ => none)

/-- The events that arrived, each with the first second of the window after its arrival. -/
def history (n : Nat) (tab : Nat → Timed) (ops : List Op) : List (Ev × Nat) := bases n none ((arrived ops).map (fun i => evOf i (tab i)))

/-- The events a line of second `c` should show: those whose span meets the second, that arrived while the second was in the window. -/
def kept (n : Nat) (tab : Nat → Timed) (ops : List Op) (c : Nat) : List Timed :=
  ((history n tab ops).filter (fun p => decide (p.1.covers c ∧ c < p.2 + n))).map (fun p => tab p.1.id)

/-! ### The window after a history -/

theorem evOf_id (i : Nat) (x : Timed) : (evOf i x).id = i := by cases x <;> rfl

/-- Where the window begins after these events. -/
def baseAfter (n : Nat) : Option Nat → List Ev → Option Nat
  | b, [] => b
  | none, e :: r => baseAfter n (some (e.start / nano)) r
  | some b, e :: r => baseAfter n (some (newBase n b e)) r

theorem bases_append (n : Nat) (b : Option Nat) (l l' : List Ev) : bases n b (l ++ l') = bases n b l ++ bases n (baseAfter n b l) l' := by
  induction l generalizing b with
  | nil => rfl
  | cons e r ih => cases b <;> simp only [List.cons_append, bases, baseAfter, ih]

theorem filedUnder_append (n : Nat) (k : Cpu.Kind) (c : Nat) (l l' : List (Ev × Nat)) :
    filedUnder n k c (l ++ l') = filedUnder n k c l ++ filedUnder n k c l' := by simp [filedUnder]

/-- The window of a thread after a history. -/
structure Inv (n : Nat) (l : List Ev) (st : Option TS) : Prop where
  fresh : st = none ↔ l = []
  ok : ∀ ts, st = some ts → ts.Ok n ∧ baseAfter n none l = some ts.base ∧ (∀ p ∈ bases n none l, p.2 ≤ ts.base) ∧
    ∀ c, ts.base ≤ c → c < ts.base + n → ∃ s, ts.at c = some s ∧ ∀ k, s.lists k = filedUnder n k c (bases n none l)

theorem filedUnder_beyond {n : Nat} {k : Cpu.Kind} {c b : Nat} {l : List (Ev × Nat)} (h : ∀ p ∈ l, p.2 ≤ b) (hc : b + n ≤ c) :
    filedUnder n k c l = [] := by
  unfold filedUnder
  rw [List.map_eq_nil_iff, List.filter_eq_nil_iff]
  intro p hp
  have := h p hp
  simp only [decide_eq_true_eq]
  omega

theorem inv_put {n : Nat} (hn : GoodSize n) (name : String) (e : Ev) {l : List Ev} {st : Option TS} (h : Inv n l st) :
    ∃ ts, (match st with
      | none => putNew n name e
      | some ts => putKnown n ts name e) = some ts ∧ Inv n (l ++ [e]) (some ts) := by
  cases st with
  | none =>
    have hl := h.fresh.mp rfl
    subst hl
    obtain ⟨t1, h1, h2, h3⟩ := put_new n name e
    refine ⟨t1, h1, by simp, ?_⟩
    intro ts hts
    cases hts
    refine ⟨h3.ok, by simp [baseAfter, h2], by simp [bases, h2], fun c hc1 hc2 => ?_⟩
    obtain ⟨r, g1, g2, g3, g4⟩ := thread_history_partial hn name e []
    have : r = t1 := by
      simp only [putAll, h1, Option.some.injEq] at g1
      exact g1.symm
    subst this
    simpa using g4 c hc1 hc2
  | some ts0 =>
    obtain ⟨ok, hb, hle, hat⟩ := h.ok ts0 rfl
    obtain ⟨t1, h1, h2, h3, _, h5⟩ := put_known hn ok name e
    refine ⟨t1, h1, by simp, ?_⟩
    intro ts hts
    cases hts
    have hbs : bases n none (l ++ [e]) = bases n none l ++ [(e, newBase n ts0.base e)] := by
      rw [bases_append, hb]; rfl
    refine ⟨h5.ok, ?_, ?_, fun c hc1 hc2 => ?_⟩
    · have : ∀ (l : List Ev) (b : Option Nat) (x : Nat), baseAfter n b l = some x → baseAfter n b (l ++ [e]) = some (newBase n x e) := by
        intro l
        induction l with
        | nil => intro b x hx; simp only [baseAfter] at hx; subst hx; rfl
        | cons y r ih => intro b x hx; cases b <;> exact ih _ _ hx
      rw [this l none _ hb, h2]
    · intro p hp
      rw [hbs] at hp
      rcases List.mem_append.mp hp with hp | hp
      · exact Nat.le_trans (hle p hp) h3
      · simp only [List.mem_singleton] at hp; subst hp; exact Nat.le_of_eq h2.symm
    · obtain ⟨r, g1, g2, g3, g4⟩ := putAll_known hn [(name, e)] ok
      have hr : r = t1 := by
        simp only [putAll, h1, Option.some.injEq] at g1
        exact g1.symm
      subst hr
      obtain ⟨s, hs1, hs2⟩ := g4 c hc1 hc2
      refine ⟨s, hs1, fun k => ?_⟩
      rw [hs2 k, hbs, filedUnder_append]
      congr 1
      by_cases hin : c < ts0.base + n
      · obtain ⟨s0, hs0, hl0⟩ := hat c (by omega) hin
        unfold TS.old
        rw [hs0, Option.getD_some, hl0 k]
      · rw [old_beyond ok (by omega), filedUnder_beyond hle (by omega)]; rfl

theorem afterSend_lists (a b c : Nat) (s : Cpu.Seg) (k : Cpu.Kind) : (afterSend a b c s).lists k = s.lists k := by
  by_cases h : overlaps a b c ∧ s.isNotEmpty = true
  · rw [afterSend, if_pos h]
  · rw [afterSend, if_neg h]

theorem inv_send {n : Nat} (a b : Nat) {l : List Ev} {ts : TS} (h : Inv n l (some ts)) :
    ∃ ts', sendThread n a b ts = some (wantedSegs n a b ts, ts') ∧ Inv n l (some ts') := by
  obtain ⟨ok, hb, hle, hat⟩ := h.ok ts rfl
  obtain ⟨ts', h1, h2, h3, h4, h5⟩ := send_thread_partial a b ok
  refine ⟨ts', h1, ?_, ?_⟩
  · have := h.fresh
    simpa using this
  · intro x hx
    cases hx
    refine ⟨h2, by rw [h3]; exact hb, by rw [h3]; exact hle, fun c hc1 hc2 => ?_⟩
    rw [h3] at hc1 hc2
    obtain ⟨s, hs, hl⟩ := hat c hc1 hc2
    refine ⟨afterSend a b c s, by rw [h5 c, hs, Option.map_some], fun k => ?_⟩
    rw [← hl k]
    exact afterSend_lists a b c s k

theorem arrived_append (x y : List Op) : arrived (x ++ y) = arrived x ++ arrived y := by simp [arrived]

theorem inv_run {n : Nat} (hn : GoodSize n) (date : Nat → Bytes) (tab : Nat → Timed) (w : Who) (ops : List Op) (l : List Ev) (st : Option TS)
    (h : Inv n l st) : ∃ out st', run date n tab w st ops = some (out, st') ∧ Inv n (l ++ (arrived ops).map (fun i => evOf i (tab i))) st' := by
  induction ops generalizing l st with
  | nil => exact ⟨[], st, rfl, by simpa [arrived] using h⟩
  | cons o r ih =>
    cases o with
    | put name i =>
      obtain ⟨ts, h1, h2⟩ := inv_put hn name (evOf i (tab i)) h
      obtain ⟨out, st', g1, g2⟩ := ih _ _ h2
      refine ⟨out, st', ?_, ?_⟩
      · cases st <;> simp only [run, step] <;> simp only at h1 <;> rw [h1] <;> simp [g1]
      · rw [show arrived (.put name i :: r) = i :: arrived r from rfl, List.map_cons, ← List.singleton_append, ← List.append_assoc]
        exact g2
    | send el a b =>
      rw [show arrived (.send el a b :: r) = arrived r from rfl]
      cases st with
      | none =>
        obtain ⟨out, st', g1, g2⟩ := ih _ _ h
        exact ⟨out, st', by simp [run, step, g1], g2⟩
      | some ts =>
        obtain ⟨ts', h1, h2⟩ := inv_send a b h
        obtain ⟨out, st', g1, g2⟩ := ih _ _ h2
        refine ⟨(wantedSegs n a b ts).flatMap (lineOf date tab w ts.name el) ++ out, st', ?_, g2⟩
        simp only [run, step, h1, Option.map_some, g1]

theorem run_append (date : Nat → Bytes) (n : Nat) (tab : Nat → Timed) (w : Who) (st : Option TS) (x y : List Op) {out : List (Path × Bytes)}
    {st' : Option TS} (h : run date n tab w st x = some (out, st')) :
    run date n tab w st (x ++ y) = (run date n tab w st' y).map (fun r => (out ++ r.1, r.2)) := by
  induction x generalizing st out with
  | nil =>
    simp only [run, Option.some.injEq, Prod.mk.injEq] at h
    obtain ⟨rfl, rfl⟩ := h
    simp
  | cons o r ih =>
    simp only [run, List.cons_append] at h ⊢
    cases hs : step date n tab w st o with
    | none => rw [hs] at h; cases h
    | some p =>
      obtain ⟨o1, st1⟩ := p
      rw [hs] at h
      simp only at h ⊢
      cases hr : run date n tab w st1 r with
      | none => rw [hr] at h; cases h
      | some q =>
        obtain ⟨o2, st2⟩ := q
        rw [hr] at h
        simp only [Option.some.injEq, Prod.mk.injEq] at h
        obtain ⟨rfl, rfl⟩ := h
        rw [ih st1 hr]
        cases run date n tab w st2 y with
        | none => rfl
        | some z => simp

/-! ### The name -/

/-- The name of the thread after a history: that of the last event, those left out that ended before the window began. -/
def nameAfter (n : Nat) (tab : Nat → Timed) : Option (Nat × String) → List Op → Option String
  | x, [] => x.map (·.2)
  | x, .send _ _ _ :: r => nameAfter n tab x r
  | none, .put name i :: r => nameAfter n tab (some ((evOf i (tab i)).start / nano, name)) r
  | some (b, old), .put name i :: r =>
    nameAfter n tab (some (newBase n b (evOf i (tab i)), if (evOf i (tab i)).stop / nano < b then old else name)) r

theorem putNew_name {n : Nat} {name : String} {e : Ev} {r : TS} (h : putNew n name e = some r) : r.name = name := by
  unfold putNew at h
  obtain ⟨s, -, rfl⟩ := Option.map_eq_some_iff.mp h
  rfl

theorem putKnown_name {n : Nat} {ts : TS} {name : String} {e : Ev} {r : TS} (h : putKnown n ts name e = some r) :
    r.name = if e.stop / nano < ts.base then ts.name else name := by
  unfold putKnown at h
  simp only at h
  by_cases h0 : ((e.stop / nano : Nat) : Int) - (ts.base : Int) < 0
  · rw [if_pos h0] at h
    cases h
    rw [if_pos (by omega)]
  · rw [if_neg h0] at h
    rw [if_neg (by omega)]
    split at h
    · split at h
      · obtain ⟨s, -, rfl⟩ := Option.map_eq_some_iff.mp h
        rfl
      · split at h
        · cases h
        · obtain ⟨s, -, rfl⟩ := Option.map_eq_some_iff.mp h
          rfl
    · obtain ⟨s, -, rfl⟩ := Option.map_eq_some_iff.mp h
      rfl

theorem sendThread_name {n a b : Nat} {ts ts' : TS} {l : List Cpu.Seg} (h : sendThread n a b ts = some (l, ts')) :
    ts'.name = ts.name ∧ ts'.base = ts.base := by
  unfold sendThread at h
  simp only at h
  split at h
  · cases h; exact ⟨rfl, rfl⟩
  · obtain ⟨s, -, hs⟩ := Option.map_eq_some_iff.mp h
    cases hs; exact ⟨rfl, rfl⟩

/-- The name of a thread after a history. -/
theorem run_name {n : Nat} (hn : GoodSize n) (date : Nat → Bytes) (tab : Nat → Timed) (w : Who) (ops : List Op) (st : Option TS) (l : List Ev)
    (h : Inv n l st) {out : List (Path × Bytes)} {st' : Option TS} (hr : run date n tab w st ops = some (out, st')) :
    st'.map (·.name) = nameAfter n tab (st.map (fun ts => (ts.base, ts.name))) ops := by
  induction ops generalizing l st out with
  | nil =>
    simp only [run, Option.some.injEq, Prod.mk.injEq] at hr
    obtain ⟨-, rfl⟩ := hr
    cases st <;> rfl
  | cons o r ih =>
    rw [run] at hr
    cases hs : step date n tab w st o with
    | none => rw [hs] at hr; cases hr
    | some p =>
      obtain ⟨o1, st1⟩ := p
      rw [hs] at hr
      simp only at hr
      cases hr1 : run date n tab w st1 r with
      | none => rw [hr1] at hr; cases hr
      | some q =>
        obtain ⟨o2, st2⟩ := q
        rw [hr1] at hr
        simp only [Option.some.injEq, Prod.mk.injEq] at hr
        obtain ⟨-, rfl⟩ := hr
        cases o with
        | put name i =>
          obtain ⟨ts, g1, g2⟩ := inv_put hn name (evOf i (tab i)) h
          cases st with
          | none =>
            simp only [step, g1, Option.map_some, Option.some.injEq, Prod.mk.injEq] at hs
            obtain ⟨-, rfl⟩ := hs
            simp only at g1
            have hb : ts.base = (evOf i (tab i)).start / nano := by
              obtain ⟨r', e1, e2, -⟩ := put_new n name (evOf i (tab i))
              rw [g1] at e1
              cases e1
              exact e2
            rw [ih _ _ g2 hr1, Option.map_some, Option.map_none, nameAfter, hb, putNew_name g1]
          | some ts0 =>
            simp only [step, g1, Option.map_some, Option.some.injEq, Prod.mk.injEq] at hs
            obtain ⟨-, rfl⟩ := hs
            simp only at g1
            have hb : ts.base = newBase n ts0.base (evOf i (tab i)) := by
              obtain ⟨r', e1, e2, -⟩ := put_known hn (h.ok ts0 rfl).1 name (evOf i (tab i))
              rw [g1] at e1
              cases e1
              exact e2
            rw [ih _ _ g2 hr1, Option.map_some, Option.map_some, nameAfter, hb, putKnown_name g1]
        | send el a b =>
          cases st with
          | none =>
            simp only [step, Option.some.injEq, Prod.mk.injEq] at hs
            obtain ⟨-, rfl⟩ := hs
            exact ih _ _ h hr1
          | some ts =>
            obtain ⟨ts', g1, g2⟩ := inv_send a b h
            simp only [step, g1, Option.map_some, Option.some.injEq, Prod.mk.injEq] at hs
            obtain ⟨-, rfl⟩ := hs
            obtain ⟨e1, e2⟩ := sendThread_name g1
            rw [ih _ _ g2 hr1, Option.map_some, Option.map_some, nameAfter, e1, e2]

/-! ### The lines -/

/-- The test of `kept`. -/
def meets (n c : Nat) (p : Ev × Nat) : Bool := decide (p.1.covers c ∧ c < p.2 + n)

theorem filedUnder_meets (n : Nat) (k : Cpu.Kind) (c : Nat) (l : List (Ev × Nat)) :
    filedUnder n k c l = (l.filter (fun p => decide (p.1.kind = k) && meets n c p)).map (·.1) := by
  unfold filedUnder meets
  congr 2
  funext p
  rw [Bool.decide_and]

theorem by_kind (tab : Nat → Timed) (k : Cpu.Kind) {α : Type} (f : Timed → Option α) (hf : ∀ i x, (f x).isSome = true ↔ (evOf i x).kind = k)
    (l : List (Ev × Nat)) (hev : ∀ p ∈ l, p.1 = evOf p.1.id (tab p.1.id)) (q : Ev × Nat → Bool) :
    (((l.filter (fun p => decide (p.1.kind = k) && q p)).map (·.1)).map (fun e => tab e.id)).filterMap f =
      ((l.filter q).map (fun p => tab p.1.id)).filterMap f := by
  induction l with
  | nil => rfl
  | cons p r ih =>
    have hp := hev p (List.mem_cons_self ..)
    have ih := ih (fun q hq => hev q (List.mem_cons_of_mem _ hq))
    have hk : p.1.kind = k ↔ (f (tab p.1.id)).isSome = true := by rw [hf p.1.id (tab p.1.id), ← hp]
    rw [List.filter_cons, List.filter_cons]
    cases hq : q p with
    | false => simp only [Bool.and_false, Bool.false_eq_true, if_false]; exact ih
    | true =>
      by_cases h2 : p.1.kind = k
      · simp only [h2, decide_true, Bool.and_self, if_true, List.map_cons, List.filterMap_cons, ih]
      · have hn : f (tab p.1.id) = none := by
          rw [← Option.not_isSome_iff_eq_none]; exact fun h => h2 (hk.mpr h)
        simp only [h2, decide_false, Bool.false_and, Bool.false_eq_true, if_false, if_true, List.map_cons, List.filterMap_cons, hn]
        exact ih

/-- All events of a segment, by kind, as a reader finds them. -/
theorem toSeg_seen {n : Nat} {tab : Nat → Timed} {ops : List Op} {c : Nat} {s : Cpu.Seg}
    (h : ∀ k, s.lists k = filedUnder n k c (history n tab ops)) (ht : s.startTime = c * nano ∧ s.endTime = (c + 1) * nano)
    (t : Export.SegmentText.Thread) : seen (toSeg tab s) t = found (c * nano) ((c + 1) * nano) t s.isSend (kept n tab ops c) := by
  have hev : ∀ p ∈ history n tab ops, p.1 = evOf p.1.id (tab p.1.id) := by
    have : ∀ (l : List Nat) (b : Option Nat), ∀ p ∈ bases n b (l.map (fun i => evOf i (tab i))), p.1 = evOf p.1.id (tab p.1.id) := by
      intro l
      induction l with
      | nil => intro b p hp; simp [bases] at hp
      | cons i r ih =>
        intro b p hp
        cases b <;>
        · simp only [List.map_cons, bases, List.mem_cons] at hp
          rcases hp with rfl | hp
          · simp only [evOf_id]
          · exact ih _ p hp
    exact this _ none
  have key : ∀ (k : Cpu.Kind) {α : Type} (f : Timed → Option α), (∀ i x, (f x).isSome = true ↔ (evOf i x).kind = k) →
      ((s.lists k).map (fun e => tab e.id)).filterMap f = (kept n tab ops c).filterMap f := by
    intro k α f hf
    rw [h k, filedUnder_meets]
    exact by_kind tab k f hf _ hev _
  have k1 : cpus ((s.lists .cpu).map (fun e => tab e.id)) = cpus (kept n tab ops c) := key .cpu _ (fun i x => by cases x <;> simp [evOf])
  have k2 : futexes ((s.lists .javaFutex).map (fun e => tab e.id)) = futexes (kept n tab ops c) :=
    key .javaFutex _ (fun i x => by cases x <;> simp [evOf])
  have k3 : txs ((s.lists .transactionId).map (fun e => tab e.id)) = txs (kept n tab ops c) :=
    key .transactionId _ (fun i x => by cases x <;> simp [evOf])
  have k4 : spansOf ((s.lists .span).map (fun e => tab e.id)) = spansOf (kept n tab ops c) :=
    key .span _ (fun i x => by cases x <;> simp [evOf])
  have k5 : inners ((s.lists .innerCall).map (fun e => tab e.id)) = inners (kept n tab ops c) :=
    key .innerCall _ (fun i x => by cases x <;> simp [evOf])
  simp only [seen, found, toSeg, ht.1, ht.2, k1, k2, k3, k4, k5]

/-- The seconds a sending shows: those of the window that meet the span asked for and have an event. -/
def shown (n : Nat) (tab : Nat → Timed) (ops : List Op) (base a b : Nat) : List Nat :=
  ((List.range n).map (fun i => base + i)).filter (fun c => decide (overlaps a b c) && !(kept n tab ops c).isEmpty)

theorem kept_nil_iff {n : Nat} {tab : Nat → Timed} {ops : List Op} {c : Nat} {s : Cpu.Seg}
    (h : ∀ k, s.lists k = filedUnder n k c (history n tab ops)) : s.isNotEmpty = true ↔ kept n tab ops c ≠ [] := by
  rw [isNotEmpty_iff]
  simp only [h, filedUnder, kept, ne_eq, List.map_eq_nil_iff]
  constructor
  · rintro ⟨k, e, he⟩ hnil
    simp only [List.mem_map, List.mem_filter, decide_eq_true_eq] at he
    obtain ⟨p, ⟨hp, -, h2, h3⟩, rfl⟩ := he
    have : p ∈ (history n tab ops).filter (fun p => decide (p.1.covers c ∧ c < p.2 + n)) :=
      List.mem_filter.mpr ⟨hp, by simp [h2, h3]⟩
    rw [hnil] at this
    cases this
  · intro hne
    obtain ⟨p, hp⟩ := List.exists_mem_of_ne_nil _ hne
    obtain ⟨h1, h2⟩ := List.mem_filter.mp hp
    simp only [decide_eq_true_eq] at h2
    exact ⟨p.1.kind, p.1, List.mem_map.mpr ⟨p, List.mem_filter.mpr ⟨h1, by simp [h2.1, h2.2]⟩, rfl⟩⟩

theorem start_of_at {n : Nat} {ts : TS} (h : ts.Ok n) {c : Nat} {s : Cpu.Seg} (hs : ts.at c = some s) :
    s.startTime = c * nano ∧ s.endTime = (c + 1) * nano := by
  have := ok_old h c
  unfold TS.old at this
  rw [hs, Option.getD_some] at this
  exact this

/-- The segment of a second. -/
def segAt (ts : TS) (c : Nat) : Cpu.Seg := (ts.at c).getD (newSeg c)

/-- The window holds for every second what arrived for it. -/
def Full (n : Nat) (tab : Nat → Timed) (ops : List Op) (ts : TS) : Prop :=
  ∀ c, ts.base ≤ c → c < ts.base + n → ts.at c = some (segAt ts c) ∧ ∀ k, (segAt ts c).lists k = filedUnder n k c (history n tab ops)

theorem wanted_step (n : Nat) (tab : Nat → Timed) (ops : List Op) (ts : TS) (hf : Full n tab ops ts) (a b i : Nat) (hi : i < n) :
    (if overlaps a b (ts.base + i) then (ts.at (ts.base + i)).filter Seg.isNotEmpty else none) =
      if (decide (overlaps a b (ts.base + i)) && !(kept n tab ops (ts.base + i)).isEmpty) = true then some (segAt ts (ts.base + i)) else none := by
  obtain ⟨e1, e2⟩ := hf (ts.base + i) (by omega) (by omega)
  have e3 := kept_nil_iff e2
  rw [e1]
  generalize ts.base + i = c at *
  by_cases ho : overlaps a b c
  · rw [if_pos ho, decide_eq_true ho, Bool.true_and, Option.filter_some]
    by_cases hk : kept n tab ops c = []
    · have hz : (segAt ts c).isNotEmpty = false := by
        rw [Bool.eq_false_iff]; exact fun h => e3.mp h hk
      rw [hz, hk]; rfl
    · have hz : (kept n tab ops c).isEmpty = false := by
        rw [List.isEmpty_eq_false_iff]; exact hk
      rw [hz, e3.mpr hk]; rfl
  · rw [if_neg ho, decide_eq_false ho]; rfl

theorem filterMap_if {α : Type} (p : Nat → Bool) (g : Nat → α) (l : List Nat) :
    l.filterMap (fun i => if p i = true then some (g i) else none) = (l.filter p).map g := by
  induction l with
  | nil => rfl
  | cons i r ih =>
    rw [List.filterMap_cons, List.filter_cons, ih]
    cases p i <;> rfl

theorem filterMap_pick {α : Type} (P : Nat → Prop) (dP : ∀ c, Decidable (P c)) (q : Nat → Option α) (e : Nat → Bool) (g : Nat → α) (base n : Nat)
    (h : ∀ i, i < n → (if P (base + i) then q (base + i) else none) =
      if (decide (P (base + i)) && !e (base + i)) = true then some (g (base + i)) else none) :
    (List.range n).filterMap (fun i => if P (base + i) then q (base + i) else none) =
      (((List.range n).map (fun i => base + i)).filter (fun c => decide (P c) && !e c)).map g := by
  rw [List.filter_map, List.map_map, filterMap_congr' (fun i hi => h i (List.mem_range.mp hi))]
  exact filterMap_if _ _ _

theorem wanted_shown (n : Nat) (tab : Nat → Timed) (ops : List Op) (ts : TS) (hf : Full n tab ops ts) (a b : Nat) :
    wantedSegs n a b ts = (shown n tab ops ts.base a b).map (segAt ts) := by
  unfold wantedSegs shown
  exact filterMap_pick (fun c => overlaps a b c) (fun c => instDecidableOverlaps a b c) (fun c => (ts.at c).filter Seg.isNotEmpty)
    (fun c => (kept n tab ops c).isEmpty) (segAt ts) ts.base n (fun i hi => wanted_step n tab ops ts hf a b i hi)

theorem line_of (date : Nat → Bytes) (tab : Nat → Timed) (w : Who) (name : String) (g : Group) (m : AMap Bytes V) (hg : kind g = .trace)
    (hm : g.labels = some m) (ht : g.ts < 2 ^ 64) (hpid : gi m (bs "pid") = w.pid) (s : Cpu.Seg) :
    lineOf date tab w name (getElems m g.ts) s = [(fileFor date g, marshal (sent (toSeg tab s) (w.thread name) (getElems m g.ts)))] := by
  have hk := sent_kind (toSeg tab s) (w.thread name) (getElems m g.ts)
  have hp : gi (Export.SegmentText.segLabels (toSeg tab s) (w.thread name)) (bs "pid") = gi m (bs "pid") := by
    rw [hpid]
    generalize toSeg tab s = x
    rfl
  have hf : fileFor date (sent (toSeg tab s) (w.thread name) (getElems m g.ts)) = fileFor date g :=
    events_follow date g _ m (Export.SegmentText.segLabels (toSeg tab s) (w.thread name)) hg hm ht hk (by rw [sent]) hp
  simp only [lineOf, consume, hk, hf]

theorem line_reads (n : Nat) (tab : Nat → Timed) (ops : List Op) (t : Export.SegmentText.Thread) (el : Elems) (c : Nat) (s : Cpu.Seg)
    (h : ∀ k, s.lists k = filedUnder n k c (history n tab ops)) (ht : s.startTime = c * nano ∧ s.endTime = (c + 1) * nano)
    (hlt : (c + 1) * nano < 2 ^ 64) :
    (readGroup (marshal (sent (toSeg tab s) t el))).bind readSeg = some (found (c * nano) ((c + 1) * nano) t s.isSend (kept n tab ops c)) := by
  have hnn : c * nano ≤ (c + 1) * nano := Nat.mul_le_mul_right _ (Nat.le_succ c)
  have h1 : (toSeg tab s).start < 2 ^ 64 := by rw [toSeg]; show s.startTime < _; rw [ht.1]; exact Nat.lt_of_le_of_lt hnn hlt
  have h2 : (toSeg tab s).stop < 2 ^ 64 := by rw [toSeg]; show s.endTime < _; rw [ht.2]; exact hlt
  rw [segment_reads_back _ _ _ h1 h2, toSeg_seen h ht]

/-- C114.  Whatever happened to a thread before - events of any span, sendings for other traces - a sending for a slow trace `g` appends to
the file of that trace one line for every second of the window that meets the span asked for and has an event, in order; each line, read
back, shows exactly the events that meet its second and arrived while the second was in the window, all of them, by kind, in the order of
their arrival and with all their fields, and the name the thread has. -/
theorem trace_file_lines {n : Nat} (hn : GoodSize n) (date : Nat → Bytes) (tab : Nat → Timed) (w : Who) (ops : List Op) (g : Group)
    (m : AMap Bytes V) (hg : kind g = .trace) (hm : g.labels = some m) (ht : g.ts < 2 ^ 64) (hpid : gi m (bs "pid") = w.pid) (a b : Nat)
    (hne : arrived ops ≠ []) :
    ∃ (base : Nat) (out : List (Path × Bytes)) (st st' : Option TS) (name : String) (text : Nat → Bytes) (mark : Nat → Nat),
      baseAfter n none ((arrived ops).map (fun i => evOf i (tab i))) = some base ∧ nameAfter n tab none ops = some name ∧
      run date n tab w none ops = some (out, st) ∧
      run date n tab w none (ops ++ [.send (getElems m g.ts) a b]) =
        some (out ++ (shown n tab ops base a b).map (fun c => (fileFor date g, text c)), st') ∧
      ∀ c ∈ shown n tab ops base a b, (c + 1) * nano < 2 ^ 64 →
        (readGroup (text c)).bind readSeg = some (found (c * nano) ((c + 1) * nano) (w.thread name) (mark c) (kept n tab ops c)) := by
  have hinit : Inv n [] none := ⟨by simp, fun ts h => by cases h⟩
  obtain ⟨out, st, h1, h2⟩ := inv_run hn date tab w ops [] none hinit
  rw [List.nil_append] at h2
  cases st with
  | none =>
    have := h2.fresh.mp rfl
    rw [List.map_eq_nil_iff] at this
    exact absurd this hne
  | some ts =>
    obtain ⟨ok, hb, hle, hat⟩ := h2.ok ts rfl
    obtain ⟨ts', s1, -⟩ := inv_send a b h2
    have hf : Full n tab ops ts := by
      intro c hc1 hc2
      obtain ⟨s, hs, hl⟩ := hat c hc1 hc2
      have : segAt ts c = s := by rw [segAt, hs, Option.getD_some]
      rw [this]; exact ⟨hs, hl⟩
    refine ⟨ts.base, out, some ts, some ts', ts.name,
      fun c => marshal (sent (toSeg tab (segAt ts c)) (w.thread ts.name) (getElems m g.ts)), fun c => (segAt ts c).isSend, hb,
      (run_name hn date tab w ops none [] hinit h1).symm, h1, ?_, ?_⟩
    · rw [run_append date n tab w none ops _ h1]
      simp only [run, step, s1, Option.map_some, List.append_nil, wanted_shown n tab ops ts hf a b, List.flatMap_map,
        line_of date tab w ts.name g m hg hm ht hpid, ← List.map_eq_flatMap]
    · intro c hc hlt
      rw [shown, List.mem_filter, List.mem_map] at hc
      obtain ⟨⟨i, hi, rfl⟩, -⟩ := hc
      rw [List.mem_range] at hi
      obtain ⟨e1, e2⟩ := hf (ts.base + i) (by omega) (by omega)
      exact line_reads n tab ops _ _ _ _ e2 (start_of_at ok e1) hlt

/-- C114.  No history makes it panic. -/
theorem never_panics {n : Nat} (hn : GoodSize n) (date : Nat → Bytes) (tab : Nat → Timed) (w : Who) (ops : List Op) :
    ∃ out st, run date n tab w none ops = some (out, st) := by
  obtain ⟨out, st, h, -⟩ := inv_run hn date tab w ops [] none ⟨by simp, fun ts h => by cases h⟩
  exact ⟨out, st, h⟩

/-- C114.  An event that arrived and meets a second of the span asked for is in the line of that second, if the second was in the window
when the event arrived and still is. -/
theorem event_in_line (n : Nat) (tab : Nat → Timed) (ops : List Op) (base a b c i fb : Nat)
    (harr : (evOf i (tab i), fb) ∈ history n tab ops) (hcov : (evOf i (tab i)).covers c) (hthen : c < fb + n) (hnow : base ≤ c)
    (hin : c < base + n) (hask : overlaps a b c) : c ∈ shown n tab ops base a b ∧ tab i ∈ kept n tab ops c := by
  have hk : tab i ∈ kept n tab ops c := by
    unfold kept
    refine List.mem_map.mpr ⟨_, List.mem_filter.mpr ⟨harr, by simp [hcov, hthen]⟩, ?_⟩
    rw [evOf_id]
  refine ⟨?_, hk⟩
  unfold shown
  refine List.mem_filter.mpr ⟨List.mem_map.mpr ⟨c - base, List.mem_range.mpr (by omega), by omega⟩, ?_⟩
  simp only [hask, decide_true, Bool.true_and, Bool.not_eq_true', List.isEmpty_eq_false_iff]
  intro h
  rw [h] at hk
  cases hk

/-! ### Cases -/

/-- A thread that runs in seconds 100 and 101, waits for a lock in second 101 and runs again in second 150. -/
def shift : Nat → Timed
  | 0 => .cpu ⟨100200000000, 101300000000, none, none, none, [], [], [], []⟩
  | 1 => .futex ⟨101400000000, 101500000000, []⟩
  | _ => .cpu ⟨150000000000, 150100000000, none, none, none, [], [], [], []⟩

/-- Two events, a sending for another trace. -/
def early (el : Elems) : List Op := [.put "main" 0, .put "worker" 1, .send el 0 100500000000]

theorem early_history (el : Elems) : history 40 shift (early el) = [(evOf 0 (shift 0), 100), (evOf 1 (shift 1), 100)] := by
  simp [history, early, arrived, bases, newBase, evOf, shift, nano]

theorem good40 : GoodSize 40 := ⟨by decide, Or.inl (by decide)⟩

/-- Second 101 is shown, with both events. -/
example (el : Elems) : 101 ∈ shown 40 shift (early el) 100 101000000000 101700000000 ∧ shift 0 ∈ kept 40 shift (early el) 101 :=
  event_in_line 40 shift (early el) 100 101000000000 101700000000 101 0 100 (by rw [early_history]; simp)
    (by simp [Ev.covers, evOf, shift]) (by decide) (by decide) (by decide) (by simp [overlaps, nano])

example (el : Elems) : kept 40 shift (early el) 101 = [shift 0, shift 1] := by
  simp [kept, early_history, Ev.covers, evOf, shift]

example (el : Elems) : kept 40 shift (early el) 100 = [shift 0] := by
  simp [kept, early_history, Ev.covers, evOf, shift]

/-- After an event of second 150 the first seconds are gone. -/
example (el : Elems) : baseAfter 40 none ((arrived (early el ++ [.put "worker" 2])).map (fun i => evOf i (shift i))) = some 120 := by
  simp [early, arrived, baseAfter, newBase, evOf, shift, nano]

example (el : Elems) : nameAfter 40 shift none (early el) = some "worker" := by
  simp [early, nameAfter, newBase, evOf, shift, nano]

example (date : Nat → Bytes) : ∃ out, run date 40 shift ⟨7, 8, fun _ => []⟩ none
    (early ⟨[], [], [], 0, false, [], 0, []⟩ ++ [.send (getElems [(bs "pid", V.int 7)] 9) 101000000000 101700000000]) = some out := by
  obtain ⟨_, _, _, _, _, _, _, _, _, _, h, _⟩ := trace_file_lines good40 date shift ⟨7, 8, fun _ => []⟩ (early ⟨[], [], [], 0, false, [], 0, []⟩)
    ⟨bs "single_net_request_metric_group", none, some [(bs "pid", V.int 7)], 9⟩ [(bs "pid", V.int 7)] (by decide +kernel) rfl (by decide)
    (by decide +kernel)
    101000000000 101700000000 (by simp [arrived, early])
  exact ⟨_, h⟩

end Kindling.Flow.CpuFile
