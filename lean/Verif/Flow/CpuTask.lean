import Verif.Flow.CpuFile
/-
The task that sends the CPU events of a slow trace (cpuanalyzer/send_trigger.go:77-130) on the window of a thread and into
the file of the trace: Verif/Cpu/Send.lean (the spans of the runs) and Verif/Flow/CpuFile.lean (windows and files) together.
-/
namespace Kindling.Flow.CpuTask
open Kindling Kindling.Cpu Kindling.Export.Json Kindling.Export.Files Kindling.Export.TraceText Kindling.Flow.CpuFile
open Kindling.Export.SegmentText (Timed readSeg found)

/-- A slow trace: the group and its labels. -/
structure Trace where
  g : Group
  m : AMap Bytes V

/-- It is a trace with labels, and of this process. -/
structure Trace.Of (t : Trace) (w : Who) : Prop where
  kind : kind t.g = .trace
  labels : t.g.labels = some t.m
  ts : t.g.ts < 2 ^ 64
  pid : gi t.m (bs "pid") = w.pid

/-- `SendEventsTask` (send_trigger.go:109-114): the trace, how long the request took, and the edge in seconds. -/
structure Task extends Trace where
  spend : Nat
  edge : Nat

/-- What happens to a thread while the task is alive: an event of the thread, a run of the task, or a sending for another
trace of the process. -/
inductive TOp
  | put (name : String) (i : Nat)
  | run
  | other (t : Trace) (a b : Nat)

/-- The span a run asks for; `k` is `tickerCount` (send_trigger.go:123-125).  The task counts its runs, not the time. -/
def Task.ask (T : Task) (k : Nat) : Nat × Nat := runSpan T.g.ts T.spend T.edge k

/-- `run` (send_trigger.go:122-130) as a call of `sendEvents`. -/
def Task.op (T : Task) (k : Nat) : CpuFile.Op := .send (getElems T.m T.g.ts) (T.ask k).1 (T.ask k).2

/-- The calls on the window of the thread; `k` runs came before. -/
def Task.ops (T : Task) : Nat → List TOp → List CpuFile.Op
  | _, [] => []
  | k, .put name i :: r => .put name i :: T.ops k r
  | k, .run :: r => T.op k :: T.ops (k + 1) r
  | k, .other t a b :: r => .send (getElems t.m t.g.ts) a b :: T.ops k r

/-! ### Spec -/

/-- The runs of a history. -/
def runs (l : List TOp) : Nat := l.countP (fun o => match o with | .run => true | _ => false)

/-- The events of a history. -/
def came (l : List TOp) : List Nat := l.filterMap (fun o => match o with | .put _ i => some i | _ => none)

/-- The line is of second `c` and shows the events `l`. -/
def Line (w : Who) (line : Bytes) (c : Nat) (l : List Timed) : Prop :=
  ∃ name mark, (readGroup line).bind readSeg = some (found (c * nano) ((c + 1) * nano) (w.thread name) mark l)

/-! ### Proofs -/

theorem ops_append (T : Task) (k : Nat) (x y : List TOp) : T.ops k (x ++ y) = T.ops k x ++ T.ops (k + runs x) y := by
  induction x generalizing k with
  | nil => rfl
  | cons o r ih =>
    cases o with
    | put name i => simp [Task.ops, ih, runs]
    | run =>
      simp only [List.cons_append, Task.ops, ih, runs, List.countP_cons_of_pos, List.cons.injEq, true_and]
      congr 2; omega
    | other t a b => simp [Task.ops, ih, runs]

theorem arrived_ops (T : Task) (k : Nat) (x : List TOp) : arrived (T.ops k x) = came x := by
  induction x generalizing k with
  | nil => rfl
  | cons o r ih =>
    have ih' := ih k
    have ih1 := ih (k + 1)
    unfold arrived came at ih' ih1 ⊢
    cases o <;> simp only [Task.ops, Task.op, List.filterMap_cons, ih', ih1]

theorem bases_le {n : Nat} (hn : GoodSize n) (tab : Nat → Timed) (ops : List CpuFile.Op) {base : Nat}
    (hb : baseAfter n none ((arrived ops).map (fun i => evOf i (tab i))) = some base) : ∀ p ∈ history n tab ops, p.2 ≤ base := by
  obtain ⟨out, st, h1, h2⟩ := inv_run hn (fun _ => []) tab ⟨0, 0, fun _ => []⟩ ops [] none ⟨by simp, fun ts h => by cases h⟩
  rw [List.nil_append] at h2
  cases st with
  | none =>
    have := h2.fresh.mp rfl
    rw [this] at hb
    cases hb
  | some ts =>
    obtain ⟨_, h3, h4, _⟩ := h2.ok ts rfl
    rw [hb, Option.some.injEq] at h3
    rw [h3]
    exact h4

/-- C120.  An event that arrived before a run of the task, and meets a second of the span of this run that was in the window
when the event arrived and still is, is in the file of the trace - whatever else is done with the thread before, after, and
for other traces. -/
theorem event_in_task_file {n : Nat} (hn : GoodSize n) (date : Nat → Bytes) (tab : Nat → Timed) (w : Who) (T : Task) (hT : T.toTrace.Of w)
    (x y : List TOp) {i fb c base : Nat} (harr : (evOf i (tab i), fb) ∈ history n tab (T.ops 0 x)) (hcov : (evOf i (tab i)).covers c)
    (hthen : c < fb + n) (hb : baseAfter n none ((came x).map (fun i => evOf i (tab i))) = some base) (hnow : base ≤ c)
    (hask : overlaps (T.ask (runs x)).1 (T.ask (runs x)).2 c) (hlt : (c + 1) * nano < 2 ^ 64) :
    ∃ out st line l, CpuFile.run date n tab w none (T.ops 0 (x ++ .run :: y)) = some (out, st) ∧ (fileFor date T.g, line) ∈ out ∧
      Line w line c l ∧ tab i ∈ l := by
  have hne : arrived (T.ops 0 x) ≠ [] := by
    intro h
    rw [history, h] at harr
    cases harr
  obtain ⟨base', out, st, st', name, text, mark, h1, _, _, h4, h5⟩ :=
    trace_file_lines hn date tab w (T.ops 0 x) T.g T.m hT.kind hT.labels hT.ts hT.pid (T.ask (runs x)).1 (T.ask (runs x)).2 hne
  have hb' := hb
  rw [arrived_ops, hb, Option.some.injEq] at h1
  subst h1
  rw [← arrived_ops T 0 x] at hb'
  have hle := bases_le hn tab (T.ops 0 x) hb' _ harr
  obtain ⟨h6, h7⟩ := event_in_line n tab (T.ops 0 x) base (T.ask (runs x)).1 (T.ask (runs x)).2 c i fb harr hcov hthen hnow (by simp only at hle; omega) hask
  obtain ⟨out2, st2, h8⟩ := never_panics hn date tab w (T.ops 0 (x ++ .run :: y))
  have hsplit : T.ops 0 (x ++ .run :: y) = (T.ops 0 x ++ [T.op (runs x)]) ++ T.ops (runs x + 1) y := by
    rw [ops_append, Nat.zero_add, Task.ops]
    simp
  rw [hsplit] at h8 ⊢
  have h9 := run_append date n tab w none (T.ops 0 x ++ [T.op (runs x)]) (T.ops (runs x + 1) y) h4
  rw [h8] at h9
  obtain ⟨r, _, hr⟩ := Option.map_eq_some_iff.1 h9.symm
  refine ⟨out2, st2, text c, kept n tab (T.ops 0 x) c, h8, ?_, ⟨name, mark c, h5 c h6 hlt⟩, h7⟩
  rw [← (Prod.mk.inj hr).1]
  exact List.mem_append_left _ (List.mem_append_right _ (List.mem_map.2 ⟨c, h6, rfl⟩))

/-- The time of the request itself is in the span of each of the first `edge` runs. -/
theorem own_time (T : Task) {k c : Nat} (hk : k ≤ T.edge) (h : overlaps T.g.ts (T.g.ts + T.spend) c) : overlaps (T.ask k).1 (T.ask k).2 c := by
  have : k * nano ≤ T.edge * nano := Nat.mul_le_mul_right _ hk
  unfold overlaps Task.ask runSpan at *
  simp only
  omega

/-- C120.  An event of the time of the request itself is in the file if it arrives before the last run, however late
that is; the runs are `edge` (send_trigger.go:102-104), or fewer. -/
theorem own_event_in_file {n : Nat} (hn : GoodSize n) (date : Nat → Bytes) (tab : Nat → Timed) (w : Who) (T : Task) (hT : T.toTrace.Of w)
    (x y : List TOp) (hk : runs x ≤ T.edge) {i fb c base : Nat} (harr : (evOf i (tab i), fb) ∈ history n tab (T.ops 0 x))
    (hcov : (evOf i (tab i)).covers c) (hown : overlaps T.g.ts (T.g.ts + T.spend) c)
    (hthen : c < fb + n) (hb : baseAfter n none ((came x).map (fun i => evOf i (tab i))) = some base) (hnow : base ≤ c)
    (hlt : (c + 1) * nano < 2 ^ 64) :
    ∃ out st line l, CpuFile.run date n tab w none (T.ops 0 (x ++ .run :: y)) = some (out, st) ∧ (fileFor date T.g, line) ∈ out ∧
      Line w line c l ∧ tab i ∈ l :=
  event_in_task_file hn date tab w T hT x y harr hcov hthen hb hnow (own_time T hk hown) hlt

/-! ### Nothing else is in the file -/

/-- The runs, each with its number and what was done before. -/
def Task.sendings (T : Task) : List CpuFile.Op → Nat → List TOp → List (Nat × List CpuFile.Op)
  | _, _, [] => []
  | done, k, .put name i :: r => T.sendings (done ++ [.put name i]) k r
  | done, k, .run :: r => (k, done) :: T.sendings (done ++ [T.op k]) (k + 1) r
  | done, k, .other t a b :: r => T.sendings (done ++ [.send (getElems t.m t.g.ts) a b]) k r

/-- What a run appends. -/
def Chunk (n : Nat) (date : Nat → Bytes) (tab : Nat → Timed) (w : Who) (T : Task) (s : Nat × List CpuFile.Op) (ch : List (Path × Bytes)) : Prop :=
  (arrived s.2 = [] ∧ ch = []) ∨
  ∃ (base : Nat) (text : Nat → Bytes), baseAfter n none ((arrived s.2).map (fun i => evOf i (tab i))) = some base ∧
    ch = (shown n tab s.2 base (T.ask s.1).1 (T.ask s.1).2).map (fun c => (fileFor date T.g, text c)) ∧
    ∀ c ∈ shown n tab s.2 base (T.ask s.1).1 (T.ask s.1).2, (c + 1) * nano < 2 ^ 64 → Line w (text c) c (kept n tab s.2 c)

/-- C120.  The file of the trace is what the runs append, one after the other, if no other trace writes to it: each run a
line for every second of its span that is in the window and has an event, with the events of the second that arrived before
the run. -/
theorem task_file_exact {n : Nat} (hn : GoodSize n) (date : Nat → Bytes) (tab : Nat → Timed) (w : Who) (T : Task) (hT : T.toTrace.Of w)
    (l : List TOp) (ho : ∀ t a b, TOp.other t a b ∈ l → t.Of w ∧ fileFor date t.g ≠ fileFor date T.g) :
    ∃ out st chunks, CpuFile.run date n tab w none (T.ops 0 l) = some (out, st) ∧
      out.filter (fun p => decide (p.1 = fileFor date T.g)) = chunks.flatten ∧ All2 (Chunk n date tab w T) (T.sendings [] 0 l) chunks := by
  have key : ∀ (l : List TOp) (done : List CpuFile.Op) (k : Nat) (out : List (Path × Bytes)) (st : Option TS),
      (∀ t a b, TOp.other t a b ∈ l → t.Of w ∧ fileFor date t.g ≠ fileFor date T.g) →
      CpuFile.run date n tab w none done = some (out, st) →
      ∃ out' st' chunks, CpuFile.run date n tab w none (done ++ T.ops k l) = some (out ++ out', st') ∧
        out'.filter (fun p => decide (p.1 = fileFor date T.g)) = chunks.flatten ∧ All2 (Chunk n date tab w T) (T.sendings done k l) chunks := by
    intro l
    induction l with
    | nil => exact fun done k out st _ h => ⟨[], st, [], by simpa [Task.ops] using h, rfl, .nil⟩
    | cons o r ih =>
      intro done k out st ho h
      have ho' : ∀ t a b, TOp.other t a b ∈ r → t.Of w ∧ fileFor date t.g ≠ fileFor date T.g := fun t a b hm => ho t a b (List.mem_cons_of_mem _ hm)
      have hsend : ∀ (t : Trace) (a b : Nat), t.Of w → ∃ ch st1, CpuFile.run date n tab w none (done ++ [.send (getElems t.m t.g.ts) a b]) = some (out ++ ch, st1) ∧
          ((arrived done = [] ∧ ch = []) ∨ ∃ (base : Nat) (text : Nat → Bytes), baseAfter n none ((arrived done).map (fun i => evOf i (tab i))) = some base ∧
            ch = (shown n tab done base a b).map (fun c => (fileFor date t.g, text c)) ∧
            ∀ c ∈ shown n tab done base a b, (c + 1) * nano < 2 ^ 64 → Line w (text c) c (kept n tab done c)) := by
        intro t a b ht
        by_cases hne : arrived done = []
        · obtain ⟨out0, st0, g1, g2⟩ := inv_run hn date tab w done [] none ⟨by simp, fun ts h => by cases h⟩
          rw [h] at g1
          cases g1
          have : st = none := g2.fresh.2 (by simp [hne])
          subst this
          refine ⟨[], none, ?_, Or.inl ⟨hne, rfl⟩⟩
          rw [run_append date n tab w none done _ h]
          rfl
        · obtain ⟨base, out0, st0, st1, name, text, mark, h1, _, h3, h4, h5⟩ := trace_file_lines hn date tab w done t.g t.m ht.kind ht.labels ht.ts ht.pid a b hne
          rw [h] at h3
          cases h3
          exact ⟨_, st1, h4, Or.inr ⟨base, text, h1, rfl, fun c hc hlt => ⟨name, mark c, h5 c hc hlt⟩⟩⟩
      cases o with
      | put name i =>
        obtain ⟨out1, st1, h1⟩ := never_panics hn date tab w (done ++ [.put name i])
        have h2 := run_append date n tab w none done [.put name i] h
        rw [h1] at h2
        obtain ⟨q, hq, he⟩ := Option.map_eq_some_iff.1 h2.symm
        have hq1 : q.1 = [] := by
          simp only [CpuFile.run] at hq
          cases st with
          | none =>
            simp only [CpuFile.step] at hq
            cases hp : putNew n name (evOf i (tab i)) with
            | none => rw [hp] at hq; cases hq
            | some ts => rw [hp] at hq; simp only [Option.map_some, Option.some.injEq] at hq; rw [← hq]; rfl
          | some ts0 =>
            simp only [CpuFile.step] at hq
            cases hp : putKnown n ts0 name (evOf i (tab i)) with
            | none => rw [hp] at hq; cases hq
            | some ts => rw [hp] at hq; simp only [Option.map_some, Option.some.injEq] at hq; rw [← hq]; rfl
        have hout : out1 = out := by
          have := (Prod.mk.inj he).1
          rw [hq1, List.append_nil] at this
          exact this.symm
        subst hout
        obtain ⟨out', st', chunks, g1, g2, g3⟩ := ih (done ++ [.put name i]) k _ st1 ho' h1
        exact ⟨out', st', chunks, by simpa [Task.ops] using g1, g2, g3⟩
      | run =>
        obtain ⟨ch, st1, h1, h2⟩ := hsend T.toTrace (T.ask k).1 (T.ask k).2 hT
        obtain ⟨out', st', chunks, g1, g2, g3⟩ := ih (done ++ [T.op k]) (k + 1) _ st1 ho' h1
        refine ⟨ch ++ out', st', ch :: chunks, by simpa [Task.ops] using g1, ?_, .cons h2 g3⟩
        rw [List.filter_append, g2, List.flatten_cons]
        congr 1
        rw [List.filter_eq_self]
        intro p hp
        rcases h2 with ⟨_, rfl⟩ | ⟨base, text, _, rfl, _⟩
        · cases hp
        · obtain ⟨c, _, rfl⟩ := List.mem_map.1 hp
          simp
      | other t a b =>
        obtain ⟨ht, hf⟩ := ho t a b (List.mem_cons_self ..)
        obtain ⟨ch, st1, h1, h2⟩ := hsend t a b ht
        obtain ⟨out', st', chunks, g1, g2, g3⟩ := ih (done ++ [.send (getElems t.m t.g.ts) a b]) k _ st1 ho' h1
        refine ⟨ch ++ out', st', chunks, by simpa [Task.ops] using g1, ?_, g3⟩
        rw [List.filter_append, g2]
        have : ch.filter (fun p => decide (p.1 = fileFor date T.g)) = [] := by
          rw [List.filter_eq_nil_iff]
          intro p hp
          rcases h2 with ⟨_, rfl⟩ | ⟨base, text, _, rfl, _⟩
          · cases hp
          · obtain ⟨c, _, rfl⟩ := List.mem_map.1 hp
            simpa using hf
        rw [this, List.nil_append]
  obtain ⟨out', st', chunks, h1, h2, h3⟩ := key l [] 0 [] none ho rfl
  exact ⟨out', st', chunks, by simpa using h1, h2, h3⟩

theorem mem_sendings {T : Task} {l : List TOp} {done : List CpuFile.Op} {k : Nat} {s : Nat × List CpuFile.Op} (h : s ∈ T.sendings done k l) :
    ∃ x y, l = x ++ .run :: y ∧ s = (k + runs x, done ++ T.ops k x) := by
  induction l generalizing done k with
  | nil => cases h
  | cons o r ih =>
    cases o with
    | put name i =>
      obtain ⟨x, y, rfl, rfl⟩ := ih h
      exact ⟨.put name i :: x, y, rfl, by simp [runs, Task.ops]⟩
    | run =>
      rcases List.mem_cons.1 h with rfl | h
      · exact ⟨[], r, rfl, by simp [runs, Task.ops]⟩
      · obtain ⟨x, y, rfl, rfl⟩ := ih h
        refine ⟨.run :: x, y, rfl, ?_⟩
        simp only [runs, List.countP_cons_of_pos, Task.ops, List.append_assoc, List.singleton_append, Prod.mk.injEq, and_true]
        omega
    | other t a b =>
      obtain ⟨x, y, rfl, rfl⟩ := ih h
      exact ⟨.other t a b :: x, y, rfl, by simp [runs, Task.ops]⟩

theorem all2_mem {α β : Type} {R : α → β → Prop} {l : List α} {l' : List β} (h : All2 R l l') {b : β} (hb : b ∈ l') : ∃ a ∈ l, R a b := by
  induction h with
  | nil => cases hb
  | cons h1 _ ih =>
    rcases List.mem_cons.1 hb with rfl | hb
    · exact ⟨_, List.mem_cons_self .., h1⟩
    · obtain ⟨a, ha, hr⟩ := ih hb
      exact ⟨a, List.mem_cons_of_mem _ ha, hr⟩

/-- C120.  Every line in the file of the trace is from a run, of a second of its span, and shows only events that meet the
second and arrived before the run. -/
theorem only_asked_for {n : Nat} (hn : GoodSize n) (date : Nat → Bytes) (tab : Nat → Timed) (w : Who) (T : Task) (hT : T.toTrace.Of w)
    (l : List TOp) (ho : ∀ t a b, TOp.other t a b ∈ l → t.Of w ∧ fileFor date t.g ≠ fileFor date T.g)
    {out : List (Path × Bytes)} {st : Option TS} (hr : CpuFile.run date n tab w none (T.ops 0 l) = some (out, st)) {line : Bytes}
    (hl : (fileFor date T.g, line) ∈ out) :
    ∃ x y c, l = x ++ .run :: y ∧ overlaps (T.ask (runs x)).1 (T.ask (runs x)).2 c ∧ ((c + 1) * nano < 2 ^ 64 →
      ∃ evs, Line w line c evs ∧ evs ≠ [] ∧ ∀ e ∈ evs, ∃ i ∈ came x, tab i = e ∧ (evOf i e).covers c) := by
  obtain ⟨out', st', chunks, h1, h2, h3⟩ := task_file_exact hn date tab w T hT l ho
  rw [hr] at h1
  cases h1
  have hm : (fileFor date T.g, line) ∈ chunks.flatten := by
    rw [← h2, List.mem_filter]
    exact ⟨hl, by simp⟩
  obtain ⟨ch, hch, hm⟩ := List.mem_flatten.1 hm
  obtain ⟨s, hs, hc⟩ := all2_mem h3 hch
  obtain ⟨x, y, hx, rfl⟩ := mem_sendings hs
  simp only [Nat.zero_add, List.nil_append] at hc
  rcases hc with ⟨_, rfl⟩ | ⟨base, text, hb, rfl, hread⟩
  · cases hm
  · obtain ⟨c, hcs, he⟩ := List.mem_map.1 hm
    simp only [Prod.mk.injEq, true_and] at he
    have hcs' := hcs
    unfold shown at hcs'
    simp only [List.mem_filter, Bool.and_eq_true, decide_eq_true_eq, Bool.not_eq_true', List.isEmpty_eq_false_iff] at hcs'
    refine ⟨x, y, c, hx, hcs'.2.1, fun hlt => ⟨kept n tab (T.ops 0 x) c, he ▸ hread c hcs hlt, hcs'.2.2, ?_⟩⟩
    intro e hmem
    obtain ⟨p, hp, rfl⟩ := List.mem_map.1 hmem
    obtain ⟨hp1, hp2⟩ := List.mem_filter.1 hp
    simp only [decide_eq_true_eq] at hp2
    have hin : ∀ (es : List Ev) (b : Option Nat), ∀ p ∈ bases n b es, p.1 ∈ es := by
      intro es
      induction es with
      | nil => intro b p hp; cases b <;> cases hp
      | cons e r ih =>
        intro b p hp
        cases b <;> simp only [bases] at hp <;> rcases List.mem_cons.1 hp with rfl | hp
        · exact List.mem_cons_self ..
        · exact List.mem_cons_of_mem _ (ih _ p hp)
        · exact List.mem_cons_self ..
        · exact List.mem_cons_of_mem _ (ih _ p hp)
    obtain ⟨i, hi, hpi⟩ := List.mem_map.1 (hin _ _ p hp1)
    rw [arrived_ops] at hi
    have : p.1.id = i := by rw [← hpi, evOf_id]
    refine ⟨i, hi, by rw [this], ?_⟩
    rw [this, hpi]
    exact hp2.1

/-- C120.  The span moves with the runs: what ended before the span of the first run after its arrival is never shown, though
it may still be in the window and belongs to the edge of the trace: every line in the file is from a run, of a second of its
span, and shows events, but not this one. -/
theorem late_event_lost {n : Nat} (hn : GoodSize n) (date : Nat → Bytes) (tab : Nat → Timed) (w : Who) (T : Task) (hT : T.toTrace.Of w)
    (x0 y0 : List TOp) (ho : ∀ t a b, TOp.other t a b ∈ x0 ++ y0 → t.Of w ∧ fileFor date t.g ≠ fileFor date T.g)
    {i : Nat} (hnew : ∀ j ∈ came x0, tab j ≠ tab i) (hlate : ((evOf i (tab i)).stop / nano + 1) * nano ≤ (T.ask (runs x0)).1)
    {out : List (Path × Bytes)} {st : Option TS} (hr : CpuFile.run date n tab w none (T.ops 0 (x0 ++ y0)) = some (out, st)) {line : Bytes}
    (hl : (fileFor date T.g, line) ∈ out) :
    ∃ x y c, x0 ++ y0 = x ++ .run :: y ∧ overlaps (T.ask (runs x)).1 (T.ask (runs x)).2 c ∧ ((c + 1) * nano < 2 ^ 64 →
      ∃ evs, Line w line c evs ∧ evs ≠ [] ∧ tab i ∉ evs) := by
  obtain ⟨x, y, c, hx, hask, hline⟩ := only_asked_for hn date tab w T hT (x0 ++ y0) ho hr hl
  refine ⟨x, y, c, hx, hask, fun hlt => ?_⟩
  obtain ⟨evs, h1, h0, h3⟩ := hline hlt
  refine ⟨evs, h1, h0, fun hmem => ?_⟩
  obtain ⟨j, hj, hje, hcov⟩ := h3 _ hmem
  have hrun : runs x0 ≤ runs x := by
    rcases List.append_eq_append_iff.1 hx with ⟨z, rfl, _⟩ | ⟨z, rfl, _⟩
    · unfold runs
      rw [List.countP_append]
      omega
    · exact absurd hje (hnew j (by
        unfold came at hj ⊢
        rw [List.filterMap_append]
        exact List.mem_append_left _ hj))
  have hmul : runs x0 * nano ≤ runs x * nano := Nat.mul_le_mul_right _ hrun
  have hstop : (evOf j (tab i)).stop = (evOf i (tab i)).stop := by cases tab i <;> rfl
  unfold Ev.covers at hcov
  unfold overlaps Task.ask runSpan at *
  simp only at hask hlate
  rw [hstop] at hcov
  have h5 := hcov.2
  generalize runs x * nano = A at *
  generalize runs x0 * nano = B at *
  have h6 : (c + 1) * nano ≤ ((evOf i (tab i)).stop / nano + 1) * nano := Nat.mul_le_mul_right _ (by unfold nano at *; omega)
  omega

/-! ### Cases -/

/-- A trace of process 7 in second 101 that took 0.7 s. -/
def task : Task := ⟨⟨⟨bs "single_net_request_metric_group", none, some [(bs "pid", V.int 7)], 101000000000⟩, [(bs "pid", V.int 7)]⟩, 700000000, 2⟩
def who : Who := ⟨7, 8, fun _ => []⟩

theorem task_of : task.toTrace.Of who := ⟨by decide +kernel, rfl, by decide, by decide +kernel⟩

/-- The lock event arrives after the first run and is in the file by the second. -/
def hist : List TOp := [.put "main" 0, .run, .put "worker" 1]

theorem hist_history : history 40 shift (task.ops 0 hist) = [(evOf 0 (shift 0), 100), (evOf 1 (shift 1), 100)] := by
  simp [history, hist, arrived_ops, came, bases, newBase, evOf, shift, nano]

example (date : Nat → Bytes) (y : List TOp) : ∃ out st line l, CpuFile.run date 40 shift who none (task.ops 0 (hist ++ .run :: y)) = some (out, st) ∧
    (fileFor date task.g, line) ∈ out ∧ Line who line 101 l ∧ shift 1 ∈ l :=
  own_event_in_file good40 date shift who task task_of hist y (by decide) (i := 1) (fb := 100) (base := 100) (by rw [hist_history]; simp)
    (by simp [Ev.covers, evOf, shift]) (by simp [overlaps, task, nano]) (by decide)
    (by simp [hist, came, baseAfter, newBase, evOf, shift, nano]) (by decide) (by simp [nano])

/-- An event of second 99, in the edge of the trace, that arrives after the first run is late: the second run asks for what
comes after second 99. -/
def lateTab : Nat → Timed
  | 0 => .cpu ⟨98200000000, 101300000000, none, none, none, [], [], [], []⟩
  | _ => .futex ⟨99100000000, 99500000000, []⟩

example (date : Nat → Bytes) (y0 : List TOp) (ho : ∀ t a b, TOp.other t a b ∈ y0 → t.Of who ∧ fileFor date t.g ≠ fileFor date task.g)
    {out : List (Path × Bytes)} {st : Option TS}
    (hr : CpuFile.run date 40 lateTab who none (task.ops 0 ([.put "main" 0, .run] ++ y0)) = some (out, st)) {line : Bytes}
    (hl : (fileFor date task.g, line) ∈ out) :
    ∃ x y c, [.put "main" 0, .run] ++ y0 = x ++ .run :: y ∧ overlaps (task.ask (runs x)).1 (task.ask (runs x)).2 c ∧
      ((c + 1) * nano < 2 ^ 64 → ∃ evs, Line who line c evs ∧ evs ≠ [] ∧ lateTab 1 ∉ evs) :=
  late_event_lost good40 date lateTab who task task_of [.put "main" 0, .run] y0 (by simpa using ho) (i := 1) (by simp [came, lateTab])
    (by simp [evOf, lateTab, Task.ask, runSpan, runs, task, nano]) hr hl

/-- Second 99 belongs to the edge of the trace. -/
example : overlaps (task.g.ts - task.edge * nano) (task.g.ts + task.spend + task.edge * nano) 99 := by simp [overlaps, task, nano]

end Kindling.Flow.CpuTask
