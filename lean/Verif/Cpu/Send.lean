import Verif.Cpu.Window
/-
Sending the recent seconds of a process when a slow request was seen:
`sendEvents` (cpuanalyzer/send_trigger.go:162-214) and `SendEventsTask.run` (122-130).

Simplified: what is sent is the segment itself (the label set `toDataGroup` makes of it, model.go:88-122,
and the merged key elements are functions of it); `Consume` of the next consumers is the output list.
-/
namespace Kindling.Cpu

/-- `isNotEmpty` (model.go:124-126). -/
def Seg.isNotEmpty (s : Seg) : Bool :=
  !(s.lists .cpu).isEmpty || !(s.lists .javaFutex).isEmpty || !(s.lists .transactionId).isEmpty ||
  !(s.lists .span).isEmpty || !(s.lists .innerCall).isEmpty

/-- The loop of `sendEvents` (send_trigger.go:195-212): what is sent and the segments after it.
`none` is an index out of range. -/
def sendLoop (hi n i : Nat) (segs : List Seg) : Option (List Seg × List Seg) :=
  if i ≤ hi ∧ i < n then
    match segs[i]? with
    | none => none
    | some s =>
      if s.isNotEmpty then
        match sendLoop hi n (i + 1) (segs.set i { s with isSend := 1 }) with
        | none => none
        | some (out, segs') => some (s :: out, segs')
      else sendLoop hi n (i + 1) segs
  else some ([], segs)
termination_by n - i

/-- One thread in `sendEvents` (send_trigger.go:181-212). -/
def sendThread (n a b : Nat) (ts : TS) : Option (List Seg × TS) :=
  let startSec := a / nano
  let endSec := b / nano
  if endSec < ts.base ∨ ts.base + n < startSec then some ([], ts)
  else
    let startIndex := startSec - ts.base
    let endIndex := if ts.base + n < endSec - ts.base then ts.base + n else endSec - ts.base
    (sendLoop endIndex n startIndex ts.segs).map (fun r => (r.1, { ts with segs := r.2 }))

/-- `sendEvents` for all threads of a process; the list order stands for Go's map order.  The result
carries pid, tid and thread name like the labels do. -/
def sendProc (n a b : Nat) : AMap Nat TS → Option (List (Nat × String × Seg) × AMap Nat TS)
  | [] => some ([], [])
  | (tid, ts) :: r => match sendThread n a b ts, sendProc n a b r with
    | some (out, ts'), some (outs, r') => some (out.map (fun s => (tid, ts.name, s)) ++ outs, (tid, ts') :: r')
    | _, _ => none

/-! ### Specification -/

/-- The time span from `a` to `b` meets second `c`. -/
def overlaps (a b c : Nat) : Prop := a < (c + 1) * nano ∧ c * nano ≤ b

instance (a b c : Nat) : Decidable (overlaps a b c) := by unfold overlaps; infer_instance

theorem overlaps_iff (a b c : Nat) : overlaps a b c ↔ a / nano ≤ c ∧ c ≤ b / nano := by
  unfold overlaps nano; omega

/-- The segments to send, in order of time. -/
def wantedSegs (n a b : Nat) (ts : TS) : List Seg :=
  (List.range n).filterMap (fun i =>
    if overlaps a b (ts.base + i) then (ts.at (ts.base + i)).filter Seg.isNotEmpty else none)

/-- A segment sent is marked. -/
def afterSend (a b c : Nat) (s : Seg) : Seg :=
  if overlaps a b c ∧ s.isNotEmpty = true then { s with isSend := 1 } else s

theorem filterMap_congr' {α β : Type} {f g : α → Option β} {l : List α} (h : ∀ x ∈ l, f x = g x) :
    l.filterMap f = l.filterMap g := by
  induction l with
  | nil => rfl
  | cons x r ih => rw [List.filterMap_cons, List.filterMap_cons, h x (by simp), ih (fun y hy => h y (by simp [hy]))]

theorem sendLoop_spec (hi n i : Nat) (segs : List Seg) (hl : segs.length = n) :
    ∃ out segs', sendLoop hi n i segs = some (out, segs') ∧ segs'.length = n ∧
      out = (List.range' i (n - i)).filterMap (fun j => if j ≤ hi then (segs[j]?).filter Seg.isNotEmpty else none) ∧
      ∀ j, segs'[j]? = if i ≤ j ∧ j ≤ hi then (segs[j]?).map (fun s => if s.isNotEmpty then { s with isSend := 1 } else s) else segs[j]? := by
  fun_induction sendLoop hi n i segs with
  | case1 i segs h hnone => rw [List.getElem?_eq_none_iff] at hnone; omega
  | case2 i segs h s hs hne hbad ih =>
    obtain ⟨out, segs', h1, _⟩ := ih (by simpa using hl)
    rw [hbad] at h1; cases h1
  | case3 i segs h s hs hne out0 segs0 heq ih =>
    obtain ⟨out, segs', h1, h2, h3, h4⟩ := ih (by simpa using hl)
    rw [heq] at h1; cases h1
    refine ⟨_, _, rfl, h2, ?_, fun j => ?_⟩
    · rw [show n - i = (n - (i + 1)) + 1 by omega, List.range'_succ, List.filterMap_cons]
      simp only [h.1, ↓reduceIte, hs, Option.filter_some, hne]
      rw [h3]
      congr 1
      apply filterMap_congr'
      intro j hj
      have : i + 1 ≤ j := (List.mem_range'_1.1 hj).1
      rw [List.getElem?_set_ne (by omega)]
    · rw [h4 j]
      by_cases hij : i = j
      · subst hij
        rw [if_neg (by omega), if_pos ⟨Nat.le_refl _, h.1⟩, hs, List.getElem?_set_self (by omega)]
        simp [hne]
      · rw [List.getElem?_set_ne hij]
        by_cases hc : i ≤ j ∧ j ≤ hi
        · rw [if_pos hc, if_pos (by omega)]
        · rw [if_neg hc, if_neg (by omega)]
  | case4 i segs h s hs hne ih =>
    obtain ⟨out, segs', h1, h2, h3, h4⟩ := ih hl
    refine ⟨out, segs', h1, h2, ?_, fun j => ?_⟩
    · rw [show n - i = (n - (i + 1)) + 1 by omega, List.range'_succ, List.filterMap_cons]
      simp only [h.1, ↓reduceIte, hs, Option.filter_some, hne]
      exact h3
    · rw [h4 j]
      by_cases hij : i = j
      · subst hij
        rw [if_neg (by omega), if_pos ⟨Nat.le_refl _, h.1⟩, hs]
        simp [hne]
      · by_cases hc : i ≤ j ∧ j ≤ hi
        · rw [if_pos hc, if_pos (by omega)]
        · rw [if_neg hc, if_neg (by omega)]
  | case5 i segs h =>
    refine ⟨[], segs, rfl, hl, ?_, fun j => ?_⟩
    · symm
      rw [List.filterMap_eq_nil_iff]
      intro j hj
      have := List.mem_range'_1.1 hj
      rw [if_neg (by omega)]
    · split
      · rw [List.getElem?_eq_none (by omega)]; rfl
      · rfl

theorem at_mk {n : Nat} {ts : TS} (h : ts.Ok n) {c : Nat} (h1 : ts.base ≤ c) (h2 : c < ts.base + n) :
    ts.at c = some (ts.old c) := by
  have := ok_get h (c - ts.base) (by omega)
  unfold TS.at
  rw [if_neg (by omega), this, show ts.base + (c - ts.base) = c by omega]

theorem at_some {n : Nat} {ts : TS} (h : ts.Ok n) {c : Nat} {s : Seg} (hs : ts.at c = some s) :
    ts.base ≤ c ∧ c < ts.base + n := by
  unfold TS.at at hs
  split at hs
  · cases hs
  · have := (List.getElem?_eq_some_iff.1 hs).1
    rw [h.1] at this
    omega

/-- C34, one thread: exactly the non-empty segments of the seconds that meet the requested span and are
in the window are sent, in order, each once; they are marked as sent and nothing else changes. -/
theorem send_thread_partial {n : Nat} (a b : Nat) {ts : TS} (h : ts.Ok n) :
    ∃ ts', sendThread n a b ts = some (wantedSegs n a b ts, ts') ∧ ts'.Ok n ∧ ts'.base = ts.base ∧ ts'.name = ts.name ∧
      ∀ c, ts'.at c = (ts.at c).map (afterSend a b c) := by
  unfold sendThread
  simp only
  by_cases h0 : b / nano < ts.base ∨ ts.base + n < a / nano
  · rw [if_pos h0]
    refine ⟨ts, ?_, h, rfl, rfl, fun c => ?_⟩
    · congr 2
      symm
      unfold wantedSegs
      rw [List.filterMap_eq_nil_iff]
      intro c hc
      simp only [List.mem_range] at hc
      rw [if_neg (by rw [overlaps_iff]; omega)]
    · cases hs : ts.at c with
      | none => rfl
      | some s =>
        have := at_some h hs
        simp only [Option.map_some, afterSend]
        rw [if_neg (by rw [overlaps_iff]; omega)]
  · rw [if_neg h0]
    generalize hhi : (if ts.base + n < b / nano - ts.base then ts.base + n else b / nano - ts.base) = hi
    have hhi' : ∀ j, j < n → (j ≤ hi ↔ ts.base + j ≤ b / nano) := by
      intro j hj; rw [← hhi]; split <;> omega
    obtain ⟨out, segs', g1, g2, g3, g4⟩ := sendLoop_spec hi n (a / nano - ts.base) ts.segs h.1
    rw [g1]
    refine ⟨{ ts with segs := segs' }, ?_, ⟨g2, ?_⟩, rfl, rfl, ?_⟩
    · simp only [Option.map_some, Option.some.injEq, Prod.mk.injEq, and_true]
      rw [g3]
      unfold wantedSegs
      by_cases hle : a / nano - ts.base ≤ n
      · have hsplit : List.range n = List.range' 0 (a / nano - ts.base) ++ List.range' (a / nano - ts.base) (n - (a / nano - ts.base)) := by
          rw [List.range_eq_range']
          conv => lhs; rw [show n = (a / nano - ts.base) + (n - (a / nano - ts.base)) by omega]
          rw [← List.range'_append_1]; simp
        rw [hsplit, List.filterMap_append]
        have h1 : (List.range' 0 (a / nano - ts.base)).filterMap (fun i => if overlaps a b (ts.base + i) then (ts.at (ts.base + i)).filter Seg.isNotEmpty else none) = [] := by
          rw [List.filterMap_eq_nil_iff]
          intro j hj
          have := List.mem_range'_1.1 hj
          rw [if_neg (by rw [overlaps_iff]; omega)]
        rw [h1, List.nil_append]
        apply filterMap_congr'
        intro j hj
        have hj' := List.mem_range'_1.1 hj
        have hj2 := hhi' j (by omega)
        by_cases hc : j ≤ hi
        · rw [if_pos hc, if_pos (by rw [overlaps_iff]; omega), at_mk h (by omega) (by omega), ok_get h j (by omega)]
        · rw [if_neg hc, if_neg (by rw [overlaps_iff]; omega)]
      · omega
    · intro i s hs
      simp only at hs ⊢
      rw [g4 i] at hs
      split at hs
      · rw [Option.map_eq_some_iff] at hs
        obtain ⟨s0, hs0, rfl⟩ := hs
        have := h.2 i s0 hs0
        split <;> exact this
      · exact h.2 i s hs
    · intro c
      by_cases hb : c < ts.base
      · unfold TS.at; simp [hb]
      · by_cases hn : c < ts.base + n
        · have hg := g4 (c - ts.base)
          have hh := hhi' (c - ts.base) (by omega)
          conv => lhs; unfold TS.at
          simp only
          rw [if_neg hb, hg, ok_get h (c - ts.base) (by omega), show ts.base + (c - ts.base) = c by omega, at_mk h (by omega) hn]
          simp only [Option.map_some, afterSend]
          by_cases hc : overlaps a b c
          · have := (overlaps_iff a b c).1 hc
            rw [if_pos ⟨by omega, hh.2 (by omega)⟩]
            simp [hc]
          · have hx := fun x => hc ((overlaps_iff a b c).2 x)
            rw [if_neg (fun y => hx ⟨by omega, by have := hh.1 y.2; omega⟩)]
            simp [hc]
        · have e1 : ts.segs[c - ts.base]? = none := List.getElem?_eq_none (by rw [h.1]; omega)
          have e2 : segs'[c - ts.base]? = none := List.getElem?_eq_none (by rw [g2]; omega)
          unfold TS.at
          simp [hb, e1, e2]

/-- C34, a whole process: every thread is treated this way. -/
theorem send_proc {n : Nat} (a b : Nat) (m : AMap Nat TS) (h : ∀ p ∈ m, p.2.Ok n) :
    ∃ out m', sendProc n a b m = some (out, m') ∧
      out = m.flatMap (fun p => (wantedSegs n a b p.2).map (fun s => (p.1, p.2.name, s))) ∧
      All2 (fun p q => p.1 = q.1 ∧ sendThread n a b p.2 = some (wantedSegs n a b p.2, q.2) ∧ q.2.Ok n) m m' := by
  induction m with
  | nil => exact ⟨[], [], rfl, rfl, .nil⟩
  | cons p r ih =>
    obtain ⟨tid, ts⟩ := p
    obtain ⟨out, m', h1, h2, h3⟩ := ih (fun p hp => h p (by simp [hp]))
    obtain ⟨ts', g1, g2, _⟩ := send_thread_partial a b (h (tid, ts) (by simp))
    refine ⟨(wantedSegs n a b ts).map (fun s => (tid, ts.name, s)) ++ out, (tid, ts') :: m', by simp only [sendProc]; rw [h1]; simp only [g1], ?_, .cons ⟨rfl, g1, g2⟩ h3⟩
    rw [List.flatMap_cons, h2]

/-! ### Sent more than once

The claim "once" over several runs fails: the task runs every second with spans that overlap, and
the code does not skip what was sent (send_trigger.go:202).  What holds is that the label tells. -/

/-- What happens to a thread's window. -/
inductive Op
  | put (name : String) (e : Ev)
  | send (a b : Nat)

/-- A step with what it sends. -/
def step (n : Nat) (ts : TS) : Op → Option (List Seg × TS)
  | .put name e => (putKnown n ts name e).map (fun r => ([], r))
  | .send a b => sendThread n a b ts

/-- A history; the last state and everything sent. -/
def runOps (n : Nat) (ts : TS) : List Op → Option (List Seg × TS)
  | [] => some ([], ts)
  | o :: r => match step n ts o with
    | none => none
    | some (out, ts') => match runOps n ts' r with
      | none => none
      | some (outs, ts'') => some (out ++ outs, ts'')

theorem step_ok {n : Nat} (hn : GoodSize n) {ts : TS} (h : ts.Ok n) (o : Op) :
    ∃ out r, step n ts o = some (out, r) ∧ r.Ok n ∧ ts.base ≤ r.base := by
  cases o with
  | put name e =>
    obtain ⟨r, h1, _, h3, _, h5⟩ := put_known hn h name e
    exact ⟨[], r, by simp [step, h1], h5.ok, h3⟩
  | send a b =>
    obtain ⟨r, h1, h2, h3, _⟩ := send_thread_partial a b h
    exact ⟨_, r, h1, h2, by omega⟩

/-- No history of puts and sends fails, and the window stays in order. -/
theorem runOps_ok {n : Nat} (hn : GoodSize n) (l : List Op) {ts : TS} (h : ts.Ok n) :
    ∃ out r, runOps n ts l = some (out, r) ∧ r.Ok n ∧ ts.base ≤ r.base := by
  induction l generalizing ts with
  | nil => exact ⟨[], ts, rfl, h, Nat.le_refl _⟩
  | cons o l ih =>
    obtain ⟨out, t1, h1, h2, h3⟩ := step_ok hn h o
    obtain ⟨outs, r, g1, g2, g3⟩ := ih h2
    exact ⟨out ++ outs, r, by simp [runOps, h1, g1], g2, by omega⟩

/-- The event is filed under second `c` when it arrives at window `ts`. -/
def files (n : Nat) (ts : TS) (e : Ev) (c : Nat) : Prop :=
  e.covers c ∧ newBase n ts.base e ≤ c ∧ c < newBase n ts.base e + n

/-- No event of the history is filed under second `c`. -/
def Quiet (n c : Nat) : TS → List Op → Prop
  | _, [] => True
  | ts, .put name e :: l => ¬ files n ts e c ∧ ∀ r, putKnown n ts name e = some r → Quiet n c r l
  | ts, .send a b :: l => ∀ out r, sendThread n a b ts = some (out, r) → Quiet n c r l

theorem mem_wanted {n a b : Nat} {ts : TS} (h : ts.Ok n) {s : Seg} :
    s ∈ wantedSegs n a b ts ↔ ∃ c, overlaps a b c ∧ ts.at c = some s ∧ s.isNotEmpty = true := by
  unfold wantedSegs
  simp only [List.mem_filterMap, List.mem_range]
  constructor
  · rintro ⟨i, hi, hs⟩
    split at hs
    · rename_i ho
      rw [Option.filter_eq_some_iff] at hs
      exact ⟨_, ho, hs.1, hs.2⟩
    · cases hs
  · rintro ⟨c, ho, hs, hne⟩
    have := at_some h hs
    refine ⟨c - ts.base, by omega, ?_⟩
    rw [show ts.base + (c - ts.base) = c by omega, if_pos ho, hs, Option.filter_some, if_pos hne]

/-- A segment is worth sending exactly if it holds an event of any kind. -/
theorem isNotEmpty_iff (s : Seg) : s.isNotEmpty = true ↔ ∃ k e, e ∈ s.lists k := by
  have h : ∀ k, (s.lists k).isEmpty = false ↔ ∃ e, e ∈ s.lists k := by
    intro k
    cases s.lists k with
    | nil => simp
    | cons x r => simp only [List.isEmpty_cons, true_iff]; exact ⟨x, by simp⟩
  unfold Seg.isNotEmpty
  simp only [Bool.or_eq_true, Bool.not_eq_true', h]
  constructor
  · rintro ((((h | h) | h) | h) | h)
    · exact ⟨_, h⟩
    · exact ⟨_, h⟩
    · exact ⟨_, h⟩
    · exact ⟨_, h⟩
    · exact ⟨_, h⟩
  · rintro ⟨k, h⟩
    cases k <;> simp [h]

/-- What a request wants of a thread: the segments of the seconds it overlaps that hold an event. -/
theorem mem_wanted_iff {n a b : Nat} {ts : TS} (h : ts.Ok n) {s : Seg} :
    s ∈ wantedSegs n a b ts ↔ ∃ c, overlaps a b c ∧ ts.at c = some s ∧ ∃ k e, e ∈ s.lists k := by
  rw [mem_wanted h]
  simp only [isNotEmpty_iff]

/-- A second that gets no event keeps its events, and its mark once it has one. -/
theorem quiet_keeps {n : Nat} (hn : GoodSize n) {c : Nat} (l : List Op) {ts : TS} (h : ts.Ok n) {s : Seg}
    (hs : ts.at c = some s) (hq : Quiet n c ts l) {out : List Seg} {r : TS} (hr : runOps n ts l = some (out, r))
    (hc : r.base ≤ c) :
    ∃ s', r.at c = some s' ∧ s'.lists = s.lists ∧ s'.startTime = s.startTime ∧ s'.endTime = s.endTime ∧
      (s.isSend = 1 → s'.isSend = 1) := by
  induction l generalizing ts s out with
  | nil => simp only [runOps, Option.some.injEq, Prod.mk.injEq] at hr; rw [← hr.2]; exact ⟨s, hs, rfl, rfl, rfl, id⟩
  | cons o l ih =>
    obtain ⟨out1, t1, h1, h2, h3⟩ := step_ok hn h o
    obtain ⟨out2, r2, g1, g2, g3⟩ := runOps_ok hn l h2
    simp only [runOps, h1, g1, Option.some.injEq, Prod.mk.injEq] at hr
    obtain ⟨_, rfl⟩ := hr
    have hw := at_some h hs
    cases o with
    | put name e =>
      obtain ⟨t1', k1, k2, k3, _, k5⟩ := put_known hn h name e
      simp only [step, k1, Option.map_some, Option.some.injEq, Prod.mk.injEq] at h1
      obtain ⟨_, rfl⟩ := h1
      have hin : t1'.base ≤ c ∧ c < t1'.base + n := ⟨by omega, by omega⟩
      have hget := k5.has c hin.1 hin.2
      have hnc : ¬ e.covers c := fun hc' => hq.1 ⟨hc', by rw [← k2]; exact hin.1, by rw [← k2]; exact hin.2⟩
      rw [if_neg hnc] at hget
      have hold : ts.old c = s := by unfold TS.old; rw [hs]; rfl
      rw [hold] at hget
      exact ih h2 hget (hq.2 _ k1) g1
    | send a b =>
      obtain ⟨t1', k1, k2, k3, _, k5⟩ := send_thread_partial a b h
      simp only [step, k1, Option.some.injEq, Prod.mk.injEq] at h1
      obtain ⟨_, rfl⟩ := h1
      have hget := k5 c
      rw [hs] at hget
      obtain ⟨s', e1, e2, e3, e4, e5⟩ := ih h2 hget (hq _ _ k1) g1
      refine ⟨s', e1, ?_, ?_, ?_, ?_⟩
      · rw [e2]; unfold afterSend; split <;> rfl
      · rw [e3]; unfold afterSend; split <;> rfl
      · rw [e4]; unfold afterSend; split <;> rfl
      · intro h1; apply e5; unfold afterSend; split
        · rfl
        · exact h1

/-- "Once" fails for every history: a second that was sent, got no event since and is still in the
window is sent again by the next overlapping request, with the same events, but labelled as sent
before. -/
theorem resent {n : Nat} (hn : GoodSize n) {c a b a' b' : Nat} (l : List Op) {ts ts1 : TS} (h : ts.Ok n) {s : Seg}
    (hs : ts.at c = some s) (hne : s.isNotEmpty = true) (ho : overlaps a b c) {o1 : List Seg}
    (h1 : sendThread n a b ts = some (o1, ts1)) (hq : Quiet n c ts1 l) {out : List Seg} {r : TS}
    (hr : runOps n ts1 l = some (out, r)) (hc : r.base ≤ c) (ho' : overlaps a' b' c) :
    s ∈ o1 ∧ ∃ o2 r2 s', sendThread n a' b' r = some (o2, r2) ∧ s' ∈ o2 ∧
      s'.startTime = s.startTime ∧ s'.lists = s.lists ∧ s'.isSend = 1 := by
  obtain ⟨ts1', k1, k2, k3, _, k5⟩ := send_thread_partial a b h
  rw [h1] at k1
  simp only [Option.some.injEq, Prod.mk.injEq] at k1
  obtain ⟨rfl, rfl⟩ := k1
  refine ⟨(mem_wanted h).2 ⟨c, ho, hs, hne⟩, ?_⟩
  have hget := k5 c
  rw [hs] at hget
  have haft : afterSend a b c s = { s with isSend := 1 } := by unfold afterSend; rw [if_pos ⟨ho, hne⟩]
  simp only [Option.map_some, haft] at hget
  obtain ⟨s', e1, e2, e3, e4, e5⟩ := quiet_keeps hn l k2 hget hq hr hc
  obtain ⟨_, rok⟩ := runOps_ok hn l k2
  obtain ⟨r', hr', rok, _⟩ := rok
  rw [hr] at hr'
  simp only [Option.some.injEq, Prod.mk.injEq] at hr'
  obtain ⟨_, rfl⟩ := hr'
  obtain ⟨r2, m1, _⟩ := send_thread_partial a' b' rok
  refine ⟨_, r2, s', m1, (mem_wanted rok).2 ⟨c, ho', e1, ?_⟩, e3, e2, e5 rfl⟩
  unfold Seg.isNotEmpty at hne ⊢
  rw [e2]; exact hne

/-- A second that gets an event is labelled as not sent. -/
theorem event_clears_mark {n : Nat} (hn : GoodSize n) {ts : TS} (h : ts.Ok n) (name : String) (e : Ev) {c : Nat}
    (hf : files n ts e c) :
    ∃ r s, putKnown n ts name e = some r ∧ r.at c = some s ∧ s.isSend = 0 ∧ e ∈ s.lists e.kind := by
  obtain ⟨r, k1, k2, k3, _, k5⟩ := put_known hn h name e
  obtain ⟨h1, h2, h3⟩ := hf
  have := k5.has c (by rw [k2]; exact h2) (by rw [k2]; exact h3)
  rw [if_pos h1] at this
  exact ⟨r, _, k1, this, rfl, by simp [file]⟩

/-! ### The task -/

/-- The span requested by the `k`-th run of the task (send_trigger.go:123-124) for a request that
started at `start`, took `spend`, with an edge of `edge` seconds; nothing wraps around as
`edge` seconds is less than the time since 1970. -/
def runSpan (start spend edge k : Nat) : Nat × Nat := (k * nano + start - edge * nano, k * nano + start + spend)

/-- The seconds covered by `m` runs together. -/
theorem task_covers (start spend edge m c : Nat) (he : edge * nano ≤ start) (hm : 0 < m) :
    (∃ k, k < m ∧ overlaps (runSpan start spend edge k).1 (runSpan start spend edge k).2 c) ↔
      overlaps (start - edge * nano) (start + spend + (m - 1) * nano) c := by
  unfold runSpan overlaps
  simp only
  constructor
  · rintro ⟨k, hk, h1, h2⟩
    have : k * nano ≤ (m - 1) * nano := Nat.mul_le_mul_right _ (by omega)
    constructor <;> omega
  · rintro ⟨h1, h2⟩
    have hsm : ∀ x, (x + 1) * nano = x * nano + nano := fun x => Nat.succ_mul x nano
    -- the first run that reaches second `c`
    have hind : ∀ m, 0 < m → c * nano ≤ start + spend + (m - 1) * nano →
        ∃ k, k < m ∧ k * nano + start - edge * nano < (c + 1) * nano ∧ c * nano ≤ k * nano + start + spend := by
      intro m hm
      induction m with
      | zero => omega
      | succ m ih =>
        intro hle
        by_cases hz : m = 0
        · subst hz; exact ⟨0, by omega, by omega, by omega⟩
        · by_cases hlt : c * nano ≤ start + spend + (m - 1) * nano
          · obtain ⟨k, a1, a2, a3⟩ := ih (by omega) hlt
            exact ⟨k, by omega, a2, a3⟩
          · refine ⟨m, by omega, ?_, by simp only [Nat.add_sub_cancel] at hle; omega⟩
            have e1 := hsm (m - 1)
            have e2 := hsm c
            rw [show m - 1 + 1 = m by omega] at e1
            omega
    exact hind m hm h2

/-- The drawing at send_trigger.go:116-121 asks for the seconds up to `edge` seconds after the end of the
request; the task ends after `edge` runs (one per second, 102-104), so the last of these
seconds is never sent. -/
theorem last_edge_second_missing (start spend edge : Nat) (he : edge * nano ≤ start) (hpos : 0 < edge) :
    let c := (start + spend) / nano + edge
    overlaps (start - edge * nano) (start + spend + edge * nano) c ∧
      ∀ k, k < edge → ¬ overlaps (runSpan start spend edge k).1 (runSpan start spend edge k).2 c := by
  intro c
  have hdm := Nat.div_add_mod (start + spend) nano
  have hlt : (start + spend) % nano < nano := Nat.mod_lt _ (by unfold nano; omega)
  have hc : c * nano = (start + spend) / nano * nano + edge * nano := Nat.add_mul _ _ _
  have hcs : (c + 1) * nano = c * nano + nano := Nat.succ_mul c nano
  rw [Nat.mul_comm] at hdm
  constructor
  · unfold overlaps; omega
  · intro k hk ho
    have := (task_covers start spend edge edge c he hpos).1 ⟨k, hk, ho⟩
    unfold overlaps at this
    have he2 : edge * nano = (edge - 1) * nano + nano := by
      have := Nat.succ_mul (edge - 1) nano
      rw [show (edge - 1).succ = edge by omega] at this
      exact this
    omega

/-- Two seconds with events in a window of 4; the request meets the second one only. -/
example : ∃ ts : TS, ts.Ok 4 ∧ (∃ s, ts.at 10 = some s ∧ s.isNotEmpty = true) ∧
    ∃ s, ts.at 11 = some s ∧ s.isNotEmpty = true ∧ overlaps (11 * nano + 5) (20 * nano) 11 ∧ ¬ overlaps (11 * nano + 5) (20 * nano) 10 := by
  obtain ⟨ts, h1, h2, h3⟩ := put_new 4 "t" ⟨.cpu, 10 * nano, 11 * nano, 0⟩
  have hb : ts.base = 10 := by rw [h2]; simp [nano]
  refine ⟨ts, h3.ok, ⟨_, h3.has 10 (by omega) (by omega), ?_⟩, _, h3.has 11 (by omega) (by omega), ?_, ?_, ?_⟩
  · rw [if_pos (by unfold Ev.covers; simp [nano])]; simp [file, newSeg, Seg.isNotEmpty]
  · rw [if_pos (by unfold Ev.covers; simp [nano])]; simp [file, newSeg, Seg.isNotEmpty]
  · unfold overlaps; simp [nano]
  · unfold overlaps; simp [nano]

end Kindling.Cpu
