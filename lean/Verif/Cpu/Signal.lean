import Verif.Basic
/-
Which requests make the CPU analyzer send its recent seconds: `ReceiveDataGroupAsSignal`
(cpuanalyzer/send_trigger.go:24-58) and `sampleSend` (132-160).

Simplified: a drain of the sample map is one step; the two channels are lists (their bounds, 3e5 and
1e4, block the sender in the code).
-/
namespace Kindling.Cpu.Signal

/-- The parts of a trace (data group) that are looked at. -/
structure Trace where
  id : Nat
  pid : Int
  contentKey : String
  isSlow : Bool
  isServer : Bool
  fromApm : Bool
  duration : Option Int
deriving DecidableEq, Repr

/-- Key of the sample map (send_trigger.go:37-39, 54-55). -/
def key (d : Trace) : String := d.contentKey ++ toString d.pid

structure St where
  enabled : Bool
  /-- `isInstallApm` -/
  apm : AMap Int Bool
  samples : AMap String Trace
  /-- sent to `traceChan` -/
  traces : List Trace
  /-- sent to `triggerEventChan` -/
  triggers : List Trace

/-- `sampleMap.LoadOrStore`. -/
def loadOrStore (m : AMap String Trace) (d : Trace) : AMap String Trace :=
  match m.get (key d) with
  | some _ => m
  | none => m.set (key d) d

/-- `ReceiveDataGroupAsSignal` (send_trigger.go:24-58). -/
def receive (s : St) (d : Trace) : St :=
  if !s.enabled then s
  else if d.fromApm then
    let s1 := { s with apm := s.apm.set d.pid true }
    if !d.isSlow then s1 else { s1 with samples := loadOrStore s1.samples d }
  else if !d.isSlow then s
  else if !d.isServer then { s with traces := s.traces ++ [d] }
  else if (s.apm.get d.pid).getD false then s
  else { s with samples := loadOrStore s.samples d }

/-- One tick of `sampleSend` (send_trigger.go:136-155). -/
def tick (s : St) : St :=
  { s with triggers := s.triggers ++ (s.samples.map (·.2)).filter (fun d => d.duration.isSome), samples := [] }

def receives (s : St) : List Trace → St
  | [] => s
  | d :: r => receives (receive s d) r

/-! ### Specification -/

/-- An APM trace of this process is among the traces seen. -/
def apmSeen (before : List Trace) (pid : Int) : Prop := ∃ d ∈ before, d.fromApm = true ∧ d.pid = pid

instance (before : List Trace) (pid : Int) : Decidable (apmSeen before pid) := by
  unfold apmSeen; infer_instance

/-- A trace is a candidate: slow, and either from the APM agent, or from the server side of a process
the agent has not reported for. -/
def candidate (before : List Trace) (d : Trace) : Bool :=
  d.isSlow && (d.fromApm || (d.isServer && !decide (apmSeen before d.pid)))

/-- The first candidate with a key. -/
def firstCandidate (k : String) : List Trace → List Trace → Option Trace
  | _, [] => none
  | before, d :: r => if candidate before d ∧ key d = k then some d else firstCandidate k (before ++ [d]) r

/-- What the state knows of the traces seen so far. -/
def ApmOk (s : St) (before : List Trace) : Prop := ∀ pid, (s.apm.get pid).getD false = true ↔ apmSeen before pid

theorem apmSeen_snoc (before : List Trace) (d : Trace) (pid : Int) :
    apmSeen (before ++ [d]) pid ↔ apmSeen before pid ∨ (d.fromApm = true ∧ d.pid = pid) := by
  unfold apmSeen
  simp only [List.mem_append, List.mem_singleton]
  constructor
  · rintro ⟨x, hx | rfl, h⟩
    · exact Or.inl ⟨x, hx, h⟩
    · exact Or.inr h
  · rintro (⟨x, hx, h⟩ | h)
    · exact ⟨x, Or.inl hx, h⟩
    · exact ⟨d, Or.inr rfl, h⟩

theorem get_loadOrStore (m : AMap String Trace) (d : Trace) (k : String) :
    (loadOrStore m d).get k = (m.get k).or (if key d = k then some d else none) := by
  unfold loadOrStore
  cases h : m.get (key d) with
  | some x =>
    simp only
    by_cases hk : key d = k
    · subst hk; rw [h]; rfl
    · simp [hk]
  | none =>
    simp only
    rw [AMap.get_set]
    by_cases hk : key d = k
    · subst hk; simp [h]
    · simp [hk]

theorem receive_step {s : St} (hen : s.enabled = true) {before : List Trace} (ha : ApmOk s before) (d : Trace) :
    ApmOk (receive s d) (before ++ [d]) ∧ (receive s d).enabled = true ∧ (receive s d).triggers = s.triggers ∧
    (∀ k, (receive s d).samples.get k = (s.samples.get k).or (if candidate before d ∧ key d = k then some d else none)) ∧
    (receive s d).traces = s.traces ++ (if d.isSlow && !d.fromApm && !d.isServer then [d] else []) := by
  unfold receive
  rw [if_neg (by simp [hen])]
  by_cases hf : d.fromApm = true
  · have hset : ApmOk { s with apm := s.apm.set d.pid true } (before ++ [d]) := by
      intro pid
      rw [apmSeen_snoc]
      simp only [AMap.get_set, hf, true_and]
      by_cases hp : d.pid = pid
      · simp [hp]
      · simp only [hp, ↓reduceIte, or_false]; exact ha pid
    rw [if_pos hf]
    by_cases hs : d.isSlow = true
    · simp only [hs, Bool.not_true, Bool.false_eq_true, ↓reduceIte]
      refine ⟨hset, hen, trivial, fun k => ?_, by simp [hf]⟩
      rw [get_loadOrStore]
      simp [candidate, hs, hf]
    · simp only [Bool.not_eq_true] at hs
      simp only [hs, Bool.not_false, ↓reduceIte]
      refine ⟨hset, hen, trivial, fun k => by simp [candidate, hs], by simp⟩
  · simp only [Bool.not_eq_true] at hf
    have hsame : ApmOk s (before ++ [d]) := by
      intro pid
      rw [apmSeen_snoc, ha pid]
      simp [hf]
    rw [if_neg (by simp [hf])]
    by_cases hs : d.isSlow = true
    · rw [if_neg (by simp [hs])]
      by_cases hv : d.isServer = true
      · rw [if_neg (by simp [hv])]
        by_cases hap : (s.apm.get d.pid).getD false = true
        · rw [if_pos hap]
          have := (ha d.pid).1 hap
          refine ⟨hsame, hen, rfl, fun k => by simp [candidate, hs, hf, hv, this], by simp [hv]⟩
        · rw [if_neg hap]
          have : ¬ apmSeen before d.pid := fun h => hap ((ha d.pid).2 h)
          refine ⟨hsame, hen, rfl, fun k => ?_, by simp [hv]⟩
          simp only [get_loadOrStore]
          simp [candidate, hs, hf, hv, this]
      · simp only [Bool.not_eq_true] at hv
        rw [if_pos (by simp [hv])]
        refine ⟨hsame, hen, rfl, fun k => by simp [candidate, hs, hf, hv], by simp [hs, hf, hv]⟩
    · simp only [Bool.not_eq_true] at hs
      rw [if_pos (by simp [hs])]
      refine ⟨hsame, hen, rfl, fun k => by simp [candidate, hs], by simp [hs]⟩

theorem receives_spec (l : List Trace) {s : St} (hen : s.enabled = true) {before : List Trace} (ha : ApmOk s before) :
    ApmOk (receives s l) (before ++ l) ∧ (receives s l).enabled = true ∧ (receives s l).triggers = s.triggers ∧
    (∀ k, (receives s l).samples.get k = (s.samples.get k).or (firstCandidate k before l)) ∧
    (receives s l).traces = s.traces ++ l.filter (fun d => d.isSlow && !d.fromApm && !d.isServer) := by
  induction l generalizing s before with
  | nil => exact ⟨by simpa [receives] using ha, hen, rfl, fun k => by simp [receives, firstCandidate], by simp [receives]⟩
  | cons d r ih =>
    obtain ⟨h1, h2, h3, h4, h5⟩ := receive_step hen ha d
    obtain ⟨g1, g2, g3, g4, g5⟩ := ih h2 h1
    refine ⟨by simpa [receives] using g1, g2, by rw [receives, g3, h3], fun k => ?_, ?_⟩
    · rw [receives, g4 k, h4 k]
      simp only [firstCandidate]
      split
      · cases s.samples.get k <;> simp
      · simp
    · rw [receives, g5, h5, List.filter_cons]
      split <;> simp

theorem loadOrStore_wf {m : AMap String Trace} (h : AMap.WF m) (hk : ∀ k d, (k, d) ∈ m → key d = k) (d : Trace) :
    AMap.WF (loadOrStore m d) ∧ ∀ k d', (k, d') ∈ loadOrStore m d → key d' = k := by
  unfold loadOrStore
  cases hg : m.get (key d) with
  | some _ => exact ⟨h, hk⟩
  | none =>
    have hw := AMap.WF.set h (key d) d
    refine ⟨hw, fun k d' hm => ?_⟩
    have := AMap.get_of_mem hw hm
    rw [AMap.get_set] at this
    split at this
    · cases this; assumption
    · exact hk k d' (AMap.mem_of_get this)

def SampOk (s : St) : Prop := AMap.WF s.samples ∧ ∀ k d, (k, d) ∈ s.samples → key d = k

theorem receive_samp {s : St} (h : SampOk s) (d : Trace) : SampOk (receive s d) := by
  have hl := loadOrStore_wf h.1 h.2 d
  unfold receive
  split
  · exact h
  · split
    · simp only
      split
      · exact h
      · exact hl
    · split
      · exact h
      · split
        · exact h
        · split
          · exact h
          · exact hl

theorem receives_samp (l : List Trace) {s : St} (h : SampOk s) : SampOk (receives s l) := by
  induction l generalizing s with
  | nil => exact h
  | cons d r ih => exact ih (receive_samp h d)

/-- C72.  Between two ticks, whatever traces arrive (`l`, after those of `before`): the tick makes a
trace a trigger exactly if it is the first candidate of its key since the last tick and has a
duration; no key gets two triggers.  The slow client-side traces, and only they, go to the trace
channel, in order. -/
theorem triggers_spec_partial (l : List Trace) {s : St} (hen : s.enabled = true) {before : List Trace} (ha : ApmOk s before)
    (hempty : s.samples = []) :
    ∃ new, (tick (receives s l)).triggers = s.triggers ++ new ∧
      (∀ d, d ∈ new ↔ firstCandidate (key d) before l = some d ∧ d.duration.isSome) ∧
      (new.map key).Nodup ∧
      (receives s l).traces = s.traces ++ l.filter (fun d => d.isSlow && !d.fromApm && !d.isServer) ∧
      (tick (receives s l)).samples = [] ∧ (tick (receives s l)).enabled = true ∧
      ApmOk (tick (receives s l)) (before ++ l) := by
  obtain ⟨g1, g2, g3, g4, g5⟩ := receives_spec l hen ha
  have hsamp : SampOk (receives s l) := receives_samp l ⟨by rw [hempty]; exact AMap.wf_nil, by rw [hempty]; intro k d h; simp at h⟩
  refine ⟨((receives s l).samples.map (·.2)).filter (fun d => d.duration.isSome), by simp [tick, g3], ?_, ?_, g5, rfl, g2, g1⟩
  · intro d
    rw [List.mem_filter]
    constructor
    · rintro ⟨h1, h2⟩
      rw [List.mem_map] at h1
      obtain ⟨⟨k, d'⟩, hm, rfl⟩ := h1
      have hk := hsamp.2 k d' hm
      have := AMap.get_of_mem hsamp.1 hm
      rw [g4 k, hempty] at this
      simp only at h2 ⊢
      rw [hk]
      exact ⟨by simpa using this, h2⟩
    · rintro ⟨h1, h2⟩
      refine ⟨List.mem_map.2 ⟨(key d, d), AMap.mem_of_get ?_, rfl⟩, h2⟩
      rw [g4 (key d), hempty, h1]; rfl
  · have h1 : ((receives s l).samples.map (·.2)).map key = AMap.keys (receives s l).samples := by
      unfold AMap.keys
      rw [List.map_map]
      apply List.map_congr_left
      rintro ⟨k, d⟩ hm
      exact hsamp.2 k d hm
    have h2 : (((receives s l).samples.map (·.2)).map key).Nodup := by rw [h1]; exact hsamp.1
    exact List.Nodup.sublist (List.Sublist.map key List.filter_sublist) h2

/-- Without a running profile nothing is recorded. -/
theorem disabled_ignores (l : List Trace) {s : St} (h : s.enabled = false) : receives s l = s := by
  induction l with
  | nil => rfl
  | cons d r ih =>
    have : receive s d = s := by unfold receive; simp [h]
    rw [receives, this, ih]

/-- The key is a plain concatenation, so different requests share one: of `(key ++ "1", pid 2)` and
`(key, pid 12)` only the first in an interval triggers. -/
theorem keys_collide (ck : String) (d d' : Trace) (h1 : d.contentKey = ck ++ "1") (h2 : d.pid = 2)
    (h3 : d'.contentKey = ck) (h4 : d'.pid = 12) : key d = key d' := by
  unfold key
  rw [h1, h2, h3, h4, String.append_assoc]
  congr 1

/-- Two slow server requests of one URL: one trigger. -/
example :
    let s : St := ⟨true, [], [], [], []⟩
    let d1 : Trace := ⟨1, 7, "/a", true, true, false, some 5⟩
    let d2 : Trace := ⟨2, 7, "/a", true, true, false, some 6⟩
    ApmOk s [] ∧ (tick (receives s [d1, d2])).triggers = [d1] := by
  refine ⟨fun pid => by simp [apmSeen], by decide⟩

end Kindling.Cpu.Signal
