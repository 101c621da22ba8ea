import Verif.Dec
/-
Start and stop of a module and the timers that stop it (component/controller/module.go), requests of the control API
(component/controller/profile_module.go).

`Start` and `Stop` hold the mutex throughout, so each is one step.  A timer or stop signal is a goroutine: created by
`Start` (128, 141), it evaluates `c.ClearSignal()` when it first runs (132, 145: no lock is held), then waits for its
timer or for the channel it has read; when the timer is chosen it calls `Stop`.  Closing a channel wakes the goroutines
that wait for it, and they return; if the timer has already expired when `select` is reached, it can be chosen whether
or not the channel is closed.  Every interleaving of these steps is a history.

Simplified: channels are numbered by the run that made them; the sub-modules are registered before the first request;
the order of the loops over `subStarts` and `subStops` is that of the list, the same for both.
-/
namespace Kindling.Ctl.Module

/-- A goroutine made by an option (126-151): for which run, and where it is. -/
inductive GSt
  | spawned
  /-- waits, with the channel of this run -/
  | waiting (sig : Nat)
  /-- has seen its timer, is about to call `Stop` -/
  | stopping
  | done
deriving DecidableEq

structure G where
  born : Nat
  st : GSt
deriving DecidableEq

structure St where
  running : Bool
  /-- the run whose channel is `clearSignal`; `none`: the nil channel -/
  sig : Option Nat
  /-- number of channels made so far -/
  made : Nat
  /-- calls to sub-modules: which, and whether it was a start -/
  calls : List (Nat × Bool)
  gs : List G

/-- `NewModule` (48-56). -/
def new (running : Bool) : St := ⟨running, none, 0, [], []⟩

/-- One operation: `start n bad`: with `n` options, the sub-modules in `bad` return errors. -/
inductive Op
  | start (n : Nat) (bad : List Nat)
  | stop (bad : List Nat)
  /-- goroutine `i` reaches its `select` and nothing is ready but possibly the channel -/
  | eval (i : Nat)
  /-- goroutine `i` reaches its `select`, its timer has expired and is chosen -/
  | evalFire (i : Nat)
  /-- the timer of the waiting goroutine `i` expires -/
  | fire (i : Nat)
  /-- goroutine `i` calls `Stop` -/
  | exec (i : Nat) (bad : List Nat)

/-- Outcome of a request. -/
inductive Out
  | refused
  | done (errors : Bool)
deriving DecidableEq

/-- `Start` (69-89). -/
def start (subs : List Nat) (n : Nat) (bad : List Nat) (s : St) : St × Out :=
  if s.running then (s, .refused)
  else ({ running := true, sig := some s.made, made := s.made + 1,
          calls := s.calls ++ subs.map (fun x => (x, true)),
          gs := s.gs ++ List.replicate n ⟨s.made, .spawned⟩ },
        .done (subs.any (fun x => bad.contains x)))

/-- Closing the channel of run `r` wakes the goroutines waiting for it. -/
def wake (r : Nat) (g : G) : G := if g.st = .waiting r then { g with st := .done } else g

/-- `Stop` (91-108); closing the nil channel panics (98). -/
def stop (subs : List Nat) (bad : List Nat) (s : St) : Res (St × Out) :=
  if s.running then
    match s.sig with
    | none => .panic
    | some r => .ok ({ s with running := false, calls := s.calls ++ subs.map (fun x => (x, false)),
                              gs := s.gs.map (wake r) },
                     .done (subs.any (fun x => bad.contains x)))
  else .ok (s, .refused)

def setG (s : St) (i : Nat) (st : GSt) : St :=
  match s.gs[i]? with
  | none => s
  | some g => { s with gs := s.gs.set i { g with st := st } }

/-- Steps; a goroutine that is not where the step needs it does nothing. -/
def step (subs : List Nat) (s : St) : Op → Res St
  | .start n bad => .ok (start subs n bad s).1
  | .stop bad => (stop subs bad s).bind (fun x => .ok x.1)
  | .eval i => match s.gs[i]? with
    | some ⟨_, .spawned⟩ => match s.sig with
      | none => .ok s
      | some r => .ok (setG s i (if s.running then .waiting r else .done))
    | _ => .ok s
  | .evalFire i => match s.gs[i]? with
    | some ⟨_, .spawned⟩ => .ok (setG s i .stopping)
    | _ => .ok s
  | .fire i => match s.gs[i]? with
    | some ⟨_, .waiting _⟩ => .ok (setG s i .stopping)
    | _ => .ok s
  | .exec i bad => match s.gs[i]? with
    | some ⟨_, .stopping⟩ => (stop subs bad (setG s i .done)).bind (fun x => .ok x.1)
    | _ => .ok s

def run (subs : List Nat) : St → List Op → Res St
  | s, [] => .ok s
  | s, o :: r => (step subs s o).bind (fun s' => run subs s' r)

/-! ### C46 -/

/-- Spec: start, stop, start, … -/
def alternating : Nat → List Bool
  | 0 => []
  | k + 1 => alternating k ++ [k % 2 == 0]

/-- The calls one sub-module got. -/
def callsOf (s : St) (x : Nat) : List Bool := (s.calls.filter (fun c => c.1 == x)).map (·.2)

structure Inv (subs : List Nat) (k : Nat) (s : St) : Prop where
  run : s.running = (k % 2 == 1)
  calls : ∀ x ∈ subs, callsOf s x = alternating k
  sig : s.running = true → s.sig ≠ none

theorem callsOf_block (l : List (Nat × Bool)) (subs : List Nat) (hn : subs.Nodup) (x : Nat) (hx : x ∈ subs) (b : Bool) :
    ((l ++ subs.map (fun y => (y, b))).filter (fun c => c.1 == x)).map (·.2) =
    (l.filter (fun c => c.1 == x)).map (·.2) ++ [b] := by
  rw [List.filter_append, List.map_append]
  congr 1
  induction subs with
  | nil => cases hx
  | cons y r ih =>
    rw [List.nodup_cons] at hn
    by_cases h : y = x
    · subst h
      have : (r.map (fun z => (z, b))).filter (fun c => c.1 == y) = [] := by
        rw [List.filter_eq_nil_iff]
        intro c hc
        obtain ⟨z, hz, rfl⟩ := List.mem_map.1 hc
        simp only [beq_iff_eq]
        rintro rfl
        exact hn.1 hz
      simp [this]
    · have hx' : x ∈ r := by simpa [Ne.symm h] using hx
      simpa [h] using ih hn.2 hx'

theorem inv_setG {subs : List Nat} {k : Nat} {s : St} (h : Inv subs k s) (i : Nat) (g : GSt) : Inv subs k (setG s i g) := by
  unfold setG
  split
  · exact h
  · exact ⟨h.run, h.calls, h.sig⟩

theorem stop_inv {subs : List Nat} (hn : subs.Nodup) {k : Nat} {s : St} (h : Inv subs k s) (bad : List Nat) :
    ∃ s' o k', stop subs bad s = .ok (s', o) ∧ Inv subs k' s' ∧
      ((s.running = true ∧ k' = k + 1 ∧ s'.running = false ∧ o ≠ .refused) ∨ (s.running = false ∧ s' = s ∧ k' = k ∧ o = .refused)) := by
  unfold stop
  cases hr : s.running with
  | false => exact ⟨s, .refused, k, by simp, h, Or.inr ⟨rfl, rfl, rfl, rfl⟩⟩
  | true =>
    cases hs : s.sig with
    | none => exact absurd hs (h.sig hr)
    | some r =>
      have hk : k % 2 = 1 := by have := h.run; rw [hr] at this; simpa using this.symm
      refine ⟨_, _, k + 1, rfl, ⟨?_, ?_, ?_⟩, Or.inl ⟨rfl, rfl, rfl, by simp⟩⟩
      · have : (k + 1) % 2 = 0 := by omega
        simp [this]
      · intro x hx
        have := callsOf_block s.calls subs hn x hx false
        unfold callsOf
        rw [this]
        show callsOf s x ++ [false] = _
        rw [h.calls x hx]
        simp [alternating, hk]
      · intro hc; cases hc

theorem step_inv {subs : List Nat} (hn : subs.Nodup) {k : Nat} {s : St} (h : Inv subs k s) (o : Op) :
    ∃ s' k', step subs s o = .ok s' ∧ Inv subs k' s' := by
  cases o with
  | start n bad =>
    simp only [step, start]
    cases hr : s.running with
    | true => exact ⟨s, k, by simp, h⟩
    | false =>
      have hk : k % 2 = 0 := by
        have := h.run; rw [hr] at this
        have h2 : ¬ k % 2 = 1 := by simpa using this.symm
        omega
      refine ⟨_, k + 1, rfl, ⟨?_, ?_, ?_⟩⟩
      · have : (k + 1) % 2 = 1 := by omega
        simp [this]
      · intro x hx
        have := callsOf_block s.calls subs hn x hx true
        unfold callsOf
        simp only [Bool.false_eq_true, if_false]
        rw [this]
        show callsOf s x ++ [true] = _
        rw [h.calls x hx]
        simp [alternating, hk]
      · intro _; simp
  | stop bad =>
    obtain ⟨s', o, k', h1, h2, _⟩ := stop_inv hn h bad
    exact ⟨s', k', by simp [step, h1, Res.bind], h2⟩
  | eval i =>
    simp only [step]
    split
    · split
      · exact ⟨s, k, rfl, h⟩
      · exact ⟨_, k, rfl, inv_setG h _ _⟩
    · exact ⟨s, k, rfl, h⟩
  | evalFire i =>
    simp only [step]
    split
    · exact ⟨_, k, rfl, inv_setG h _ _⟩
    · exact ⟨s, k, rfl, h⟩
  | fire i =>
    simp only [step]
    split
    · exact ⟨_, k, rfl, inv_setG h _ _⟩
    · exact ⟨s, k, rfl, h⟩
  | exec i bad =>
    simp only [step]
    split
    · obtain ⟨s', o, k', h1, h2, _⟩ := stop_inv hn (inv_setG h i .done) bad
      exact ⟨s', k', by simp [h1, Res.bind], h2⟩
    · exact ⟨s, k, rfl, h⟩

theorem run_inv {subs : List Nat} (hn : subs.Nodup) {k : Nat} {s : St} (h : Inv subs k s) (ops : List Op) :
    ∃ s' k', run subs s ops = .ok s' ∧ Inv subs k' s' := by
  induction ops generalizing s k with
  | nil => exact ⟨s, k, rfl, h⟩
  | cons o r ih =>
    obtain ⟨s', k', h1, h2⟩ := step_inv hn h o
    obtain ⟨s2, k2, h3, h4⟩ := ih h2
    exact ⟨s2, k2, by simp [run, h1, Res.bind, h3], h4⟩

theorem inv_new (subs : List Nat) : Inv subs 0 (new false) :=
  ⟨rfl, fun _ _ => rfl, fun h => by cases h⟩

/-- C46.  For every history of requests and timers, no operation panics, every sub-module has been called start, stop,
start, … in this order, all equally often, and the module is running exactly if the last of these calls was a start. -/
theorem starts_and_stops_alternate_partial (subs : List Nat) (hn : subs.Nodup) (ops : List Op) :
    ∃ s, run subs (new false) ops = .ok s ∧
      ∃ k, (∀ x ∈ subs, callsOf s x = alternating k) ∧ (s.running = true ↔ k % 2 = 1) := by
  obtain ⟨s, k, h1, h2⟩ := run_inv hn (inv_new subs) ops
  refine ⟨s, h1, k, h2.calls, ?_⟩
  rw [h2.run]; simp

/-- C46, single requests after any history: a start is refused exactly if the module is running and otherwise leaves
it running; a stop is refused exactly if it is stopped and otherwise leaves it stopped; a refused request changes
nothing. -/
theorem request_outcome (subs : List Nat) (hn : subs.Nodup) (ops : List Op) (s : St)
    (h : run subs (new false) ops = .ok s) (n : Nat) (bad : List Nat) :
    ((start subs n bad s).2 = .refused ↔ s.running = true) ∧
    ((start subs n bad s).2 = .refused → (start subs n bad s).1 = s) ∧
    (start subs n bad s).1.running = true ∧
    ∃ s' o, stop subs bad s = .ok (s', o) ∧ (o = .refused ↔ s.running = false) ∧ (o = .refused → s' = s) ∧ s'.running = false := by
  obtain ⟨s2, k, h1, h2⟩ := run_inv hn (inv_new subs) ops
  rw [h] at h1
  cases h1
  obtain ⟨s', o, k', g1, _, g3⟩ := stop_inv hn h2 bad
  refine ⟨?_, ?_, ?_, s', o, g1, ?_, ?_, ?_⟩
  · unfold start; cases hr : s.running <;> simp
  · unfold start; cases hr : s.running <;> simp
  · unfold start; cases hr : s.running <;> simp [hr]
  · rcases g3 with ⟨a, _, _, d⟩ | ⟨a, _, _, d⟩
    · simp [a, d]
    · simp [a, d]
  · rcases g3 with ⟨a, _, _, d⟩ | ⟨a, b, _, d⟩
    · intro hc; exact absurd hc d
    · intro _; exact b
  · rcases g3 with ⟨a, _, c, d⟩ | ⟨a, b, _, d⟩
    · exact c
    · rw [b]; exact a

/-- Finding: a start that reports an error of a sub-module leaves the module running, so that the next start is
refused. -/
theorem failed_start_is_running (subs : List Nat) (n : Nat) (bad : List Nat) (s : St) (hs : s.running = false)
    (x : Nat) (hx : x ∈ subs) (hb : x ∈ bad) :
    (start subs n bad s).2 = .done true ∧ (start subs n bad s).1.running = true ∧
    ∀ n' bad', (start subs n' bad' (start subs n bad s).1).2 = .refused := by
  have hany : subs.any (fun x => bad.contains x) = true := by
    rw [List.any_eq_true]; exact ⟨x, hx, by simpa using hb⟩
  refine ⟨?_, ?_, fun n' bad' => ?_⟩
  · unfold start; simp [hs]; exact ⟨x, hx, hb⟩
  · unfold start; simp [hs]
  · have : (start subs n bad s).1.running = true := by unfold start; simp [hs]
    unfold start at this ⊢
    simp [hs]

/-- Finding: a module made with status `Started` panics at its first stop (the channel is nil). -/
theorem initially_started_panics (subs bad : List Nat) : stop subs bad (new true) = .panic := by simp [stop, new]

/-! ### C47 -/

/-- The step at which a timer stops a run: goroutine and run. -/
def stops (s : St) : Op → Option (G × Nat)
  | .exec i _ => match s.gs[i]? with
    | some ⟨b, .stopping⟩ => if s.running then s.sig.map (fun r => (⟨b, .stopping⟩, r)) else none
    | _ => none
  | _ => none

/-- Spec: nobody is about to call `Stop`, except goroutine `i`. -/
def nobodyElse (s : St) (i : Option Nat) : Prop := ∀ (j : Nat) b, s.gs[j]? = some ⟨b, .stopping⟩ → i = some j

/-- Fair schedules: a goroutine reaches its `select` before the run it was made in is stopped, and no stop is executed
between the choice of the timer and the call of `Stop` that follows. -/
def prompt (s : St) : Op → Prop
  | .eval i => ∀ b, s.gs[i]? = some ⟨b, .spawned⟩ → s.running = true ∧ s.sig = some b
  | .evalFire i => ∀ b, s.gs[i]? = some ⟨b, .spawned⟩ → s.running = true ∧ s.sig = some b
  | .stop _ => nobodyElse s none
  | .exec i _ => nobodyElse s (some i)
  | .start _ _ => True
  | .fire _ => True

def promptRun (subs : List Nat) : St → List Op → Prop
  | _, [] => True
  | s, o :: r => prompt s o ∧ ∀ s', step subs s o = .ok s' → promptRun subs s' r

/-- Under fair schedules the goroutines that wait or are about to stop belong to the current run. -/
def Own (s : St) : Prop :=
  ∀ (i : Nat) b st, s.gs[i]? = some ⟨b, st⟩ → (st = .stopping ∨ ∃ r, st = .waiting r) →
    s.running = true ∧ s.sig = some b ∧ (∀ r, st = .waiting r → r = b)

theorem own_setG {s : St} (h : Own s) (i : Nat) (st : GSt)
    (hst : ∀ b st0, s.gs[i]? = some ⟨b, st0⟩ → (st = .stopping ∨ ∃ r, st = .waiting r) →
      s.running = true ∧ s.sig = some b ∧ (∀ r, st = .waiting r → r = b)) : Own (setG s i st) := by
  unfold setG
  split
  · exact h
  · rename_i g hg
    obtain ⟨b0, st0⟩ := g
    intro j b st' hj hst'
    simp only [List.getElem?_set] at hj
    split at hj
    · rename_i hij
      split at hj
      · simp only [Option.some.injEq, G.mk.injEq] at hj
        obtain ⟨rfl, rfl⟩ := hj
        exact hst _ _ hg hst'
      · cases hj
    · exact h j b st' hj hst'

theorem own_stop {subs : List Nat} {s s' : St} {o : Out} (bad : List Nat) (h : Own s)
    (hn : ∀ (j : Nat) b, s.gs[j]? ≠ some ⟨b, .stopping⟩) (hs : stop subs bad s = .ok (s', o)) : Own s' := by
  unfold stop at hs
  split at hs
  · split at hs
    · cases hs
    · rename_i r hr
      simp only [Res.ok.injEq, Prod.mk.injEq] at hs
      obtain ⟨rfl, _⟩ := hs
      intro i b st hi hst
      simp only [List.getElem?_map] at hi
      cases hg : s.gs[i]? with
      | none => simp [hg] at hi
      | some g =>
        obtain ⟨b0, st0⟩ := g
        simp only [hg, Option.map_some, Option.some.injEq] at hi
        unfold wake at hi
        split at hi
        · simp only [G.mk.injEq] at hi
          obtain ⟨rfl, rfl⟩ := hi
          rcases hst with hst | ⟨_, hst⟩ <;> cases hst
        · rename_i hne
          simp only [G.mk.injEq] at hi
          obtain ⟨rfl, rfl⟩ := hi
          rcases hst with hst | ⟨q, hst⟩
          · exact absurd (hst ▸ hg) (hn i b0)
          · obtain ⟨_, h2, h3⟩ := h i b0 st0 hg (Or.inr ⟨q, hst⟩)
            have hq := h3 q hst
            rw [hr] at h2
            simp only [Option.some.injEq] at h2
            simp only at hne
            rw [hst, hq, h2] at hne
            exact absurd rfl hne
  · simp only [Res.ok.injEq, Prod.mk.injEq] at hs
    obtain ⟨rfl, _⟩ := hs
    exact h

theorem own_step {subs : List Nat} {s s' : St} (h : Own s) (o : Op) (hp : prompt s o) (hs : step subs s o = .ok s') : Own s' := by
  cases o with
  | start n bad =>
    simp only [step, start] at hs
    simp only [Res.ok.injEq] at hs
    subst hs
    split
    · exact h
    · rename_i hr
      intro i b st hi hst
      simp only [List.getElem?_append] at hi
      split at hi
      · have := h i b st hi hst
        rw [this.1] at hr
        exact absurd rfl hr
      · rw [List.getElem?_replicate] at hi
        split at hi
        · simp only [Option.some.injEq, G.mk.injEq] at hi
          obtain ⟨_, rfl⟩ := hi
          rcases hst with hst | ⟨_, hst⟩ <;> cases hst
        · cases hi
  | stop bad =>
    simp only [step] at hs
    cases hst : stop subs bad s with
    | ok x =>
      obtain ⟨s2, o⟩ := x
      rw [hst] at hs
      simp only [Res.bind, Res.ok.injEq] at hs
      subst hs
      exact own_stop bad h (fun j b hj => by have := hp j b hj; cases this) hst
    | err => rw [hst] at hs; cases hs
    | panic => rw [hst] at hs; cases hs
  | eval i =>
    simp only [step] at hs
    split at hs
    · rename_i b hg
      obtain ⟨p1, p2⟩ := hp b hg
      rw [p2] at hs
      simp only [Res.ok.injEq] at hs
      subst hs
      apply own_setG h
      intro b' st0 hg' hst
      rw [hg] at hg'
      simp only [Option.some.injEq, G.mk.injEq] at hg'
      obtain ⟨rfl, rfl⟩ := hg'
      refine ⟨p1, p2, fun r hr => ?_⟩
      rw [p1] at hr
      simp only [if_true, GSt.waiting.injEq] at hr
      exact hr.symm
    · cases hs; exact h
  | evalFire i =>
    simp only [step] at hs
    split at hs
    · rename_i b hg
      obtain ⟨p1, p2⟩ := hp b hg
      simp only [Res.ok.injEq] at hs
      subst hs
      apply own_setG h
      intro b' st0 hg' hst
      rw [hg] at hg'
      simp only [Option.some.injEq, G.mk.injEq] at hg'
      obtain ⟨rfl, rfl⟩ := hg'
      exact ⟨p1, p2, fun r hr => by cases hr⟩
    · cases hs; exact h
  | fire i =>
    simp only [step] at hs
    split at hs
    · rename_i b q hg
      simp only [Res.ok.injEq] at hs
      subst hs
      apply own_setG h
      intro b' st0 hg' hst
      have := h i b _ hg (Or.inr ⟨q, rfl⟩)
      rw [hg] at hg'
      simp only [Option.some.injEq, G.mk.injEq] at hg'
      obtain ⟨rfl, rfl⟩ := hg'
      exact ⟨this.1, this.2.1, fun r hr => by cases hr⟩
    · cases hs; exact h
  | exec i bad =>
    simp only [step] at hs
    split at hs
    · rename_i b hg
      have ho : Own (setG s i .done) := own_setG h i .done (fun b' st0 _ hst => by
        rcases hst with hst | ⟨_, hst⟩ <;> cases hst)
      cases hst : stop subs bad (setG s i .done) with
      | ok x =>
        obtain ⟨s2, o⟩ := x
        rw [hst] at hs
        simp only [Res.bind, Res.ok.injEq] at hs
        subst hs
        refine own_stop bad ho (fun j b' hj => ?_) hst
        unfold setG at hj
        rw [hg] at hj
        simp only [List.getElem?_set] at hj
        split at hj
        · split at hj
          · simp at hj
          · cases hj
        · rename_i hij
          have := hp j b' hj
          simp only [Option.some.injEq] at this
          exact hij this
      | err => rw [hst] at hs; cases hs
      | panic => rw [hst] at hs; cases hs
    · cases hs; exact h

theorem own_run {subs : List Nat} {s s' : St} (h : Own s) (ops : List Op) (hp : promptRun subs s ops)
    (hs : run subs s ops = .ok s') : Own s' := by
  induction ops generalizing s with
  | nil => cases hs; exact h
  | cons o r ih =>
    obtain ⟨h1, h2⟩ := hp
    unfold run at hs
    cases hst : step subs s o with
    | ok s2 =>
      rw [hst] at hs
      exact ih (own_step h o h1 hst) (h2 s2 hst) hs
    | err => rw [hst] at hs; cases hs
    | panic => rw [hst] at hs; cases hs

/-- C47 for fair schedules: whenever a timer stops a run, it is the run the timer was set for. -/
theorem timer_stops_own_run_partial (subs : List Nat) (ops : List Op) (s : St) (hr : run subs (new false) ops = .ok s)
    (hp : promptRun subs (new false) ops) (o : Op) (g : G) (r : Nat) (h : stops s o = some (g, r)) : r = g.born := by
  have ho : Own s := own_run (s := new false) (fun i b st hi => by simp [new] at hi) ops hp hr
  unfold stops at h
  split at h
  · split at h
    · rename_i b hg
      split at h
      · have := ho _ b _ hg (Or.inl rfl)
        rw [this.2.1] at h
        simp only [Option.map_some, Option.some.injEq, Prod.mk.injEq] at h
        rw [← h.1, ← h.2]
      · cases h
    · cases h
  · cases h

/-- Finding (C47 fails in general): a goroutine about to call `Stop` stops whatever run is on, whichever run it was
set for. -/
theorem timer_stops_any_run (subs : List Nat) (s : St) (i b r : Nat) (bad : List Nat) (hg : s.gs[i]? = some ⟨b, .stopping⟩)
    (hr : s.running = true) (hs : s.sig = some r) :
    stops s (.exec i bad) = some (⟨b, .stopping⟩, r) ∧ ∃ s', step subs s (.exec i bad) = .ok s' ∧ s'.running = false := by
  constructor
  · simp [stops, hg, hr, hs]
  · simp only [step]
    rw [hg]
    simp only
    have hset : (setG s i .done).running = true ∧ (setG s i .done).sig = some r := by
      unfold setG; rw [hg]; exact ⟨hr, hs⟩
    unfold stop
    rw [hset.1, hset.2]
    exact ⟨_, rfl, rfl⟩

/-- Three ways a timer of run 0 stops run 1: the goroutine starts late, or with an expired timer, or `Stop` has to
wait for the mutex. -/
example : ((run [7] (new false) [.start 1 [], .stop [], .start 0 [], .eval 0, .fire 0]).bind
    (fun s => .ok (stops s (.exec 0 [])))) = .ok (some (⟨0, .stopping⟩, 1)) := by decide
example : ((run [7] (new false) [.start 1 [], .stop [], .evalFire 0, .start 0 []]).bind
    (fun s => .ok (stops s (.exec 0 [])))) = .ok (some (⟨0, .stopping⟩, 1)) := by decide
example : ((run [7] (new false) [.start 1 [], .eval 0, .fire 0, .stop [], .start 0 []]).bind
    (fun s => .ok (stops s (.exec 0 [])))) = .ok (some (⟨0, .stopping⟩, 1)) := by decide
/-- A fair schedule with two timed runs; the first is stopped by hand, the second by its timer. -/
example : ((run [7] (new false) [.start 1 [], .eval 0, .stop [], .start 1 [], .eval 1, .fire 0, .fire 1]).bind
    (fun s => .ok (stops s (.exec 0 []), stops s (.exec 1 [])))) = .ok (none, some (⟨1, .stopping⟩, 1)) := by decide

/-! ### The control API -/

/-- The requests that concern the module (profile_module.go:117-137, 158-169); the others call into the agent. -/
inductive Req
  | start (n : Nat) (bad : List Nat)
  | stop (bad : List Nat)
  | status
  | other

/-- Codes `NoError`, `StartWithError`, `StopWithError`, `NoOperation` and the messages of `status`. -/
inductive Resp
  | noError
  | startWithError
  | stopWithError
  | running
  | stopped
  | noOperation
deriving DecidableEq

/-- `HandRequest` (profile_module.go:117-191). -/
def handle (subs : List Nat) (s : St) : Req → Res (St × Resp)
  | .start n bad => match start subs n bad s with
    | (s', .done false) => .ok (s', .noError)
    | (s', _) => .ok (s', .startWithError)
  | .stop bad => (stop subs bad s).bind (fun x => match x.2 with
    | .done false => .ok (x.1, .noError)
    | _ => .ok (x.1, .stopWithError))
  | .status => .ok (s, if s.running then .running else .stopped)
  | .other => .ok (s, .noOperation)

/-- What requests report: a start that succeeds leaves the module running, a stop that succeeds leaves it stopped, and
`status` tells which. -/
theorem responses_tell_status (subs : List Nat) (hn : subs.Nodup) (ops : List Op) (s : St)
    (h : run subs (new false) ops = .ok s) (n : Nat) (bad : List Nat) :
    (∀ s', handle subs s (.start n bad) = .ok (s', .noError) → s.running = false ∧ handle subs s' .status = .ok (s', .running)) ∧
    (∀ s', handle subs s (.stop bad) = .ok (s', .noError) → s.running = true ∧ handle subs s' .status = .ok (s', .stopped)) ∧
    ∃ x, handle subs s (.stop bad) = .ok x := by
  obtain ⟨a1, a2, a3, s2, o, b1, b2, b3, b4⟩ := request_outcome subs hn ops s h n bad
  refine ⟨fun s' hs => ?_, fun s' hs => ?_, ?_⟩
  · simp only [handle] at hs
    split at hs
    · rename_i s3 heq
      simp only [Res.ok.injEq, Prod.mk.injEq, and_true] at hs
      subst hs
      rw [heq] at a1 a3
      refine ⟨?_, by simp [handle]; exact a3⟩
      cases hr : s.running with
      | false => rfl
      | true => have := a1.2 hr; cases this
    · simp at hs
  · simp only [handle, b1, Res.bind] at hs
    split at hs
    · simp only [Res.ok.injEq, Prod.mk.injEq, and_true] at hs
      subst hs
      refine ⟨?_, by simp [handle]; exact b4⟩
      cases hr : s.running with
      | true => rfl
      | false => have := b2.2 hr; cases this
    · simp at hs
  · simp only [handle, b1, Res.bind]
    split
    · exact ⟨_, rfl⟩
    · exact ⟨_, rfl⟩

/-- A request reports success exactly if it changed the state of the module and no sub-module failed. -/
theorem success_reported_iff (subs : List Nat) (hn : subs.Nodup) (ops : List Op) (s : St)
    (h : run subs (new false) ops = .ok s) (n : Nat) (bad : List Nat) :
    ((∃ s', handle subs s (.start n bad) = .ok (s', .noError)) ↔ s.running = false ∧ ∀ x ∈ subs, x ∉ bad) ∧
    ((∃ s', handle subs s (.stop bad) = .ok (s', .noError)) ↔ s.running = true ∧ ∀ x ∈ subs, x ∉ bad) := by
  have any : subs.any (fun x => bad.contains x) = false ↔ ∀ x ∈ subs, x ∉ bad := by
    rw [List.any_eq_false]; simp
  obtain ⟨_, _, _, s2, o, b1, _, _, _⟩ := request_outcome subs hn ops s h n bad
  constructor
  · unfold handle start
    cases hr : s.running with
    | true => simp
    | false =>
      simp only [Bool.false_eq_true, ↓reduceIte, true_and, ← any]
      cases subs.any (fun x => bad.contains x) <;> simp
  · unfold handle
    unfold stop at b1 ⊢
    cases hr : s.running with
    | false => simp [Res.bind]
    | true =>
      simp only [hr, ↓reduceIte] at b1 ⊢
      cases hs : s.sig with
      | none => rw [hs] at b1; simp at b1
      | some r =>
        simp only [Res.bind, true_and, ← any]
        cases subs.any (fun x => bad.contains x) <;> simp

example : (∃ s', handle [1, 2] (new false) (.start 0 [3]) = .ok (s', .noError)) ∧
    ¬ ∃ s', handle [1, 2] (new false) (.start 0 [2]) = .ok (s', .noError) := by
  have h := fun bad => (success_reported_iff [1, 2] (by decide) [] (new false) rfl 0 bad).1
  constructor
  · exact (h [3]).2 (by decide)
  · intro hc; exact absurd ((h [2]).1 hc) (by decide)

end Kindling.Ctl.Module
