import Verif.Basic
/-
The routine that sends the events around a trigger for some time
(`collector/pkg/component/analyzer/cpuanalyzer/scheduled_task.go`): its loop, `Start`, `Stop` and
the timer, in any interleaving.
-/
namespace Kindling.Cpu.Task

/-- `ScheduledTaskRoutine` (scheduled_task.go:14-25) with the goroutines that use it: `loops` are in
the `select` of scheduled_task.go:54-70, `leaving` have returned from it with the deferred callback
still to run, `callbacks` have run it; `stops` are calls of `Stop` blocked in the send of
scheduled_task.go:82, `stopped` returned nil and `refused` returned an error; `timer` says the timer
has not been received yet, `ticking` that the ticker is not stopped; `runs` counts
`task.run`.  Simplified: durations are left out, so a tick or the timer may come at any time; a tick
kept in the channel of a stopped ticker is left out. -/
structure St where
  running : Bool
  loops : Nat
  leaving : Nat
  callbacks : Nat
  stops : Nat
  stopped : Nat
  refused : Nat
  timer : Bool
  ticking : Bool
  runs : Nat
  starts : Nat
deriving DecidableEq, Repr

/-- `NewAndStartScheduledTaskRoutine` (scheduled_task.go:27-45): the state after its `Start`. -/
def initial : St := { running := true, loops := 1, leaving := 0, callbacks := 0, stops := 0, stopped := 0, refused := 0,
                      timer := true, ticking := true, runs := 0, starts := 1 }

/-- What can happen next. -/
inductive Act where
  | tick      -- a loop receives from the ticker
  | expire    -- a loop receives from the timer
  | callback  -- a goroutine that left its loop runs the deferred callback
  | callStop  -- somebody calls `Stop`
  | meet      -- a loop receives what a `Stop` sends
  | callStart -- somebody calls `Start` again
deriving DecidableEq, Repr

/-- One step; `none` if it cannot happen (scheduled_task.go:47-84).  The compare-and-swap of `Stop`
and its send are two steps, as in the code. -/
def step (s : St) : Act → Option St
  | .tick => if 0 < s.loops ∧ s.ticking = true then some { s with runs := s.runs + 1 } else none
  | .expire => if 0 < s.loops ∧ s.timer = true then
      some { s with running := false, ticking := false, timer := false, loops := s.loops - 1, leaving := s.leaving + 1 } else none
  | .callback => if 0 < s.leaving then some { s with leaving := s.leaving - 1, callbacks := s.callbacks + 1 } else none
  | .callStop => if s.running = true then some { s with running := false, stops := s.stops + 1 }
      else some { s with refused := s.refused + 1 }
  | .meet => if 0 < s.loops ∧ 0 < s.stops then
      some { s with timer := false, ticking := false, loops := s.loops - 1, leaving := s.leaving + 1,
                    stops := s.stops - 1, stopped := s.stopped + 1 } else none
  | .callStart => if s.running = true then some s
      else some { s with running := true, loops := s.loops + 1, starts := s.starts + 1 }

/-- A sequence of steps. -/
def run (s : St) : List Act → Option St
  | [] => some s
  | a :: r => match step s a with
    | none => none
    | some s' => run s' r

theorem run_append (s : St) (a b : List Act) : run s (a ++ b) = (run s a).bind (fun s' => run s' b) := by
  induction a generalizing s with
  | nil => rfl
  | cons x r ih =>
    simp only [List.cons_append, run]
    cases step s x with
    | none => rfl
    | some s' => exact ih s'

/-- 1 for true. -/
def bit (b : Bool) : Nat := if b then 1 else 0

/-- What holds in every reachable state. -/
structure Inv (s : St) : Prop where
  threads : s.starts = s.loops + s.leaving + s.callbacks
  stopsLoops : s.stops + bit s.running ≤ s.loops + 1
  stopsTimer : s.timer = true → s.stops + bit s.running = s.loops
  loopsStops : s.loops ≤ s.stops + bit s.running
  ticks : s.ticking = s.timer
  first : s.timer = true → s.starts = s.loops

theorem inv_step {s s' : St} {a : Act} (h : Inv s) (hs : step s a = some s') : Inv s' := by
  obtain ⟨h1, h2, h3, h4, h5, h6⟩ := h
  obtain ⟨running, loops, leaving, callbacks, stops, stopped, refused, timer, ticking, runs, starts⟩ := s
  simp only at h1 h2 h3 h4 h5 h6
  subst h5
  cases a <;> simp only [step] at hs <;> split at hs <;>
    first
      | contradiction
      | (rename_i hc
         injection hs with hs
         subst hs
         constructor <;> simp only [bit] at * <;> cases running <;> cases ticking <;>
           simp only [Bool.false_eq_true, if_true, if_false, false_implies, not_true, not_false_eq_true,
             and_true, and_false, forall_const] at * <;> first | done | trivial | omega)

theorem inv_run {s s' : St} (as : List Act) (h : Inv s) (hs : run s as = some s') : Inv s' := by
  induction as generalizing s with
  | nil => simp only [run, Option.some.injEq] at hs; exact hs ▸ h
  | cons a r ih =>
    simp only [run] at hs
    cases hst : step s a with
    | none => rw [hst] at hs; exact absurd hs (by simp)
    | some t => rw [hst] at hs; exact ih (inv_step h hst) hs

theorem inv_initial : Inv initial := by constructor <;> decide

/-- A state the routine can get into. -/
def Reach (s : St) : Prop := ∃ as, run initial as = some s

theorem reach_inv {s : St} (h : Reach s) : Inv s := by
  obtain ⟨as, h⟩ := h
  exact inv_run as inv_initial h

/-- C84: the callback runs exactly once for every start: never more often, and for every routine that
is no longer in its loop and has nothing left to do it has run. -/
theorem callback_once {s : St} (h : Reach s) : s.callbacks ≤ s.starts ∧ (s.loops = 0 → s.leaving = 0 → s.callbacks = s.starts) := by
  have := (reach_inv h).threads
  omega

/-- The routine never has two loops unless it was started again, and `starts` counts exactly the calls that
started it. -/
theorem starts_count (as : List Act) {s s' : St} (h : run s as = some s') (hn : Act.callStart ∉ as) : s'.starts = s.starts := by
  induction as generalizing s with
  | nil => simp only [run, Option.some.injEq] at h; rw [h]
  | cons a r ih =>
    simp only [run] at h
    cases hst : step s a with
    | none => rw [hst] at h; exact absurd h (by simp)
    | some t =>
      rw [hst] at h
      rw [ih h (fun hm => hn (List.mem_cons_of_mem _ hm))]
      cases a <;> simp only [step] at hst <;> (try split at hst) <;>
        first
          | contradiction
          | (injection hst with hst; subst hst; rfl)
          | exact absurd (List.mem_cons_self) hn

/-- The routine of the code, which nobody starts again: at most one loop, at most one callback. -/
theorem one_loop (as : List Act) {s : St} (h : run initial as = some s) (hn : Act.callStart ∉ as) :
    s.loops + s.leaving + s.callbacks = 1 := by
  have h1 := starts_count as h hn
  have h2 := (inv_run as inv_initial h).threads
  rw [← h2, h1]; rfl

theorem step_runs {s s' : St} {a : Act} (h : step s a = some s') (ht : s.ticking = false) : s'.runs = s.runs ∧ s'.ticking = false := by
  cases a <;> simp only [step] at h <;> (try split at h) <;>
    first
      | contradiction
      | (injection h with h; subst h; exact ⟨rfl, ht⟩)
      | (injection h with h; subst h; exact ⟨rfl, rfl⟩)
      | (rename_i hc; rw [ht] at hc; exact absurd hc.2 (by decide))

/-- C84: once a loop was left, by the timer or by `Stop`, the task never runs again, whatever is called. -/
theorem no_run_after_end (as : List Act) {s s' : St} (h : run s as = some s') (ht : s.ticking = false) : s'.runs = s.runs := by
  induction as generalizing s with
  | nil => simp only [run, Option.some.injEq] at h; rw [h]
  | cons a r ih =>
    simp only [run] at h
    cases hst : step s a with
    | none => rw [hst] at h; exact absurd h (by simp)
    | some t =>
      rw [hst] at h
      obtain ⟨h1, h2⟩ := step_runs hst ht
      rw [ih h h2, h1]

theorem end_stops_ticks {s s' : St} (h : step s .expire = some s' ∨ step s .meet = some s') : s'.ticking = false := by
  rcases h with h | h <;> simp only [step] at h <;> split at h <;>
    first
      | contradiction
      | (injection h with h; subst h; rfl)

/-- C84: until the timer fires, every `Stop` that is waiting can be served, and a `Stop` of a running
routine ends a loop. -/
theorem stop_served_partial {s : St} (h : Reach s) (ht : s.timer = true) (hw : 0 < s.stops) :
    ∃ s', step s .meet = some s' ∧ s'.stops + 1 = s.stops ∧ s'.stopped = s.stopped + 1 ∧ s'.loops + 1 = s.loops ∧ s'.ticking = false := by
  have hi := (reach_inv h).stopsTimer ht
  have hl : 0 < s.loops := by omega
  simp only [step, if_pos (And.intro hl hw)]
  exact ⟨_, rfl, by simp; omega, rfl, by simp; omega, rfl⟩

/-- In every state at most one `Stop` waits for a loop that is not there. -/
theorem at_most_one_stuck {s : St} (h : Reach s) : s.stops ≤ s.loops + 1 := by
  have := (reach_inv h).stopsLoops
  omega

/-- C84, finding: if the timer fires between the two steps of `Stop`, the compare-and-swap and the send,
the call never returns, unless somebody starts the routine again: in any state of a running routine those two
steps lead to one in which the call waits, and it waits in every later state. -/
theorem stop_hangs (as : List Act) {s : St} (h : run initial as = some s) (hn : Act.callStart ∉ as) (hr : s.running = true)
    (ht : s.timer = true) :
    ∃ s', run s [.callStop, .expire] = some s' ∧
      ∀ (bs : List Act) (s'' : St), Act.callStart ∉ bs → run s' bs = some s'' → s''.stops = 1 ∧ s''.stopped = s'.stopped := by
  have hi := inv_run as inv_initial h
  have h1 := one_loop as h hn
  have h3 := hi.stopsTimer ht
  have h4 := hi.first ht
  have h5 := hi.threads
  rw [hr] at h3
  have hb : bit true = 1 := rfl
  have hl : s.loops = 1 := by omega
  have hs : s.stops = 0 := by omega
  refine ⟨{ s with running := false, ticking := false, timer := false, loops := 0, leaving := s.leaving + 1, stops := 1 }, ?_, ?_⟩
  · simp [run, step, hr, hl, ht, hs]
  · intro bs s'' hb hrun
    have key : ∀ (bs : List Act) (t t' : St), Act.callStart ∉ bs → t.loops = 0 → t.running = false → run t bs = some t' →
        t'.stops = t.stops ∧ t'.stopped = t.stopped := by
      intro bs
      induction bs with
      | nil => intro t t' _ _ _ hr'; simp only [run, Option.some.injEq] at hr'; subst hr'; exact ⟨rfl, rfl⟩
      | cons a r ih =>
        intro t t' hn' hl0 hr0 hr'
        simp only [run] at hr'
        have hnr : Act.callStart ∉ r := fun hm => hn' (List.mem_cons_of_mem _ hm)
        cases a with
        | callStart => exact absurd List.mem_cons_self hn'
        | tick => simp [step, hl0] at hr'
        | expire => simp [step, hl0] at hr'
        | meet => simp [step, hl0] at hr'
        | callback =>
          simp only [step] at hr'
          split at hr'
          · contradiction
          · rename_i u hu
            split at hu
            · injection hu with hu; subst hu
              have h := fun x y => ih _ _ hnr x y hr'
              exact h hl0 hr0
            · contradiction
        | callStop =>
          simp only [step, hr0, Bool.false_eq_true, if_false] at hr'
          have h := fun x y => ih _ _ hnr x y hr'
          exact h hl0 rfl
    have := key bs _ s'' hb rfl rfl hrun
    exact this

/-- A running routine with two ticks, then the race. -/
example : ∃ s, run initial [.tick, .tick] = some s ∧ s.running = true ∧ s.timer = true ∧ s.runs = 2 := by decide
example : (run initial [.tick, .callStop, .expire, .callback, .callStop]).map (fun s => (s.stops, s.refused, s.callbacks)) = some (1, 1, 1) := by decide
/-- Without the race `Stop` returns. -/
example : (run initial [.callStop, .tick, .meet, .callback]).map (fun s => (s.stops, s.stopped, s.callbacks, s.runs)) = some (0, 1, 1, 1) := by decide
/-- A routine that is started again after it expired has a loop, and never runs its task. -/
example : (run initial [.tick, .expire, .callStart]).map (fun s => (s.loops, s.runs, s.ticking)) = some (1, 1, false) := by decide

/-! ### The number of routines -/

/-- `routineSize` (send_trigger.go:100-105): incremented after a routine was created, decremented by its callback.
`pending` counts routines that were created but not counted yet. -/
structure Gauge where
  size : Int
  pending : Nat
  alive : Nat
deriving DecidableEq, Repr

inductive GStep : Gauge → Gauge → Prop
  | create (g : Gauge) : GStep g { g with pending := g.pending + 1, alive := g.alive + 1 }
  | count (g : Gauge) (h : 0 < g.pending) : GStep g { g with pending := g.pending - 1, size := g.size + 1 }
  | finish (g : Gauge) (h : 0 < g.alive) : GStep g { g with alive := g.alive - 1, size := g.size - 1 }

inductive GReach : Gauge → Prop
  | init : GReach ⟨0, 0, 0⟩
  | step {g g' : Gauge} : GReach g → GStep g g' → GReach g'

/-- The gauge is the number of routines whose callback has not run, less those just created. -/
theorem routine_size {g : Gauge} (h : GReach g) : g.size = (g.alive : Int) - (g.pending : Int) := by
  induction h with
  | init => rfl
  | step _ hs ih => cases hs <;> simp only at * <;> omega

example : GReach ⟨1, 0, 1⟩ := .step (.step .init (.create _)) (.count _ (by decide))

/-- C84: the task runs exactly once for every tick a loop received. -/
theorem runs_are_ticks (as : List Act) {s s' : St} (h : run s as = some s') : s'.runs = s.runs + as.count .tick := by
  induction as generalizing s with
  | nil => simp only [run, Option.some.injEq] at h; rw [h]; rfl
  | cons a r ih =>
    simp only [run] at h
    cases hst : step s a with
    | none => rw [hst] at h; cases h
    | some t =>
      rw [hst] at h
      have h1 : t.runs = s.runs + if a = .tick then 1 else 0 := by
        cases a <;> simp only [step] at hst <;> split at hst <;>
          first
            | contradiction
            | (injection hst with hst; subst hst; simp)
      rw [ih h, h1, List.count_cons]
      simp only [beq_iff_eq]
      omega

end Kindling.Cpu.Task
