import Verif.Cpu.Send
/-
Forgetting exited threads and old traces: trimExitedThread (cpuanalyzer/cpu_analyzer.go:366-373),
delete_tid.go, delete_javatrace.go, analyzerJavaTraceTime (cpu_analyzer.go:121-164),
StartProfile / StopProfile (module_control.go:14-46), Start (cpu_analyzer.go:72-77).

Both queues have the same code; here once, for any key.  Times are naturals and the clock of the
operations does not go back (`time.Now()` carries a monotonic reading).
Simplified: each operation holds its locks for its whole length, as the thread queue does.  The trace
queue does not: it is appended to under `jtlock` (cpu_analyzer.go:122-125) but popped under
`queueMutex` as well as `jtlock` (delete_javatrace.go:46-67), while `GetFront` reads it under
`queueMutex` alone; this data race is outside the model.
-/
namespace Kindling.Cpu.Expire

/-- `deleteTid` / `deleteVal` (delete_tid.go:13-17, delete_javatrace.go:13-16). -/
structure Elem (κ : Type) where
  key : κ
  time : Nat
deriving DecidableEq

variable {κ α : Type} [DecidableEq κ]

/-- One sweep (delete_tid.go:45-72, delete_javatrace.go:44-70): from the front, as long as the front
element is old enough, delete its key from the map and pop it. -/
def sweep (delay now : Nat) : List (Elem κ) → AMap κ α → List (Elem κ) × AMap κ α
  | [], m => ([], m)
  | x :: q, m => if now < x.time + delay then (x :: q, m) else sweep delay now q (m.del x.key)

/-- The queue is in order of time. -/
def Sorted (q : List (Elem κ)) : Prop := q.Pairwise (fun a b => a.time ≤ b.time)

/-- C35, one sweep, on a queue in order of time: the elements older than the delay leave the queue, all
others stay; exactly the keys of the former are removed from the map. -/
theorem sweep_spec (delay now : Nat) (q : List (Elem κ)) (m : AMap κ α) (hs : Sorted q) :
    (sweep delay now q m).1 = q.filter (fun x => decide (now < x.time + delay)) ∧
    ∀ k, (sweep delay now q m).2.get k =
      if ∃ x ∈ q, x.key = k ∧ x.time + delay ≤ now then none else m.get k := by
  induction q generalizing m with
  | nil => simp [sweep]
  | cons x q ih =>
    have hx := List.pairwise_cons.1 hs
    simp only [sweep]
    by_cases hc : now < x.time + delay
    · rw [if_pos hc]
      constructor
      · symm
        rw [List.filter_eq_self]
        intro y hy
        rcases List.mem_cons.1 hy with rfl | hy
        · simpa using hc
        · have := hx.1 y hy
          simp only [decide_eq_true_eq]; omega
      · intro k
        rw [if_neg]
        rintro ⟨y, hy, _, h2⟩
        rcases List.mem_cons.1 hy with rfl | hy
        · omega
        · have := hx.1 y hy; omega
    · rw [if_neg hc]
      obtain ⟨h1, h2⟩ := ih (m.del x.key) hx.2
      constructor
      · rw [h1, List.filter_cons, if_neg (by simpa using hc)]
      · intro k
        rw [h2 k]
        by_cases he : ∃ y ∈ q, y.key = k ∧ y.time + delay ≤ now
        · rw [if_pos he, if_pos]
          obtain ⟨y, hy, h⟩ := he
          exact ⟨y, by simp [hy], h⟩
        · rw [if_neg he, AMap.get_del]
          by_cases hk : x.key = k
          · rw [if_pos hk, if_pos ⟨x, by simp, hk, by omega⟩]
          · rw [if_neg hk, if_neg]
            rintro ⟨y, hy, h3, h4⟩
            rcases List.mem_cons.1 hy with rfl | hy
            · exact hk h3
            · exact he ⟨y, hy, h3, h4⟩

/-! ### Histories -/

/-- What happens to a map with its delete queue. -/
inductive Op (κ α : Type)
  | put (k : κ) (v : α)
  | exit (k : κ)
  | sweep

/-- State: the map and the queue. -/
structure St (κ α : Type) where
  queue : List (Elem κ)
  map : AMap κ α

def stepOp (delay now : Nat) (s : St κ α) : Op κ α → St κ α
  | .put k v => { s with map := s.map.set k v }
  | .exit k => { s with queue := s.queue ++ [⟨k, now⟩] }
  | .sweep => ⟨(sweep delay now s.queue s.map).1, (sweep delay now s.queue s.map).2⟩

/-- A history of operations with their times. -/
def run (delay : Nat) (s : St κ α) : List (Nat × Op κ α) → St κ α
  | [] => s
  | (now, o) :: r => run delay (stepOp delay now s o) r

/-- The clock does not go back. -/
def Clock (t : Nat) : List (Nat × Op κ α) → Prop
  | [] => True
  | (now, _) :: r => t ≤ now ∧ Clock now r

def Inv (t : Nat) (s : St κ α) : Prop := Sorted s.queue ∧ ∀ x ∈ s.queue, x.time ≤ t

theorem step_inv {delay t now : Nat} {s : St κ α} (h : Inv t s) (ht : t ≤ now) (o : Op κ α) :
    Inv now (stepOp delay now s o) := by
  obtain ⟨h1, h2⟩ := h
  cases o with
  | put k v => exact ⟨h1, fun x hx => Nat.le_trans (h2 x hx) ht⟩
  | exit k =>
    constructor
    · simp only [stepOp, Sorted, List.pairwise_append]
      refine ⟨h1, List.pairwise_singleton _ _, ?_⟩
      intro a ha b hb
      simp only [List.mem_singleton] at hb
      subst hb
      exact Nat.le_trans (h2 a ha) ht
    · intro x hx
      simp only [stepOp, List.mem_append, List.mem_singleton] at hx
      rcases hx with hx | rfl
      · exact Nat.le_trans (h2 x hx) ht
      · exact Nat.le_refl _
  | sweep =>
    obtain ⟨g1, _⟩ := sweep_spec delay now s.queue s.map h1
    constructor
    · simp only [stepOp, g1, Sorted]
      exact List.Pairwise.sublist List.filter_sublist h1
    · intro x hx
      simp only [stepOp, g1, List.mem_filter] at hx
      exact Nat.le_trans (h2 x hx.1) ht

/-- The queue of every reachable state is in order. -/
theorem reach_inv {delay : Nat} (l : List (Nat × Op κ α)) {t : Nat} {s : St κ α} (h : Inv t s) (hc : Clock t l) :
    ∃ t', t ≤ t' ∧ Inv t' (run delay s l) := by
  induction l generalizing t s with
  | nil => exact ⟨t, Nat.le_refl _, h⟩
  | cons p r ih =>
    obtain ⟨now, o⟩ := p
    obtain ⟨t', h1, h2⟩ := ih (step_inv (delay := delay) h hc.1 o) hc.2
    exact ⟨t', Nat.le_trans hc.1 h1, h2⟩

/-- Whether a key is due at `now`: it was queued at least `delay` ago and not removed since. -/
def due (delay now : Nat) (q : List (Elem κ)) (k : κ) : Prop := ∃ x ∈ q, x.key = k ∧ x.time + delay ≤ now

/-- C35.  In every reachable state: a sweep removes a key that has been queued for the delay, and no key
that has not. -/
theorem exited_are_removed_partial {delay : Nat} {l : List (Nat × Op κ α)} (hc : Clock 0 l) (now : Nat) (k : κ) :
    let s := run delay ⟨[], []⟩ l
    let s' := stepOp delay now s .sweep
    (due delay now s.queue k → s'.map.get k = none) ∧
    (¬ due delay now s.queue k → s'.map.get k = s.map.get k) ∧
    (∀ x ∈ s'.queue, now < x.time + delay) ∧
    (∀ x ∈ s.queue, now < x.time + delay → x ∈ s'.queue) := by
  intro s s'
  obtain ⟨t', _, h, _⟩ := reach_inv (delay := delay) l (t := 0) (s := (⟨[], []⟩ : St κ α)) ⟨List.Pairwise.nil, by simp⟩ hc
  obtain ⟨g1, g2⟩ := sweep_spec delay now s.queue s.map h
  refine ⟨fun hd => ?_, fun hd => ?_, ?_, ?_⟩
  · exact (g2 k).trans (if_pos hd)
  · exact (g2 k).trans (if_neg hd)
  · intro x hx
    rw [show s'.queue = _ from g1] at hx
    simpa using (List.mem_filter.1 hx).2
  · intro x hx hlt
    rw [show s'.queue = _ from g1]
    exact List.mem_filter.2 ⟨hx, by simpa using hlt⟩

/-- The queue holds, for each exit of the history after the last sweep that was late enough, its key and time;
every element comes from an exit of the history. -/
theorem queue_from_exits {delay : Nat} (l : List (Nat × Op κ α)) {s : St κ α} {x : Elem κ}
    (hx : x ∈ (run delay s l).queue) : x ∈ s.queue ∨ (x.time, Op.exit x.key) ∈ l := by
  induction l generalizing s with
  | nil => exact Or.inl hx
  | cons p r ih =>
    obtain ⟨now, o⟩ := p
    rcases ih hx with h | h
    · cases o with
      | put k v => exact Or.inl h
      | exit k =>
        simp only [stepOp, List.mem_append, List.mem_singleton] at h
        rcases h with h | rfl
        · exact Or.inl h
        · exact Or.inr (by simp)
      | sweep =>
        simp only [stepOp] at h
        have : ∀ (q : List (Elem κ)) (m : AMap κ α), x ∈ (sweep delay now q m).1 → x ∈ q := by
          intro q
          induction q with
          | nil => intro m hm; simp [sweep] at hm
          | cons y q ihq =>
            intro m hm
            simp only [sweep] at hm
            split at hm
            · exact hm
            · exact List.mem_cons_of_mem _ (ihq _ hm)
        exact Or.inl (this _ _ h)
    · exact Or.inr (List.mem_cons_of_mem _ h)

/-- "No earlier than the delay": a key put into the map and never reported as exited is never removed. -/
theorem living_kept {delay : Nat} (l : List (Nat × Op κ α)) (hc : Clock 0 l) (now : Nat) (k : κ)
    (hk : ∀ t, (t, Op.exit k) ∉ l) :
    (stepOp delay now (run delay ⟨[], []⟩ l) .sweep).map.get k = (run delay (⟨[], []⟩ : St κ α) l).map.get k := by
  refine (exited_are_removed_partial hc now k).2.1 ?_
  rintro ⟨x, hx, rfl, _⟩
  rcases queue_from_exits l hx with h | h
  · simp at h
  · exact hk _ h

/-- Reuse of a key.  A thread number (or trace) that is used again before the sweep loses what was put
since: the delay counts from the earlier exit. -/
theorem reused_key_removed {delay : Nat} {l : List (Nat × Op κ α)} (hc : Clock 0 l) {now : Nat} {k : κ} {v : α}
    (hd : due delay now (run delay (⟨[], []⟩ : St κ α) l).queue k) :
    let s := stepOp delay now (run delay (⟨[], []⟩ : St κ α) l) (.put k v)
    s.map.get k = some v ∧ (stepOp delay now s .sweep).map.get k = none := by
  intro s
  obtain ⟨t', _, h, _⟩ := reach_inv (delay := delay) l (t := 0) (s := (⟨[], []⟩ : St κ α)) ⟨List.Pairwise.nil, by simp⟩ hc
  refine ⟨AMap.get_set_self _ _ _, ?_⟩
  obtain ⟨_, g2⟩ := sweep_spec delay now s.queue s.map h
  exact (g2 k).trans (if_pos hd)

/-- An event of a thread that arrives after the thread was removed brings it back for good: without
another exit no history of sweeps and other operations removes it. -/
theorem late_event_stays {delay : Nat} (l : List (Nat × Op κ α)) {t : Nat} {s : St κ α} (h : Inv t s) (hc : Clock t l)
    {k : κ} (hq : ∀ x ∈ s.queue, x.key ≠ k) (hk : ∀ t, (t, Op.exit k) ∉ l) {v : α} (hv : s.map.get k = some v) :
    ∃ v', (run delay s l).map.get k = some v' := by
  induction l generalizing t s v with
  | nil => exact ⟨v, hv⟩
  | cons p r ih =>
    obtain ⟨now, o⟩ := p
    have hinv := step_inv (delay := delay) h hc.1 o
    have hk' : ∀ t, (t, Op.exit k) ∉ r := fun t ht => hk t (List.mem_cons_of_mem _ ht)
    cases o with
    | put k' v' =>
      by_cases he : k' = k
      · subst he
        exact ih hinv hc.2 hq hk' (v := v') (AMap.get_set_self _ _ _)
      · exact ih hinv hc.2 hq hk' (v := v) (by simp only [stepOp]; rw [AMap.get_set_ne _ _ he]; exact hv)
    | exit k' =>
      refine ih hinv hc.2 ?_ hk' hv
      intro x hx
      simp only [stepOp, List.mem_append, List.mem_singleton] at hx
      rcases hx with hx | rfl
      · exact hq x hx
      · rintro rfl; exact hk now (by simp)
    | sweep =>
      obtain ⟨g1, g2⟩ := sweep_spec delay now s.queue s.map h.1
      refine ih hinv hc.2 ?_ hk' (v := v) ?_
      · intro x hx
        rw [show (stepOp delay now s Op.sweep).queue = _ from g1] at hx
        exact hq x (List.mem_filter.1 hx).1
      · rw [show (stepOp delay now s Op.sweep).map.get k = _ from g2 k, if_neg]
        · exact hv
        · rintro ⟨x, hx, hkx, _⟩; exact hq x hx hkx

/-- Thread 7 exits at 5, is swept at 16 with a delay of 10; thread 8 exits at 12 and stays. -/
example :
    let l : List (Nat × Op Nat String) := [(1, .put 7 "a"), (2, .put 8 "b"), (5, .exit 7), (12, .exit 8)]
    Clock 0 l ∧ due 10 16 (run 10 ⟨[], []⟩ l).queue 7 ∧ ¬ due 10 16 (run 10 ⟨[], []⟩ l).queue 8 := by
  refine ⟨by simp [Clock], ⟨⟨7, 5⟩, by simp [run, stepOp], rfl, by decide⟩, ?_⟩
  rintro ⟨x, hx, hk, ht⟩
  simp [run, stepOp] at hx
  rcases hx with rfl | rfl <;> simp_all

/-! ### Two levels

The threads are kept per process (`map[pid]map[tid]`); the model above takes the pair as the key. -/

/-- Deleting a thread (delete_tid.go:60-68). -/
def del2 {α : Type} (m : AMap Nat (AMap Nat α)) (pid tid : Nat) : AMap Nat (AMap Nat α) :=
  match m.get pid with
  | none => m
  | some t => m.set pid (t.del tid)

def get2 {α : Type} (m : AMap Nat (AMap Nat α)) (pid tid : Nat) : Option α := (m.get pid).bind (·.get tid)

/-- It behaves like deletion of the pair. -/
theorem get2_del2 {α : Type} (m : AMap Nat (AMap Nat α)) (pid tid pid' tid' : Nat) :
    get2 (del2 m pid tid) pid' tid' = if pid = pid' ∧ tid = tid' then none else get2 m pid' tid' := by
  unfold get2 del2
  cases h : m.get pid with
  | none =>
    simp only
    split
    · rename_i hc; rw [← hc.1, h]; rfl
    · rfl
  | some t =>
    simp only
    rw [AMap.get_set]
    by_cases hp : pid = pid'
    · subst hp
      simp only [↓reduceIte, Option.bind_some, AMap.get_del, h, true_and]
    · simp [hp]

/-- The entry of the process itself is never removed, not even when its last thread is gone: the map
grows by one entry for every process ever seen while a profile runs. -/
theorem process_entry_stays {α : Type} (m : AMap Nat (AMap Nat α)) (pid tid pid' : Nat) :
    (del2 m pid tid).get pid' = none ↔ m.get pid' = none := by
  unfold del2
  cases h : m.get pid with
  | none => exact Iff.rfl
  | some t =>
    simp only
    rw [AMap.get_set]
    split
    · rename_i hp; rw [← hp, h]; simp
    · exact Iff.rfl

/-! ### The trace sweeper and the profile switch -/

/-- The goroutine started by `Start` (cpu_analyzer.go:75).  It waits on the analyzer's stop channel:
none before the first `StartProfile`, closed by `StopProfile`; then it returns
(delete_javatrace.go:40-42).  `StartProfile` does not start it again (module_control.go:18-31). -/
structure Life where
  enabled : Bool
  /-- a stop channel exists and is open -/
  open_ : Bool
  sweeper : Bool
deriving DecidableEq

inductive LOp | startProfile | stopProfile
deriving DecidableEq

def lstep (s : Life) : LOp → Option Life
  | .startProfile => some { s with enabled := true, open_ := true }
  | .stopProfile => if s.open_ then some ⟨false, false, false⟩ else none

def lrun (s : Life) : List LOp → Option Life
  | [] => some s
  | o :: r => match lstep s o with
    | none => none
    | some s' => lrun s' r

/-- State after `Start`. -/
def started : Life := ⟨false, false, true⟩

theorem sweeper_stays_dead {s s' : Life} {l : List LOp} (h : s.sweeper = false) (hr : lrun s l = some s') :
    s'.sweeper = false := by
  induction l generalizing s with
  | nil => simp only [lrun, Option.some.injEq] at hr; rw [← hr]; exact h
  | cons o r ih =>
    simp only [lrun] at hr
    cases o with
    | startProfile => exact ih (s := { s with enabled := true, open_ := true }) h hr
    | stopProfile =>
      simp only [lstep] at hr
      split at hr
      · cases hr
      · rename_i s1 hs
        split at hs
        · cases hs; exact ih rfl hr
        · cases hs

/-- The claim for traces fails after the first stop of the profile: in every later history, however
often the profile is started again, nothing removes old traces any more. -/
theorem sweeper_dies_with_first_stop {s' : Life} {l l' : List LOp} (h : lrun started (l ++ .stopProfile :: l') = some s') :
    s'.sweeper = false := by
  have hsplit : ∀ (l : List LOp) (s : Life), lrun s (l ++ .stopProfile :: l') = some s' → s'.sweeper = false := by
    intro l
    induction l with
    | nil =>
      intro s hr
      simp only [List.nil_append, lrun, lstep] at hr
      split at hr
      · cases hr
      · rename_i s1 hs
        split at hs
        · cases hs; exact sweeper_stays_dead rfl hr
        · cases hs
    | cons o r ih =>
      intro s hr
      simp only [List.cons_append, lrun] at hr
      split at hr
      · cases hr
      · exact ih _ hr
  exact hsplit l started h

example : lrun started [.startProfile, .stopProfile, .startProfile] = some ⟨true, true, false⟩ := by decide

/-- After a history that does not panic the profile is enabled, and its stop channel open, exactly if
the last call started it; the sweeper lives exactly as long as nothing has stopped the profile. -/
theorem life_after (l : List LOp) {s' : Life} (h : lrun started l = some s') :
    s'.enabled = decide (l.getLast? = some .startProfile) ∧ s'.open_ = s'.enabled ∧
    s'.sweeper = !decide (.stopProfile ∈ l) := by
  have app : ∀ (a : List LOp) (o : LOp) (s : Life), lrun s (a ++ [o]) = (lrun s a).bind (fun s1 => lstep s1 o) := by
    intro a o
    induction a with
    | nil =>
      intro s
      simp only [List.nil_append, lrun, Option.bind_some]
      cases lstep s o <;> rfl
    | cons x r ih =>
      intro s
      simp only [List.cons_append, lrun]
      cases lstep s x with
      | none => rfl
      | some s1 => exact ih s1
  induction l using snoc_ind generalizing s' with
  | nil => simp only [lrun, Option.some.injEq] at h; subst h; simp [started]
  | snoc l o ih =>
    rw [app] at h
    cases h1 : lrun started l with
    | none => rw [h1] at h; simp at h
    | some s1 =>
      rw [h1] at h
      obtain ⟨i1, i2, i3⟩ := ih h1
      simp only [Option.bind_some] at h
      cases o with
      | startProfile =>
        simp only [lstep, Option.some.injEq] at h; subst h
        simp [i3]
      | stopProfile =>
        simp only [lstep] at h
        split at h
        · simp only [Option.some.injEq] at h; subst h; simp
        · simp at h

/-- Stopping a profile that is not running panics (close of a nil or closed channel); the module
controller prevents this (C46). -/
theorem double_stop_panics (s s' : Life) (h : lstep s .stopProfile = some s') : lstep s' .stopProfile = none := by
  simp only [lstep] at h ⊢
  split at h
  · cases h; rfl
  · cases h

/-! ### Slow traces -/

/-- `analyzerJavaTraceTime` for the end of a trace (cpu_analyzer.go:133-135): the time spent, in
64-bit unsigned arithmetic, and whether the trace is reported as slow. -/
def spend (entry exit : UInt64) : UInt64 := exit - entry
def slowTrace (slowMs entry exit : UInt64) : Bool := slowMs * 1000000 < spend entry exit

/-- For an end after the start this is the comparison of the real times. -/
theorem slowTrace_iff_partial (slowMs entry exit : UInt64) (h : entry ≤ exit) (hm : slowMs.toNat * 1000000 < 2 ^ 64) :
    slowTrace slowMs entry exit = true ↔ entry.toNat + slowMs.toNat * 1000000 < exit.toNat := by
  unfold slowTrace spend
  simp only [decide_eq_true_eq, UInt64.lt_iff_toNat_lt]
  rw [UInt64.toNat_sub_of_le _ _ h, UInt64.toNat_mul]
  rw [UInt64.le_iff_toNat_le] at h
  have : (1000000 : UInt64).toNat = 1000000 := rfl
  rw [this, Nat.mod_eq_of_lt hm]
  omega

/-- An end that carries an earlier time than the start (events of different CPUs) is always reported as
slow, with a negative duration, unless the two are centuries apart. -/
theorem backwards_is_slow (slowMs entry exit : UInt64) (h : exit < entry) (hm : slowMs.toNat * 1000000 < 2 ^ 63)
    (hd : entry.toNat - exit.toNat < 2 ^ 63) :
    slowTrace slowMs entry exit = true ∧ (spend entry exit).toInt64.toInt < 0 := by
  rw [UInt64.lt_iff_toNat_lt] at h
  have he : (spend entry exit).toNat = 2 ^ 64 - (entry.toNat - exit.toNat) := by
    unfold spend
    rw [UInt64.toNat_sub]
    have := entry.toNat_lt
    have := exit.toNat_lt
    omega
  constructor
  · unfold slowTrace
    simp only [decide_eq_true_eq, UInt64.lt_iff_toNat_lt]
    rw [he, UInt64.toNat_mul]
    have : (1000000 : UInt64).toNat = 1000000 := rfl
    rw [this, Nat.mod_eq_of_lt (by omega)]
    omega
  · have hlt := (spend entry exit).toNat_lt
    have : (spend entry exit).toInt64.toInt = (spend entry exit).toBitVec.toInt := rfl
    rw [this, BitVec.toInt_eq_toNat_cond]
    have h2 : (spend entry exit).toBitVec.toNat = (spend entry exit).toNat := rfl
    rw [h2, he]
    split <;> omega

example : (5 : UInt64) < 9 ∧ slowTrace 500 9 5 = true := by decide

end Kindling.Cpu.Expire
