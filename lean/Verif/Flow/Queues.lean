import Verif.Basic
/-
From the receiver's channel to the analyzers and through `Application.Shutdown`: `consumeEvents` and
`sendToNextConsumer` (collector/pkg/component/receiver/cgoreceiver/cgoreceiver.go:106-120, 176-192), the queues of the
network analyzer (analyzer/network/network_analyzer.go:165-193) and of the connect analyzer
(analyzer/tcpconnectanalyzer/analyzer.go:67-90, 238-241), `Manager.ShutdownAll` (analyzer/manager.go:68-78) and
`Application.Shutdown` (collector/internal/application/application.go:74-76).

Simplified: what an analyzer does with an event is one step that puts it behind the events it has handled; the tick of
the connect analyzer (analyzer.go:72-73) is left out; which analyzers want an event is a predicate (the table built by
`NewManager` is `Ctl/Manager.lean`); the goroutine that fetches events is the environment (`Ctl/Receiver.lean`); errors
of analyzers, which are only logged (cgoreceiver.go:186-189), are left out. `shutdownWG.Add(1)`, which `consumeEvents` does
itself (cgoreceiver.go:107), has been done before `Shutdown` waits. Channels of size 0 (a configured size of 0) would be
rendezvous and are excluded by the hypothesis `0 < cap` where it matters.
-/
namespace Kindling.Flow.Queues

/-- The analyzers, in the order of `NewManager` (application.go:139-140). -/
structure Cfg (E : Type) where
  n : Nat
  wants : Nat → E → Bool
  /-- `ConsumeEvent` puts the event into a channel of size `cap` that a goroutine of the analyzer reads (network,
  connect); otherwise the caller handles it (TCP metric, CPU). -/
  queued : Nat → Bool
  cap : Nat → Nat
  /-- `Shutdown` sends on an unbuffered stop channel (analyzer.go:238-241); otherwise it closes the stop
  channel (network_analyzer.go:165-170). -/
  meets : Nat → Bool

/-- `consumeEvents` (cgoreceiver.go:106-120): in its `select`; in the loop of `sendToNextConsumer` with the event and the
number of the analyzer that comes next; returned. -/
inductive DPc (E : Type) | idle | hand (e : E) (i : Nat) | done
deriving DecidableEq, Repr

/-- The goroutine of an analyzer: in its `select`; handling an event; returned. -/
inductive WPc (E : Type) | idle | busy (e : E) | done
deriving DecidableEq, Repr

/-- `Application.Shutdown`: not called; in `shutdownWG.Wait` of the receiver; at the `Shutdown` of analyzer `i`;
returned. -/
inductive HPc | no | waits | at (i : Nat) | returned
deriving DecidableEq, Repr

structure St (E : Type) where
  /-- the receiver's `eventChannel` -/
  src : List E
  disp : DPc E
  /-- ghost: events that went to all who want them -/
  past : List E
  q : Nat → List E
  w : Nat → WPc E
  /-- what an analyzer has handled -/
  out : Nat → List E
  /-- the receiver's `stopCh` is closed -/
  closed : Bool
  /-- the analyzer's stop channel is closed -/
  stopped : Nat → Bool
  sd : HPc

variable {E : Type}

def init : St E := ⟨[], .idle, [], fun _ => [], fun _ => .idle, fun _ => [], false, fun _ => false, .no⟩

inductive Act (E : Type)
  | fetch (e : E) | shut
  | take | dquit | call
  | wTake (i : Nat) | wFinish (i : Nat) | wQuit (i : Nat)
  | waited | stopA

def upd {α : Type} (f : Nat → α) (i : Nat) (v : α) : Nat → α := fun j => if j = i then v else f j

theorem upd_self {α : Type} (f : Nat → α) (i : Nat) (v : α) : upd f i v i = v := by simp [upd]
theorem upd_ne {α : Type} (f : Nat → α) {i j : Nat} (v : α) (h : j ≠ i) : upd f i v j = f j := by simp [upd, h]

/-- One turn of the loop over the analyzers (cgoreceiver.go:185-190). -/
def callOne (c : Cfg E) (s : St E) (e : E) (i : Nat) : Option (St E) :=
  if i = c.n then some { s with disp := .idle, past := s.past ++ [e] }
  else if !c.wants i e then some { s with disp := .hand e (i + 1) }
  else if c.queued i then
    if (s.q i).length < c.cap i then some { s with q := upd s.q i (s.q i ++ [e]), disp := .hand e (i + 1) } else none
  else some { s with out := upd s.out i (s.out i ++ [e]), disp := .hand e (i + 1) }

/-- One turn of the loop of `ShutdownAll` (manager.go:70-76). -/
def stopOne (c : Cfg E) (s : St E) (i : Nat) : Option (St E) :=
  if i = c.n then some { s with sd := .returned }
  else if !c.queued i then some { s with sd := .at (i + 1) }
  else if c.meets i then match s.w i with
    | .idle => some { s with w := upd s.w i .done, sd := .at (i + 1) }
    | _ => none
  else some { s with stopped := upd s.stopped i true, sd := .at (i + 1) }

/-- One step; `none`: it cannot be taken now. -/
def step (c : Cfg E) (s : St E) : Act E → Option (St E)
  | .fetch e => some { s with src := s.src ++ [e] }
  | .shut => if s.sd = .no then some { s with closed := true, sd := .waits } else none
  | .take => match s.disp, s.src with
    | .idle, e :: r => some { s with disp := .hand e 0, src := r }
    | _, _ => none
  | .dquit => match s.disp with
    | .idle => if s.closed then some { s with disp := .done } else none
    | _ => none
  | .call => match s.disp with
    | .hand e i => callOne c s e i
    | _ => none
  | .wTake i => if i < c.n ∧ c.queued i then match s.w i, s.q i with
      | .idle, e :: r => some { s with w := upd s.w i (.busy e), q := upd s.q i r }
      | _, _ => none
    else none
  | .wFinish i => if i < c.n then match s.w i with
      | .busy e => some { s with w := upd s.w i .idle, out := upd s.out i (s.out i ++ [e]) }
      | _ => none
    else none
  | .wQuit i => if i < c.n ∧ s.stopped i then match s.w i with
      | .idle => some { s with w := upd s.w i .done }
      | _ => none
    else none
  | .waited => match s.sd, s.disp with
    | .waits, .done => some { s with sd := .at 0 }
    | _, _ => none
  | .stopA => match s.sd with
    | .at i => stopOne c s i
    | _ => none

def run (c : Cfg E) : St E → List (Act E) → Option (St E)
  | s, [] => some s
  | s, a :: r => match step c s a with
    | none => none
    | some s' => run c s' r

theorem run_append {c : Cfg E} {s s' : St E} {a b : List (Act E)} :
    run c s (a ++ b) = some s' ↔ ∃ m, run c s a = some m ∧ run c m b = some s' := by
  induction a generalizing s with
  | nil => simp [run]
  | cons x r ih =>
    simp only [List.cons_append, run]
    cases step c s x with
    | none => simp
    | some m => exact ih

/-! ### Every analyzer gets its events in order -/

def inW : WPc E → List E
  | .busy e => [e]
  | _ => []

/-- The events that have been offered to analyzer `i`. -/
def offered (s : St E) (i : Nat) : List E :=
  match s.disp with
  | .hand e j => if i < j then s.past ++ [e] else s.past
  | _ => s.past

/-- The event being handed around. -/
def current (s : St E) : List E :=
  match s.disp with
  | .hand e _ => [e]
  | _ => []

def fetched : List (Act E) → List E
  | [] => []
  | .fetch e :: r => e :: fetched r
  | _ :: r => fetched r

/-- The state of the shutdown, and who has been told. -/
def Told (c : Cfg E) (s : St E) : HPc → Prop
  | .no => s.closed = false ∧ ∀ i, i < c.n → s.w i ≠ .done ∧ s.stopped i = false
  | .waits => s.closed = true ∧ ∀ i, i < c.n → s.w i ≠ .done ∧ s.stopped i = false
  | .at j => s.closed = true ∧ s.disp = .done ∧ j ≤ c.n ∧ (∀ i, j ≤ i → i < c.n → s.w i ≠ .done ∧ s.stopped i = false) ∧
      ∀ i, i < j → c.queued i = true → (c.meets i = true → s.w i = .done) ∧ (c.meets i = false → s.stopped i = true)
  | .returned => s.closed = true ∧ s.disp = .done ∧
      ∀ i, i < c.n → c.queued i = true → (c.meets i = true → s.w i = .done) ∧ (c.meets i = false → s.stopped i = true)

structure Inv (c : Cfg E) (s : St E) : Prop where
  eq : ∀ i, i < c.n → s.out i ++ inW (s.w i) ++ s.q i = (offered s i).filter (c.wants i)
  inl : ∀ i, c.queued i = false → s.q i = [] ∧ s.w i = .idle
  le : ∀ e j, s.disp = .hand e j → j ≤ c.n
  room : ∀ i, (s.q i).length ≤ c.cap i
  stq : ∀ i, s.stopped i = true → c.queued i = true
  told : Told c s s.sd

theorem init_inv (c : Cfg E) : Inv c init where
  eq := by simp [init, inW, offered]
  inl := by simp [init]
  le := by simp [init]
  room := by simp [init]
  stq := by simp [init]
  told := by simp [Told, init]

theorem told_w {c : Cfg E} {s s' : St E} {k : Nat} {p : WPc E} (h : Told c s s.sd) (hw : s'.w = upd s.w k p) (hp : p ≠ .done)
    (hk : s.w k ≠ .done) (h1 : s'.closed = s.closed) (h2 : s'.stopped = s.stopped) (h3 : s'.disp = s.disp) (h4 : s'.sd = s.sd) :
    Told c s' s'.sd := by
  have hnd : ∀ i, s.w i ≠ .done → s'.w i ≠ .done := by
    intro i hi
    rw [hw]
    by_cases hik : i = k
    · subst hik; rw [upd_self]; exact hp
    · rw [upd_ne _ _ hik]; exact hi
  have hd : ∀ i, s.w i = .done → s'.w i = .done := by
    intro i hi
    rw [hw, upd_ne _ _ (by rintro rfl; exact hk hi)]; exact hi
  rw [h4]
  cases hs : s.sd with
  | no => rw [hs] at h; exact ⟨h1 ▸ h.1, fun i hi => ⟨hnd i (h.2 i hi).1, by rw [h2]; exact (h.2 i hi).2⟩⟩
  | waits => rw [hs] at h; exact ⟨h1 ▸ h.1, fun i hi => ⟨hnd i (h.2 i hi).1, by rw [h2]; exact (h.2 i hi).2⟩⟩
  | «at» j =>
    rw [hs] at h
    obtain ⟨a, b, d, f, g⟩ := h
    exact ⟨h1 ▸ a, h3 ▸ b, d, fun i hi hn => ⟨hnd i (f i hi hn).1, by rw [h2]; exact (f i hi hn).2⟩,
      fun i hi hq => ⟨fun hm => hd i ((g i hi hq).1 hm), fun hm => by rw [h2]; exact (g i hi hq).2 hm⟩⟩
  | returned =>
    rw [hs] at h
    obtain ⟨a, b, g⟩ := h
    exact ⟨h1 ▸ a, h3 ▸ b,
      fun i hi hq => ⟨fun hm => hd i ((g i hi hq).1 hm), fun hm => by rw [h2]; exact (g i hi hq).2 hm⟩⟩

theorem told_disp {c : Cfg E} {s s' : St E} (h : Told c s s.sd) (hd : s.disp ≠ .done) (h1 : s'.closed = s.closed) (h2 : s'.stopped = s.stopped)
    (h3 : s'.w = s.w) (h4 : s'.sd = s.sd) : Told c s' s'.sd := by
  rw [h4]
  cases hs : s.sd with
  | no => rw [hs] at h; exact ⟨h1 ▸ h.1, by rw [h2, h3]; exact h.2⟩
  | waits => rw [hs] at h; exact ⟨h1 ▸ h.1, by rw [h2, h3]; exact h.2⟩
  | «at» j => rw [hs] at h; exact absurd h.2.1 hd
  | returned => rw [hs] at h; exact absurd h.2.1 hd

theorem told_same {c : Cfg E} {s s' : St E} (h : Told c s s.sd) (h0 : s'.disp = s.disp) (h1 : s'.closed = s.closed) (h2 : s'.stopped = s.stopped)
    (h3 : s'.w = s.w) (h4 : s'.sd = s.sd) : Told c s' s'.sd := by
  rw [h4]
  cases hs : s.sd with
  | no => rw [hs] at h; exact ⟨h1 ▸ h.1, by rw [h2, h3]; exact h.2⟩
  | waits => rw [hs] at h; exact ⟨h1 ▸ h.1, by rw [h2, h3]; exact h.2⟩
  | «at» j => rw [hs] at h; exact ⟨h1 ▸ h.1, h0 ▸ h.2.1, h.2.2.1, by rw [h2, h3]; exact h.2.2.2⟩
  | returned => rw [hs] at h; exact ⟨h1 ▸ h.1, h0 ▸ h.2.1, by rw [h2, h3]; exact h.2.2⟩

theorem offered_next {s : St E} {e : E} {i j : Nat} (hd : s.disp = .hand e i) (hj : j ≠ i) (s' : St E) (h1 : s'.past = s.past)
    (h2 : s'.disp = .hand e (i + 1)) : offered s' j = offered s j := by
  simp only [offered, hd, h2, h1]
  by_cases h : j < i
  · simp [h, Nat.lt_succ_of_lt h]
  · have h' : ¬ j < i + 1 := by omega
    simp [h, h']

theorem callOne_inv {c : Cfg E} {s s' : St E} {e : E} {i : Nat} (h : Inv c s) (hd : s.disp = .hand e i)
    (hs : callOne c s e i = some s') : Inv c s' := by
  have hnd : s.disp ≠ .done := by rw [hd]; simp
  have hle := h.le e i hd
  simp only [callOne] at hs
  split at hs
  · rename_i hi
    cases hs
    refine ⟨?_, h.inl, (fun _ _ hh => by cases hh), h.room, h.stq, told_disp h.told hnd rfl rfl rfl rfl⟩
    intro j hj
    have := h.eq j hj
    simp only [offered, hd, hi] at this ⊢
    rw [this]; simp [hj]
  · rename_i hi
    have hlt : i < c.n := by omega
    split at hs
    · rename_i hw
      cases hs
      refine ⟨?_, h.inl, (fun e' j hh => by cases hh; omega), h.room, h.stq, told_disp h.told hnd rfl rfl rfl rfl⟩
      intro j hj
      by_cases hji : j = i
      · subst hji
        have := h.eq j hj
        simp only [offered, hd] at this ⊢
        simp only [Nat.lt_irrefl, if_false] at this
        simp only [Nat.lt_succ_self, if_true]
        rw [this, List.filter_append]
        have : c.wants j e = false := by simpa using hw
        simp [this]
      · exact (h.eq j hj).trans (congrArg (List.filter _) (offered_next hd hji _ (by rfl) (by rfl)).symm)
    · rename_i hw
      have hw : c.wants i e = true := by simpa using hw
      split at hs
      · rename_i hq
        split at hs
        · rename_i hr
          cases hs
          refine ⟨?_, ?_, (fun e' j hh => by cases hh; omega), ?_, h.stq, told_disp h.told hnd rfl rfl rfl rfl⟩
          · intro j hj
            by_cases hji : j = i
            · subst hji
              have := h.eq j hj
              simp only [offered, hd, upd_self] at this ⊢
              simp only [Nat.lt_irrefl, if_false] at this
              simp only [Nat.lt_succ_self, if_true]
              rw [← List.append_assoc, this, List.filter_append]
              simp [hw]
            · simp only [upd_ne _ _ hji]; exact (h.eq j hj).trans (congrArg (List.filter _) (offered_next hd hji _ (by rfl) (by rfl)).symm)
          · intro j hj
            by_cases hji : j = i
            · subst hji; rw [hq] at hj; cases hj
            · simp only [upd_ne _ _ hji]; exact h.inl j hj
          · intro j
            by_cases hji : j = i
            · subst hji; simp only [upd_self, List.length_append, List.length_singleton]; omega
            · simp only [upd_ne _ _ hji]; exact h.room j
        · cases hs
      · rename_i hq
        have hq : c.queued i = false := by simpa using hq
        cases hs
        refine ⟨?_, h.inl, (fun e' j hh => by cases hh; omega), h.room, h.stq, told_disp h.told hnd rfl rfl rfl rfl⟩
        intro j hj
        by_cases hji : j = i
        · subst hji
          have := h.eq j hj
          obtain ⟨h1, h2⟩ := h.inl j hq
          simp only [offered, hd, upd_self, h1, h2, inW, List.append_nil] at this ⊢
          simp only [Nat.lt_irrefl, if_false] at this
          simp only [Nat.lt_succ_self, if_true]
          rw [this, List.filter_append]
          simp [hw]
        · simp only [upd_ne _ _ hji]; exact (h.eq j hj).trans (congrArg (List.filter _) (offered_next hd hji _ (by rfl) (by rfl)).symm)

theorem stopOne_inv {c : Cfg E} {s s' : St E} {i : Nat} (h : Inv c s) (hd : s.sd = .at i) (hs : stopOne c s i = some s') : Inv c s' := by
  have ht := h.told
  rw [hd] at ht
  obtain ⟨t1, t2, t3, t4, t5⟩ := ht
  simp only [stopOne] at hs
  split at hs
  · rename_i hi
    cases hs
    exact ⟨h.eq, h.inl, h.le, h.room, h.stq, ⟨t1, t2, fun j hj => t5 j (by omega)⟩⟩
  · rename_i hi
    split at hs
    · rename_i hq
      cases hs
      refine ⟨h.eq, h.inl, h.le, h.room, h.stq, ⟨t1, t2, by omega, fun j hj => t4 j (by omega), fun j hj hjq => ?_⟩⟩
      by_cases hji : j = i
      · subst hji; simp [hjq] at hq
      · exact t5 j (by omega) hjq
    · rename_i hq
      have hq : c.queued i = true := by simpa using hq
      split at hs
      · rename_i hm
        split at hs
        · rename_i hw
          cases hs
          refine ⟨?_, ?_, h.le, h.room, h.stq, ⟨t1, t2, by omega, ?_, ?_⟩⟩
          · intro j hj
            by_cases hji : j = i
            · subst hji
              have := h.eq j hj
              rw [hw] at this
              simpa [offered, upd_self, inW] using this
            · simp only [upd_ne _ _ hji]; exact h.eq j hj
          · intro j hj
            by_cases hji : j = i
            · subst hji; rw [hq] at hj; cases hj
            · simp only [upd_ne _ _ hji]; exact h.inl j hj
          · intro j hj hn
            simp only [upd_ne s.w _ (show j ≠ i by omega)]; exact t4 j (by omega) hn
          · intro j hj hjq
            by_cases hji : j = i
            · subst hji; exact ⟨fun _ => upd_self _ _ _, fun hf => (by rw [hm] at hf; cases hf)⟩
            · simp only [upd_ne s.w _ hji]; exact t5 j (by omega) hjq
        · cases hs
      · rename_i hm
        have hm : c.meets i = false := by simpa using hm
        cases hs
        refine ⟨h.eq, h.inl, h.le, h.room, ?_, ⟨t1, t2, by omega, ?_, ?_⟩⟩
        · intro j hj
          by_cases hji : j = i
          · subst hji; exact hq
          · simp only [upd_ne s.stopped _ hji] at hj; exact h.stq j hj
        · intro j hj hn
          simp only [upd_ne s.stopped _ (show j ≠ i by omega)]; exact t4 j (by omega) hn
        · intro j hj hjq
          by_cases hji : j = i
          · subst hji; exact ⟨fun hf => (by rw [hm] at hf; cases hf), fun _ => upd_self _ _ _⟩
          · simp only [upd_ne s.stopped _ hji]; exact t5 j (by omega) hjq

theorem step_inv {c : Cfg E} {s s' : St E} {a : Act E} (h : Inv c s) (hs : step c s a = some s') : Inv c s' := by
  cases a with
  | fetch e => simp only [step] at hs; cases hs; exact ⟨h.eq, h.inl, h.le, h.room, h.stq, told_same h.told rfl rfl rfl rfl rfl⟩
  | shut =>
    simp only [step] at hs
    split at hs
    · rename_i hsd
      cases hs
      have ht := h.told
      rw [hsd] at ht
      exact ⟨h.eq, h.inl, h.le, h.room, h.stq, ⟨rfl, ht.2⟩⟩
    · cases hs
  | take =>
    simp only [step] at hs
    split at hs
    · rename_i e r hd hsrc
      cases hs
      refine ⟨?_, h.inl, (fun e' j hh => by cases hh; omega), h.room, h.stq, told_disp h.told (by rw [hd]; simp) rfl rfl rfl rfl⟩
      intro i hi
      have := h.eq i hi
      simpa [offered, hd] using this
    · cases hs
  | dquit =>
    simp only [step] at hs
    split at hs
    · rename_i hd
      split at hs
      · cases hs
        refine ⟨?_, h.inl, (fun _ _ hh => by cases hh), h.room, h.stq, told_disp h.told (by rw [hd]; simp) rfl rfl rfl rfl⟩
        intro i hi
        have := h.eq i hi
        simpa [offered, hd] using this
      · cases hs
    · cases hs
  | call =>
    simp only [step] at hs
    split at hs
    · rename_i e i hd; exact callOne_inv h hd hs
    · cases hs
  | wTake i =>
    simp only [step] at hs
    split at hs
    · rename_i hi
      split at hs
      · rename_i e r hw hq
        cases hs
        refine ⟨?_, ?_, h.le, ?_, h.stq, told_w h.told rfl (by simp) (by rw [hw]; simp) rfl rfl rfl rfl⟩
        · intro j hj
          by_cases hji : j = i
          · subst hji
            have := h.eq j hj
            rw [hw, hq] at this
            simpa [offered, upd_self, inW] using this
          · simp only [upd_ne _ _ hji]; exact h.eq j hj
        · intro j hj
          by_cases hji : j = i
          · subst hji; rw [hi.2] at hj; cases hj
          · simp only [upd_ne _ _ hji]; exact h.inl j hj
        · intro j
          by_cases hji : j = i
          · subst hji
            have := h.room j
            rw [hq] at this
            simp only [upd_self, List.length_cons] at this ⊢; omega
          · simp only [upd_ne _ _ hji]; exact h.room j
      · cases hs
    · cases hs
  | wFinish i =>
    simp only [step] at hs
    split at hs
    · split at hs
      · rename_i e hw
        cases hs
        refine ⟨?_, ?_, h.le, h.room, h.stq, told_w h.told rfl (by simp) (by rw [hw]; simp) rfl rfl rfl rfl⟩
        · intro j hj
          by_cases hji : j = i
          · subst hji
            have := h.eq j hj
            rw [hw] at this
            simpa [offered, upd_self, inW] using this
          · simp only [upd_ne _ _ hji]; exact h.eq j hj
        · intro j hj
          by_cases hji : j = i
          · subst hji
            have := (h.inl j hj).2
            rw [hw] at this; cases this
          · simp only [upd_ne _ _ hji]; exact h.inl j hj
      · cases hs
    · cases hs
  | wQuit i =>
    simp only [step] at hs
    split at hs
    · rename_i hst
      have hst := hst.2
      split at hs
      · rename_i hw
        cases hs
        have hex : ∀ j, j < c.n → s.stopped j = false → j ≠ i := by rintro j _ hj rfl; rw [hst] at hj; cases hj
        refine ⟨?_, ?_, h.le, h.room, h.stq, ?_⟩
        · intro j hj
          by_cases hji : j = i
          · subst hji
            have := h.eq j hj
            rw [hw] at this
            simpa [offered, upd_self, inW] using this
          · simp only [upd_ne _ _ hji]; exact h.eq j hj
        · intro j hj
          by_cases hji : j = i
          · subst hji; rw [h.stq j hst] at hj; cases hj
          · simp only [upd_ne _ _ hji]; exact h.inl j hj
        · have ht := h.told
          show Told c _ s.sd
          cases hsd : s.sd with
          | no =>
            rw [hsd] at ht
            exact ⟨ht.1, fun j hj => by simp only [upd_ne s.w _ (hex j hj (ht.2 j hj).2)]; exact ht.2 j hj⟩
          | waits =>
            rw [hsd] at ht
            exact ⟨ht.1, fun j hj => by simp only [upd_ne s.w _ (hex j hj (ht.2 j hj).2)]; exact ht.2 j hj⟩
          | «at» k =>
            rw [hsd] at ht
            obtain ⟨a, b, d, f, g⟩ := ht
            refine ⟨a, b, d, fun j hk hj => ?_, fun j hj hjq => ⟨fun hm => ?_, (g j hj hjq).2⟩⟩
            · simp only [upd_ne s.w _ (hex j hj (f j hk hj).2)]; exact f j hk hj
            · by_cases hji : j = i
              · subst hji; exact upd_self _ _ _
              · simp only [upd_ne s.w _ hji]; exact (g j hj hjq).1 hm
          | returned =>
            rw [hsd] at ht
            obtain ⟨a, b, g⟩ := ht
            refine ⟨a, b, fun j hj hjq => ⟨fun hm => ?_, (g j hj hjq).2⟩⟩
            by_cases hji : j = i
            · subst hji; exact upd_self _ _ _
            · simp only [upd_ne s.w _ hji]; exact (g j hj hjq).1 hm
      · cases hs
    · cases hs
  | waited =>
    simp only [step] at hs
    split at hs
    · rename_i h1 h2
      cases hs
      have ht := h.told
      rw [h1] at ht
      exact ⟨h.eq, h.inl, h.le, h.room, h.stq, ⟨ht.1, h2, Nat.zero_le _, fun j _ hj => ht.2 j hj, fun j hj => by omega⟩⟩
    · cases hs
  | stopA =>
    simp only [step] at hs
    split at hs
    · rename_i i hd; exact stopOne_inv h hd hs
    · cases hs

theorem run_inv {c : Cfg E} {s s' : St E} {as : List (Act E)} (h : Inv c s) (hr : run c s as = some s') : Inv c s' := by
  induction as generalizing s with
  | nil => simp only [run] at hr; cases hr; exact h
  | cons a r ih =>
    simp only [run] at hr
    cases hs : step c s a with
    | none => rw [hs] at hr; cases hr
    | some m => rw [hs] at hr; exact ih (step_inv h hs) hr

/-- All events there are: handed around, being handed around, and still in the receiver's channel. -/
def events (s : St E) : List E := s.past ++ current s ++ s.src

theorem callOne_events {c : Cfg E} {s s' : St E} {e : E} {i : Nat} (hd : s.disp = .hand e i)
    (hs : callOne c s e i = some s') : events s' = events s := by
  simp only [callOne] at hs
  split at hs
  · cases hs; simp [events, current, hd]
  · split at hs
    · cases hs; simp [events, current, hd]
    · split at hs
      · split at hs
        · cases hs; simp [events, current, hd]
        · cases hs
      · cases hs; simp [events, current, hd]

theorem stopOne_frame {c : Cfg E} {s s' : St E} {i : Nat} (hs : stopOne c s i = some s') :
    s'.past = s.past ∧ s'.disp = s.disp ∧ s'.src = s.src ∧ s'.q = s.q ∧ s'.out = s.out := by
  simp only [stopOne] at hs
  split at hs
  · cases hs; simp
  · split at hs
    · cases hs; simp
    · split at hs
      · split at hs
        · cases hs; simp
        · cases hs
      · cases hs; simp

theorem step_events {c : Cfg E} {s s' : St E} {a : Act E} (hs : step c s a = some s') : events s' = events s ++ fetched [a] := by
  cases a with
  | fetch e => simp only [step] at hs; cases hs; simp [events, current, fetched]
  | shut => simp only [step] at hs; split at hs <;> cases hs; simp [events, current, fetched]
  | take =>
    simp only [step] at hs
    split at hs
    · rename_i e r hd hq; cases hs; simp [events, current, fetched, hd, hq]
    · cases hs
  | dquit =>
    simp only [step] at hs
    split at hs
    · rename_i hd
      split at hs
      · cases hs; simp [events, current, fetched, hd]
      · cases hs
    · cases hs
  | call =>
    simp only [step] at hs
    split at hs
    · rename_i e i hd; rw [callOne_events hd hs]; simp [fetched]
    · cases hs
  | wTake i =>
    simp only [step] at hs
    split at hs
    · split at hs
      · cases hs; simp [events, current, fetched]
      · cases hs
    · cases hs
  | wFinish i =>
    simp only [step] at hs
    split at hs
    · split at hs
      · cases hs; simp [events, current, fetched]
      · cases hs
    · cases hs
  | wQuit i =>
    simp only [step] at hs
    split at hs
    · split at hs
      · cases hs; simp [events, current, fetched]
      · cases hs
    · cases hs
  | waited =>
    simp only [step] at hs
    split at hs
    · cases hs; simp [events, current, fetched]
    · cases hs
  | stopA =>
    simp only [step] at hs
    split at hs
    · obtain ⟨h1, h2, h3, -⟩ := stopOne_frame hs
      simp [events, current, fetched, h1, h2, h3]
    · cases hs

theorem fetched_cons (a : Act E) (r : List (Act E)) : fetched (a :: r) = fetched [a] ++ fetched r := by
  cases a <;> simp [fetched]

theorem run_events {c : Cfg E} {s s' : St E} {as : List (Act E)} (hr : run c s as = some s') : events s' = events s ++ fetched as := by
  induction as generalizing s with
  | nil => simp only [run] at hr; cases hr; simp [fetched]
  | cons a r ih =>
    simp only [run] at hr
    cases hs : step c s a with
    | none => rw [hs] at hr; cases hr
    | some m =>
      rw [hs] at hr
      rw [ih hr, step_events hs, fetched_cons a r, List.append_assoc]

/-- **However the goroutines run**: nothing that was fetched is lost between the receiver's channel and the loop over the
analyzers, and what an analyzer has handled, is handling and has queued is, in order and without gaps or repeats, what it
wants of the events that went around — the one going around now being there or not yet. -/
theorem in_order {c : Cfg E} {as : List (Act E)} {s : St E} (hr : run c init as = some s) :
    s.past ++ current s ++ s.src = fetched as ∧
    ∀ i, i < c.n → s.out i ++ inW (s.w i) ++ s.q i = s.past.filter (c.wants i) ∨
      s.out i ++ inW (s.w i) ++ s.q i = (s.past ++ current s).filter (c.wants i) := by
  refine ⟨by simpa [events, init, current] using run_events hr, fun i hi => ?_⟩
  have h := (run_inv (init_inv c) hr).eq i hi
  rw [h]
  cases hd : s.disp with
  | idle => left; simp [offered, hd]
  | done => left; simp [offered, hd]
  | hand e j =>
    by_cases hij : i < j
    · right; simp [offered, current, hd, hij]
    · left; simp [offered, hd, hij]

/-! ### Rest -/

/-- Steps of the collector's own goroutines. -/
def Inner : Act E → Prop
  | .fetch _ => False
  | .shut => False
  | _ => True

/-- Nothing more happens by itself. -/
def Rest (c : Cfg E) (s : St E) : Prop := ∀ a, Inner a → step c s a = none

def sumTo (f : Nat → Nat) : Nat → Nat
  | 0 => 0
  | k + 1 => sumTo f k + f k

theorem sumTo_congr {f g : Nat → Nat} {n : Nat} (h : ∀ i, i < n → f i = g i) : sumTo f n = sumTo g n := by
  induction n with
  | zero => rfl
  | succ k ih => simp only [sumTo]; rw [ih (fun i hi => h i (by omega)), h k (by omega)]

theorem sumTo_change {f g : Nat → Nat} {n k : Nat} (hk : k < n) (h : ∀ i, i ≠ k → g i = f i) :
    sumTo g n + f k = sumTo f n + g k := by
  induction n with
  | zero => omega
  | succ m ih =>
    simp only [sumTo]
    by_cases hm : k = m
    · subst hm
      rw [sumTo_congr (n := k) (f := g) (g := f) (fun i hi => h i (by omega))]; omega
    · have := ih (by omega)
      rw [h m (fun e => hm e.symm)]; omega

def wRank : WPc E → Nat
  | .idle => 1
  | .busy _ => 2
  | .done => 0

def dRank (n : Nat) : DPc E → Nat
  | .idle => 1
  | .hand _ i => 2 + 3 * (n - i)
  | .done => 0

def hRank (n : Nat) : HPc → Nat
  | .no => n + 3
  | .waits => n + 2
  | .at i => n + 1 - i
  | .returned => 0

def aRank (s : St E) (i : Nat) : Nat := 2 * (s.q i).length + wRank (s.w i)

def rank (c : Cfg E) (s : St E) : Nat := s.src.length * (3 * c.n + 3) + dRank c.n s.disp + sumTo (aRank s) c.n + hRank c.n s.sd

theorem callOne_rank {c : Cfg E} {s s' : St E} {e : E} {i : Nat} (h : Inv c s) (hd : s.disp = .hand e i)
    (hs : callOne c s e i = some s') : rank c s' < rank c s := by
  have hle := h.le e i hd
  simp only [callOne] at hs
  split at hs
  · cases hs
    have : sumTo (aRank { s with disp := .idle, past := s.past ++ [e] }) c.n = sumTo (aRank s) c.n := rfl
    simp only [rank, this, dRank, hd]; omega
  · split at hs
    · cases hs
      have : sumTo (aRank { s with disp := .hand e (i + 1) }) c.n = sumTo (aRank s) c.n := rfl
      simp only [rank, this, dRank, hd]; omega
    · split at hs
      · split at hs
        · cases hs
          have := sumTo_change (f := aRank s) (g := aRank { s with q := upd s.q i (s.q i ++ [e]), disp := .hand e (i + 1) }) (n := c.n)
            (k := i) (by omega) (fun j hj => by simp [aRank, upd_ne _ _ hj])
          simp only [aRank, upd_self, List.length_append, List.length_singleton] at this
          simp only [rank, dRank, hd]
          omega
        · cases hs
      · cases hs
        have : sumTo (aRank { s with out := upd s.out i (s.out i ++ [e]), disp := .hand e (i + 1) }) c.n = sumTo (aRank s) c.n := rfl
        simp only [rank, this, dRank, hd]; omega

theorem w_rank {c : Cfg E} {s s' : St E} {i : Nat} (hi : i < c.n) (h1 : s'.src = s.src) (h2 : s'.disp = s.disp)
    (h3 : hRank c.n s'.sd ≤ hRank c.n s.sd) (ho : ∀ j, j ≠ i → aRank s' j = aRank s j) (hl : aRank s' i < aRank s i) : rank c s' < rank c s := by
  have := sumTo_change (f := aRank s) (g := aRank s') hi ho
  simp only [rank, h1, h2]; omega

theorem stopOne_rank {c : Cfg E} {s s' : St E} {i : Nat} (h : Inv c s) (hd : s.sd = .at i)
    (hs : stopOne c s i = some s') : rank c s' < rank c s := by
  have ht := h.told
  rw [hd] at ht
  have hle := ht.2.2.1
  simp only [stopOne] at hs
  split at hs
  · cases hs
    have : sumTo (aRank { s with sd := .returned }) c.n = sumTo (aRank s) c.n := rfl
    simp only [rank, this, hRank, hd]; omega
  · split at hs
    · cases hs
      have : sumTo (aRank { s with sd := .at (i + 1) }) c.n = sumTo (aRank s) c.n := rfl
      simp only [rank, this, hRank, hd]; omega
    · split at hs
      · split at hs
        · rename_i hw
          cases hs
          exact w_rank (i := i) (by omega) rfl rfl (by simp only [hRank, hd]; omega) (fun j hj => by simp [aRank, upd_ne _ _ hj])
            (by simp [aRank, upd_self, hw, wRank])
        · cases hs
      · cases hs
        have : sumTo (aRank { s with stopped := upd s.stopped i true, sd := .at (i + 1) }) c.n = sumTo (aRank s) c.n := rfl
        simp only [rank, this, hRank, hd]; omega

theorem step_rank {c : Cfg E} {s s' : St E} {a : Act E} (h : Inv c s) (hi : Inner a) (hs : step c s a = some s') :
    rank c s' < rank c s := by
  cases a with
  | fetch e => exact absurd hi (by simp [Inner])
  | shut => exact absurd hi (by simp [Inner])
  | take =>
    simp only [step] at hs
    split at hs
    · rename_i e r hd hq
      cases hs
      have : sumTo (aRank { s with disp := .hand e 0, src := r }) c.n = sumTo (aRank s) c.n := rfl
      simp only [rank, this, dRank, hd, hq, List.length_cons, Nat.succ_mul]; omega
    · cases hs
  | dquit =>
    simp only [step] at hs
    split at hs
    · rename_i hd
      split at hs
      · cases hs
        have : sumTo (aRank { s with disp := .done }) c.n = sumTo (aRank s) c.n := rfl
        simp only [rank, this, dRank, hd]; omega
      · cases hs
    · cases hs
  | call =>
    simp only [step] at hs
    split at hs
    · rename_i e i hd; exact callOne_rank h hd hs
    · cases hs
  | wTake i =>
    simp only [step] at hs
    split at hs
    · rename_i hn
      split at hs
      · rename_i e r hw hq
        cases hs
        exact w_rank hn.1 rfl rfl (Nat.le_refl _) (fun j hj => by simp [aRank, upd_ne _ _ hj])
          (by simp only [aRank, upd_self, hw, hq, wRank, List.length_cons]; omega)
      · cases hs
    · cases hs
  | wFinish i =>
    simp only [step] at hs
    split at hs
    · rename_i hn
      split at hs
      · rename_i e hw
        cases hs
        exact w_rank hn rfl rfl (Nat.le_refl _) (fun j hj => by simp [aRank, upd_ne _ _ hj])
          (by simp only [aRank, upd_self, hw, wRank]; omega)
      · cases hs
    · cases hs
  | wQuit i =>
    simp only [step] at hs
    split at hs
    · rename_i hn
      split at hs
      · rename_i hw
        cases hs
        exact w_rank hn.1 rfl rfl (Nat.le_refl _) (fun j hj => by simp [aRank, upd_ne _ _ hj])
          (by simp only [aRank, upd_self, hw, wRank]; omega)
      · cases hs
    · cases hs
  | waited =>
    simp only [step] at hs
    split at hs
    · rename_i h1 h2
      cases hs
      have : sumTo (aRank { s with sd := .at 0 }) c.n = sumTo (aRank s) c.n := rfl
      simp only [rank, this, hRank, h1]; omega
    · cases hs
  | stopA =>
    simp only [step] at hs
    split at hs
    · rename_i i hd; exact stopOne_rank h hd hs
    · cases hs

/-- From every state the collector's goroutines come to rest, in whatever order they run: no run of their steps is longer
than `rank`, and some run ends in rest. -/
theorem comes_to_rest {c : Cfg E} {as : List (Act E)} {s : St E} (hr : run c init as = some s) :
    (∀ bs s', (∀ a ∈ bs, Inner a) → run c s bs = some s' → bs.length ≤ rank c s) ∧
    ∃ bs s', (∀ a ∈ bs, Inner a) ∧ run c s bs = some s' ∧ Rest c s' := by
  have h := run_inv (init_inv c) hr
  clear hr
  constructor
  · intro bs
    induction bs generalizing s with
    | nil => simp
    | cons a r ih =>
      intro s' hi hb
      simp only [run] at hb
      cases hs : step c s a with
      | none => rw [hs] at hb; cases hb
      | some m =>
        rw [hs] at hb
        have h1 := ih (step_inv h hs) s' (fun x hx => hi x (List.mem_cons_of_mem _ hx)) hb
        have h2 := step_rank h (hi a (List.mem_cons_self ..)) hs
        simp only [List.length_cons]; omega
  · have key : ∀ k, ∀ s : St E, Inv c s → rank c s ≤ k → ∃ bs s', (∀ a ∈ bs, Inner a) ∧ run c s bs = some s' ∧ Rest c s' := by
      intro k
      induction k with
      | zero =>
        intro s h hk
        refine ⟨[], s, by simp, rfl, fun a ha => ?_⟩
        cases hs : step c s a with
        | none => rfl
        | some m => have := step_rank h ha hs; omega
      | succ k ih =>
        intro s h hk
        by_cases hrest : Rest c s
        · exact ⟨[], s, by simp, rfl, hrest⟩
        · simp only [Rest, Classical.not_forall] at hrest
          obtain ⟨a, ha, hne⟩ := hrest
          cases hs : step c s a with
          | none => exact absurd hs hne
          | some m =>
            obtain ⟨bs, s', h1, h2, h3⟩ := ih m (step_inv h hs) (by have := step_rank h ha hs; omega)
            refine ⟨a :: bs, s', ?_, by simp [run, hs, h2], h3⟩
            intro x hx
            cases List.mem_cons.1 hx with
            | inl e => exact e ▸ ha
            | inr e => exact h1 x e
    exact key _ s h (Nat.le_refl _)

/-- A goroutine that has not returned and has an event or a queue can move. -/
theorem worker_at_rest {c : Cfg E} {s : St E} (hrest : Rest c s) {i : Nat} (hi : i < c.n) (hq : c.queued i = true) :
    s.w i = .done ∨ (s.w i = .idle ∧ s.q i = [] ∧ s.stopped i = false) := by
  cases hw : s.w i with
  | done => exact Or.inl rfl
  | busy e =>
    have := hrest (.wFinish i) trivial
    simp [step, hi, hw] at this
  | idle =>
    right
    refine ⟨rfl, ?_, ?_⟩
    · cases hql : s.q i with
      | nil => rfl
      | cons e r =>
        have := hrest (.wTake i) trivial
        simp [step, hi, hq, hw, hql] at this
    · cases hst : s.stopped i with
      | false => rfl
      | true =>
        have := hrest (.wQuit i) trivial
        simp [step, hi, hst, hw] at this

/-- While no goroutine has been told to stop, the loop over the analyzers is not stuck at rest. -/
theorem loop_at_rest {c : Cfg E} {s : St E} (hcap : ∀ i, i < c.n → c.queued i = true → 0 < c.cap i) (h : Inv c s)
    (hnd : ∀ i, i < c.n → s.w i ≠ .done) (hrest : Rest c s) (e : E) (i : Nat) : s.disp ≠ .hand e i := by
  intro hd
  have hle := h.le e i hd
  have hc := hrest .call trivial
  simp only [step, hd, callOne] at hc
  split at hc
  · cases hc
  · rename_i hin
    split at hc
    · cases hc
    · split at hc
      · rename_i hq
        split at hc
        · cases hc
        · rename_i hfull
          have hi : i < c.n := by omega
          cases worker_at_rest hrest hi hq with
          | inl hw => exact hnd i hi hw
          | inr hw =>
            have := hcap i hi hq
            rw [hw.2.1] at hfull
            exact hfull this
      · cases hc

theorem step_done_closed {c : Cfg E} {s s' : St E} {a : Act E} (h : s.disp = .done → s.closed = true) (hs : step c s a = some s') :
    s'.disp = .done → s'.closed = true := by
  cases a with
  | fetch e => simp only [step] at hs; cases hs; exact h
  | shut => simp only [step] at hs; split at hs <;> cases hs; exact fun _ => rfl
  | take =>
    simp only [step] at hs
    split at hs <;> cases hs
    intro hf; cases hf
  | dquit =>
    simp only [step] at hs
    split at hs
    · split at hs
      · rename_i hc; cases hs; exact fun _ => hc
      · cases hs
    · cases hs
  | call =>
    simp only [step] at hs
    split at hs
    · simp only [callOne] at hs
      split at hs
      · cases hs; intro hf; cases hf
      · split at hs
        · cases hs; intro hf; cases hf
        · split at hs
          · split at hs
            · cases hs; intro hf; cases hf
            · cases hs
          · cases hs; intro hf; cases hf
    · cases hs
  | wTake i =>
    simp only [step] at hs
    split at hs
    · split at hs <;> cases hs; exact h
    · cases hs
  | wFinish i =>
    simp only [step] at hs
    split at hs
    · split at hs <;> cases hs; exact h
    · cases hs
  | wQuit i =>
    simp only [step] at hs
    split at hs
    · split at hs <;> cases hs; exact h
    · cases hs
  | waited => simp only [step] at hs; split at hs <;> cases hs; exact h
  | stopA =>
    simp only [step] at hs
    split at hs
    · simp only [stopOne] at hs
      split at hs
      · cases hs; exact h
      · split at hs
        · cases hs; exact h
        · split at hs
          · split at hs <;> cases hs; exact h
          · cases hs; exact h
    · cases hs

theorem done_closed {c : Cfg E} {as : List (Act E)} {s : St E} (hr : run c init as = some s) : s.disp = .done → s.closed = true := by
  have key : ∀ (as : List (Act E)) (m : St E), (m.disp = .done → m.closed = true) → run c m as = some s → s.disp = .done → s.closed = true := by
    intro as
    induction as with
    | nil => intro m hm hr; simp only [run] at hr; cases hr; exact hm
    | cons a r ih =>
      intro m hm hr
      simp only [run] at hr
      cases hs : step c m a with
      | none => rw [hs] at hr; cases hr
      | some m' => rw [hs] at hr; exact ih m' (step_done_closed hm hs) hr
  exact key as init (fun hf => by cases hf) hr

/-- **A collector that has not been told to shut down works off everything**: at rest the receiver's channel and all queues
are empty, and every analyzer has handled exactly the events it wants, in the order they were fetched. -/
theorem running_drains {c : Cfg E} (hcap : ∀ i, i < c.n → c.queued i = true → 0 < c.cap i) {as : List (Act E)} {s : St E}
    (hr : run c init as = some s) (hsd : s.sd = .no) (hrest : Rest c s) :
    s.src = [] ∧ ∀ i, i < c.n → s.q i = [] ∧ s.w i = .idle ∧ s.out i = (fetched as).filter (c.wants i) := by
  have h := run_inv (init_inv c) hr
  have ht := h.told
  rw [hsd] at ht
  have hloop := loop_at_rest hcap h (fun i hi => (ht.2 i hi).1) hrest
  have hidle : s.disp = .idle := by
    cases hd : s.disp with
    | idle => rfl
    | done => have := done_closed hr hd; rw [ht.1] at this; cases this
    | hand e i => exact absurd hd (hloop e i)
  have hsrc : s.src = [] := by
    cases hq : s.src with
    | nil => rfl
    | cons e r =>
      have := hrest .take trivial
      simp [step, hidle, hq] at this
  have hpast : s.past = fetched as := by
    have := (in_order hr).1
    simpa [current, hidle, hsrc] using this
  refine ⟨hsrc, fun i hi => ?_⟩
  have heq := h.eq i hi
  simp only [offered, hidle, hpast] at heq
  have hw : s.q i = [] ∧ s.w i = .idle := by
    cases hq : c.queued i with
    | false => exact h.inl i hq
    | true =>
      cases worker_at_rest hrest hi hq with
      | inl hw => exact absurd hw (ht.2 i hi).1
      | inr hw => exact ⟨hw.2.1, hw.1⟩
  refine ⟨hw.1, hw.2, ?_⟩
  simpa [hw.1, hw.2, inW] using heq

/-- **A shutdown comes to its end**: at rest after `Application.Shutdown` was called it has returned, the loop over the analyzers
and all goroutines of analyzers have returned; and exactly what is left in the receiver's channel and in an analyzer's queue
has not been handled. -/
theorem shutdown_returns_partial {c : Cfg E} (hcap : ∀ i, i < c.n → c.queued i = true → 0 < c.cap i) {as : List (Act E)} {s : St E}
    (hr : run c init as = some s) (hsd : s.sd ≠ .no) (hrest : Rest c s) :
    s.sd = .returned ∧ s.disp = .done ∧ (∀ i, i < c.n → c.queued i = true → s.w i = .done) ∧
    ∃ p, p ++ s.src = fetched as ∧ ∀ i, i < c.n → s.out i ++ s.q i = p.filter (c.wants i) := by
  have h := run_inv (init_inv c) hr
  have ht := h.told
  have hret : s.sd = .returned := by
    cases hs : s.sd with
    | no => exact absurd hs hsd
    | returned => rfl
    | waits =>
      exfalso
      rw [hs] at ht
      have hloop := loop_at_rest hcap h (fun i hi => (ht.2 i hi).1) hrest
      cases hd : s.disp with
      | idle =>
        have := hrest .dquit trivial
        simp [step, hd, ht.1] at this
      | done =>
        have := hrest .waited trivial
        simp [step, hd, hs] at this
      | hand e i => exact hloop e i hd
    | «at» j =>
      exfalso
      rw [hs] at ht
      obtain ⟨t1, t2, t3, t4, t5⟩ := ht
      have hc := hrest .stopA trivial
      simp only [step, hs, stopOne] at hc
      split at hc
      · cases hc
      · rename_i hjn
        split at hc
        · cases hc
        · rename_i hq
          have hq : c.queued j = true := by simpa using hq
          have hj : j < c.n := by omega
          split at hc
          · cases worker_at_rest hrest hj hq with
            | inl hw => exact (t4 j (Nat.le_refl _) hj).1 hw
            | inr hw => rw [hw.1] at hc; cases hc
          · cases hc
  rw [hret] at ht
  obtain ⟨-, t2, t3⟩ := ht
  have hall : ∀ i, i < c.n → c.queued i = true → s.w i = .done := by
    intro i hi hq
    cases worker_at_rest hrest hi hq with
    | inl hw => exact hw
    | inr hw =>
      cases hm : c.meets i with
      | true => exact (t3 i hi hq).1 hm
      | false =>
        have := (t3 i hi hq).2 hm
        rw [hw.2.2] at this; cases this
  refine ⟨hret, t2, hall, s.past, ?_, fun i hi => ?_⟩
  · have := (in_order hr).1
    simpa [current, t2] using this
  · have heq := h.eq i hi
    simp only [offered, t2] at heq
    cases hq : c.queued i with
    | true => simpa [hall i hi hq, inW] using heq
    | false => simpa [(h.inl i hq).2, inW] using heq

/-! ### After the receiver has stopped -/

/-- Only its own steps move the loop over the analyzers. -/
theorem step_disp {c : Cfg E} {s s' : St E} {a : Act E} (hs : step c s a = some s') (h1 : a ≠ .take) (h2 : a ≠ .dquit) (h3 : a ≠ .call) :
    s'.disp = s.disp ∧ s'.past = s.past := by
  cases a with
  | fetch e => simp only [step] at hs; cases hs; exact ⟨rfl, rfl⟩
  | shut => simp only [step] at hs; split at hs <;> cases hs; exact ⟨rfl, rfl⟩
  | take => exact absurd rfl h1
  | dquit => exact absurd rfl h2
  | call => exact absurd rfl h3
  | wTake i =>
    simp only [step] at hs
    split at hs
    · split at hs <;> cases hs; exact ⟨rfl, rfl⟩
    · cases hs
  | wFinish i =>
    simp only [step] at hs
    split at hs
    · split at hs <;> cases hs; exact ⟨rfl, rfl⟩
    · cases hs
  | wQuit i =>
    simp only [step] at hs
    split at hs
    · split at hs <;> cases hs; exact ⟨rfl, rfl⟩
    · cases hs
  | waited => simp only [step] at hs; split at hs <;> cases hs; exact ⟨rfl, rfl⟩
  | stopA =>
    simp only [step] at hs
    split at hs
    · have := stopOne_frame hs; exact ⟨this.2.1, this.1⟩
    · cases hs

theorem step_done {c : Cfg E} {s s' : St E} {a : Act E} (hd : s.disp = .done) (hs : step c s a = some s') :
    s'.disp = .done ∧ s'.past = s.past := by
  have key : a ≠ .take ∧ a ≠ .dquit ∧ a ≠ .call := by
    refine ⟨?_, ?_, ?_⟩ <;> (rintro rfl; simp [step, hd] at hs)
  have := step_disp hs key.1 key.2.1 key.2.2
  exact ⟨this.1.trans hd, this.2⟩

theorem run_done {c : Cfg E} {s s' : St E} {bs : List (Act E)} (hd : s.disp = .done) (hs : run c s bs = some s') :
    s'.disp = .done ∧ s'.past = s.past := by
  induction bs generalizing s with
  | nil => simp only [run] at hs; cases hs; exact ⟨hd, rfl⟩
  | cons a r ih =>
    simp only [run] at hs
    cases h : step c s a with
    | none => rw [h] at hs; cases hs
    | some m =>
      rw [h] at hs
      obtain ⟨h1, h2⟩ := step_done hd h
      obtain ⟨h3, h4⟩ := ih h1 hs
      exact ⟨h3, h4.trans h2⟩

/-- **Once the first analyzer is told to shut down, no analyzer is given another event**: what it has handled, is handling and
has queued stays the same, whatever is still fetched. -/
theorem nothing_after {c : Cfg E} {as bs : List (Act E)} {s s' : St E} (hr : run c init as = some s) (h1 : s.sd ≠ .no) (h2 : s.sd ≠ .waits)
    (hb : run c s bs = some s') (i : Nat) (hi : i < c.n) :
    s'.out i ++ inW (s'.w i) ++ s'.q i = s.out i ++ inW (s.w i) ++ s.q i := by
  have h := run_inv (init_inv c) hr
  have h' := run_inv h hb
  have ht := h.told
  have hd : s.disp = .done := by
    cases hs : s.sd with
    | no => exact absurd hs h1
    | waits => exact absurd hs h2
    | «at» j => rw [hs] at ht; exact ht.2.1
    | returned => rw [hs] at ht; exact ht.2.1
  obtain ⟨h3, h4⟩ := run_done hd hb
  rw [h.eq i hi, h'.eq i hi]
  simp [offered, hd, h3, h4]

/-! ### An analyzer that stands still -/

/-- Analyzer `k`'s goroutine does not get out of what it is doing. -/
def Stands (k : Nat) (bs : List (Act E)) : Prop := ∀ a ∈ bs, ∀ i, a = .wFinish i → i ≠ k

theorem callOne_w {c : Cfg E} {s s' : St E} {e : E} {i : Nat} (hs : callOne c s e i = some s') : s'.w = s.w ∧
    ∀ k, c.queued k = true → s'.out k = s.out k := by
  simp only [callOne] at hs
  split at hs
  · cases hs; simp
  · split at hs
    · cases hs; simp
    · split at hs
      · split at hs
        · cases hs; simp
        · cases hs
      · rename_i hq
        cases hs
        refine ⟨rfl, fun k hk => upd_ne _ _ ?_⟩
        rintro rfl; exact hq hk

theorem step_stands {c : Cfg E} {s s' : St E} {a : Act E} {k : Nat} {e : E} (hw : s.w k = .busy e) (hq : c.queued k = true)
    (ha : ∀ i, a = .wFinish i → i ≠ k) (hs : step c s a = some s') : s'.w k = .busy e ∧ s'.out k = s.out k := by
  cases a with
  | fetch e => simp only [step] at hs; cases hs; exact ⟨hw, rfl⟩
  | shut => simp only [step] at hs; split at hs <;> cases hs; exact ⟨hw, rfl⟩
  | take => simp only [step] at hs; split at hs <;> cases hs; exact ⟨hw, rfl⟩
  | dquit =>
    simp only [step] at hs
    split at hs
    · split at hs <;> cases hs; exact ⟨hw, rfl⟩
    · cases hs
  | call =>
    simp only [step] at hs
    split at hs
    · obtain ⟨h1, h2⟩ := callOne_w hs; exact ⟨by rw [h1]; exact hw, h2 k hq⟩
    · cases hs
  | wTake i =>
    simp only [step] at hs
    split at hs
    · split at hs
      · rename_i e' r hwi _
        cases hs
        have : k ≠ i := by rintro rfl; rw [hw] at hwi; cases hwi
        exact ⟨by simp only [upd_ne _ _ this]; exact hw, rfl⟩
      · cases hs
    · cases hs
  | wFinish i =>
    simp only [step] at hs
    split at hs
    · split at hs
      · cases hs
        have : k ≠ i := fun hk => ha i rfl hk.symm
        exact ⟨by simp only [upd_ne _ _ this]; exact hw, by simp only [upd_ne _ _ this]⟩
      · cases hs
    · cases hs
  | wQuit i =>
    simp only [step] at hs
    split at hs
    · split at hs
      · rename_i hwi
        cases hs
        have : k ≠ i := by rintro rfl; rw [hw] at hwi; cases hwi
        exact ⟨by simp only [upd_ne _ _ this]; exact hw, rfl⟩
      · cases hs
    · cases hs
  | waited => simp only [step] at hs; split at hs <;> cases hs; exact ⟨hw, rfl⟩
  | stopA =>
    simp only [step] at hs
    split at hs
    · rename_i i _
      refine ⟨?_, by rw [(stopOne_frame hs).2.2.2.2]⟩
      simp only [stopOne] at hs
      split at hs
      · cases hs; exact hw
      · split at hs
        · cases hs; exact hw
        · split at hs
          · split at hs
            · rename_i hwi
              cases hs
              have : k ≠ i := by rintro rfl; rw [hw] at hwi; cases hwi
              simp only [upd_ne _ _ this]; exact hw
            · cases hs
          · cases hs; exact hw
    · cases hs

theorem run_stands {c : Cfg E} {s s' : St E} {bs : List (Act E)} {k : Nat} {e : E} (hw : s.w k = .busy e) (hq : c.queued k = true)
    (ha : Stands k bs) (hs : run c s bs = some s') : s'.w k = .busy e ∧ s'.out k = s.out k := by
  induction bs generalizing s with
  | nil => simp only [run] at hs; cases hs; exact ⟨hw, rfl⟩
  | cons a r ih =>
    simp only [run] at hs
    cases h : step c s a with
    | none => rw [h] at hs; cases hs
    | some m =>
      rw [h] at hs
      obtain ⟨h1, h2⟩ := step_stands hw hq (ha a (List.mem_cons_self ..)) h
      obtain ⟨h3, h4⟩ := ih h1 (fun x hx => ha x (List.mem_cons_of_mem _ hx)) hs
      exact ⟨h3, h4.trans h2⟩

/-- **While an analyzer's goroutine stands still, the loop gets past at most as many further events for it as its channel holds**:
of the events that went around, those it wants number at most what it had handled, one, and the size of its channel. -/
theorem stands_bounds {c : Cfg E} {as bs : List (Act E)} {s s' : St E} {k : Nat} {e : E} (hr : run c init as = some s) (hk : k < c.n)
    (hq : c.queued k = true) (hw : s.w k = .busy e) (ha : Stands k bs) (hb : run c s bs = some s') :
    (s'.past.filter (c.wants k)).length ≤ (s.out k).length + 1 + c.cap k := by
  have h' := run_inv (run_inv (init_inv c) hr) hb
  obtain ⟨h1, h2⟩ := run_stands hw hq ha hb
  have heq := congrArg List.length (h'.eq k hk)
  have hroom := h'.room k
  have hle : (s'.past.filter (c.wants k)).length ≤ ((offered s' k).filter (c.wants k)).length := by
    simp only [offered]
    split
    · split <;> simp [List.filter_append]
    · exact Nat.le_refl _
  simp only [h1, h2, inW, List.length_append, List.length_singleton] at heq
  omega

/-- The loop stands before the full channel of analyzer `k`. -/
def Jammed (c : Cfg E) (s : St E) (k : Nat) : Prop :=
  ∃ e, s.disp = .hand e k ∧ c.wants k e = true ∧ c.cap k ≤ (s.q k).length

theorem jammed_call {c : Cfg E} {s : St E} {k : Nat} (hk : k < c.n) (hq : c.queued k = true) (hj : Jammed c s k) : step c s .call = none := by
  obtain ⟨e, hd, hw, hf⟩ := hj
  have h1 : ¬ k = c.n := by omega
  have h2 : ¬ (s.q k).length < c.cap k := by omega
  simp [step, hd, callOne, h1, hw, hq, h2]

theorem step_q {c : Cfg E} {s s' : St E} {a : Act E} {k : Nat} {e : E} (hw : s.w k = .busy e) (ha : a ≠ .call) (hs : step c s a = some s') :
    s'.q k = s.q k := by
  cases a with
  | fetch e => simp only [step] at hs; cases hs; rfl
  | shut => simp only [step] at hs; split at hs <;> cases hs; rfl
  | take => simp only [step] at hs; split at hs <;> cases hs; rfl
  | dquit =>
    simp only [step] at hs
    split at hs
    · split at hs <;> cases hs; rfl
    · cases hs
  | call => exact absurd rfl ha
  | wTake i =>
    simp only [step] at hs
    split at hs
    · split at hs
      · rename_i e' r hwi _
        cases hs
        have : k ≠ i := by rintro rfl; rw [hw] at hwi; cases hwi
        simp only [upd_ne _ _ this]
      · cases hs
    · cases hs
  | wFinish i =>
    simp only [step] at hs
    split at hs
    · split at hs <;> cases hs; rfl
    · cases hs
  | wQuit i =>
    simp only [step] at hs
    split at hs
    · split at hs <;> cases hs; rfl
    · cases hs
  | waited => simp only [step] at hs; split at hs <;> cases hs; rfl
  | stopA =>
    simp only [step] at hs
    split at hs
    · rw [(stopOne_frame hs).2.2.2.1]
    · cases hs

theorem step_jammed {c : Cfg E} {s s' : St E} {a : Act E} {k : Nat} {e : E} (hk : k < c.n) (hq : c.queued k = true) (hw : s.w k = .busy e)
    (hj : Jammed c s k) (hs : step c s a = some s') : Jammed c s' k ∧ s'.disp = s.disp ∧ s'.past = s.past := by
  have hc : a ≠ .call := by rintro rfl; rw [jammed_call hk hq hj] at hs; cases hs
  obtain ⟨e', hd, hwt, hf⟩ := hj
  have h1 : a ≠ .take := by rintro rfl; simp [step, hd] at hs
  have h2 : a ≠ .dquit := by rintro rfl; simp [step, hd] at hs
  obtain ⟨h3, h4⟩ := step_disp hs h1 h2 hc
  exact ⟨⟨e', h3.trans hd, hwt, by rw [step_q hw hc hs]; exact hf⟩, h3, h4⟩

/-- **An analyzer that stands still before its full channel stops the whole collector**: from then on the loop does not move, no
analyzer is given another event, and `Application.Shutdown`, if it is called, never gets past the receiver. -/
theorem jam_is_forever {c : Cfg E} {as bs : List (Act E)} {s s' : St E} {k : Nat} {e : E} (hr : run c init as = some s) (hk : k < c.n)
    (hq : c.queued k = true) (hw : s.w k = .busy e) (hj : Jammed c s k) (ha : Stands k bs) (hb : run c s bs = some s') :
    s'.disp = s.disp ∧ s'.past = s.past ∧ (∀ i, i < c.n → s'.out i ++ inW (s'.w i) ++ s'.q i = s.out i ++ inW (s.w i) ++ s.q i) ∧
    (s'.sd = .no ∨ s'.sd = .waits) := by
  have h := run_inv (init_inv c) hr
  have h' := run_inv h hb
  have key : ∀ (bs : List (Act E)) (m : St E), m.w k = .busy e → Jammed c m k → Stands k bs → run c m bs = some s' →
      Jammed c s' k ∧ s'.disp = m.disp ∧ s'.past = m.past := by
    intro bs
    induction bs with
    | nil => intro m _ hj _ hm; simp only [run] at hm; cases hm; exact ⟨hj, rfl, rfl⟩
    | cons a r ih =>
      intro m hwm hjm ham hm
      simp only [run] at hm
      cases hs : step c m a with
      | none => rw [hs] at hm; cases hm
      | some m' =>
        rw [hs] at hm
        obtain ⟨j1, j2, j3⟩ := step_jammed hk hq hwm hjm hs
        obtain ⟨w1, -⟩ := step_stands hwm hq (ham a (List.mem_cons_self ..)) hs
        obtain ⟨i1, i2, i3⟩ := ih m' w1 j1 (fun x hx => ham x (List.mem_cons_of_mem _ hx)) hm
        exact ⟨i1, i2.trans j2, i3.trans j3⟩
  obtain ⟨j1, j2, j3⟩ := key bs s hw hj ha hb
  refine ⟨j2, j3, fun i hi => ?_, ?_⟩
  · rw [h.eq i hi, h'.eq i hi]; simp [offered, j2, j3]
  · obtain ⟨e', hd, -⟩ := j1
    have ht := h'.told
    cases hs : s'.sd with
    | no => exact Or.inl rfl
    | waits => exact Or.inr rfl
    | «at» j => rw [hs] at ht; have := ht.2.1; rw [hd] at this; cases this
    | returned => rw [hs] at ht; have := ht.2.1; rw [hd] at this; cases this

/-- **The jam comes by itself**: if the goroutine of analyzer `k` stands still and more events that it wants are fetched than it had handled
plus one plus the size of its channel, then, before any shutdown and when nothing else moves, the loop stands before its
channel, for the first event it could not put there. -/
theorem jam_comes {c : Cfg E} (hcap : ∀ i, i < c.n → c.queued i = true → 0 < c.cap i) {as : List (Act E)} {s : St E} {k : Nat} {e : E}
    (hr : run c init as = some s) (hk : k < c.n) (hq : c.queued k = true) (hw : s.w k = .busy e) (hsd : s.sd = .no)
    (hrest : ∀ a, Inner a → a ≠ .wFinish k → step c s a = none)
    (hmany : (s.out k).length + 1 + c.cap k < ((fetched as).filter (c.wants k)).length) : Jammed c s k := by
  have h := run_inv (init_inv c) hr
  have ht := h.told
  rw [hsd] at ht
  cases hd : s.disp with
  | done => have := done_closed hr hd; rw [ht.1] at this; cases this
  | idle =>
    exfalso
    have hsrc : s.src = [] := by
      cases hql : s.src with
      | nil => rfl
      | cons e r =>
        have := hrest .take trivial (by simp)
        simp [step, hd, hql] at this
    have hpast : s.past = fetched as := by
      have := (in_order hr).1
      simpa [current, hd, hsrc] using this
    have heq := congrArg List.length (h.eq k hk)
    simp only [offered, hd, hpast, hw, inW, List.length_append, List.length_singleton] at heq
    have := h.room k
    omega
  | hand e' i =>
    have hle := h.le e' i hd
    have hc := hrest .call trivial (by simp)
    simp only [step, hd, callOne] at hc
    split at hc
    · cases hc
    · rename_i hin
      split at hc
      · cases hc
      · rename_i hwant
        split at hc
        · rename_i hqi
          split at hc
          · cases hc
          · rename_i hfull
            by_cases hik : i = k
            · subst hik
              exact ⟨e', hd, by simpa using hwant, by omega⟩
            · exfalso
              have hi : i < c.n := by omega
              have hpos := hcap i hi hqi
              cases hwi : s.w i with
              | done => exact (ht.2 i hi).1 hwi
              | busy e'' =>
                have := hrest (.wFinish i) trivial (by simpa using hik)
                simp [step, hi, hwi] at this
              | idle =>
                cases hql : s.q i with
                | nil => rw [hql] at hfull; exact hfull hpos
                | cons e'' r =>
                  have := hrest (.wTake i) trivial (by simp)
                  simp [step, hi, hqi, hwi, hql] at this
        · cases hc

/-! ### The collector's five analyzers -/

/-- One kind of event for each set of analyzers that want it. -/
inductive Ev | read | write | connect | tcpClose | cpu
deriving DecidableEq, Repr

/-- The analyzers in the order of application.go:139 — network (network_analyzer.go:104-116), TCP metric
(tcpmetricanalyzer/tcp_analyzer.go:46-53), connect (tcpconnectanalyzer/analyzer.go:54-64), CPU
(cpuanalyzer/cpu_analyzer.go:48-50), Kubernetes info (k8sinfoanalyzer/k8sinfoanalyzer.go:78-80, which wants none). The ticker goroutine of the
last one, stopped by closing a channel (k8sinfoanalyzer.go:69-72), takes no events and is left out. -/
def kindling (netSize connSize : Nat) : Cfg Ev where
  n := 5
  wants := fun i e => match i, e with
    | 0, .read => true
    | 0, .write => true
    | 1, .tcpClose => true
    | 2, .connect => true
    | 2, .write => true
    | 3, .cpu => true
    | _, _ => false
  queued := fun i => i == 0 || i == 2
  cap := fun i => if i = 0 then netSize else connSize
  meets := fun i => i == 2

/-- Hand one event around. -/
def around (e : Ev) : List (Act Ev) := [.fetch e, .take, .call, .call, .call, .call, .call, .call]

theorem run_some {c : Cfg E} {s : St E} {as : List (Act E)} (h : (run c s as).isSome = true) : ∃ s', run c s as = some s' := by
  cases hr : run c s as with
  | none => rw [hr] at h; cases h
  | some s' => exact ⟨s', rfl⟩

/-- `in_order`, `running_drains`: a write event goes to the network and to the connect analyzer. -/
example : (run (kindling 2 2) init (around .write ++ around .cpu ++ [.wTake 0, .wFinish 0, .wTake 2, .wFinish 2])).map
    (fun s => (s.out 0, s.out 2, s.out 3, s.out 1, s.src, s.past)) = some ([.write], [.write], [.cpu], [], [], [.write, .cpu]) := by
  rfl

/-- A state at rest exists after every run: `comes_to_rest` gives it, and `shutdown_returns_partial` applies to it. -/
example (as : List (Act Ev)) (s : St Ev) (hr : run (kindling 2 2) init (as ++ [.shut]) = some s) :
    ∃ bs s', (∀ a ∈ bs, Inner a) ∧ run (kindling 2 2) s bs = some s' ∧ Rest (kindling 2 2) s' :=
  (comes_to_rest hr).2

/-- A whole shutdown: everything returns, and the write event is still in both queues. -/
def dropped : List (Act Ev) :=
  around .write ++ [.shut, .dquit, .waited, .stopA, .wQuit 0, .stopA, .stopA, .stopA, .stopA, .stopA]

/-- **A shutdown can lose what has been queued**, whatever the sizes of the channels: the goroutine's `select` may take the closed stop
channel though its channel holds an event (network_analyzer.go:182-192). -/
theorem shutdown_drops (n m : Nat) (hn : 0 < n) (hm : 0 < m) :
    ∃ s, run (kindling n m) init dropped = some s ∧ s.sd = .returned ∧ s.w 0 = .done ∧ s.w 2 = .done ∧
    s.q 0 = [.write] ∧ s.q 2 = [.write] ∧ s.out 0 = [] ∧ s.out 2 = [] := by
  obtain ⟨n, rfl⟩ : ∃ k, n = k + 1 := ⟨n - 1, by omega⟩
  obtain ⟨m, rfl⟩ : ∃ k, m = k + 1 := ⟨m - 1, by omega⟩
  have h : (run (kindling (n + 1) (m + 1)) init dropped).map (fun s => (s.sd, s.w 0, s.w 2, s.q 0, s.q 2, s.out 0, s.out 2)) =
      some (.returned, .done, .done, [.write], [.write], [], []) := by rfl
  obtain ⟨s, hs, h⟩ := Option.map_eq_some_iff.1 h
  simp only [Prod.mk.injEq] at h
  exact ⟨s, hs, h⟩

/-- The network analyzer's goroutine is inside an event and does not come out (as in `Cpu.Session.left_standing`); `n` more
read events fill its channel, the next one cannot be put there. -/
def jam (n : Nat) : List (Act Ev) :=
  around .read ++ [.wTake 0] ++ (List.replicate n (around .read)).flatten ++ [.fetch .read, .take, .fetch .connect, .fetch .cpu]

/-- One read event into the channel of the network analyzer. -/
theorem around_read {n m : Nat} {s : St Ev} (hd : s.disp = .idle) (hs : s.src = []) (hq : (s.q 0).length < n) :
    run (kindling n m) s (around .read) = some { s with q := upd s.q 0 (s.q 0 ++ [.read]), past := s.past ++ [.read] } := by
  obtain ⟨src, disp, past, q, w, out, closed, stopped, sd⟩ := s
  simp only at hd hs hq
  subst hd hs
  simp [around, run, step, callOne, kindling, hq]

theorem fill_read {n m k : Nat} {s : St Ev} (hd : s.disp = .idle) (hs : s.src = []) (hq : (s.q 0).length + k ≤ n) :
    ∃ s', run (kindling n m) s (List.replicate k (around .read)).flatten = some s' ∧ s'.disp = .idle ∧ s'.src = [] ∧ s'.w = s.w ∧
      s'.out = s.out ∧ (∀ i, i ≠ 0 → s'.q i = s.q i) ∧ s'.q 0 = s.q 0 ++ List.replicate k .read := by
  induction k generalizing s with
  | zero => exact ⟨s, rfl, hd, hs, rfl, rfl, fun _ _ => rfl, by simp⟩
  | succ k ih =>
    have h1 := around_read (m := m) hd hs (show (s.q 0).length < n by omega)
    obtain ⟨s', a1, a2, a3, a4, a5, a6, a7⟩ :=
      ih (s := { s with q := upd s.q 0 (s.q 0 ++ [.read]), past := s.past ++ [.read] }) hd hs (by simp [upd_self]; omega)
    refine ⟨s', ?_, a2, a3, a4, a5, fun i hi => ?_, ?_⟩
    · rw [List.replicate_succ, List.flatten_cons, run_append]
      exact ⟨_, h1, a1⟩
    · rw [a6 i hi]; exact upd_ne _ _ hi
    · rw [a7]; simp [upd_self, List.replicate_succ]

/-- **A network analyzer that stands still takes the other analyzers and the shutdown with it**, whatever the sizes of the channels: the
state is reached, and from it, unless the goroutine comes out, the connect and CPU events behind are never given to anybody, and a shutdown does not return. -/
theorem network_stops_all (n m : Nat) (hn : 0 < n) : ∃ s, run (kindling n m) init (jam n) = some s ∧ s.src = [.connect, .cpu] ∧
    ∀ bs s', Stands 0 bs → run (kindling n m) s bs = some s' →
      s'.out 2 = [] ∧ s'.out 3 = [] ∧ s'.disp = .hand .read 0 ∧ s'.sd ≠ .returned := by
  have h0 := around_read (n := n) (m := m) (s := init) rfl rfl hn
  have h1 : run (kindling n m) { (init : St Ev) with q := upd init.q 0 (init.q 0 ++ [.read]), past := init.past ++ [.read] } [.wTake 0] =
      some { (init : St Ev) with q := upd (upd init.q 0 [.read]) 0 [], w := upd init.w 0 (.busy .read), past := [.read] } := by
    simp [run, step, kindling, init, upd]
  obtain ⟨s1, a1, a2, a3, a4, a5, a6, a7⟩ := fill_read (n := n) (m := m) (k := n)
    (s := { (init : St Ev) with q := upd (upd init.q 0 [.read]) 0 [], w := upd init.w 0 (.busy .read), past := [.read] }) rfl rfl
    (by simp [upd_self])
  have h2 : run (kindling n m) s1 [.fetch .read, .take, .fetch .connect, .fetch .cpu] =
      some { s1 with src := [.connect, .cpu], disp := .hand .read 0 } := by
    simp [run, step, a2, a3]
  have hs : run (kindling n m) init (jam n) = some { s1 with src := [.connect, .cpu], disp := .hand .read 0 } := by
    unfold jam
    rw [run_append]
    refine ⟨s1, ?_, h2⟩
    rw [run_append]
    refine ⟨_, ?_, a1⟩
    rw [run_append]
    exact ⟨_, h0, h1⟩
  refine ⟨_, hs, rfl, fun bs s' hb hr => ?_⟩
  have hw : s1.w 0 = .busy .read := by rw [a4]; rfl
  have hq : s1.q 0 = List.replicate n .read := by rw [a7]; simp [upd_self]
  obtain ⟨j1, -, j3, j4⟩ := jam_is_forever (k := 0) hs (by simp [kindling]) rfl hw
    ⟨.read, rfl, rfl, by show (kindling n m).cap 0 ≤ (s1.q 0).length; rw [hq]; simp [kindling]⟩ hb hr
  have e2 := j3 2 (by simp [kindling])
  have e3 := j3 3 (by simp [kindling])
  simp only [a4, a5, a6 2 (by decide), a6 3 (by decide), init, upd, inW] at e2 e3
  simp at e2 e3
  refine ⟨e2.1, e3.1, j1, ?_⟩
  rcases j4 with j | j <;> rw [j] <;> simp

/-- `jam_comes`, `stands_bounds`: their hypotheses hold in the state of `jam` with one more event taken. -/
example : (run (kindling 2 2) init (jam 2)).map (fun s => decide ((s.out 0).length + 1 + 2 < ((fetched (jam 2)).filter ((kindling 2 2).wants 0)).length)) =
    some true := by decide +kernel

/-- `nothing_after`: the first analyzer has just been reached. -/
example : (run (kindling 2 2) init (around .write ++ [.shut, .dquit, .waited])).map (fun s => s.sd) = some (.at 0) := by decide +kernel

end Kindling.Flow.Queues
