import Verif.Conn.Lookup
/-
C107: which connections the connection tracker knows after its start.

Model of metadata/conntracker/internal/conntracker.go:84-130 `NewConntracker`, `newConntrackerOnce`, 214-217 `Close`, 219-232
`loadInitialState`, 254-278 `run`, consumer.go:143-162 `Events`, 220-280 `DumpTable`, 331-336 `Stop`, with the kernel's table of
connections beside it: connections come and go at any time, between any two steps of the start.

Simplifications: a dump of a family delivers all connections that were there during the whole dump, none that was never there, and
any choice of the others; one namespace; the events of a connection are delivered in order or dropped when they arrive (ENOBUFS,
sampling); the breaker's effect on the socket is in Conn/Consumer.lean; the two goroutines of consumer and tracker are one
receiver.  The wire format, the cache and the lookups are in Conn/Socket.lean, Conn/Cache.lean and Conn/Lookup.lean.
-/
namespace Kindling.Conn.Start
open Kindling Kindling.Conn.Lookup

/-- A connection of the kernel: a number, the family, and its two directions. -/
structure C where
  id : Nat
  v6 : Bool
  o : Flow
  r : Flow
  udp : Bool
deriving DecidableEq

/-- The goroutine of conntracker.go:93-96. -/
inductive Pc where
  /-- consumer.go:223-242: about to dump a family. -/
  | dump (v6 : Bool)
  /-- conntracker.go:121: reading the dump; what it has to contain and what it may contain. -/
  | reading (v6 : Bool) (must may : List C)
  /-- conntracker.go:124, consumer.go:144: about to open the socket of the stream. -/
  | opening
  /-- conntracker.go:95: about to send on `done`; whether there is a tracker. -/
  | send (ok : Bool)
  | fin
deriving DecidableEq

/-- The goroutine of consumer.go:150-159. -/
inductive Rx where
  | off
  /-- consumer.go:157: about to join the group of new connections. -/
  | join
  /-- consumer.go:158: receiving; whether it joined, an error is ignored. -/
  | recv (joined : Bool)
  /-- The socket was closed. -/
  | closed
deriving DecidableEq

/-- The caller of `NewConntracker` (conntracker.go:98-103). -/
inductive Caller where
  | wait
  | tracker
  | error
  | timeout
deriving DecidableEq

structure W where
  next : Nat
  live : List C
  pc : Pc
  rx : Rx
  /-- Events in the socket. -/
  queue : List C
  /-- What was registered, with `orphan` (conntracker.go:227, 246). -/
  fed : List (C × Bool)
  caller : Caller
  /-- The goroutine of the circuit breaker (consumer.go:133) and the ticker (conntracker.go:112). -/
  breaker : Bool
  ticker : Bool

/-- The start, with the connections that the kernel has then. -/
def begin (live : List C) (next : Nat) : W := ⟨next, live, .dump false, .off, [], [], .wait, true, true⟩

inductive Ev where
  /-- The kernel adds a connection; `lost` if its event is dropped. -/
  | create (v6 : Bool) (o r : Flow) (udp lost : Bool)
  | destroy (id : Nat)
  /-- A step of the goroutine of the start; whether the system calls succeed and what a dump delivers. -/
  | init (ok : Bool) (got : List C)
  | join (ok : Bool)
  | deliver
  | timeout
  /-- `Close`, by the caller that got a tracker. -/
  | close

/-- A step of `newConntrackerOnce` and of conntracker.go:95. -/
def initStep (w : W) (ok : Bool) (got : List C) : W := match w.pc with
  | .dump v6 =>
    if ok then let there := w.live.filter (fun c => c.v6 == v6); { w with pc := .reading v6 there there }
    else { w with pc := .send false }
  | .reading v6 must may =>
    if must.all got.contains && got.all may.contains then
      { w with fed := w.fed ++ got.map (fun c => (c, false)), pc := if v6 then .opening else .dump true }
    else w
  | .opening => if ok then { w with rx := .join, pc := .send true } else { w with pc := .send false }
  | .send t => if w.caller = .wait then { w with caller := if t then .tracker else .error, pc := .fin } else w
  | .fin => w

def step (w : W) : Ev → W
  | .create v6 o r udp lost =>
    let c : C := ⟨w.next, v6, o, r, udp⟩
    { w with next := w.next + 1, live := w.live ++ [c],
             queue := if w.rx = .recv true ∧ lost = false then w.queue ++ [c] else w.queue,
             pc := match w.pc with
               | .reading f must may => if f = v6 then .reading f must (may ++ [c]) else .reading f must may
               | p => p }
  | .destroy id =>
    { w with live := w.live.filter (fun c => c.id != id),
             pc := match w.pc with
               | .reading f must may => .reading f (must.filter (fun c => c.id != id)) may
               | p => p }
  | .init ok got => initStep w ok got
  | .join ok => if w.rx = .join then { w with rx := .recv ok } else w
  | .deliver => match w.rx, w.queue with
    | .recv _, c :: q => { w with queue := q, fed := w.fed ++ [(c, true)] }
    | _, _ => w
  | .timeout => if w.caller = .wait then { w with caller := .timeout } else w
  | .close => if w.caller = .tracker then
      { w with rx := if w.rx = .off then .off else .closed, queue := [], breaker := false, ticker := false }
    else w

def exec (w : W) (es : List Ev) : W := es.foldl step w

theorem exec_append (w : W) (a b : List Ev) : exec w (a ++ b) = exec (exec w a) b := List.foldl_append

/-- The dump of this family is behind. -/
def past (v6 : Bool) : Pc → Prop
  | .dump f => f = true ∧ v6 = false
  | .reading f _ _ => f = true ∧ v6 = false
  | _ => True

def Behind (w : W) (v6 : Bool) : Prop := past v6 w.pc

/-- The tracker knows the connection. -/
def Knows (w : W) (c : C) : Prop := ∃ b, (c, b) ∈ w.fed

/-! ### Only connections of the kernel, and never forgotten -/

theorem fed_step (w : W) (e : Ev) : ∃ l, (step w e).fed = w.fed ++ l := by
  cases e with
  | init ok got =>
    simp only [step, initStep]
    split
    · split <;> exact ⟨[], by simp⟩
    · split
      · exact ⟨_, rfl⟩
      · exact ⟨[], by simp⟩
    · split <;> exact ⟨[], by simp⟩
    · split <;> exact ⟨[], by simp⟩
    · exact ⟨[], by simp⟩
  | deliver =>
    simp only [step]
    split
    · exact ⟨_, rfl⟩
    · exact ⟨[], by simp⟩
  | join ok => simp only [step]; split <;> exact ⟨[], by simp⟩
  | timeout => simp only [step]; split <;> exact ⟨[], by simp⟩
  | close => simp only [step]; split <;> exact ⟨[], by simp⟩
  | create => exact ⟨[], by simp [step]⟩
  | destroy => exact ⟨[], by simp [step]⟩

theorem fed_exec (w : W) (es : List Ev) : ∃ l, (exec w es).fed = w.fed ++ l := by
  induction es generalizing w with
  | nil => exact ⟨[], by simp [exec]⟩
  | cons e es ih =>
    obtain ⟨l, hl⟩ := fed_step w e
    obtain ⟨l', hl'⟩ := ih (step w e)
    exact ⟨l ++ l', by show (exec (step w e) es).fed = _; rw [hl', hl, List.append_assoc]⟩

theorem knows_stays {w : W} {c : C} (h : Knows w c) (es : List Ev) : Knows (exec w es) c := by
  obtain ⟨b, hb⟩ := h
  obtain ⟨l, hl⟩ := fed_exec w es
  exact ⟨b, by rw [hl]; exact List.mem_append_left _ hb⟩

/-! ### Connections that were there during the dump -/

/-- Before the dump, or during it and in it, or known. -/
def Pending (w : W) (c : C) : Prop :=
  (c ∈ w.live ∧ ((∃ f, w.pc = .dump f ∧ (f = true → c.v6 = true)) ∨ (∃ f m n, w.pc = .reading f m n ∧ (f = true → c.v6 = true) ∧
    (f = c.v6 → c ∈ m)))) ∨ Knows w c

def Failed (w : W) : Prop := w.pc = .send false ∨ w.caller = .error

theorem failed_step {w : W} (h : Failed w) (e : Ev) : Failed (step w e) := by
  rcases h with h | h
  · cases e with
    | init ok got =>
      simp only [step, initStep, h]
      split
      · exact .inr rfl
      · exact .inl h
    | create => exact .inl (by simp [step, h])
    | destroy => exact .inl (by simp [step, h])
    | join ok => simp only [step]; split <;> exact .inl h
    | deliver => simp only [step]; split <;> exact .inl h
    | timeout => simp only [step]; split <;> exact .inl h
    | close => simp only [step]; split <;> exact .inl h
  · refine .inr ?_
    cases e with
    | init ok got =>
      simp only [step, initStep]
      split
      · split <;> exact h
      · split <;> exact h
      · split <;> exact h
      · simp [h]
      · exact h
    | create => exact h
    | destroy => exact h
    | join ok => simp only [step]; split <;> exact h
    | deliver => simp only [step]; split <;> exact h
    | timeout => simp only [step, h]; exact h
    | close => simp only [step, h]; exact h

theorem pending_step {w : W} {c : C} (h : Pending w c) {e : Ev} (he : e ≠ .destroy c.id) :
    Pending (step w e) c ∨ Failed (step w e) := by
  rcases h with ⟨hl, h⟩ | h
  · cases e with
    | create v6 o r udp lost =>
      refine .inl (.inl ⟨List.mem_append_left _ hl, ?_⟩)
      rcases h with ⟨f, h, hf⟩ | ⟨f, m, n, h, hf, hm⟩
      · exact .inl ⟨f, by simp [step, h], hf⟩
      · right
        simp only [step, h]
        split
        · exact ⟨_, _, _, rfl, hf, hm⟩
        · exact ⟨_, _, _, rfl, hf, hm⟩
    | destroy id =>
      have hid : c.id ≠ id := fun e => he (by rw [e])
      refine .inl (.inl ⟨List.mem_filter.2 ⟨hl, by simpa using hid⟩, ?_⟩)
      rcases h with ⟨f, h, hf⟩ | ⟨f, m, n, h, hf, hm⟩
      · exact .inl ⟨f, by simp [step, h], hf⟩
      · right
        simp only [step, h]
        exact ⟨_, _, _, rfl, hf, fun e => List.mem_filter.2 ⟨hm e, by simpa using hid⟩⟩
    | init ok got =>
      rcases h with ⟨f, h, hf⟩ | ⟨f, m, n, h, hf, hm⟩
      · simp only [step, initStep, h]
        split
        · exact .inl (.inl ⟨hl, .inr ⟨_, _, _, rfl, hf, fun e => List.mem_filter.2 ⟨hl, by simp [e]⟩⟩⟩)
        · exact .inr (.inl rfl)
      · simp only [step, initStep, h]
        split
        · rename_i hg
          simp only [Bool.and_eq_true, List.all_eq_true, List.contains_iff_mem] at hg
          by_cases hfc : f = c.v6
          · exact .inl (.inr ⟨false, List.mem_append_right _ (List.mem_map.2 ⟨c, hg.1 c (hm hfc), rfl⟩)⟩)
          · cases f with
            | true => exact absurd (hf rfl).symm hfc
            | false => exact .inl (.inl ⟨hl, .inl ⟨true, rfl, fun _ => by cases hv : c.v6 <;> simp_all⟩⟩)
        · exact .inl (.inl ⟨hl, .inr ⟨f, m, n, h, hf, hm⟩⟩)
    | join ok => simp only [step]; split <;> exact .inl (.inl ⟨hl, h⟩)
    | deliver => simp only [step]; split <;> exact .inl (.inl ⟨hl, h⟩)
    | timeout => simp only [step]; split <;> exact .inl (.inl ⟨hl, h⟩)
    | close => simp only [step]; split <;> exact .inl (.inl ⟨hl, h⟩)
  · exact .inl (.inr (knows_stays h [e]))

theorem pending_exec {c : C} (es : List Ev) : ∀ {w : W}, Pending w c ∨ Failed w → Ev.destroy c.id ∉ es →
    Pending (exec w es) c ∨ Failed (exec w es) := by
  induction es with
  | nil => intro w h _; exact h
  | cons e es ih =>
    intro w h he
    simp only [List.mem_cons, not_or] at he
    refine ih ?_ he.2
    rcases h with h | h
    · exact pending_step h fun h' => he.1 h'.symm
    · exact .inr (failed_step h e)

/-- The caller gets a tracker only from a goroutine that went through; the receiver runs only after the dumps. -/
structure Inv (w : W) : Prop where
  got : w.caller = .tracker → w.pc = .fin
  sent : w.pc = .fin → w.caller = .tracker ∨ w.caller = .error
  rx : w.rx ≠ .off → w.pc = .send true ∨ w.caller = .tracker

theorem inv_begin (live : List C) (next : Nat) : Inv (begin live next) := ⟨by simp [begin], by simp [begin], by simp [begin]⟩

theorem inv_iff (w : W) : Inv w ↔ (w.caller = .tracker → w.pc = .fin) ∧ (w.pc = .fin → w.caller = .tracker ∨ w.caller = .error) ∧
    (w.rx ≠ .off → w.pc = .send true ∨ w.caller = .tracker) := ⟨fun ⟨a, b, c⟩ => ⟨a, b, c⟩, fun ⟨a, b, c⟩ => ⟨a, b, c⟩⟩

theorem inv_step {w : W} (h : Inv w) (e : Ev) : Inv (step w e) := by
  obtain ⟨h1, h2, h3⟩ := h
  rw [inv_iff]
  cases e with
  | init ok got =>
    simp only [step, initStep]
    cases hp : w.pc with
    | dump f =>
      simp only [hp] at h1 h2 h3 ⊢
      split <;> simp_all
    | reading f m n =>
      simp only [hp] at h1 h2 h3 ⊢
      split
      · cases f <;> simp_all
      · simp_all
    | opening =>
      simp only [hp] at h1 h2 h3 ⊢
      split <;> simp_all
    | send t =>
      simp only [hp] at h1 h2 h3 ⊢
      split
      · cases t <;> simp_all
      · simp_all
    | fin =>
      simp only [hp] at h1 h2 h3 ⊢
      simp_all
  | create v6 o r udp lost =>
    simp only [step]
    cases hp : w.pc with
    | reading f m n =>
      simp only [hp] at h1 h2 h3 ⊢
      split <;> simp_all
    | _ => simp_all
  | destroy id =>
    simp only [step]
    cases hp : w.pc with
    | reading f m n => simp_all
    | _ => simp_all
  | join ok => simp only [step]; split <;> simp_all
  | deliver => simp only [step]; split <;> simp_all
  | timeout => simp only [step]; split <;> simp_all
  | close => simp only [step]; split <;> simp_all

theorem inv_exec {w : W} (h : Inv w) (es : List Ev) : Inv (exec w es) := by
  induction es generalizing w with
  | nil => exact h
  | cons e es ih => exact ih (inv_step h e)

/-- C107.  A connection that is there when the start begins and lasts until the caller has a tracker is known to the tracker. -/
theorem lasting_connection_known_partial (live : List C) (next : Nat) (es : List Ev) (c : C) (hc : c ∈ live) (hd : Ev.destroy c.id ∉ es)
    (ht : (exec (begin live next) es).caller = .tracker) : Knows (exec (begin live next) es) c := by
  have hfin := (inv_exec (inv_begin live next) es).got ht
  rcases pending_exec es (w := begin live next) (.inl (.inl ⟨hc, .inl ⟨false, rfl, by simp⟩⟩)) hd with h | h
  · rcases h with ⟨_, ⟨f, h, _⟩ | ⟨f, m, n, h, _⟩⟩ | h
    · rw [hfin] at h; cases h
    · rw [hfin] at h; cases h
    · exact h
  · rcases h with h | h
    · rw [hfin] at h; cases h
    · rw [ht] at h; cases h

/-! ### Connections of the stream -/

theorem queued_step {w : W} {c : C} (h : c ∈ w.queue ∨ Knows w c) {e : Ev} (he : e ≠ .close) : c ∈ (step w e).queue ∨ Knows (step w e) c := by
  rcases h with h | h
  · cases e with
    | create v6 o r udp lost =>
      left
      simp only [step]
      split
      · exact List.mem_append_left _ h
      · exact h
    | destroy id => exact .inl h
    | init ok got =>
      left
      simp only [step, initStep]
      split
      · split <;> exact h
      · split <;> exact h
      · split <;> exact h
      · split <;> exact h
      · exact h
    | join ok => simp only [step]; split <;> exact .inl h
    | deliver =>
      simp only [step]
      split
      · rename_i heq
        rw [heq] at h
        rcases List.mem_cons.1 h with rfl | h
        · exact .inr ⟨true, by simp⟩
        · exact .inl h
      · exact .inl h
    | timeout => simp only [step]; split <;> exact .inl h
    | close => exact absurd rfl he
  · exact .inr (knows_stays h [e])

/-- A receiver goes on until the tracker is closed. -/
theorem rx_step {w : W} (h : Inv w) {b : Bool} (hr : w.rx = .recv b) {e : Ev} (he : e ≠ .close) : (step w e).rx = .recv b := by
  cases e with
  | create => exact hr
  | destroy => exact hr
  | init ok got =>
    simp only [step, initStep]
    have hp := h.rx (by rw [hr]; simp)
    split
    · split <;> exact hr
    · split <;> exact hr
    · rename_i ho
      rcases hp with hp | hp
      · rw [ho] at hp; cases hp
      · rw [h.got hp] at ho; cases ho
    · split <;> exact hr
    · exact hr
  | join ok => simp [step, hr]
  | deliver => simp only [step]; split <;> exact hr
  | timeout => simp only [step]; split <;> exact hr
  | close => exact absurd rfl he

theorem drain {w : W} (hr : w.rx = .recv true) {c : C} (h : c ∈ w.queue ∨ Knows w c) :
    Knows (exec w (List.replicate w.queue.length .deliver)) c := by
  generalize hn : w.queue.length = n
  induction n generalizing w with
  | zero =>
    rcases h with h | h
    · rw [List.eq_nil_of_length_eq_zero hn] at h; cases h
    · exact h
  | succ n ih =>
    have h' := queued_step h (e := .deliver) (by simp)
    rw [List.replicate_succ]
    refine ih (w := step w .deliver) ?_ h' ?_
    · simp only [step]; split <;> exact hr
    · cases hq : w.queue with
      | nil => rw [hq] at hn; cases hn
      | cons x q => rw [hq] at hn; simp only [step, hr, hq]; simpa using hn

/-- C107.  A connection made after the receiver joined the group, whose event is not dropped, is known or in the socket as long as the
tracker is not closed, and reading the socket makes it known. -/
theorem streamed_connection_known_partial (live : List C) (next : Nat) (es0 : List Ev) (hr : (exec (begin live next) es0).rx = .recv true)
    (v6 : Bool) (o r : Flow) (udp : Bool) (es : List Ev) (hes : Ev.close ∉ es) :
    let w := exec (begin live next) (es0 ++ .create v6 o r udp false :: es)
    let c : C := ⟨(exec (begin live next) es0).next, v6, o, r, udp⟩
    (c ∈ w.queue ∨ Knows w c) ∧ Knows (exec w (List.replicate w.queue.length .deliver)) c := by
  intro w c
  have hw : w = exec (step (exec (begin live next) es0) (.create v6 o r udp false)) es := by simp only [w, exec_append]; rfl
  have hinv := inv_exec (inv_begin live next) es0
  clear_value w
  have hc : c.id = c.id := rfl
  generalize hw0 : exec (begin live next) es0 = w0 at *
  have hgo : ∀ (es : List Ev) (w : W), Inv w → Ev.close ∉ es → (c ∈ w.queue ∨ Knows w c) → w.rx = .recv true →
      (c ∈ (exec w es).queue ∨ Knows (exec w es) c) ∧ (exec w es).rx = .recv true := by
    intro es
    induction es with
    | nil => intro w _ _ h h'; exact ⟨h, h'⟩
    | cons e es ih =>
      intro w hi hne h h'
      simp only [List.mem_cons, not_or] at hne
      exact ih (step w e) (inv_step hi e) hne.2 (queued_step h fun h => hne.1 h.symm) (rx_step hi h' fun h => hne.1 h.symm)
  obtain ⟨h1, h2⟩ := hgo es (step w0 (.create v6 o r udp false)) (inv_step hinv _) hes
    (.inl (by simp [step, hr, c, hw0])) (rx_step hinv hr (by simp))
  rw [← hw] at h1 h2
  exact ⟨h1, drain h2 h1⟩

/-! ### Connections in between -/

/-- Nothing will ever deliver the connection. -/
structure Missed (w : W) (c : C) : Prop where
  behind : Behind w c.v6
  unknown : ¬ Knows w c
  queue : c ∉ w.queue
  old : c.id < w.next

theorem behind_step {w : W} {v6 : Bool} (h : Behind w v6) (e : Ev) : Behind (step w e) v6 := by
  unfold Behind at *
  cases e with
  | create f o r udp lost =>
    simp only [step]
    cases hp : w.pc with
    | reading g m n =>
      rw [hp] at h
      simp only
      by_cases hg : g = f
      · rw [if_pos hg]; exact h
      · rw [if_neg hg]; exact h
    | _ => rw [hp] at h; exact h
  | destroy id =>
    simp only [step]
    cases hp : w.pc with
    | reading g m n => rw [hp] at h; exact h
    | _ => rw [hp] at h; exact h
  | init ok got =>
    simp only [step, initStep]
    cases hp : w.pc with
    | dump f =>
      rw [hp] at h
      cases ok
      · trivial
      · exact h
    | reading f m n =>
      rw [hp] at h
      have hf : f = true := h.1
      simp only
      by_cases hg : (m.all got.contains && got.all n.contains) = true
      · rw [if_pos hg, hf]; trivial
      · rw [if_neg hg, hp]; exact h
    | opening => cases ok <;> trivial
    | send t =>
      simp only
      by_cases hg : w.caller = .wait
      · rw [if_pos hg]; trivial
      · rw [if_neg hg, hp]; trivial
    | fin => simp only; rw [hp]; trivial
  | join ok => simp only [step]; split <;> exact h
  | deliver => simp only [step]; split <;> exact h
  | timeout => simp only [step]; split <;> exact h
  | close => simp only [step]; split <;> exact h

/-- What a dump of one family may contain are connections of the family. -/
def Fam (w : W) : Prop := ∀ f m n, w.pc = .reading f m n → ∀ c ∈ n, c.v6 = f

theorem fam_step {w : W} (h : Fam w) (e : Ev) : Fam (step w e) := by
  intro f m n hpc
  cases e with
  | create v6 o r udp lost =>
    simp only [step] at hpc
    cases hp : w.pc with
    | reading g m' n' =>
      simp only [hp] at hpc
      have := h g m' n' hp
      split at hpc
      · rename_i hg
        cases hpc
        intro c hc
        rcases List.mem_append.1 hc with hc | hc
        · exact this c hc
        · rw [List.mem_singleton] at hc; rw [hc]; exact hg.symm
      · cases hpc; exact this
    | _ => simp [hp] at hpc
  | destroy id =>
    simp only [step] at hpc
    cases hp : w.pc with
    | reading g m' n' =>
      simp only [hp] at hpc
      have := h g m' n' hp
      cases hpc; exact this
    | _ => simp [hp] at hpc
  | init ok got =>
    simp only [step, initStep] at hpc
    cases hp : w.pc with
    | dump g =>
      simp only [hp] at hpc
      split at hpc
      · cases hpc
        intro c hc
        simpa using (List.mem_filter.1 hc).2
      · cases hpc
    | reading g m' n' =>
      simp only [hp] at hpc
      split at hpc
      · cases g <;> cases hpc
      · exact h f m n hpc
    | opening => simp only [hp] at hpc; split at hpc <;> cases hpc
    | send t =>
      simp only [hp] at hpc
      split at hpc
      · cases hpc
      · rw [hp] at hpc; cases hpc
    | fin => simp only [hp] at hpc; cases hpc
  | join ok => simp only [step] at hpc; split at hpc <;> exact h f m n hpc
  | deliver => simp only [step] at hpc; split at hpc <;> exact h f m n hpc
  | timeout => simp only [step] at hpc; split at hpc <;> exact h f m n hpc
  | close => simp only [step] at hpc; split at hpc <;> exact h f m n hpc

theorem missed_step {w : W} (hf : Fam w) {c : C} (h : Missed w c) (e : Ev) : Missed (step w e) c := by
  obtain ⟨h1, h2, h3, h4⟩ := h
  have hb := behind_step h1 e
  cases e with
  | create v6 o r udp lost =>
    refine ⟨hb, h2, ?_, Nat.lt_succ_of_lt h4⟩
    simp only [step]
    split
    · intro hm
      rcases List.mem_append.1 hm with hm | hm
      · exact h3 hm
      · rw [List.mem_singleton] at hm
        rw [hm] at h4
        exact Nat.lt_irrefl _ h4
    · exact h3
  | destroy id => exact ⟨hb, h2, h3, h4⟩
  | init ok got =>
    simp only [step, initStep] at hb ⊢
    cases hp : w.pc with
    | dump f => simp only [hp] at hb ⊢; split at hb <;> rename_i ho <;> simp only [ho] <;> exact ⟨hb, h2, h3, h4⟩
    | reading f m n =>
      simp only [hp] at hb ⊢
      split at hb
      · rename_i hg
        rw [if_pos hg]
        refine ⟨hb, ?_, h3, h4⟩
        rintro ⟨b, hm⟩
        rcases List.mem_append.1 hm with hm | hm
        · exact h2 ⟨b, hm⟩
        · obtain ⟨x, hx, he⟩ := List.mem_map.1 hm
          cases he
          simp only [Bool.and_eq_true, List.all_eq_true, List.contains_iff_mem] at hg
          have hv := hf f m n hp c (hg.2 c hx)
          unfold Behind at h1
          rw [hp] at h1
          rw [h1.1, h1.2] at hv
          cases hv
      · rename_i hg
        rw [if_neg hg]
        exact ⟨h1, h2, h3, h4⟩
    | opening => simp only [hp] at hb ⊢; split at hb <;> rename_i ho <;> simp only [ho] <;> exact ⟨hb, h2, h3, h4⟩
    | send t =>
      simp only [hp] at hb ⊢
      split at hb
      · rename_i hg; rw [if_pos hg]; exact ⟨hb, h2, h3, h4⟩
      · rename_i hg; rw [if_neg hg]; exact ⟨h1, h2, h3, h4⟩
    | fin => exact ⟨h1, h2, h3, h4⟩
  | join ok => simp only [step] at hb ⊢; split at hb <;> rename_i hg <;> simp only [hg, if_true, if_false] <;> exact ⟨hb, h2, h3, h4⟩
  | deliver =>
    simp only [step] at hb ⊢
    split
    · rename_i x q hr hq
      refine ⟨h1, ?_, fun hm => h3 (by rw [hq]; exact List.mem_cons_of_mem _ hm), h4⟩
      rintro ⟨b, hm⟩
      rcases List.mem_append.1 hm with hm | hm
      · exact h2 ⟨b, hm⟩
      · rw [List.mem_singleton] at hm
        cases hm
        exact h3 (by rw [hq]; exact List.mem_cons_self)
    · exact ⟨h1, h2, h3, h4⟩
  | timeout => simp only [step] at hb ⊢; split at hb <;> rename_i hg <;> simp only [hg, if_true, if_false] <;> exact ⟨hb, h2, h3, h4⟩
  | close =>
    simp only [step]
    split
    · exact ⟨h1, h2, by simp, h4⟩
    · exact ⟨h1, h2, h3, h4⟩

theorem missed_exec {c : C} (es : List Ev) : ∀ {w : W}, Fam w → Missed w c → Missed (exec w es) c := by
  induction es with
  | nil => intro w _ h; exact h
  | cons e es ih => intro w hf h; exact ih (fam_step hf e) (missed_step hf h e)

theorem fam_exec {w : W} (h : Fam w) (es : List Ev) : Fam (exec w es) := by
  induction es generalizing w with
  | nil => exact h
  | cons e es ih => exact ih (fam_step h e)

theorem fam_begin (live : List C) (next : Nat) : Fam (begin live next) := by intro f m n h; simp [begin] at h

/-- The numbers of the connections are those given out. -/
structure Numbered (w : W) : Prop where
  live : ∀ c ∈ w.live, c.id < w.next
  may : ∀ f m n, w.pc = .reading f m n → ∀ c ∈ n, c.id < w.next
  queue : ∀ c ∈ w.queue, c.id < w.next
  fed : ∀ x ∈ w.fed, x.1.id < w.next

theorem numbered_step {w : W} (h : Numbered w) (e : Ev) : Numbered (step w e) := by
  obtain ⟨h1, h2, h3, h4⟩ := h
  cases e with
  | create v6 o r udp lost =>
    have hw : ∀ (l : List C), (∀ c ∈ l, c.id < w.next) → ∀ c ∈ l ++ [(⟨w.next, v6, o, r, udp⟩ : C)], c.id < w.next + 1 := by
      intro l hl c hc
      rcases List.mem_append.1 hc with hc | hc
      · exact Nat.lt_succ_of_lt (hl c hc)
      · rw [List.mem_singleton] at hc; rw [hc]; exact Nat.lt_succ_self _
    refine ⟨hw _ h1, ?_, ?_, fun x hx => Nat.lt_succ_of_lt (h4 x hx)⟩
    · intro f m n hpc
      simp only [step] at hpc
      cases hp : w.pc with
      | reading g m' n' =>
        simp only [hp] at hpc
        have := h2 g m' n' hp
        split at hpc
        · cases hpc; exact hw _ this
        · cases hpc; exact fun c hc => Nat.lt_succ_of_lt (this c hc)
      | _ => simp [hp] at hpc
    · simp only [step]
      split
      · exact hw _ h3
      · exact fun c hc => Nat.lt_succ_of_lt (h3 c hc)
  | destroy id =>
    refine ⟨fun c hc => h1 c (List.mem_filter.1 hc).1, ?_, h3, h4⟩
    intro f m n hpc
    simp only [step] at hpc
    cases hp : w.pc with
    | reading g m' n' =>
      simp only [hp] at hpc
      have := h2 g m' n' hp
      cases hpc; exact this
    | _ => simp [hp] at hpc
  | init ok got =>
    simp only [step, initStep]
    cases hp : w.pc with
    | dump f =>
      cases ok
      · exact ⟨h1, (by intro f m n h; cases h), h3, h4⟩
      · refine ⟨h1, ?_, h3, h4⟩
        intro f m n h
        cases h
        exact fun c hc => h1 c (List.mem_filter.1 hc).1
    | reading f m n =>
      simp only
      split
      · rename_i hg
        simp only [Bool.and_eq_true, List.all_eq_true, List.contains_iff_mem] at hg
        refine ⟨h1, ?_, h3, ?_⟩
        · intro f' m' n' h
          cases f <;> cases h
        · intro x hx
          rcases List.mem_append.1 hx with hx | hx
          · exact h4 x hx
          · obtain ⟨c, hc, rfl⟩ := List.mem_map.1 hx
            exact h2 f m n hp c (hg.2 c hc)
      · exact ⟨h1, h2, h3, h4⟩
    | opening =>
      cases ok
      · exact ⟨h1, (by intro f m n h; cases h), h3, h4⟩
      · exact ⟨h1, (by intro f m n h; cases h), h3, h4⟩
    | send t =>
      simp only
      split
      · exact ⟨h1, (by intro f m n h; cases h), h3, h4⟩
      · exact ⟨h1, h2, h3, h4⟩
    | fin => exact ⟨h1, h2, h3, h4⟩
  | join ok => simp only [step]; split <;> exact ⟨h1, h2, h3, h4⟩
  | deliver =>
    simp only [step]
    split
    · rename_i c q hr hq
      rw [hq] at h3
      refine ⟨h1, h2, fun c hc => h3 c (List.mem_cons_of_mem _ hc), ?_⟩
      intro x hx
      rcases List.mem_append.1 hx with hx | hx
      · exact h4 x hx
      · rw [List.mem_singleton] at hx; rw [hx]; exact h3 c List.mem_cons_self
    · exact ⟨h1, h2, h3, h4⟩
  | timeout => simp only [step]; split <;> exact ⟨h1, h2, h3, h4⟩
  | close =>
    simp only [step]
    split
    · exact ⟨h1, h2, by simp, h4⟩
    · exact ⟨h1, h2, h3, h4⟩

theorem numbered_exec {w : W} (h : Numbered w) (es : List Ev) : Numbered (exec w es) := by
  induction es generalizing w with
  | nil => exact h
  | cons e es ih => exact ih (numbered_step h e)

theorem numbered_begin (live : List C) (next : Nat) (h : ∀ c ∈ live, c.id < next) : Numbered (begin live next) :=
  ⟨h, by intro f m n h; simp [begin] at h, by simp [begin], by simp [begin]⟩

/-- C107, violation.  The table is dumped before the receiver joins the group of new connections.  A connection that the kernel adds after
the dump of its family and before the receiver has joined is never known, whatever happens afterwards. -/
theorem gap_connection_never_known (live : List C) (next : Nat) (hn : ∀ c ∈ live, c.id < next) (es0 : List Ev) (v6 : Bool)
    (hb : Behind (exec (begin live next) es0) v6) (hr : (exec (begin live next) es0).rx ≠ .recv true)
    (o r : Flow) (udp lost : Bool) (es : List Ev) :
    ¬ Knows (exec (begin live next) (es0 ++ .create v6 o r udp lost :: es)) ⟨(exec (begin live next) es0).next, v6, o, r, udp⟩ := by
  have hw : exec (begin live next) (es0 ++ .create v6 o r udp lost :: es) =
      exec (step (exec (begin live next) es0) (.create v6 o r udp lost)) es := by rw [exec_append]; rfl
  rw [hw]
  have hf := fam_exec (fam_begin live next) es0
  have hnum := numbered_exec (numbered_begin live next hn) es0
  generalize exec (begin live next) es0 = w at *
  refine (missed_exec es (fam_step hf _) ?_).unknown
  refine ⟨behind_step hb _, ?_, ?_, Nat.lt_succ_self _⟩
  · rintro ⟨b, hm⟩
    exact Nat.lt_irrefl _ (hnum.fed _ hm)
  · simp only [step, hr, false_and, if_false]
    intro hm
    exact Nat.lt_irrefl _ (hnum.queue _ hm)

/-- C107, violation.  The gap does not end when the caller gets the tracker: the receiver joins the group in its own goroutine. -/
theorem gap_after_start (live : List C) (next : Nat) (hn : ∀ c ∈ live, c.id < next) (es0 : List Ev)
    (ht : (exec (begin live next) es0).caller = .tracker) (hr : (exec (begin live next) es0).rx = .join) (v6 : Bool)
    (o r : Flow) (udp lost : Bool) (es : List Ev) :
    ¬ Knows (exec (begin live next) (es0 ++ .create v6 o r udp lost :: es)) ⟨(exec (begin live next) es0).next, v6, o, r, udp⟩ := by
  refine gap_connection_never_known live next hn es0 v6 ?_ (by rw [hr]; simp) o r udp lost es
  unfold Behind
  rw [(inv_exec (inv_begin live next) es0).got ht]
  trivial

/-- C107, violation.  The start of every collector has that gap: the caller can have the tracker before the receiver has joined. -/
theorem gap_reached (live : List C) (next : Nat) :
    ∃ es, (exec (begin live next) es).caller = .tracker ∧ (exec (begin live next) es).rx = .join := by
  refine ⟨[.init true [], .init true (live.filter (fun c => c.v6 == false)), .init true [], .init true (live.filter (fun c => c.v6 == true)),
    .init true [], .init true []], ?_⟩
  have h : ∀ l : List C, (l.all l.contains) = true := by
    intro l
    simp [List.all_eq_true]
  simp only [exec, List.foldl_cons, List.foldl_nil, step, initStep, begin, if_true, h, Bool.and_self, Bool.false_eq_true, if_false]
  exact ⟨trivial, trivial⟩

/-- The receiver does not join later. -/
theorem unjoined_step {w : W} (hi : Inv w) (h : w.rx = .recv false ∨ w.rx = .closed) (e : Ev) :
    (step w e).rx = .recv false ∨ (step w e).rx = .closed := by
  have hne : w.rx ≠ .off := by rcases h with h | h <;> rw [h] <;> simp
  have hj : w.rx ≠ .join := by rcases h with h | h <;> rw [h] <;> simp
  cases e with
  | create => exact h
  | destroy => exact h
  | init ok got =>
    simp only [step, initStep]
    have hp := hi.rx hne
    split
    · split <;> exact h
    · split <;> exact h
    · rename_i ho
      rcases hp with hp | hp
      · rw [ho] at hp; cases hp
      · rw [hi.got hp] at ho; cases ho
    · split <;> exact h
    · exact h
  | join ok => simp only [step, hj, if_false]; exact h
  | deliver => simp only [step]; split <;> exact h
  | timeout => simp only [step]; split <;> exact h
  | close =>
    simp only [step]
    split
    · exact .inr rfl
    · exact h

/-- C107, violation.  If joining the group fails, nobody notices and no later connection is ever known. -/
theorem failed_join_blinds (live : List C) (next : Nat) (hn : ∀ c ∈ live, c.id < next) (es0 : List Ev)
    (hr : (exec (begin live next) es0).rx = .join) (es1 : List Ev) (v6 : Bool) (o r : Flow) (udp lost : Bool) (es : List Ev) :
    (step (exec (begin live next) es0) (.join false)).caller = (exec (begin live next) es0).caller ∧
    ¬ Knows (exec (begin live next) ((es0 ++ .join false :: es1) ++ .create v6 o r udp lost :: es))
      ⟨(exec (begin live next) (es0 ++ .join false :: es1)).next, v6, o, r, udp⟩ := by
  refine ⟨by simp only [step]; split <;> rfl, ?_⟩
  have hgo : ∀ (es : List Ev) (w : W), Inv w → (w.rx = .recv false ∨ w.rx = .closed) →
      ((exec w es).rx = .recv false ∨ (exec w es).rx = .closed) := by
    intro es
    induction es with
    | nil => intro w _ h; exact h
    | cons e es ih => intro w hi h; exact ih _ (inv_step hi e) (unjoined_step hi h e)
  have hi := inv_exec (inv_begin live next) es0
  have hrx : (exec (begin live next) (es0 ++ .join false :: es1)).rx = .recv false ∨
      (exec (begin live next) (es0 ++ .join false :: es1)).rx = .closed := by
    rw [exec_append]
    exact hgo es1 (step (exec (begin live next) es0) (.join false)) (inv_step hi _) (.inl (by simp [step, hr]))
  refine gap_connection_never_known live next hn _ v6 ?_ ?_ o r udp lost es
  · have hi' := inv_exec (inv_begin live next) (es0 ++ .join false :: es1)
    unfold Behind
    rcases hi'.rx (by rcases hrx with h | h <;> rw [h] <;> simp) with h | h
    · rw [h]; trivial
    · rw [hi'.got h]; trivial
  · rcases hrx with h | h <;> rw [h] <;> simp

/-! ### What a lookup says about them -/

/-- A history of the tracker (Conn/Lookup.lean) that registers only what was fed. -/
def HistoryOf (w : W) (h : List (Nat × Lookup.Ev)) : Prop :=
  ∀ t o r n orphan, (t, Lookup.Ev.con o r n orphan) ∈ h → ∃ c, (c, orphan) ∈ w.fed ∧ c.o = o ∧ c.r = r ∧ protoNum c.udp = n

theorem last_none (k : Key) (h : List (Nat × Lookup.Ev))
    (hk : ∀ t o r n orphan, (t, Lookup.Ev.con o r n orphan) ∈ h → o.key (n == 17) ≠ k ∧ r.key (n == 17) ≠ k) (t : Option Transl)
    (hl : Last k h none t) : t = none := by
  induction h with
  | nil => exact hl
  | cons p h ih =>
    have ih := ih fun t o r n orphan hm => hk t o r n orphan (List.mem_cons_of_mem _ hm)
    obtain ⟨now, e⟩ := p
    cases e with
    | con o r n orphan =>
      obtain ⟨h1, h2⟩ := hk now o r n orphan List.mem_cons_self
      unfold Last at hl
      by_cases hc : Opposite o r ∨ (n ≠ 6 ∧ n ≠ 17)
      · exact ih (hl.1 hc)
      · rw [not_or] at hc
        have hn : n = 6 ∨ n = 17 := by
          by_cases h6 : n = 6
          · exact .inl h6
          · exact .inr (Decidable.byContradiction fun h => hc.2 ⟨h6, h⟩)
        exact ih ((hl.2 hc.1 hn).2.2 h2 h1)
    | look c => exact ih hl
    | delete c =>
      unfold Last at hl
      by_cases hc : keyOf c = k
      · exact ih (hl.1 hc)
      · exact ih (hl.2 hc)
    | compact => exact ih hl

theorem proto17 (udp : Bool) : (protoNum udp == 17) = udp := by cases udp <;> decide

/-- C107, violation.  No lookup ever finds the translation of a connection of the gap, unless another connection with the same
addresses is registered. -/
theorem gap_connection_untranslated (limit : Int) (hl : 0 < limit) (timeout : Nat) (w : W) (s : Stats)
    (huniq : ∀ x ∈ w.fed, x.1.o.key x.1.udp ≠ keyOf s ∧ x.1.r.key x.1.udp ≠ keyOf s)
    (h : List (Nat × Lookup.Ev)) (hclock : (h.map (·.1)).Pairwise (· ≤ ·)) (hh : HistoryOf w h) :
    ∃ st st', Lookup.run limit timeout Cache.init h = some st ∧ getDNAT limit st s = some (st', none) := by
  obtain ⟨st, st', res, h1, h2, h3⟩ := dnat_sound limit hl timeout h hclock s
  refine ⟨st, st', h1, ?_⟩
  cases res with
  | none => exact h2
  | some t =>
    have := last_none (keyOf s) h (fun t o r n orphan hm => by
      obtain ⟨c, hc, rfl, rfl, rfl⟩ := hh t o r n orphan hm
      rw [proto17]
      exact huniq _ hc) _ (h3 t rfl).1
    cases this

/-! ### A start that takes too long -/

structure Abandoned (w : W) : Prop where
  inv : Inv w
  caller : w.caller = .timeout ∨ w.caller = .error
  breaker : w.breaker = true
  ticker : w.ticker = true

theorem abandoned_step {w : W} (h : Abandoned w) (e : Ev) : Abandoned (step w e) ∧ (step w e).caller = w.caller := by
  obtain ⟨hi, hc, hb, ht⟩ := h
  have hne : w.caller ≠ .wait := by rcases hc with h | h <;> rw [h] <;> simp
  have hnt : w.caller ≠ .tracker := by rcases hc with h | h <;> rw [h] <;> simp
  have hi' := inv_step hi e
  have hrest : (step w e).caller = w.caller ∧ (step w e).breaker = w.breaker ∧ (step w e).ticker = w.ticker := by
    cases e with
    | init ok got =>
      simp only [step, initStep]
      split
      · split <;> exact ⟨rfl, rfl, rfl⟩
      · split <;> exact ⟨rfl, rfl, rfl⟩
      · split <;> exact ⟨rfl, rfl, rfl⟩
      · simp [hne]
      · exact ⟨rfl, rfl, rfl⟩
    | create => exact ⟨rfl, rfl, rfl⟩
    | destroy => exact ⟨rfl, rfl, rfl⟩
    | join ok => simp only [step]; split <;> exact ⟨rfl, rfl, rfl⟩
    | deliver => simp only [step]; split <;> exact ⟨rfl, rfl, rfl⟩
    | timeout => simp [step, hne]
    | close => simp [step, hnt]
  exact ⟨⟨hi', by rw [hrest.1]; exact hc, by rw [hrest.2.1]; exact hb, by rw [hrest.2.2]; exact ht⟩, hrest.1⟩

theorem abandoned_exec (es : List Ev) : ∀ {w : W}, Abandoned w → Abandoned (exec w es) ∧ (exec w es).caller = w.caller := by
  induction es with
  | nil => intro w h; exact ⟨h, rfl⟩
  | cons e es ih =>
    intro w h
    obtain ⟨h1, h2⟩ := abandoned_step h e
    obtain ⟨h3, h4⟩ := ih h1
    exact ⟨h3, h4.trans h2⟩

/-- The breaker and the ticker run until somebody closes a tracker. -/
theorem running_until_closed {w : W} (hb : w.breaker = true ∧ w.ticker = true ∧ w.caller ≠ .tracker) (e : Ev) :
    (step w e).breaker = true ∧ (step w e).ticker = true := by
  obtain ⟨h1, h2, h3⟩ := hb
  cases e with
  | init ok got =>
    simp only [step, initStep]
    split
    · split <;> exact ⟨h1, h2⟩
    · split <;> exact ⟨h1, h2⟩
    · split <;> exact ⟨h1, h2⟩
    · split <;> exact ⟨h1, h2⟩
    · exact ⟨h1, h2⟩
  | create => exact ⟨h1, h2⟩
  | destroy => exact ⟨h1, h2⟩
  | join ok => simp only [step]; split <;> exact ⟨h1, h2⟩
  | deliver => simp only [step]; split <;> exact ⟨h1, h2⟩
  | timeout => simp only [step]; split <;> exact ⟨h1, h2⟩
  | close => simp [step, h1, h2, h3]

/-- Before a caller without tracker nobody can have closed anything. -/
theorem abandoned_of (live : List C) (next : Nat) (es : List Ev)
    (h : (exec (begin live next) es).caller = .timeout ∨ (exec (begin live next) es).caller = .error) :
    Abandoned (exec (begin live next) es) := by
  have key : ∀ es : List Ev, (exec (begin live next) es).caller ≠ .tracker →
      (exec (begin live next) es).breaker = true ∧ (exec (begin live next) es).ticker = true := by
    intro es
    induction es using snoc_ind with
    | nil => intro _; exact ⟨rfl, rfl⟩
    | snoc es e ih =>
      intro hne
      rw [exec_append] at hne ⊢
      have hprev : (exec (begin live next) es).caller ≠ .tracker := by
        intro ht
        apply hne
        show (step (exec (begin live next) es) e).caller = .tracker
        have hpc := (inv_exec (inv_begin live next) es).got ht
        generalize exec (begin live next) es = w at *
        cases e with
        | init ok got => simp [step, initStep, hpc, ht]
        | create => exact ht
        | destroy => exact ht
        | join ok => simp only [step]; split <;> exact ht
        | deliver => simp only [step]; split <;> exact ht
        | timeout => simp [step, ht]
        | close => simp [step, ht]
      obtain ⟨a, b⟩ := ih hprev
      exact running_until_closed ⟨a, b, hprev⟩ e
  have hne : (exec (begin live next) es).caller ≠ .tracker := by rcases h with h | h <;> rw [h] <;> simp
  exact ⟨inv_exec (inv_begin live next) es, h, (key es hne).1, (key es hne).2⟩

/-- C107, violation.  A start that fails or takes too long is not cleaned up: the breaker's goroutine and the ticker go on for ever. -/
theorem failed_start_leaks (live : List C) (next : Nat) (es : List Ev)
    (h : (exec (begin live next) es).caller = .timeout ∨ (exec (begin live next) es).caller = .error) (es' : List Ev) :
    let w := exec (begin live next) (es ++ es')
    w.caller = (exec (begin live next) es).caller ∧ w.breaker = true ∧ w.ticker = true := by
  intro w
  have hw : w = exec (exec (begin live next) es) es' := exec_append _ _ _
  obtain ⟨h1, h2⟩ := abandoned_exec es' (abandoned_of live next es h)
  rw [hw]
  exact ⟨h2, h1.breaker, h1.ticker⟩

/-- C107, violation.  When the caller has given up, the goroutine of the start never ends: it is stuck in its send for ever; and if it got as
far as the receiver, the receiver goes on for ever, with its socket open, for a tracker that nobody has. -/
theorem late_start_never_ends (live : List C) (next : Nat) (es : List Ev) (h : (exec (begin live next) es).caller = .timeout)
    (es' : List Ev) :
    let w := exec (begin live next) es
    let w' := exec (begin live next) (es ++ es')
    w'.pc ≠ .fin ∧ (∀ t, w.pc = .send t → w'.pc = .send t) ∧ (∀ b, w.rx = .recv b → w'.rx = .recv b) := by
  intro w w'
  have hw' : w' = exec w es' := exec_append _ _ _
  have ha : Abandoned w := abandoned_of live next es (.inl h)
  have hc : w.caller = .timeout := h
  clear_value w w'
  subst hw'
  have hstep : ∀ (w : W), Abandoned w → w.caller = .timeout → ∀ e, (∀ t, w.pc = .send t → (step w e).pc = .send t) ∧
      ∀ b, w.rx = .recv b → (step w e).rx = .recv b := by
    intro w ha hc e
    refine ⟨fun t ht => ?_, fun b hb => ?_⟩
    · cases e with
      | init ok got => simp [step, initStep, ht, hc]
      | create => simp [step, ht]
      | destroy => simp [step, ht]
      | join ok => simp only [step]; split <;> exact ht
      | deliver => simp only [step]; split <;> exact ht
      | timeout => simp [step, hc, ht]
      | close => simp [step, hc, ht]
    · cases e with
      | close => simp [step, hc, hb]
      | _ => exact rx_step ha.inv hb (by simp)
  refine ⟨?_, ?_⟩
  · intro hf
    obtain ⟨h1, h2⟩ := abandoned_exec es' ha
    rcases h1.inv.sent hf with h | h
    · rw [h2, hc] at h; cases h
    · rw [h2, hc] at h; cases h
  · clear h
    induction es' generalizing w with
    | nil => exact ⟨fun t ht => ht, fun b hb => hb⟩
    | cons e es' ih =>
      obtain ⟨h1, h2⟩ := abandoned_step ha e
      obtain ⟨h3, h4⟩ := hstep w ha hc e
      obtain ⟨h5, h6⟩ := ih (step w e) h1 (h2.trans hc)
      exact ⟨fun t ht => h5 t (h3 t ht), fun b hb => h6 b (h4 b hb)⟩

/-! ### Cases -/

def fl (a b : UInt8) (p q : UInt16) : Flow := ⟨[10, 0, 0, a], [10, 0, 0, b], p, q⟩
/-- A connection to a service address that is translated to a pod. -/
def old : C := ⟨0, false, fl 1 100 4000 80, fl 7 1 8080 4000, false⟩
def startUp : List Ev := [.init true [], .init true [old], .init true [], .init true [], .init true [], .init true []]

example : (exec (begin [old] 1) startUp).caller = .tracker ∧ (exec (begin [old] 1) startUp).rx = .join ∧
    (exec (begin [old] 1) startUp).fed = [(old, false)] := by decide +kernel

example : Knows (exec (begin [old] 1) startUp) old :=
  lasting_connection_known_partial [old] 1 startUp old (by decide +kernel) (by simp [startUp]) (by decide +kernel)

/-- The connection made right after the start is unknown for ever. -/
example (es : List Ev) : ¬ Knows (exec (begin [old] 1) (startUp ++ .create false (fl 2 100 4001 80) (fl 7 2 8080 4001) false false :: es))
    ⟨1, false, fl 2 100 4001 80, fl 7 2 8080 4001, false⟩ :=
  gap_after_start [old] 1 (by decide +kernel) startUp (by decide +kernel) (by decide +kernel) false _ _ false false es

/-- One made after the receiver joined is known. -/
example : Knows (exec (begin [old] 1) (startUp ++ [.join true] ++ .create false (fl 2 100 4001 80) (fl 7 2 8080 4001) false false :: [.deliver]))
    ⟨1, false, fl 2 100 4001 80, fl 7 2 8080 4001, false⟩ := ⟨true, by decide +kernel⟩

example : (exec (begin [old] 1) ([.init true [], .timeout] ++ [.init true [old], .init true [], .init true [], .init true [], .init true [], .join true])).rx = .recv true ∧
    (exec (begin [old] 1) ([.init true [], .timeout] ++ [.init true [old], .init true [], .init true [], .init true [], .init true [], .join true])).pc = .send true := by
  decide +kernel

/-- Lookups for the connection of the gap. -/
example : ∃ st st', Lookup.run 100 120 Cache.init [(5, .con old.o old.r 6 false), (7, .compact)] = some st ∧
    getDNAT 100 st ⟨[10, 0, 0, 2], [10, 0, 0, 100], 4001, 80, 0⟩ = some (st', none) :=
  gap_connection_untranslated 100 (by decide) 120 (exec (begin [old] 1) startUp) _ (by decide +kernel) _ (by simp) (by
    intro t o r n orphan hm
    simp only [List.mem_cons, Prod.mk.injEq, Lookup.Ev.con.injEq, reduceCtorEq, and_false, List.not_mem_nil, or_false] at hm
    obtain ⟨_, rfl, rfl, rfl, rfl⟩ := hm
    exact ⟨old, by decide +kernel, rfl, rfl, rfl⟩)

end Kindling.Conn.Start
