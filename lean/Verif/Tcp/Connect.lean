import Verif.Dec
/-
TCP connect attempts: tcpconnectanalyzer/internal/connection_stats.go, state_machine.go,
connect_monitor.go and analyzer.go.

Simplified: events are given after their attributes have been read (an event with a missing attribute is
answered with an error and changes nothing, connect_monitor.go:43-46, 118-127, 169-181; the decoding is in
`Verif.Tcp.Report`).  The content of /proc/<pid>/net/tcp is an input of the sweep.
-/
namespace Kindling.Tcp

/-- `ConnKey` (connection_stats.go:46-51). -/
structure Key where
  srcIP : Bytes
  srcPort : Nat
  dstIP : Bytes
  dstPort : Nat
deriving DecidableEq, Repr

/-- `StateType` (connection_stats.go:67-70); `Closed` is never used. -/
inductive State | inprogress | success | failure
deriving DecidableEq, Repr

/-- `EventType` (connection_stats.go:72-80). -/
inductive EvType
  | connectError | connectNoError | toEstablished | fromEstablished
  | exitSuccess | exitFailure | exitNotConcern | expired | sendRequest
deriving DecidableEq, Repr

/-- `createStatesResource` (connection_stats.go:83-116): the next state, `none` for an event not
supported. -/
def next : State → EvType → Option State
  | .inprogress, .connectNoError => some .inprogress
  | .inprogress, .connectError => some .failure
  | .inprogress, .toEstablished => some .success
  | .inprogress, .sendRequest => some .success
  | .inprogress, .fromEstablished => some .success
  | .inprogress, .exitSuccess => some .success
  | .inprogress, .exitFailure => some .failure
  | .inprogress, .exitNotConcern => some .inprogress
  | .inprogress, .expired => some .failure
  | .success, _ => none
  | .failure, _ => none

/-- `Pid`, `Comm` and `ContainerId` of `ConnectionStats` (connection_stats.go:30-32), and the zero values. -/
structure Who where
  pid : Nat
  comm : Bytes
  container : Bytes
deriving DecidableEq, Repr

def nobody : Who := ⟨0, [], []⟩

/-- `ConnectionStats` (connection_stats.go:29-38). -/
structure Conn where
  key : Key
  who : Who
  state : State
  initial : Nat
  stop : Nat
  code : Int
deriving DecidableEq, Repr

abbrev ConnMap := AMap Key Conn

/-- `ReceiveEvent` (state_machine.go:33-56) with the callbacks (connection_stats.go:103-114), on the
entry `c` of the map.  The pointer in the map is the connection itself, so the changed connection
is stored back. -/
def receive (m : ConnMap) (c : Conn) (e : EvType) : ConnMap × Option Conn :=
  match next c.state e with
  | none => (m.set c.key c, none)
  | some s =>
    let c' := { c with state := s }
    if s ≠ c.state ∧ s ≠ .inprogress then ((m.set c.key c').del c.key, some c')
    else (m.set c.key c', none)

/-- `isNotErrorReturnCode` (connect_monitor.go:107-109) with the constants of connection_stats.go:7-13. -/
def isNotErrorReturnCode (c : Int) : Bool := c == -115 || c == -4 || c == -106 || c == -114

/-- The content of /proc/<pid>/net/tcp: `none` if it cannot be read, else the state of a socket. -/
abbrev Proc : Type := Nat → Option (Key → Option String)

/-- Events and sweeps. -/
inductive Ev
  | tcpConnect (k : Key) (ret : Int) (ts : Nat)
  | connectExit (k : Key) (res : Int) (ts : Nat) (who : Who)
  | sendRequest (k : Key) (ts : Nat) (who : Who)
  | setState (k : Key) (old new : Int) (ts : Nat)
  | trim (now : Int) (proc : Proc)

/-- `ReadInTcpConnect` (connect_monitor.go:111-154). -/
def readTcpConnect (m : ConnMap) (k : Key) (ret : Int) (ts : Nat) : ConnMap × Option Conn :=
  let e := if ret = 0 then EvType.connectNoError else .connectError
  match m.get k with
  | none => receive m ⟨k, nobody, .inprogress, ts, ts, ret⟩ e
  | some c => receive m { c with stop := ts, code := ret } e

/-- `ReadInConnectExitSyscall` (connect_monitor.go:41-81). -/
def readConnectExit (m : ConnMap) (k : Key) (res : Int) (ts : Nat) (who : Who) : ConnMap × Option Conn :=
  match m.get k with
  | none => (m, none)
  | some c =>
    let c1 := { c with stop := ts, who := who }
    if res = 0 then receive m c1 .exitSuccess
    else if isNotErrorReturnCode res then receive m c1 .exitNotConcern
    else receive m { c1 with code := res } .exitFailure

/-- `ReadSendRequestSyscall` (connect_monitor.go:83-105). -/
def readSendRequest (m : ConnMap) (k : Key) (ts : Nat) (who : Who) : ConnMap × Option Conn :=
  match m.get k with
  | none => (m, none)
  | some c => receive m { c with stop := ts, who := who } .sendRequest

/-- `ReadInTcpSetState` (connect_monitor.go:160-216). -/
def readSetState (m : ConnMap) (k : Key) (old new : Int) (ts : Nat) : ConnMap × Option Conn :=
  if old = 1 then
    match m.get k with
    | none => (m, none)
    | some c => receive m { c with stop := ts } .fromEstablished
  else if new = 1 then
    match m.get k with
    | none => (m, none)
    | some c => receive m { c with stop := ts } .toEstablished
  else (m, none)

/-- What the sweep does with one connection (connect_monitor.go:225-293): the event it is given. -/
def trimEvent (wait now : Int) (proc : Proc) (k : Key) (c : Conn) : Option EvType :=
  if c.who.pid = 0 then none
  else if now - (c.initial : Int) < wait then none
  else match proc c.who.pid with
    | none => some .expired
    | some f => match f k with
      | none => some .expired
      | some st =>
        if st = "01" then some .toEstablished
        else if st = "02" ∨ st = "03" then none
        else some .fromEstablished

/-- `TrimConnectionsWithTcpStat` (connect_monitor.go:218-294) over the connections of the map, in the
order of the list (Go: any order; the entry being visited may be deleted). -/
def trimLoop (wait now : Int) (proc : Proc) : List (Key × Conn) → ConnMap → ConnMap × List Conn
  | [], m => (m, [])
  | (k, c) :: r, m => match trimEvent wait now proc k c with
    | none => trimLoop wait now proc r m
    | some e =>
      let (m', o) := receive m c e
      let (m'', out) := trimLoop wait now proc r m'
      (m'', o.toList ++ out)

/-- One event of the analyzer's loop, and what it reports (analyzer.go:92-133, 159-165): reports of
events with source port 0 are suppressed, those of the sweep are not. -/
def step (wait : Int) (m : ConnMap) : Ev → ConnMap × List Conn
  | .tcpConnect k ret ts => let r := readTcpConnect m k ret ts; (r.1, r.2.toList.filter (fun c => decide (c.key.srcPort ≠ 0)))
  | .connectExit k res ts who => let r := readConnectExit m k res ts who; (r.1, r.2.toList.filter (fun c => decide (c.key.srcPort ≠ 0)))
  | .sendRequest k ts who => let r := readSendRequest m k ts who; (r.1, r.2.toList.filter (fun c => decide (c.key.srcPort ≠ 0)))
  | .setState k old new ts => let r := readSetState m k old new ts; (r.1, r.2.toList.filter (fun c => decide (c.key.srcPort ≠ 0)))
  | .trim now proc => trimLoop wait now proc m m

def run (wait : Int) (m : ConnMap) : List Ev → ConnMap × List Conn
  | [] => (m, [])
  | e :: r =>
    let (m', out) := step wait m e
    let (m'', outs) := run wait m' r
    (m'', out ++ outs)

/-! ### Specification: one connection at a time -/

/-- What is known of an attempt that is under way. -/
structure Attempt where
  who : Who
  initial : Nat
  stop : Nat
  code : Int
deriving DecidableEq, Repr

/-- What an event says of the attempt on `k`: nothing new, or its outcome. -/
inductive Verdict | unrelated | update (a : Attempt) | outcome (success : Bool) (a : Attempt)
deriving DecidableEq

/-- The meaning of the events, for an attempt under way. -/
def judge (wait : Int) (k : Key) (a : Attempt) : Ev → Verdict
  | .tcpConnect k' ret ts =>
    if k' ≠ k then .unrelated
    else if ret = 0 then .update { a with stop := ts, code := ret }
    else .outcome false { a with stop := ts, code := ret }
  | .connectExit k' res ts who =>
    if k' ≠ k then .unrelated
    else if res = 0 then .outcome true { a with stop := ts, who := who }
    else if res = -115 ∨ res = -4 ∨ res = -106 ∨ res = -114 then .update { a with stop := ts, who := who }
    else .outcome false { a with stop := ts, who := who, code := res }
  | .sendRequest k' ts who => if k' ≠ k then .unrelated else .outcome true { a with stop := ts, who := who }
  | .setState k' old new ts =>
    if k' ≠ k ∨ (old ≠ 1 ∧ new ≠ 1) then .unrelated else .outcome true { a with stop := ts }
  | .trim now proc =>
    if a.who.pid = 0 ∨ now - (a.initial : Int) < wait then .unrelated
    else match (proc a.who.pid).bind (· k) with
      | none => .outcome false a
      | some st => if st = "02" ∨ st = "03" then .unrelated else .outcome true a

/-- A report. -/
structure Report where
  success : Bool
  att : Attempt
deriving DecidableEq

/-- The life of the attempts on one connection: `tcp_connect` opens one (and ends it at once if it
failed), the first event with an outcome reports it and ends it. -/
def specStep (wait : Int) (k : Key) : Option Attempt → Ev → Option Attempt × List Report
  | none, .tcpConnect k' ret ts =>
    if k' ≠ k then (none, [])
    else if ret = 0 then (some ⟨nobody, ts, ts, ret⟩, []) else (none, [⟨false, ⟨nobody, ts, ts, ret⟩⟩])
  | none, _ => (none, [])
  | some a, e => match judge wait k a e with
    | .unrelated => (some a, [])
    | .update a' => (some a', [])
    | .outcome s a' => (none, [⟨s, a'⟩])

def specRun (wait : Int) (k : Key) (a : Option Attempt) : List Ev → Option Attempt × List Report
  | [] => (a, [])
  | e :: r => ((specRun wait k (specStep wait k a e).1 r).1, (specStep wait k a e).2 ++ (specRun wait k (specStep wait k a e).1 r).2)

/-! ### Refinement -/

/-- Everything tracked is in progress and stored under its own key. -/
def Inv (m : ConnMap) : Prop := AMap.WF m ∧ ∀ k c, m.get k = some c → c.key = k ∧ c.state = .inprogress

def Conn.att (c : Conn) : Attempt := ⟨c.who, c.initial, c.stop, c.code⟩
def Conn.report (c : Conn) : Report := ⟨decide (c.state = .success), c.att⟩
def view (m : ConnMap) (k : Key) : Option Attempt := (m.get k).map Conn.att
def reportsOf (k : Key) (out : List Conn) : List Report := (out.filter (fun c => decide (c.key = k))).map Conn.report

/-- Effect of an event on a connection in progress. -/
theorem receive_spec {m : ConnMap} (h : Inv m) {c : Conn} (hc : c.state = .inprogress) (e : EvType) :
    Inv (receive m c e).1 ∧
    (∀ k, k ≠ c.key → (receive m c e).1.get k = m.get k) ∧
    match next .inprogress e with
    | some .inprogress => (receive m c e).1.get c.key = some c ∧ (receive m c e).2 = none
    | some s => (receive m c e).1.get c.key = none ∧ (receive m c e).2 = some { c with state := s }
    | none => False := by
  have hset : ∀ c' : Conn, c'.key = c.key → c'.state = .inprogress → Inv (m.set c.key c') := by
    intro c' h1 h2
    refine ⟨h.1.set _ _, fun k x hx => ?_⟩
    rw [AMap.get_set] at hx
    split at hx
    · cases hx; exact ⟨by rw [h1]; assumption, h2⟩
    · exact h.2 k x hx
  have hdel : ∀ c' : Conn, Inv ((m.set c.key c').del c.key) := by
    intro c'
    refine ⟨(h.1.set _ _).del _, fun k x hx => ?_⟩
    rw [AMap.get_del] at hx
    split at hx
    · cases hx
    · rename_i hne
      rw [AMap.get_set_ne _ _ hne] at hx
      exact h.2 k x hx
  unfold receive
  rw [hc]
  cases e
  all_goals simp only [next]
  all_goals try rw [if_pos (by decide)]
  all_goals try rw [if_neg (by decide)]
  all_goals first
    | exact ⟨hdel _, fun k hk => by simp only; rw [AMap.get_del_ne _ (Ne.symm hk), AMap.get_set_ne _ _ (Ne.symm hk)], by simp only; exact AMap.get_del_self _ _, rfl⟩
    | exact ⟨hset _ rfl rfl, fun k hk => by simp only; rw [AMap.get_set_ne _ _ (Ne.symm hk)], by
        simp only
        rw [AMap.get_set_self]
        congr 1
        rw [← hc], rfl⟩

theorem reportsOf_toList {k : Key} (c : Conn) :
    reportsOf k (some c).toList = if c.key = k then [c.report] else [] := by
  unfold reportsOf
  by_cases h : c.key = k <;> simp [h]

theorem reportsOf_filtered {k : Key} (hk : k.srcPort ≠ 0) (o : Option Conn) :
    reportsOf k (o.toList.filter (fun c => decide (c.key.srcPort ≠ 0))) = reportsOf k o.toList := by
  cases o with
  | none => rfl
  | some c =>
    unfold reportsOf
    by_cases h : c.key = k
    · simp [h, hk]
    · by_cases h2 : c.key.srcPort = 0 <;> simp [h, h2]

/-- The effect of one `receive` on the view of `k`. -/
theorem receive_view {m : ConnMap} (h : Inv m) {c : Conn} (hc : c.state = .inprogress) (e : EvType) (k : Key) :
    (c.key ≠ k → view (receive m c e).1 k = view m k ∧ reportsOf k (receive m c e).2.toList = []) ∧
    (c.key = k → match next .inprogress e with
      | some .inprogress => view (receive m c e).1 k = some c.att ∧ reportsOf k (receive m c e).2.toList = []
      | some s => view (receive m c e).1 k = none ∧ reportsOf k (receive m c e).2.toList = [⟨decide (s = .success), c.att⟩]
      | none => False) := by
  obtain ⟨h1, h2, h3⟩ := receive_spec h hc e
  constructor
  · intro hne
    refine ⟨by unfold view; rw [h2 k (Ne.symm hne)], ?_⟩
    revert h3
    cases e <;> simp only [next] <;> intro h3 <;> rw [h3.2] <;> first | rfl | (rw [reportsOf_toList]; simp [hne])
  · rintro rfl
    revert h3
    cases e <;> simp only [next] <;> intro h3 <;> refine ⟨by unfold view; rw [h3.1]; rfl, ?_⟩ <;> rw [h3.2] <;>
      first | rfl | (rw [reportsOf_toList]; simp [Conn.report, Conn.att])

theorem trimEvent_ne (wait now : Int) (proc : Proc) (k : Key) (c : Conn) {e : EvType}
    (h : trimEvent wait now proc k c = some e) : e = .expired ∨ e = .toEstablished ∨ e = .fromEstablished := by
  unfold trimEvent at h
  split at h
  · cases h
  · split at h
    · cases h
    · split at h
      · cases h; simp
      · split at h
        · cases h; simp
        · split at h
          · cases h; simp
          · split at h
            · cases h
            · cases h; simp

/-- The sweep: connections not visited keep their entry, those visited are judged once. -/
theorem trimLoop_spec (wait now : Int) (proc : Proc) (k : Key) (l : List (Key × Conn)) (m : ConnMap) (h : Inv m)
    (hl : (l.map (·.1)).Nodup) (hin : ∀ p ∈ l, m.get p.1 = some p.2) :
    Inv (trimLoop wait now proc l m).1 ∧
    (k ∉ l.map (·.1) → view (trimLoop wait now proc l m).1 k = view m k ∧ reportsOf k (trimLoop wait now proc l m).2 = []) ∧
    (∀ c, (k, c) ∈ l → match trimEvent wait now proc k c with
      | none => view (trimLoop wait now proc l m).1 k = view m k ∧ reportsOf k (trimLoop wait now proc l m).2 = []
      | some e => view (trimLoop wait now proc l m).1 k = none ∧
          reportsOf k (trimLoop wait now proc l m).2 = [⟨decide (e ≠ .expired), c.att⟩]) := by
  induction l generalizing m with
  | nil => exact ⟨h, fun _ => ⟨rfl, rfl⟩, fun c hc => by simp at hc⟩
  | cons p r ih =>
    obtain ⟨k0, c0⟩ := p
    simp only [List.map_cons, List.nodup_cons] at hl
    have hc0 := h.2 k0 c0 (hin (k0, c0) (by simp))
    cases he : trimEvent wait now proc k0 c0 with
    | none =>
      have hstep : trimLoop wait now proc ((k0, c0) :: r) m = trimLoop wait now proc r m := by simp only [trimLoop, he]
      rw [hstep]
      obtain ⟨i1, i2, i3⟩ := ih m h hl.2 (fun p hp => hin p (by simp [hp]))
      refine ⟨i1, fun hk => i2 (fun hk' => hk (by simp only [List.map_cons, List.mem_cons]; exact Or.inr hk')), ?_⟩
      intro c hc
      rcases List.mem_cons.1 hc with heq | hc
      · cases heq
        rw [he]
        exact i2 hl.1
      · exact i3 c hc
    | some e =>
      obtain ⟨r1, r2, r3⟩ := receive_spec h hc0.2 e
      have hin' : ∀ p ∈ r, (receive m c0 e).1.get p.1 = some p.2 := by
        intro p hp
        rw [r2 p.1 ?_]
        · exact hin p (by simp [hp])
        · rw [hc0.1]; rintro rfl; exact hl.1 (List.mem_map.2 ⟨p, hp, rfl⟩)
      obtain ⟨i1, i2, i3⟩ := ih (receive m c0 e).1 r1 hl.2 hin'
      have hv := receive_view h hc0.2 e k
      have hstep : trimLoop wait now proc ((k0, c0) :: r) m =
          ((trimLoop wait now proc r (receive m c0 e).1).1, (receive m c0 e).2.toList ++ (trimLoop wait now proc r (receive m c0 e).1).2) := by
        simp only [trimLoop, he]
      have happ : ∀ a b, reportsOf k (a ++ b) = reportsOf k a ++ reportsOf k b := by
        intro a b; unfold reportsOf; rw [List.filter_append, List.map_append]
      rw [hstep]
      refine ⟨i1, ?_, ?_⟩
      · intro hk
        simp only [List.map_cons, List.mem_cons, not_or] at hk
        obtain ⟨v1, v2⟩ := hv.1 (by rw [hc0.1]; exact fun h => hk.1 h.symm)
        obtain ⟨j1, j2⟩ := i2 hk.2
        simp only
        exact ⟨by rw [j1, v1], by rw [happ, v2, j2]; rfl⟩
      · intro c hc
        rcases List.mem_cons.1 hc with heq | hc
        · cases heq
          rw [he]
          obtain ⟨j1, j2⟩ := i2 hl.1
          have hv2 := hv.2 hc0.1
          simp only
          rcases trimEvent_ne wait now proc k c0 he with rfl | rfl | rfl <;>
            (simp only [next] at hv2; exact ⟨by rw [j1, hv2.1], by rw [happ, hv2.2, j2]; rfl⟩)
        · have hne : c0.key ≠ k := by
            rw [hc0.1]; rintro rfl; exact hl.1 (List.mem_map.2 ⟨_, hc, rfl⟩)
          obtain ⟨v1, v2⟩ := hv.1 hne
          have := i3 c hc
          revert this
          cases trimEvent wait now proc k c with
          | none =>
            simp only
            rintro ⟨j1, j2⟩
            exact ⟨by rw [j1, v1], by rw [happ, v2, j2]; rfl⟩
          | some e' =>
            simp only
            rintro ⟨j1, j2⟩
            exact ⟨by rw [j1], by rw [happ, v2, j2]; rfl⟩

theorem step_refines (wait : Int) {m : ConnMap} (h : Inv m) (e : Ev) (k : Key) (hk : k.srcPort ≠ 0) :
    Inv (step wait m e).1 ∧ view (step wait m e).1 k = (specStep wait k (view m k) e).1 ∧
      reportsOf k (step wait m e).2 = (specStep wait k (view m k) e).2 := by
  cases e with
  | tcpConnect k' ret ts =>
    simp only [step, readTcpConnect, reportsOf_filtered hk]
    cases hg : m.get k' with
    | none =>
      simp only
      have hc : (⟨k', nobody, .inprogress, ts, ts, ret⟩ : Conn).state = .inprogress := rfl
      obtain ⟨r1, _⟩ := receive_spec h hc (if ret = 0 then EvType.connectNoError else .connectError)
      have hv := receive_view h hc (if ret = 0 then EvType.connectNoError else .connectError) k
      refine ⟨r1, ?_⟩
      by_cases hkk : k' = k
      · subst hkk
        have hv2 := hv.2 rfl
        have hvn : view m k' = none := by unfold view; rw [hg]; rfl
        rw [hvn]
        by_cases hr : ret = 0
        · simp only [hr, ↓reduceIte, next] at hv2 ⊢
          simp [specStep, hv2, Conn.att]
        · simp only [hr, ↓reduceIte, next] at hv2 ⊢
          simp [specStep, hv2, Conn.att, hr]
      · obtain ⟨v1, v2⟩ := hv.1 hkk
        rw [v1, v2]
        cases view m k <;> simp [specStep, judge, hkk]
    | some c =>
      simp only
      have hc' := h.2 k' c hg
      have hc : ({ c with stop := ts, code := ret } : Conn).state = .inprogress := hc'.2
      obtain ⟨r1, _⟩ := receive_spec h hc (if ret = 0 then EvType.connectNoError else .connectError)
      have hv := receive_view h hc (if ret = 0 then EvType.connectNoError else .connectError) k
      refine ⟨r1, ?_⟩
      by_cases hkk : k' = k
      · subst hkk
        have hv2 := hv.2 hc'.1
        have hvn : view m k' = some c.att := by unfold view; rw [hg]; rfl
        rw [hvn]
        by_cases hr : ret = 0
        · simp only [hr, ↓reduceIte, next] at hv2 ⊢
          simp [specStep, judge, hv2, Conn.att]
        · simp only [hr, ↓reduceIte, next] at hv2 ⊢
          simp [specStep, judge, hv2, Conn.att, hr]
      · obtain ⟨v1, v2⟩ := hv.1 (by simp only; rw [hc'.1]; exact hkk)
        rw [v1, v2]
        cases view m k <;> simp [specStep, judge, hkk]
  | connectExit k' res ts who =>
    simp only [step, readConnectExit, reportsOf_filtered hk]
    cases hg : m.get k' with
    | none =>
      simp only
      refine ⟨h, ?_⟩
      by_cases hkk : k' = k
      · subst hkk
        have hvn : view m k' = none := by unfold view; rw [hg]; rfl
        rw [hvn]; exact ⟨rfl, rfl⟩
      · cases view m k <;> simp [specStep, judge, hkk, reportsOf]
    | some c =>
      simp only
      have hc' := h.2 k' c hg
      have main : ∀ (c1 : Conn) (e : EvType), c1.state = .inprogress → c1.key = k' →
          (k' = k → (match next .inprogress e with
            | some .inprogress => judge wait k c.att (.connectExit k' res ts who) = .update c1.att
            | some s => judge wait k c.att (.connectExit k' res ts who) = .outcome (decide (s = .success)) c1.att
            | none => True)) →
          Inv (receive m c1 e).1 ∧ view (receive m c1 e).1 k = (specStep wait k (view m k) (.connectExit k' res ts who)).1 ∧
            reportsOf k (receive m c1 e).2.toList = (specStep wait k (view m k) (.connectExit k' res ts who)).2 := by
        intro c1 e h1 h2 h3
        obtain ⟨r1, _⟩ := receive_spec h h1 e
        have hv := receive_view h h1 e k
        refine ⟨r1, ?_⟩
        by_cases hkk : k' = k
        · have hvn : view m k = some c.att := by unfold view; rw [← hkk, hg]; rfl
          have hv2 := hv.2 (by rw [h2]; exact hkk)
          have h3' := h3 hkk
          rw [hvn]
          revert hv2 h3'
          cases e <;> simp only [next] <;> intro hv2 h3' <;> simp only [specStep, h3', hv2] <;> exact ⟨trivial, trivial⟩
        · obtain ⟨v1, v2⟩ := hv.1 (by rw [h2]; exact hkk)
          rw [v1, v2]
          cases view m k <;> simp [specStep, judge, hkk]
      by_cases h0 : res = 0
      · rw [if_pos h0]
        refine main _ .exitSuccess hc'.2 hc'.1 (fun hkk => ?_)
        simp [next, judge, hkk, h0, Conn.att]
      · rw [if_neg h0]
        by_cases h1 : isNotErrorReturnCode res = true
        · rw [if_pos h1]
          refine main _ .exitNotConcern hc'.2 hc'.1 (fun hkk => ?_)
          unfold isNotErrorReturnCode at h1
          simp only [Bool.or_eq_true, beq_iff_eq, or_assoc] at h1
          simp [next, judge, hkk, h0, Conn.att, h1]
        · rw [if_neg h1]
          refine main _ .exitFailure hc'.2 hc'.1 (fun hkk => ?_)
          unfold isNotErrorReturnCode at h1
          simp only [Bool.or_eq_true, beq_iff_eq, or_assoc] at h1
          simp only [next, judge, hkk, ne_eq, not_true, ↓reduceIte, h0, h1, Conn.att]
          rfl
  | sendRequest k' ts who =>
    simp only [step, readSendRequest, reportsOf_filtered hk]
    cases hg : m.get k' with
    | none =>
      simp only
      refine ⟨h, ?_⟩
      by_cases hkk : k' = k
      · subst hkk
        have hvn : view m k' = none := by unfold view; rw [hg]; rfl
        rw [hvn]; exact ⟨rfl, rfl⟩
      · cases view m k <;> simp [specStep, judge, hkk, reportsOf]
    | some c =>
      simp only
      have hc' := h.2 k' c hg
      have hc : ({ c with stop := ts, who := who } : Conn).state = .inprogress := hc'.2
      obtain ⟨r1, _⟩ := receive_spec h hc .sendRequest
      have hv := receive_view h hc .sendRequest k
      refine ⟨r1, ?_⟩
      by_cases hkk : k' = k
      · have hvn : view m k = some c.att := by unfold view; rw [← hkk, hg]; rfl
        have hv2 := hv.2 (by simp only; rw [hc'.1]; exact hkk)
        simp only [next] at hv2
        rw [hvn]
        simp [specStep, judge, hkk, hv2, Conn.att]
      · obtain ⟨v1, v2⟩ := hv.1 (by simp only; rw [hc'.1]; exact hkk)
        rw [v1, v2]
        cases view m k <;> simp [specStep, judge, hkk]
  | setState k' old new ts =>
    simp only [step, reportsOf_filtered hk]
    have skip : (k' = k → view m k = none ∨ (old ≠ 1 ∧ new ≠ 1)) →
        Inv m ∧ view m k = (specStep wait k (view m k) (.setState k' old new ts)).1 ∧
          reportsOf k (none : Option Conn).toList = (specStep wait k (view m k) (.setState k' old new ts)).2 := by
      intro hs
      refine ⟨h, ?_⟩
      cases hv : view m k with
      | none => exact ⟨rfl, rfl⟩
      | some a =>
        by_cases hkk : k' = k
        · rcases hs hkk with hs | hs
          · rw [hv] at hs; cases hs
          · simp [specStep, judge, hs, reportsOf]
        · simp [specStep, judge, hkk, reportsOf]
    have main : ∀ (c : Conn) (e : EvType), m.get k' = some c → (old = 1 ∨ new = 1) → next .inprogress e = some .success →
        Inv (receive m { c with stop := ts } e).1 ∧
          view (receive m { c with stop := ts } e).1 k = (specStep wait k (view m k) (.setState k' old new ts)).1 ∧
          reportsOf k (receive m { c with stop := ts } e).2.toList = (specStep wait k (view m k) (.setState k' old new ts)).2 := by
      intro c e hg hor hne
      have hc' := h.2 k' c hg
      have hc : ({ c with stop := ts } : Conn).state = .inprogress := hc'.2
      obtain ⟨r1, _⟩ := receive_spec h hc e
      have hv := receive_view h hc e k
      rw [hne] at hv
      refine ⟨r1, ?_⟩
      by_cases hkk : k' = k
      · have hvn : view m k = some c.att := by unfold view; rw [← hkk, hg]; rfl
        have hv2 := hv.2 (by simp only; rw [hc'.1]; exact hkk)
        simp only at hv2
        have hno : ¬ (old ≠ 1 ∧ new ≠ 1) := by omega
        rw [hvn]
        simp only [specStep, judge, hkk, ne_eq, not_true, false_or]
        rw [if_neg hno]
        simp [hv2, Conn.att]
      · obtain ⟨v1, v2⟩ := hv.1 (by simp only; rw [hc'.1]; exact hkk)
        rw [v1, v2]
        cases view m k <;> simp [specStep, judge, hkk]
    unfold readSetState
    by_cases h1 : old = 1
    · rw [if_pos h1]
      cases hg : m.get k' with
      | none => exact skip (fun hkk => Or.inl (by unfold view; rw [← hkk, hg]; rfl))
      | some c => exact main c _ hg (Or.inl h1) rfl
    · rw [if_neg h1]
      by_cases h2 : new = 1
      · rw [if_pos h2]
        cases hg : m.get k' with
        | none => exact skip (fun hkk => Or.inl (by unfold view; rw [← hkk, hg]; rfl))
        | some c => exact main c _ hg (Or.inr h2) rfl
      · rw [if_neg h2]
        exact skip (fun _ => Or.inr ⟨h1, h2⟩)
  | trim now proc =>
    obtain ⟨t1, t2, t3⟩ := trimLoop_spec wait now proc k m m h h.1 (fun p hp => AMap.get_of_mem h.1 hp)
    simp only [step]
    refine ⟨t1, ?_⟩
    cases hg : m.get k with
    | none =>
      have := (AMap.get_eq_none_iff m k).1 hg
      obtain ⟨j1, j2⟩ := t2 this
      have hvn : view m k = none := by unfold view; rw [hg]; rfl
      rw [j1, j2, hvn]; exact ⟨rfl, rfl⟩
    | some c =>
      have hvn : view m k = some c.att := by unfold view; rw [hg]; rfl
      have := t3 c (AMap.mem_of_get hg)
      revert this
      unfold trimEvent
      rw [hvn]
      simp only [specStep, judge, Conn.att]
      by_cases hp : c.who.pid = 0
      · simp only [hp, ↓reduceIte, true_or]; exact id
      · by_cases hw : now - (c.initial : Int) < wait
        · simp only [hp, hw, ↓reduceIte, or_true]; exact id
        · simp only [hp, hw, ↓reduceIte, or_self]
          cases proc c.who.pid with
          | none => simp only [Option.bind_none]; exact id
          | some f =>
            simp only [Option.bind_some]
            cases f k with
            | none => simp only; exact id
            | some st =>
              simp only
              by_cases h1 : st = "01"
              · subst h1
                simp only [↓reduceIte]; rw [if_neg (by decide)]; exact id
              · rw [if_neg h1]
                by_cases h2 : st = "02" ∨ st = "03"
                · rw [if_pos h2, if_pos h2]; exact id
                · rw [if_neg h2, if_neg h2]; exact id

/-- C36.  For every connection with a source port, whatever happens on all connections: the reports on it
are those of the simple life of attempts above — each attempt is reported at most once, by the
first event with an outcome, with this outcome — and it is tracked exactly while its attempt is
under way. -/
theorem attempts_reported_once_partial (wait : Int) (l : List Ev) {m : ConnMap} (h : Inv m) (k : Key) (hk : k.srcPort ≠ 0) :
    Inv (run wait m l).1 ∧ view (run wait m l).1 k = (specRun wait k (view m k) l).1 ∧
      reportsOf k (run wait m l).2 = (specRun wait k (view m k) l).2 := by
  induction l generalizing m with
  | nil => exact ⟨h, rfl, rfl⟩
  | cons e r ih =>
    obtain ⟨h1, h2, h3⟩ := step_refines wait h e k hk
    obtain ⟨g1, g2, g3⟩ := ih h1
    refine ⟨g1, ?_, ?_⟩
    · show view (run wait (step wait m e).1 r).1 k = _
      rw [g2, h2]; rfl
    · show reportsOf k ((step wait m e).2 ++ (run wait (step wait m e).1 r).2) = _
      have happ : ∀ a b, reportsOf k (a ++ b) = reportsOf k a ++ reportsOf k b := by
        intro a b; unfold reportsOf; rw [List.filter_append, List.map_append]
      rw [happ, h3, g3, h2]; rfl

/-- Opening events of a connection. -/
def opens (k : Key) (l : List Ev) : Nat :=
  (l.filter (fun e => match e with | .tcpConnect k' _ _ => decide (k' = k) | _ => false)).length

/-- 1 while an attempt is under way. -/
def pending : Option Attempt → Nat
  | none => 0
  | some _ => 1

theorem spec_once (wait : Int) (k : Key) (l : List Ev) (a : Option Attempt) :
    (specRun wait k a l).2.length + pending (specRun wait k a l).1 ≤ opens k l + pending a := by
  induction l generalizing a with
  | nil => simp [specRun, opens]
  | cons e r ih =>
    have h := ih (specStep wait k a e).1
    simp only [specRun, List.length_append]
    have hone : (specStep wait k a e).2.length + pending (specStep wait k a e).1 ≤ opens k [e] + pending a := by
      cases a with
      | none =>
        cases e with
        | tcpConnect k' ret ts =>
          by_cases hkk : k' = k
          · by_cases hr : ret = 0 <;> simp [specStep, hkk, hr, opens, pending]
          · simp [specStep, hkk, pending]
        | connectExit _ _ _ _ => simp [specStep, pending]
        | sendRequest _ _ _ => simp [specStep, pending]
        | setState _ _ _ _ => simp [specStep, pending]
        | trim _ _ => simp [specStep, pending]
      | some a =>
        cases hj : judge wait k a e <;>
          (have hs := specStep.eq_def wait k (some a) e; simp only [hj] at hs; rw [hs]; simp [pending])
    have hopen : opens k (e :: r) = opens k [e] + opens k r := by
      unfold opens
      rw [show e :: r = [e] ++ r from rfl, List.filter_append, List.length_append]
    rw [hopen]
    omega

/-- In particular the reports on a connection and the attempt under way never outnumber its
`tcp_connect` events. -/
theorem reports_at_most_opens (wait : Int) (l : List Ev) (k : Key) (hk : k.srcPort ≠ 0) :
    (reportsOf k (run wait [] l).2).length + pending (view (run wait [] l).1 k) ≤ opens k l := by
  have h : Inv [] := ⟨AMap.wf_nil, by intro k c h; simp at h⟩
  obtain ⟨_, h1, h2⟩ := attempts_reported_once_partial wait l h k hk
  rw [h1, h2]
  exact spec_once wait k l none

/-- The error number of a report: 0 for every success; a failure has a non-zero number unless it was found
by the sweep. -/
theorem report_code (wait : Int) (k : Key) (l : List Ev) (a : Option Attempt) (ha : ∀ x, a = some x → x.code = 0) :
    (∀ x, (specRun wait k a l).1 = some x → x.code = 0) ∧
    ∀ r ∈ (specRun wait k a l).2, (r.success = true → r.att.code = 0) ∧
      (r.att.code = 0 → r.success = false → ∃ now proc, Ev.trim now proc ∈ l) := by
  induction l generalizing a with
  | nil => exact ⟨ha, fun r hr => by simp [specRun] at hr⟩
  | cons e t ih =>
    have hs : (∀ x, (specStep wait k a e).1 = some x → x.code = 0) ∧
        ∀ r ∈ (specStep wait k a e).2, (r.success = true → r.att.code = 0) ∧
          (r.att.code = 0 → r.success = false → ∃ now proc, Ev.trim now proc ∈ e :: t) := by
      cases a with
      | none =>
        cases e with
        | tcpConnect k' ret ts =>
          by_cases hk : k' = k
          · by_cases hr : ret = 0
            · simp [specStep, hk, hr]
            · simp [specStep, hk, hr]
          · simp [specStep, hk]
        | connectExit _ _ _ _ => simp [specStep]
        | sendRequest _ _ _ => simp [specStep]
        | setState _ _ _ _ => simp [specStep]
        | trim _ _ => simp [specStep]
      | some a =>
        have h0 := ha a rfl
        simp only [specStep]
        cases e with
        | tcpConnect k' ret ts =>
          by_cases hk : k' = k
          · by_cases hr : ret = 0
            · simp [judge, hk, hr]
            · simp [judge, hk, hr]
          · simp [judge, hk, h0]
        | connectExit k' res ts who =>
          by_cases hk : k' = k
          · by_cases hr : res = 0
            · simp [judge, hk, hr, h0]
            · by_cases hn : res = -115 ∨ res = -4 ∨ res = -106 ∨ res = -114
              · simp [judge, hk, hr, hn, h0]
              · simp [judge, hk, hr, hn]
          · simp [judge, hk, h0]
        | sendRequest k' ts who =>
          by_cases hk : k' = k <;> simp [judge, hk, h0]
        | setState k' old new ts =>
          by_cases hk : k' ≠ k ∨ (old ≠ 1 ∧ new ≠ 1)
          · simp only [judge]; rw [if_pos hk]; simp [h0]
          · simp only [judge]; rw [if_neg hk]; simp [h0]
        | trim now proc =>
          have hex : ∃ now' proc', Ev.trim now' proc' ∈ Ev.trim now proc :: t := ⟨now, proc, by simp⟩
          simp only [judge]
          split <;> (rename_i hj; revert hj; split)
          all_goals (try intro hj)
          all_goals (try (revert hj; split <;> intro hj))
          all_goals (try (revert hj; split <;> intro hj))
          all_goals (try (cases hj))
          all_goals simp_all
    obtain ⟨i1, i2⟩ := ih (specStep wait k a e).1 hs.1
    refine ⟨i1, fun r hr => ?_⟩
    rcases List.mem_append.1 hr with hr | hr
    · exact hs.2 r hr
    · obtain ⟨j1, j2⟩ := i2 r hr
      refine ⟨j1, fun h1 h2 => ?_⟩
      obtain ⟨now, proc, hm⟩ := j2 h1 h2
      exact ⟨now, proc, List.mem_cons_of_mem _ hm⟩

/-- C37 (proved part).  After a sweep every attempt with a known process that is still tracked is younger
than the waiting time or still connecting (SYN_SENT or SYN_RECV). -/
theorem swept_partial (wait now : Int) (proc : Proc) {m : ConnMap} (h : Inv m) {k : Key} {c : Conn}
    (hc : (step wait m (.trim now proc)).1.get k = some c) (hp : c.who.pid ≠ 0) :
    now - (c.initial : Int) < wait ∨ ∃ f st, proc c.who.pid = some f ∧ f k = some st ∧ (st = "02" ∨ st = "03") := by
  obtain ⟨t1, t2, t3⟩ := trimLoop_spec wait now proc k m m h h.1 (fun p hp => AMap.get_of_mem h.1 hp)
  simp only [step] at hc
  have hview : view (trimLoop wait now proc m m).1 k = some c.att := by unfold view; rw [hc]; rfl
  cases hg : m.get k with
  | none =>
    have := t2 ((AMap.get_eq_none_iff m k).1 hg)
    rw [hview] at this
    unfold view at this
    rw [hg] at this
    cases this.1
  | some c0 =>
    have := t3 c0 (AMap.mem_of_get hg)
    cases he : trimEvent wait now proc k c0 with
    | some e => rw [he] at this; simp only at this; rw [hview] at this; cases this.1
    | none =>
      rw [he] at this
      simp only at this
      rw [hview] at this
      unfold view at this
      rw [hg] at this
      simp only [Option.map_some, Option.some.injEq] at this
      have hatt := this.1
      have e1 : c.who.pid = c0.who.pid := congrArg (fun a => a.who.pid) hatt
      have e2 : c.initial = c0.initial := congrArg Attempt.initial hatt
      rw [e1] at hp
      rw [e1, e2]
      unfold trimEvent at he
      rw [if_neg hp] at he
      by_cases hw : now - (c0.initial : Int) < wait
      · exact Or.inl hw
      · rw [if_neg hw] at he
        right
        cases hpr : proc c0.who.pid with
        | none => rw [hpr] at he; cases he
        | some f =>
          rw [hpr] at he
          simp only at he
          cases hf : f k with
          | none => rw [hf] at he; cases he
          | some st =>
            rw [hf] at he
            simp only at he
            split at he
            · cases he
            · split at he
              · exact ⟨f, st, rfl, hf, by assumption⟩
              · cases he

/-- The full claim fails: an attempt whose process is not known (only `tcp_connect` was seen for it)
is kept by every sweep, however late. -/
theorem unknown_process_never_swept (wait now : Int) (proc : Proc) {m : ConnMap} (h : Inv m) {k : Key} {c : Conn}
    (hc : m.get k = some c) (hp : c.who.pid = 0) :
    view (step wait m (.trim now proc)).1 k = some c.att ∧ reportsOf k (step wait m (.trim now proc)).2 = [] := by
  obtain ⟨_, _, t3⟩ := trimLoop_spec wait now proc k m m h h.1 (fun p hp => AMap.get_of_mem h.1 hp)
  have := t3 c (AMap.mem_of_get hc)
  unfold trimEvent at this
  rw [if_pos hp] at this
  simp only at this
  have hv : view m k = some c.att := by unfold view; rw [hc]; rfl
  rw [hv] at this
  exact this

/-- Such attempts are reachable: one `tcp_connect`, and they outlive every sequence of sweeps. -/
theorem unknown_process_leaks (wait : Int) (k : Key) (ts : Nat) (l : List (Int × Proc)) :
    view (run wait [] (.tcpConnect k 0 ts :: l.map (fun p => .trim p.1 p.2))).1 k = some ⟨nobody, ts, ts, 0⟩ := by
  have key : ∀ (l : List (Int × Proc)) (m : ConnMap), Inv m → view m k = some ⟨nobody, ts, ts, 0⟩ →
      view (run wait m (l.map (fun p => .trim p.1 p.2))).1 k = some ⟨nobody, ts, ts, 0⟩ := by
    intro l
    induction l with
    | nil => intro m _ hv; exact hv
    | cons p r ih =>
      intro m hm hv
      cases hg : m.get k with
      | none => unfold view at hv; rw [hg] at hv; cases hv
      | some c =>
        have hca : c.att = ⟨nobody, ts, ts, 0⟩ := by
          have : view m k = some c.att := by unfold view; rw [hg]; rfl
          rw [this] at hv; exact Option.some.inj hv
        have hp0 : c.who.pid = 0 := congrArg (fun a => a.who.pid) hca
        have h1 := (unknown_process_never_swept wait p.1 p.2 hm hg hp0).1
        have h2 := (trimLoop_spec wait p.1 p.2 k m m hm hm.1 (fun q hq => AMap.get_of_mem hm.1 hq)).1
        exact ih _ h2 (h1.trans (by rw [hca]))
  have h : Inv [] := ⟨AMap.wf_nil, by intro k c h; simp at h⟩
  have h1 : Inv (step wait [] (.tcpConnect k 0 ts)).1 :=
    (receive_spec h (c := ⟨k, nobody, .inprogress, ts, ts, 0⟩) rfl .connectNoError).1
  refine key l _ h1 ?_
  simp [readTcpConnect, receive, next, view, AMap.set, AMap.get, Conn.att]

/-- An event of a connection with source port 0 is judged but not reported; one ended by the sweep is. -/
theorem port_zero_suppressed (wait : Int) (m : ConnMap) (e : Ev) (he : ∀ now proc, e ≠ .trim now proc) (c : Conn)
    (hc : c ∈ (step wait m e).2) : c.key.srcPort ≠ 0 := by
  cases e with
  | trim now proc => exact absurd rfl (he now proc)
  | tcpConnect k ret ts => simp only [step, List.mem_filter] at hc; simpa using hc.2
  | connectExit k res ts who => simp only [step, List.mem_filter] at hc; simpa using hc.2
  | sendRequest k ts who => simp only [step, List.mem_filter] at hc; simpa using hc.2
  | setState k old new ts => simp only [step, List.mem_filter] at hc; simpa using hc.2

/-- `Start` makes a ticker of a third of the waiting time (analyzer.go:69); `time.NewTicker` panics for
0.  `none` is the panic. -/
def scanInterval (waitEventSecond : Nat) : Option Nat := if waitEventSecond / 3 = 0 then none else some (waitEventSecond / 3)

/-- So the analyzer crashes at start exactly if the configured waiting time is below three seconds. -/
theorem short_wait_panics (w : Nat) : scanInterval w = none ↔ w < 3 := by
  unfold scanInterval
  split <;> simp <;> omega

/-- A connect that is refused after EINPROGRESS, and one on another connection that succeeds. -/
def kA : Key := ⟨bs "10.0.0.1", 40000, bs "10.0.0.2", 80⟩
def wA : Who := ⟨3, bs "curl", bs "c1"⟩
def kB : Key := ⟨bs "10.0.0.1", 40001, bs "10.0.0.2", 80⟩
example : specRun 10 kA none [.tcpConnect kA 0 5, .tcpConnect kB 0 6, .connectExit kA (-115) 7 wA, .setState kB 2 1 8, .connectExit kA (-111) 9 wA] =
    (none, [⟨false, ⟨wA, 5, 9, -111⟩⟩]) := by decide
example : specRun 10 kB none [.tcpConnect kA 0 5, .tcpConnect kB 0 6, .connectExit kA (-115) 7 wA, .setState kB 2 1 8, .connectExit kA (-111) 9 wA] =
    (none, [⟨true, ⟨nobody, 6, 8, 0⟩⟩]) := by decide
example : kA.srcPort ≠ 0 ∧ Inv [] := ⟨by decide, AMap.wf_nil, by intro k c h; simp at h⟩

end Kindling.Tcp
