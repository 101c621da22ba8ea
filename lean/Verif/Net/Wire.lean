import Verif.Net.Props
/-
What is on the wire of a connection, and what the network analyzer reports of it.
network_analyzer.go:302-478, message_pair.go.
-/
namespace Kindling.Net.Wire
open Kindling

/-! ### The exchanges on the wire (specification) -/

/-- What is seen of a connection. -/
inductive Ev where
  | connect (e : Evt)
  | request (e : Evt)
  | response (e : Evt)
deriving DecidableEq

/-- The event of socket `k` in an operation of the analyzer. -/
def own (k : Key) : Op → Option Ev
  | .connect e => if keyOf e = k then some (.connect e) else none
  | .request e => if keyOf e = k then some (.request e) else none
  | .response e => if keyOf e = k then some (.response e) else none
  | .scan _ => none

/-- The requests written come before the responses read: an exchange ends where the next request or connect begins.  Given is
the open exchange; the result is the open exchange after the event, and the one that the event ended.  A request from another
port is of another connection.  A response to no request belongs to no exchange. -/
def feed : Option Exch → Ev → Option Exch × Option Exch
  | t, .connect e => (some { conn := some e }, t)
  | none, .request e => (some { reqs := [e] }, none)
  | some t, .request e =>
    if t.resps = [] ∧ ∀ r ∈ t.reqs.head?, e.sport = r.sport then (some { t with reqs := t.reqs ++ [e] }, none)
    else (some { reqs := [e] }, some t)
  | none, .response _ => (none, none)
  | some t, .response e => if t.reqs = [] then (some t, none) else (some { t with resps := t.resps ++ [e] }, none)

/-- The exchanges of a list of events. -/
def exchanges : Option Exch → List Ev → List Exch
  | t, [] => t.toList
  | t, w :: r => (feed t w).2.toList ++ exchanges (feed t w).1 r

/-- The last event of an exchange. -/
def last (t : Exch) : Option Evt := (t.resps.getLast?.or t.reqs.getLast?).or t.conn

/-- At `now` the last event is younger than the timeouts. -/
def Young (cfg : Cfg) (now : Int) (t : Exch) : Prop :=
  ∀ e ∈ last t, now.tdiv 1000000000 - (toI64 e.ts).tdiv 1000000000 < min cfg.getFdReuseTimeout cfg.getNoResponseThreshold

/-- Nothing more belongs to the exchange: nothing follows, or a connect, or a request after the exchange was answered. -/
def Over (t : Exch) : Option Ev → Prop
  | none => True
  | some (.connect _) => True
  | some (.request _) => t.resps ≠ []
  | some (.response _) => False

/-- The connection of socket `k` is used in an orderly way: when the timeout scan passes, the last event of the exchange is
young or nothing more belongs to the exchange; and after a connect there is a request before the next connect. -/
def Orderly (cfg : Cfg) (k : Key) : Option Exch → List Op → Prop
  | _, [] => True
  | t, .scan now :: r => (∀ x ∈ t, Young cfg now x ∨ Over x (r.filterMap (own k)).head?) ∧ Orderly cfg k t r
  | t, op :: r => match own k op with
    | none => Orderly cfg k t r
    | some (.connect e) => (∀ x ∈ t, x.reqs ≠ []) ∧ Orderly cfg k (feed t (.connect e)).1 r
    | some w => Orderly cfg k (feed t w).1 r

/-! ### The machine of the socket -/

theorem sout_report (cfg : Cfg) (pa : Parsers) {x : Exch} (h : pa (x.pairs cfg.snaplen) = false) (b : Bool) : sout cfg pa x b = .report x := by
  simp [sout, isCont, h]

theorem scarry_same (cfg : Cfg) (pa : Parsers) {x : Exch} (h : pa (x.pairs cfg.snaplen) = false) (n : Exch) : scarry cfg pa x n = n := by
  simp [scarry, isCont, h]

theorem ofList_lastTs (n : Int) (l : List Evt) (e : Evt) (h : l.getLast? = some e) : ∃ s, ofList n l = some s ∧ s.lastTs = e.ts := by
  cases l with
  | nil => simp at h
  | cons a r =>
    refine ⟨_, rfl, ?_⟩
    rcases List.eq_nil_or_concat r with rfl | ⟨r', b, rfl⟩
    · simp at h
      subst h
      rfl
    · simp only [List.concat_eq_append] at h ⊢
      rw [mergeAll_snoc]
      rw [← List.cons_append] at h
      simp only [List.getLast?_append, List.getLast?_singleton, Option.some_or, Option.some.injEq] at h
      subst h
      rfl

/-- The time the scan looks at is that of the last event. -/
theorem timeout_last (cfg : Cfg) {t : Exch} (hne : t.conn.isSome ∨ t.reqs ≠ []) :
    ∃ e, last t = some e ∧ (t.pairs cfg.snaplen).timeoutTs = e.ts := by
  unfold last Pairs.timeoutTs Exch.pairs
  cases hs : t.resps.getLast? with
  | some e =>
    obtain ⟨s, h1, h2⟩ := ofList_lastTs cfg.snaplen _ e hs
    exact ⟨e, by simp, by simp [h1, h2]⟩
  | none =>
    have hn : t.resps = [] := by simpa using hs
    cases hr : t.reqs.getLast? with
    | some e =>
      obtain ⟨s, h1, h2⟩ := ofList_lastTs cfg.snaplen _ e hr
      exact ⟨e, by simp, by simp only [h1, hn]; exact h2⟩
    | none =>
      have hn' : t.reqs = [] := by simpa using hr
      obtain ⟨c, hc⟩ := Option.isSome_iff_exists.1 (hne.resolve_right (by simp [hn']))
      exact ⟨c, by simp [hc], by simp [hn, hn', hc, ofList, newEvents, Events.lastTs]⟩

/-- A young exchange is not flushed. -/
theorem young_not_due {cfg : Cfg} {now : Int} {t : Exch} (hne : t.conn.isSome ∨ t.reqs ≠ []) (hy : Young cfg now t) :
    due cfg now (t.pairs cfg.snaplen) = false := by
  obtain ⟨e, he, ht⟩ := timeout_last cfg hne
  have := hy e he
  unfold due
  simp only [ht]
  generalize now.tdiv 1000000000 - (toI64 e.ts).tdiv 1000000000 = d at *
  have h1 : ¬ d ≥ cfg.getFdReuseTimeout := by omega
  have h2 : ¬ d ≥ cfg.getNoResponseThreshold := by omega
  simp [h1, h2]

/-- Exchanges that are stored have a connect or a request, and no response without a request. -/
def Kept (t : Option Exch) : Prop := ∀ x ∈ t, (x.conn.isSome ∨ x.reqs ≠ []) ∧ (x.reqs = [] → x.resps = [])

theorem feed_kept {t : Option Exch} (h : Kept t) (w : Ev)   : Kept (feed t w).1 := by
  intro x hx
  cases t with
  | none => cases w <;> simp [feed] at hx <;> subst hx <;> simp
  | some t =>
    have := h t rfl
    cases w with
    | connect e => simp [feed] at hx; subst hx; simp
    | request e =>
      simp only [feed] at hx
      split at hx <;> simp at hx <;> subst hx <;> simp
    | response e =>
      simp only [feed] at hx
      split at hx
      · simp at hx; subst hx; exact this
      · next hr => simp at hx; subst hx; exact ⟨.inr hr, fun h => absurd h hr⟩

/-- One event: the machine of the socket does what the specification says. -/
theorem sock_feed {cfg : Cfg} {pa : Parsers} {k : Key} {t : Option Exch} (hs : Kept t) {op : Op} {w : Ev} (hw : own k op = some w)
    (hp : ∀ x ∈ (feed t w).2, pa (x.pairs cfg.snaplen) = false) (hc : ∀ e, w = .connect e → ∀ x ∈ t, x.reqs ≠ []) :
    sock cfg pa k t op = ((feed t w).1, (feed t w).2.toList.map .report) := by
  cases op with
  | scan now => simp [own] at hw
  | connect e =>
    simp only [own] at hw
    split at hw
    · cases hw
      next hk =>
      rw [sock, if_pos hk]
      cases t with
      | none => rfl
      | some t =>
        have h1 := hc e rfl t rfl
        have h2 : pa (t.pairs cfg.snaplen) = false := hp t rfl
        cases hr : t.reqs with
        | nil => exact absurd hr h1
        | cons a b => simp [sConnect, hr, feed, sout_report cfg pa h2, scarry_same cfg pa h2]
    · cases hw
  | request e =>
    simp only [own] at hw
    split at hw
    · cases hw
      next hk =>
      rw [sock, if_pos hk]
      cases t with
      | none => rfl
      | some t =>
        cases hr : t.reqs with
        | nil =>
          have h3 := (hs t rfl).1.resolve_right (by simp [hr])
          have hrs := (hs t rfl).2 hr
          simp [sRequest, hr, feed, h3, hrs]
        | cons a b =>
          by_cases hd : t.resps = [] ∧ e.sport = a.sport
          · simp [sRequest, hr, feed, hd.1, hd.2]
          · have hf : feed (some t) (.request e) = (some { reqs := [e] }, some t) := by
              simp only [feed, hr, List.head?_cons, Option.mem_def, Option.some.injEq, forall_eq']
              rw [if_neg hd]
            rw [hf] at hp
            have h2 : pa (t.pairs cfg.snaplen) = false := hp t rfl
            rw [hf]
            have : (!t.resps.isEmpty || e.sport != a.sport) = true := by
              by_cases h1 : t.resps = []
              · have : e.sport ≠ a.sport := fun h => hd ⟨h1, h⟩
                simp [this]
              · simp [h1]
            simp [sRequest, hr, this, sout_report cfg pa h2, scarry_same cfg pa h2]
    · cases hw
  | response e =>
    simp only [own] at hw
    split at hw
    · cases hw
      next hk =>
      rw [sock, if_pos hk]
      cases t with
      | none => rfl
      | some t => cases hr : t.reqs <;> simp [sResponse, hr, feed]
    · cases hw

/-- An operation on another socket changes nothing. -/
theorem sock_other {cfg : Cfg} {pa : Parsers} {k : Key} {t : Option Exch} {op : Op} (hw : own k op = none) (hn : ∀ n, op ≠ .scan n) :
    sock cfg pa k t op = (t, []) := by
  cases op with
  | scan n => exact absurd rfl (hn n)
  | connect e => simp only [own] at hw; split at hw; · cases hw
                 · next h => simp [sock, h]
  | request e => simp only [own] at hw; split at hw; · cases hw
                 · next h => simp [sock, h]
  | response e => simp only [own] at hw; split at hw; · cases hw
                  · next h => simp [sock, h]

theorem orderly_own {cfg : Cfg} {k : Key} {t : Option Exch} {op : Op} {r : List Op} {w : Ev} (hw : own k op = some w)
    (h : Orderly cfg k t (op :: r)) : (∀ e, w = .connect e → ∀ x ∈ t, x.reqs ≠ []) ∧ Orderly cfg k (feed t w).1 r := by
  cases op with
  | scan n => simp [own] at hw
  | connect e =>
    simp only [Orderly, hw] at h
    cases w with
    | connect e => exact ⟨fun _ _ => h.1, h.2⟩
    | request e => exact ⟨fun _ hh => (by cases hh), h⟩
    | response e => exact ⟨fun _ hh => (by cases hh), h⟩
  | request e =>
    simp only [Orderly, hw] at h
    cases w with
    | connect e => exact ⟨fun _ _ => h.1, h.2⟩
    | request e => exact ⟨fun _ hh => (by cases hh), h⟩
    | response e => exact ⟨fun _ hh => (by cases hh), h⟩
  | response e =>
    simp only [Orderly, hw] at h
    cases w with
    | connect e => exact ⟨fun _ _ => h.1, h.2⟩
    | request e => exact ⟨fun _ hh => (by cases hh), h⟩
    | response e => exact ⟨fun _ hh => (by cases hh), h⟩

theorem orderly_other {cfg : Cfg} {k : Key} {t : Option Exch} {op : Op} {r : List Op} (hw : own k op = none)
    (h : Orderly cfg k t (op :: r)) : Orderly cfg k t r := by
  cases op with
  | scan n => exact h.2
  | connect e => simpa only [Orderly, hw] using h
  | request e => simpa only [Orderly, hw] using h
  | response e => simpa only [Orderly, hw] using h

/-- From an open exchange, and from one that a scan has already reported. -/
theorem sockRun_exchanges {cfg : Cfg} {pa : Parsers} {k : Key} (ops : List Op) :
    ∀ t, Kept t → Orderly cfg k t ops → (∀ x ∈ exchanges t (ops.filterMap (own k)), pa (x.pairs cfg.snaplen) = false) →
      (∃ gone, (sockRun cfg pa k t ops).2 = gone.map .report ∧
        gone ++ (sockRun cfg pa k t ops).1.toList = exchanges t (ops.filterMap (own k))) ∧
      ∀ x, t = some x → Over x (ops.filterMap (own k)).head? →
        ∃ gone, (sockRun cfg pa k none ops).2 = gone.map .report ∧
          x :: (gone ++ (sockRun cfg pa k none ops).1.toList) = exchanges t (ops.filterMap (own k)) := by
  induction ops with
  | nil =>
    intro t _ _ _
    refine ⟨⟨[], rfl, rfl⟩, ?_⟩
    rintro x rfl _
    exact ⟨[], rfl, rfl⟩
  | cons op r ih =>
    intro t hk ho hp
    cases hw : own k op with
    | some w =>
      rw [List.filterMap_cons, hw] at hp ⊢
      simp only [exchanges] at hp ⊢
      obtain ⟨hc, ho'⟩ := orderly_own hw ho
      obtain ⟨⟨g, hg1, hg2⟩, -⟩ := ih _ (feed_kept hk w) ho' fun x hx => hp x (List.mem_append_right _ hx)
      refine ⟨⟨(feed t w).2.toList ++ g, ?_, ?_⟩, ?_⟩
      · rw [sockRun, sock_feed hk hw (fun x hx => hp x (List.mem_append_left _ (by simpa using hx))) hc]
        simp [hg1]
      · rw [sockRun, sock_feed hk hw (fun x hx => hp x (List.mem_append_left _ (by simpa using hx))) hc]
        simp only [List.append_assoc]
        rw [hg2]
      · rintro x rfl hover
        simp only [List.head?_cons] at hover
        have hf : (feed (some x) w).2 = some x ∧ (feed none w) = ((feed (some x) w).1, none) := by
          cases w with
          | connect e => exact ⟨rfl, rfl⟩
          | request e =>
            have : x.resps ≠ [] := hover
            simp [feed, this]
          | response e => exact hover.elim
        have hs := sock_feed (cfg := cfg) (pa := pa) (t := none) (by intro x hx; cases hx) hw (by rw [hf.2]; intro x hx; cases hx) (fun _ _ x hx => by cases hx)
        refine ⟨g, ?_, ?_⟩
        · rw [sockRun, hs, hf.2]
          simp [hg1]
        · rw [sockRun, hs, hf.2, hf.1]
          simp only [Option.toList_some, List.singleton_append]
          rw [← hg2]
    | none =>
      rw [List.filterMap_cons, hw] at hp ⊢
      simp only at hp ⊢
      obtain ⟨⟨g, hg1, hg2⟩, hb⟩ := ih t hk (orderly_other hw ho) hp
      by_cases hn : ∀ n, op ≠ .scan n
      · refine ⟨⟨g, ?_, ?_⟩, ?_⟩
        · rw [sockRun, sock_other hw hn]; simpa using hg1
        · rw [sockRun, sock_other hw hn]; simpa using hg2
        · intro x hx hov
          obtain ⟨g', h1, h2⟩ := hb x hx hov
          refine ⟨g', ?_, ?_⟩
          · rw [sockRun, sock_other hw hn]; simpa using h1
          · rw [sockRun, sock_other hw hn]; simpa using h2
      · obtain ⟨n, rfl⟩ : ∃ n, op = .scan n := by simpa using hn
        constructor
        · cases t with
          | none => exact ⟨g, by simpa [sockRun, sock, sScan] using hg1, by simpa [sockRun, sock, sScan] using hg2⟩
          | some t =>
            by_cases hd : due cfg n (t.pairs cfg.snaplen) = true
            · have hov : Over t (r.filterMap (own k)).head? := by
                refine (ho.1 t rfl).resolve_left fun hy => ?_
                rw [young_not_due (hk t rfl).1 hy] at hd
                cases hd
              obtain ⟨g', h1, h2⟩ := hb t rfl hov
              have hpt : pa (t.pairs cfg.snaplen) = false := hp t (by rw [← h2]; exact List.mem_cons_self ..)
              refine ⟨t :: g', ?_, ?_⟩
              · simp [sockRun, sock, sScan, hd, h1, sout_report cfg pa hpt]
              · simp only [sockRun, sock, sScan, hd, if_true]
                exact h2
            · exact ⟨g, by simpa [sockRun, sock, sScan, hd] using hg1, by simpa [sockRun, sock, sScan, hd] using hg2⟩
        · intro x hx hov
          obtain ⟨g', h1, h2⟩ := hb x hx hov
          exact ⟨g', by simpa [sockRun, sock, sScan] using h1, by simpa [sockRun, sock, sScan] using h2⟩

/-! ### The theorems -/

/-- C122.  On a connection that is used in an orderly way the analyzer reports exactly the exchanges on the wire, in their
order; the last may still be stored. -/
theorem exchanges_are_reported {cfg : Cfg} {pa : Parsers} {ops : List Op} {st : Mon} {out : List Out}
    (h : run cfg pa {} ops = some (st, out)) {k : Key} (ho : Orderly cfg k none ops)
    (hp : ∀ x ∈ exchanges none (ops.filterMap (own k)), pa (x.pairs cfg.snaplen) = false) :
    ∃ (gone : List Exch) (cur : Option Exch), gone ++ cur.toList = exchanges none (ops.filterMap (own k)) ∧
      outsOf k out = gone.map (fun x => .report (x.pairs cfg.snaplen)) ∧
      AMap.get st.map k = cur.map (·.pairs cfg.snaplen) := by
  obtain ⟨st', out', h1, inv, hout⟩ := run_refines (pa := pa) ops (inv_init cfg)
  rw [h] at h1; cases h1
  obtain ⟨⟨gone, h2, h3⟩, -⟩ := sockRun_exchanges (pa := pa) ops none (fun x hx => by cases hx) ho hp
  refine ⟨gone, _, h3, ?_, ?_⟩
  · rw [hout k, h2, List.map_map]
    rfl
  · exact inv.get k

/-- No request is in two exchanges, and none is in no exchange. -/
theorem requests_of_exchanges (ws : List Ev) : ∀ t, (exchanges t ws).flatMap (·.reqs) =
    t.toList.flatMap (·.reqs) ++ ws.filterMap fun | .request e => some e | _ => none := by
  induction ws with
  | nil => intro t; simp [exchanges]
  | cons w r ih =>
    intro t
    simp only [exchanges, List.flatMap_append, ih]
    cases w with
    | connect e => simp [feed]
    | request e =>
      cases t with
      | none => simp [feed]
      | some t => simp only [feed]; split <;> simp
    | response e =>
      cases t with
      | none => simp [feed]
      | some t => simp only [feed]; split <;> simp

/-- A client that takes turns: each exchange is requests from one port, then responses. -/
structure Turn where
  reqs : List Evt
  resps : List Evt
  reqs_ne : reqs ≠ []
  resps_ne : resps ≠ []
  port : ∀ a ∈ reqs, ∀ b ∈ reqs, a.sport = b.sport

theorem feed_requests (l : List Evt) : ∀ (x : Exch) (r : List Ev), x.resps = [] → (∀ a ∈ x.reqs ++ l, ∀ b ∈ x.reqs ++ l, a.sport = b.sport) →
    exchanges (some x) (l.map .request ++ r) = exchanges (some { x with reqs := x.reqs ++ l }) r := by
  induction l with
  | nil => intro x r _ _; simp
  | cons e l ih =>
    intro x r hx hs
    have : (feed (some x) (.request e)) = (some { x with reqs := x.reqs ++ [e] }, none) := by
      simp only [feed]
      rw [if_pos]
      refine ⟨hx, fun a ha => hs _ (by simp) _ (List.mem_append_left _ (List.mem_of_mem_head? ha))⟩
    simp only [List.map_cons, List.cons_append, exchanges, this, Option.toList_none, List.nil_append]
    rw [ih { x with reqs := x.reqs ++ [e] } r hx (by simpa [List.append_assoc] using hs)]
    simp

theorem feed_responses (l : List Evt) : ∀ (x : Exch) (r : List Ev), x.reqs ≠ [] →
    exchanges (some x) (l.map .response ++ r) = exchanges (some { x with resps := x.resps ++ l }) r := by
  induction l with
  | nil => intro x r _; simp
  | cons e l ih =>
    intro x r hx
    simp only [List.map_cons, List.cons_append, exchanges, feed, if_neg hx, Option.toList_none, List.nil_append]
    rw [ih { x with resps := x.resps ++ [e] } r hx]
    simp

theorem feed_turn (T : Turn) (c : Option Exch) (hc : ∀ x ∈ c, x.resps ≠ []) (r : List Ev) :
    exchanges c (T.reqs.map .request ++ (T.resps.map .response ++ r)) =
      c.toList ++ exchanges (some { reqs := T.reqs, resps := T.resps }) r := by
  obtain ⟨reqs, resps, h1, h2, h3⟩ := T
  cases reqs with
  | nil => exact absurd rfl h1
  | cons a l =>
    have hf : feed c (.request a) = (some { reqs := [a] }, c) := by
      cases c with
      | none => rfl
      | some x => simp [feed, hc x rfl]
    simp only [List.map_cons, List.cons_append, exchanges, hf]
    rw [feed_requests _ _ _ rfl (by simpa using h3), feed_responses _ _ _ (by simp)]
    simp

/-- The exchanges of a client that takes turns are its turns. -/
theorem exchanges_of_turns (l : List Turn) : exchanges none (l.flatMap fun T => T.reqs.map .request ++ T.resps.map .response) =
    l.map fun T => { reqs := T.reqs, resps := T.resps } := by
  have : ∀ c : Option Exch, (∀ x ∈ c, x.resps ≠ []) →
      exchanges c (l.flatMap fun T => T.reqs.map .request ++ T.resps.map .response) =
        c.toList ++ l.map fun T => { reqs := T.reqs, resps := T.resps } := by
    induction l with
    | nil => intro c _; simp [exchanges]
    | cons T l ih =>
      intro c hc
      simp only [List.flatMap_cons, List.append_assoc]
      rw [feed_turn T c hc, ih _ (by rintro x hx; cases hx; exact T.resps_ne)]
      simp
  simpa using this none (by simp)

/-- At `now` the last event is older than the timeouts. -/
def Old (cfg : Cfg) (now : Int) (t : Exch) : Prop :=
  ∀ e ∈ last t, e.ts ≠ 0 ∧ max cfg.getFdReuseTimeout cfg.getNoResponseThreshold ≤ now.tdiv 1000000000 - (toI64 e.ts).tdiv 1000000000

/-- An old exchange is flushed. -/
theorem old_due {cfg : Cfg} {now : Int} {t : Exch} (hne : t.conn.isSome ∨ t.reqs ≠ []) (hy : Old cfg now t) :
    due cfg now (t.pairs cfg.snaplen) = true := by
  obtain ⟨e, he, ht⟩ := timeout_last cfg hne
  obtain ⟨h0, h1⟩ := hy e he
  unfold due
  simp only [ht]
  generalize now.tdiv 1000000000 - (toI64 e.ts).tdiv 1000000000 = d at *
  have h2 : d ≥ cfg.getNoResponseThreshold := by omega
  simp [h0, h2]

theorem sockRun_append (cfg : Cfg) (pa : Parsers) (k : Key) (a b : List Op) : ∀ t, sockRun cfg pa k t (a ++ b) =
    ((sockRun cfg pa k (sockRun cfg pa k t a).1 b).1, (sockRun cfg pa k t a).2 ++ (sockRun cfg pa k (sockRun cfg pa k t a).1 b).2) := by
  induction a with
  | nil => intro t; simp [sockRun]
  | cons op r ih => intro t; simp [sockRun, ih]

/-- C122.  After a scan when the connection has been quiet for longer than the timeouts, the reports are the exchanges. -/
theorem all_exchanges_reported {cfg : Cfg} {pa : Parsers} {ops : List Op} {now : Int} {st : Mon} {out : List Out}
    (h : run cfg pa {} (ops ++ [.scan now]) = some (st, out)) {k : Key} (ho : Orderly cfg k none ops)
    (hp : ∀ x ∈ exchanges none (ops.filterMap (own k)), pa (x.pairs cfg.snaplen) = false)
    (hq : ∀ x ∈ (exchanges none (ops.filterMap (own k))).getLast?, Old cfg now x) :
    outsOf k out = (exchanges none (ops.filterMap (own k))).map (fun x => .report (x.pairs cfg.snaplen)) ∧
    AMap.get st.map k = none := by
  obtain ⟨st', out', h1, inv, hout⟩ := run_refines (pa := pa) (ops ++ [.scan now]) (inv_init cfg)
  rw [h] at h1; cases h1
  obtain ⟨⟨gone, h2, h3⟩, -⟩ := sockRun_exchanges (pa := pa) ops none (fun x hx => by cases hx) ho hp
  obtain ⟨st1, out1, h4, inv1, -⟩ := run_refines (pa := pa) ops (inv_init cfg)
  have hg := inv.get k
  have ho := hout k
  simp only [sockRun_append] at hg ho
  cases hc : (sockRun cfg pa k none ops).1 with
  | none =>
    rw [hc] at h3
    simp only [hc, h2, sockRun, sock, sScan] at hg ho
    refine ⟨?_, by simpa using hg⟩
    rw [ho, ← h3]
    simp [Function.comp_def, SOut.toOut]
  | some x =>
    rw [hc] at h3
    have hok := inv1.ok k x hc
    have hd : due cfg now (x.pairs cfg.snaplen) = true := old_due hok.nonempty (hq x (by rw [← h3]; simp))
    have hpx : pa (x.pairs cfg.snaplen) = false := hp x (by rw [← h3]; simp)
    simp only [hc, h2, sockRun, sock, sScan, hd, if_true, sout_report cfg pa hpx] at hg ho
    refine ⟨?_, by simpa using hg⟩
    rw [ho, ← h3]
    simp [Function.comp_def, SOut.toOut]

/-- C122, finding.  Why orderly: a scan that finds the request unanswered for too long reports it as unanswered, and the
response that comes later is in no report. -/
theorem late_response_dropped {cfg : Cfg} {pa : Parsers} {ops mid : List Op} {now : Int} {e : Evt} {k : Key} {x : Exch}
    {st : Mon} {out : List Out} (h : run cfg pa {} (ops ++ .scan now :: mid ++ [.response e]) = some (st, out))
    (hk : keyOf e = k) (hx : (exchanges none (ops.filterMap (own k))).getLast? = some x) (hr : x.resps = []) (hold : Old cfg now x)
    (ho : Orderly cfg k none ops) (hm : ∀ op ∈ mid, own k op = none)
    (hp : ∀ x ∈ exchanges none (ops.filterMap (own k)), pa (x.pairs cfg.snaplen) = false) :
    outsOf k out = (exchanges none (ops.filterMap (own k))).map (fun x => .report (x.pairs cfg.snaplen)) ∧
      (x.pairs cfg.snaplen).responses = none ∧ AMap.get st.map k = none := by
  have hmid : ∀ l : List Op, (∀ op ∈ l, own k op = none) → sockRun cfg pa k none l = (none, []) := by
    intro l
    induction l with
    | nil => intro _; rfl
    | cons op r ih =>
      intro hl
      have h1 := hl op (by simp)
      have h2 := ih fun o ho => hl o (by simp [ho])
      by_cases hn : ∀ n, op ≠ .scan n
      · simp [sockRun, sock_other h1 hn, h2]
      · obtain ⟨n, rfl⟩ : ∃ n, op = .scan n := by simpa using hn
        simp [sockRun, sock, sScan, h2]
  obtain ⟨st1, out1, h1, inv1, hout1⟩ := run_refines (pa := pa) (ops ++ [.scan now]) (inv_init cfg)
  obtain ⟨h2, h3⟩ := all_exchanges_reported h1 ho hp (by rw [hx]; intro y hy; cases hy; exact hold)
  have h4 : (sockRun cfg pa k none (ops ++ [.scan now])).1 = none := by
    have := inv1.get k
    rw [h3] at this
    simpa using this.symm
  obtain ⟨st', out', h5, inv, hout⟩ := run_refines (pa := pa) (ops ++ .scan now :: mid ++ [.response e]) (inv_init cfg)
  rw [h] at h5; cases h5
  have he : ops ++ .scan now :: mid ++ [.response e] = (ops ++ [.scan now]) ++ (mid ++ [.response e]) := by simp
  have hend : sockRun cfg pa k none (mid ++ [.response e]) = (none, []) := by
    rw [sockRun_append, hmid mid hm]
    simp [sockRun, sock, hk, sResponse]
  have hg := inv.get k
  have ho := hout k
  simp only [he, sockRun_append _ _ _ (ops ++ [.scan now]), h4, hend] at hg ho
  refine ⟨?_, by simp [Exch.pairs, hr, ofList], by simpa using hg⟩
  rw [ho, ← h2, hout1 k]
  simp

theorem flatMap_same {α β : Type} {f g : α → List β} {l : List α} (h : ∀ a ∈ l, f a = g a) : l.flatMap f = l.flatMap g := by
  induction l with
  | nil => rfl
  | cons a r ih => simp only [List.flatMap_cons, h a (by simp), ih fun x hx => h x (by simp [hx])]

theorem outs_perm (ks : List Key) (hks : ks.Nodup) (out : List Out) (h : ∀ o ∈ out, o.pairs.key ∈ ks) :
    (ks.flatMap fun k => outsOf k out).Perm out := by
  induction out with
  | nil =>
    have : ∀ l : List Key, (l.flatMap fun k => outsOf k []) = [] := fun l => by simp [outsOf]
    rw [this]
  | cons o r ih =>
    refine List.Perm.trans ?_ (List.Perm.cons o (ih fun x hx => h x (by simp [hx])))
    have hmem := h o (by simp)
    clear h ih
    induction ks with
    | nil => simp at hmem
    | cons a l ihl =>
      rw [List.nodup_cons] at hks
      simp only [List.flatMap_cons]
      by_cases ha : o.pairs.key = a
      · have hrest : (l.flatMap fun k => outsOf k (o :: r)) = l.flatMap fun k => outsOf k r := by
          refine flatMap_same fun k hk => ?_
          have : o.pairs.key ≠ k := fun h => hks.1 (ha ▸ h ▸ hk)
          simp [outsOf, this]
        have e1 : outsOf a (o :: r) = o :: outsOf a r := by simp [outsOf, ha]
        rw [hrest, e1]
        exact List.Perm.refl _
      · have := ihl hks.2 (by simpa [Ne.symm ha, ha] using hmem)
        have e1 : outsOf a (o :: r) = outsOf a r := by simp [outsOf, ha]
        rw [e1]
        exact (List.Perm.append_left _ this).trans List.perm_middle

theorem own_none {k : Key} {ops : List Op} (hk : ∀ op ∈ ops, own k op = none) (cfg : Cfg) (t : Option Exch) (ht : t = none) : Orderly cfg k t ops := by
  subst ht
  induction ops with
  | nil => trivial
  | cons op r ih =>
    have h1 := hk op (by simp)
    have h2 := ih fun o ho => hk o (by simp [ho])
    cases op with
    | scan n => exact ⟨fun x hx => (by cases hx), h2⟩
    | connect e => simpa only [Orderly, h1] using h2
    | request e => simpa only [Orderly, h1] using h2
    | response e => simpa only [Orderly, h1] using h2

/-- C122.  Over all connections: if each is used in an orderly way and has been quiet when the last scan passes, the analyzer
reports the exchanges that were on the wire, each once. -/
theorem reports_are_the_wire {cfg : Cfg} {pa : Parsers} {ops : List Op} {now : Int} {st : Mon} {out : List Out} {ks : List Key}
    (h : run cfg pa {} (ops ++ [.scan now]) = some (st, out)) (hks : ks.Nodup)
    (hall : ∀ op ∈ ops, ∀ k, (own k op).isSome → k ∈ ks) (ho : ∀ k ∈ ks, Orderly cfg k none ops)
    (hp : ∀ k ∈ ks, ∀ x ∈ exchanges none (ops.filterMap (own k)), pa (x.pairs cfg.snaplen) = false)
    (hq : ∀ k ∈ ks, ∀ x ∈ (exchanges none (ops.filterMap (own k))).getLast?, Old cfg now x) :
    out.Perm ((ks.flatMap fun k => exchanges none (ops.filterMap (own k))).map fun x => .report (x.pairs cfg.snaplen)) := by
  have hmem : ∀ o ∈ out, o.pairs.key ∈ ks := by
    intro o hm
    refine Decidable.byContradiction fun hn => ?_
    have hnone : ∀ op ∈ ops, own o.pairs.key op = none := by
      intro op hop
      cases hw : own o.pairs.key op with
      | none => rfl
      | some w => exact absurd (hall op hop _ (by simp [hw])) hn
    have hf : ops.filterMap (own o.pairs.key) = [] := by
      rw [List.filterMap_eq_nil_iff]; exact hnone
    have := (all_exchanges_reported h (own_none hnone cfg none rfl) (by rw [hf]; simp [exchanges]) (by rw [hf]; simp [exchanges])).1
    rw [hf] at this
    have hin : o ∈ outsOf o.pairs.key out := by simp [outsOf, hm]
    rw [this] at hin
    simp [exchanges] at hin
  refine (outs_perm ks hks out hmem).symm.trans ?_
  rw [List.map_flatMap]
  refine List.Perm.of_eq (flatMap_same fun k hk => ?_)
  exact (all_exchanges_reported h (ho k hk) (hp k hk) (hq k hk)).1

/-! ### Examples -/

def cfgEx : Cfg := { snaplen := 100 }
def evEx (fd : Int) (sec : UInt64) (data : Bytes) : Evt := { pid := 1, fd := fd, ts := sec * 1000000000, data := data }

/-- Two connections in one another: two exchanges on one, of which the first has two request segments, and one on the other. -/
def opsEx : List Op :=
  [.request (evEx 3 1 [1]), .request (evEx 4 1 [9]), .request (evEx 3 1 [2]), .scan 2000000000, .response (evEx 3 2 [3]),
   .response (evEx 4 3 [8]), .request (evEx 3 4 [4]), .response (evEx 3 5 [5])]

example : Orderly cfgEx ⟨1, 3⟩ none opsEx ∧ Orderly cfgEx ⟨1, 4⟩ none opsEx := by
  have h1 : ∀ fd d, Young cfgEx 2000000000 { reqs := d ++ [evEx fd 1 [2]] } := by
    intro fd d e he
    simp [last] at he
    subst he
    exact (by decide : Int.tdiv 2000000000 1000000000 - (toI64 1000000000).tdiv 1000000000 < min cfgEx.getFdReuseTimeout cfgEx.getNoResponseThreshold)
  have h2 : Young cfgEx 2000000000 { reqs := [evEx 4 1 [9]] } := by
    intro e he
    simp [last] at he
    subst he
    decide
  have h3 := h1 3 [evEx 3 1 [1]]
  constructor
  · simp [Orderly, opsEx, own, keyOf, evEx, feed] at h3 ⊢
    exact .inl h3
  · simp [Orderly, opsEx, own, keyOf, evEx, feed] at h2 ⊢
    exact .inl h2

example : exchanges none (opsEx.filterMap (own ⟨1, 3⟩)) =
    [{ reqs := [evEx 3 1 [1], evEx 3 1 [2]], resps := [evEx 3 2 [3]] }, { reqs := [evEx 3 4 [4]], resps := [evEx 3 5 [5]] }] := by
  have : opsEx.filterMap (own ⟨1, 3⟩) = [.request (evEx 3 1 [1]), .request (evEx 3 1 [2]), .response (evEx 3 2 [3]), .request (evEx 3 4 [4]), .response (evEx 3 5 [5])] := by
    decide +kernel
  rw [this]
  simp [exchanges, evEx, feed]

example : Old cfgEx 200000000000 { reqs := [evEx 3 4 [4]], resps := [evEx 3 5 [5]] } := by
  intro e he
  simp [last] at he
  subst he
  decide

example : (run cfgEx (fun _ => false) {} (opsEx ++ [.scan 200000000000])).map (fun r => r.2.length) = some 3 := by decide +kernel

end Kindling.Net.Wire
