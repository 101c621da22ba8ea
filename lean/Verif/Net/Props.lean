import Verif.Net.Refine
/-
C06 (atomic steps), C07, C10, C11: the exchange monitor of the network analyzer.
-/
namespace Kindling.Net
open Kindling

/-! ## Specification -/

/-- The request events of a socket, in order. -/
def requestsOf (k : Key) : List Op → List Evt
  | [] => []
  | .request e :: ops => if keyOf e = k then e :: requestsOf k ops else requestsOf k ops
  | _ :: ops => requestsOf k ops

/-- The response events of a socket, in order. -/
def responsesOf (k : Key) : List Op → List Evt
  | [] => []
  | .response e :: ops => if keyOf e = k then e :: responsesOf k ops else responsesOf k ops
  | _ :: ops => responsesOf k ops

/-- Requests that leave the monitor with an output (all but those put back on the next exchange). -/
def SOut.requestsGone : SOut → List Evt
  | .report x => x.reqs
  | .continued _ true => []
  | .continued x false => x.reqs

def reqsOf (o : Option Exch) : List Evt := match o with | none => [] | some x => x.reqs
def respsOf (o : Option Exch) : List Evt := match o with | none => [] | some x => x.resps

def Out.isReport : Out → Bool
  | .report _ => true
  | .continued _ _ => false

/-- Does the operation concern the socket? -/
def concerns (k : Key) : Op → Bool
  | .connect e => decide (keyOf e = k)
  | .request e => decide (keyOf e = k)
  | .response e => decide (keyOf e = k)
  | .scan _ => true

/-! ## Helper lemmas -/

theorem sout_gone_del (cfg : Cfg) (pa : Parsers) (x : Exch) : (sout cfg pa x false).requestsGone = x.reqs := by
  simp only [sout]; split <;> rfl

theorem sout_gone_new (cfg : Cfg) (pa : Parsers) (x n : Exch) :
    (sout cfg pa x true).requestsGone ++ (scarry cfg pa x n).reqs = x.reqs ++ n.reqs := by
  simp only [sout, scarry]; split <;> simp [SOut.requestsGone]

theorem sout_exch (cfg : Cfg) (pa : Parsers) (x : Exch) (b : Bool) : (sout cfg pa x b).exch = x := by
  simp only [sout]; split <;> rfl

theorem scarry_resps (cfg : Cfg) (pa : Parsers) (x n : Exch) : (scarry cfg pa x n).resps = n.resps := by
  simp only [scarry]; split <;> rfl

theorem sock_requests (cfg : Cfg) (pa : Parsers) (k : Key) (cur : Option Exch) (op : Op)
    (h : ∀ x, cur = some x → XOK k x) :
    ((sock cfg pa k cur op).2.map SOut.requestsGone).flatten ++ reqsOf (sock cfg pa k cur op).1 =
      reqsOf cur ++ requestsOf k [op] := by
  cases op with
  | connect e =>
    simp only [sock, requestsOf]
    split
    · simp only [sConnect]
      split
      · rfl
      · rename_i old
        split
        · rename_i c hr hc
          split
          · simp [reqsOf, SOut.requestsGone, hr]
          · simp [reqsOf, hr]
        · simp only [List.map_cons, List.map_nil, List.flatten_cons, List.flatten_nil, List.append_nil, reqsOf,
            sout_gone_new]
    · simp
  | request e =>
    simp only [sock, requestsOf]
    by_cases hk : keyOf e = k
    · simp only [hk, ↓reduceIte, sRequest]
      split
      · rfl
      · rename_i old
        have hx := h old rfl
        split
        · rename_i hr
          have hc : old.conn.isSome := by have := hx.nonempty; simpa [hr] using this
          simp [hc, reqsOf, hr]
        · rename_i r l hr
          split
          · simp only [List.map_cons, List.map_nil, List.flatten_cons, List.flatten_nil, List.append_nil, reqsOf,
              sout_gone_new]
          · simp [reqsOf]
    · simp [hk]
  | response e =>
    simp only [sock, requestsOf]
    split
    · simp only [sResponse]
      split
      · rfl
      · split <;> simp [reqsOf]
    · simp
  | scan now =>
    simp only [sock, requestsOf, sScan]
    split
    · rfl
    · split
      · simp [reqsOf, sout_gone_del]
      · simp

theorem requestsOf_cons (k : Key) (op : Op) (ops : List Op) :
    requestsOf k (op :: ops) = requestsOf k [op] ++ requestsOf k ops := by
  cases op with
  | request e => by_cases hk : keyOf e = k <;> simp [requestsOf, hk]
  | _ => simp [requestsOf]

theorem sockRun_requests (cfg : Cfg) (pa : Parsers) (k : Key) (ops : List Op) (cur : Option Exch)
    (h : ∀ x, cur = some x → XOK k x) :
    ((sockRun cfg pa k cur ops).2.map SOut.requestsGone).flatten ++ reqsOf (sockRun cfg pa k cur ops).1 =
      reqsOf cur ++ requestsOf k ops := by
  induction ops generalizing cur with
  | nil => simp [sockRun, requestsOf]
  | cons op r ih =>
    simp only [sockRun, List.map_append, List.flatten_append]
    rw [List.append_assoc, ih _ (xok_sock op h), ← List.append_assoc, sock_requests cfg pa k cur op h,
      List.append_assoc, ← requestsOf_cons]

theorem sock_responses (cfg : Cfg) (pa : Parsers) (k : Key) (cur : Option Exch) (op : Op)
    (h : ∀ x, cur = some x → XOK k x) :
    List.Sublist (((sock cfg pa k cur op).2.map (fun o => o.exch.resps)).flatten ++ respsOf (sock cfg pa k cur op).1)
      (respsOf cur ++ responsesOf k [op]) := by
  cases op with
  | connect e =>
    simp only [sock, responsesOf]
    split
    · simp only [sConnect]
      split
      · exact List.nil_sublist _
      · rename_i old
        split
        · rename_i c hr hc
          split
          · simp [respsOf, SOut.exch]
          · simp [respsOf]
        · simp [respsOf, sout_exch, scarry_resps]
    · simp
  | request e =>
    simp only [sock, responsesOf]
    split
    · simp only [sRequest]
      split
      · exact List.nil_sublist _
      · rename_i old
        split
        · split
          · simp [respsOf]
          · simp [respsOf]
        · split
          · simp [respsOf, sout_exch, scarry_resps]
          · simp [respsOf]
    · simp
  | response e =>
    simp only [sock, responsesOf]
    by_cases hk : keyOf e = k
    · simp only [hk, ↓reduceIte, sResponse]
      split
      · simp [respsOf]
      · split <;> simp [respsOf]
    · simp [hk]
  | scan now =>
    simp only [sock, responsesOf, sScan]
    split
    · exact List.nil_sublist _
    · split
      · simp [respsOf, sout_exch]
      · simp

theorem responsesOf_cons (k : Key) (op : Op) (ops : List Op) :
    responsesOf k (op :: ops) = responsesOf k [op] ++ responsesOf k ops := by
  cases op with
  | response e => by_cases hk : keyOf e = k <;> simp [responsesOf, hk]
  | _ => simp [responsesOf]

theorem sockRun_responses (cfg : Cfg) (pa : Parsers) (k : Key) (ops : List Op) (cur : Option Exch)
    (h : ∀ x, cur = some x → XOK k x) :
    List.Sublist (((sockRun cfg pa k cur ops).2.map (fun o => o.exch.resps)).flatten ++ respsOf (sockRun cfg pa k cur ops).1)
      (respsOf cur ++ responsesOf k ops) := by
  induction ops generalizing cur with
  | nil => simp [sockRun, responsesOf]
  | cons op r ih =>
    simp only [sockRun, List.map_append, List.flatten_append]
    rw [List.append_assoc, responsesOf_cons, ← List.append_assoc (respsOf cur)]
    refine List.Sublist.trans (List.Sublist.append_left (ih _ (xok_sock op h)) _) ?_
    rw [← List.append_assoc]
    exact List.Sublist.append_right (sock_responses cfg pa k cur op h) _

theorem sockRun_concerns (cfg : Cfg) (pa : Parsers) (k : Key) (ops : List Op) (cur : Option Exch) :
    sockRun cfg pa k cur ops = sockRun cfg pa k cur (ops.filter (concerns k)) := by
  induction ops generalizing cur with
  | nil => rfl
  | cons op r ih =>
    simp only [List.filter_cons]
    by_cases hc : concerns k op
    · simp only [hc, ↓reduceIte, sockRun]; rw [ih]
    · have hs : sock cfg pa k cur op = (cur, []) := by
        cases op <;> simp [concerns, sock] at hc ⊢ <;> intro hk <;> exact absurd hk hc
      simp only [hc, Bool.false_eq_true, ↓reduceIte, sockRun, hs, List.nil_append]
      rw [ih]

theorem ofList_resVal (n : Int) (l : List Evt) :
    (match ofList n l with | none => 0 | some s => s.resVal) = (l.map Evt.res).sum := by
  cases l with
  | nil => rfl
  | cons e es => simp only [ofList]; rw [resVal_merged, mergeAll_resVal]

/-! ## C06, C07 with atomic steps -/

/-- No sequence of events and scans makes the monitor dereference nil. -/
theorem monitor_never_panics (cfg : Cfg) (pa : Parsers) (ops : List Op) :
    ∃ st out, run cfg pa {} ops = some (st, out) := by
  obtain ⟨st, out, h, _⟩ := run_refines (pa := pa) ops (inv_init cfg)
  exact ⟨st, out, h⟩

/-- C07: with atomic steps the published size is the number of stored exchanges, one per socket. -/
theorem gauge_is_number_of_exchanges_partial (cfg : Cfg) (pa : Parsers) (ops : List Op) {st : Mon} {out : List Out}
    (h : run cfg pa {} ops = some (st, out)) :
    st.size = st.map.length ∧ (AMap.keys st.map).Nodup ∧ ∀ k p, AMap.get st.map k = some p → p.key = k := by
  obtain ⟨st', out', h', inv, _⟩ := run_refines (pa := pa) ops (inv_init cfg)
  rw [h] at h'; cases h'
  refine ⟨inv.size, inv.wf, ?_⟩
  intro k p hp
  rw [inv.get k] at hp
  obtain ⟨x, hx, rfl⟩ := Option.map_eq_some_iff.1 hp
  exact key_pairs (inv.ok k x hx) _

/-- C06 with atomic steps: every request event of a socket is in exactly one exchange, in order: the
exchanges that left the monitor and the one still stored, taken together, hold exactly the request
events of the socket.  Each exchange is the merge of its event lists. -/
theorem each_request_in_one_exchange (cfg : Cfg) (pa : Parsers) (ops : List Op) {st : Mon} {out : List Out}
    (h : run cfg pa {} ops = some (st, out)) (k : Key) :
    ∃ (gone : List SOut) (cur : Option Exch),
      outsOf k out = gone.map (SOut.toOut cfg.snaplen) ∧
      AMap.get st.map k = cur.map (Exch.pairs cfg.snaplen) ∧
      (gone.map SOut.requestsGone).flatten ++ reqsOf cur = requestsOf k ops ∧
      List.Sublist ((gone.map (fun o => o.exch.resps)).flatten ++ respsOf cur) (responsesOf k ops) := by
  obtain ⟨st', out', h', inv, ho⟩ := run_refines (pa := pa) ops (inv_init cfg)
  rw [h] at h'; cases h'
  refine ⟨_, _, ho k, inv.get k, ?_, ?_⟩
  · have := sockRun_requests cfg pa k ops none (by simp)
    simpa [reqsOf] using this
  · have := sockRun_responses cfg pa k ops none (by simp)
    simpa [respsOf] using this

/-- C06 as a byte balance: when no exchange is an HTTP 100-continue, request bytes reported plus bytes
of the stored exchange equal the bytes of all request events of the socket. -/
theorem request_bytes_conserved (cfg : Cfg) (ops : List Op) {st : Mon} {out : List Out}
    (h : run cfg (fun _ => false) {} ops = some (st, out)) (k : Key) :
    ((outsOf k out).map (fun o => o.pairs.requestSize)).sum +
      (match AMap.get st.map k with | none => 0 | some p => p.requestSize) = ((requestsOf k ops).map Evt.res).sum := by
  obtain ⟨st', out', h', inv, ho⟩ := run_refines (pa := fun _ => false) ops (inv_init cfg)
  rw [h] at h'; cases h'
  have hreq := sockRun_requests cfg (fun _ => false) k ops none (by simp)
  have hget := inv.get k
  simp only [reqsOf, List.nil_append] at hreq
  rw [ho k, hget, ← hreq]
  have hall : ∀ (l : List SOut), (∀ o ∈ l, ∃ x, o = .report x) →
      ((l.map (SOut.toOut cfg.snaplen)).map (fun o => o.pairs.requestSize)).sum =
        ((l.map SOut.requestsGone).flatten.map Evt.res).sum := by
    intro l
    induction l with
    | nil => intro _; rfl
    | cons o r ih =>
      intro hl
      obtain ⟨x, rfl⟩ := hl o (by simp)
      simp only [List.map_cons, List.sum_cons, List.flatten_cons, List.map_append, List.sum_append]
      rw [ih (fun o ho => hl o (by simp [ho]))]
      congr 1
      simp only [SOut.toOut, Out.pairs, Pairs.requestSize, Exch.pairs, SOut.requestsGone]
      exact ofList_resVal cfg.snaplen x.reqs
  have hrep : ∀ (ops : List Op) (cur : Option Exch), ∀ o ∈ (sockRun cfg (fun _ => false) k cur ops).2, ∃ x, o = .report x := by
    intro ops
    induction ops with
    | nil => intro cur o ho; simp [sockRun] at ho
    | cons op r ih =>
      intro cur o ho
      simp only [sockRun, List.mem_append] at ho
      rcases ho with ho | ho
      · have hs : ∀ x b, sout cfg (fun _ => false) x b = .report x := by intro x b; simp [sout, isCont]
        cases op with
        | connect e =>
          simp only [sock, sConnect] at ho
          split at ho
          · split at ho
            · simp at ho
            · split at ho
              · split at ho
                · exact ⟨_, List.mem_singleton.1 ho⟩
                · simp at ho
              · rw [hs] at ho; exact ⟨_, List.mem_singleton.1 ho⟩
          · simp at ho
        | request e =>
          simp only [sock, sRequest] at ho
          split at ho
          · split at ho
            · simp at ho
            · split at ho
              · split at ho <;> simp at ho
              · split at ho
                · rw [hs] at ho; exact ⟨_, List.mem_singleton.1 ho⟩
                · simp at ho
          · simp at ho
        | response e =>
          simp only [sock, sResponse] at ho
          split at ho
          · split at ho
            · simp at ho
            · split at ho <;> simp at ho
          · simp at ho
        | scan now =>
          simp only [sock, sScan] at ho
          split at ho
          · simp at ho
          · split at ho
            · rw [hs] at ho; exact ⟨_, List.mem_singleton.1 ho⟩
            · simp at ho
      · exact ih _ o ho
  rw [hall _ (hrep ops none), List.map_append, List.sum_append]
  congr 1
  cases hc : (sockRun cfg (fun _ => false) k none ops).1 with
  | none => rfl
  | some x =>
    simp only [Option.map_some, Pairs.requestSize, Exch.pairs]
    exact ofList_resVal cfg.snaplen x.reqs

/-- C06: an HTTP 100-continue exchange that runs into the timeout scan disappears without any record,
request included. -/
theorem continue_exchange_lost_on_timeout :
    ∃ (ops : List Op) (st : Mon) (out : List Out), run {} (fun _ => true) {} ops = some (st, out) ∧
      requestsOf ⟨1, 2⟩ ops ≠ [] ∧ st.map = [] ∧ ∀ o ∈ out, o.isReport = false := by
  let q : Evt := { pid := 1, fd := 2, ts := 1000000000, res := 5 }
  let r : Evt := { pid := 1, fd := 2, ts := 2000000000, res := 7 }
  refine ⟨[.request q, .response r, .scan 20000000000], _, _, rfl, by decide, by decide, by decide⟩

/-! ## C10 -/

/-- C10: an event of another socket changes nothing for this socket and reports nothing for it. -/
theorem other_socket_untouched (cfg : Cfg) (pa : Parsers) (ops : List Op) {st st' : Mon} {out out' : List Out} (op : Op)
    (h : run cfg pa {} ops = some (st, out)) (hs : step cfg pa st op = some (st', out')) (k : Key)
    (hk : concerns k op = false) :
    AMap.get st'.map k = AMap.get st.map k ∧ outsOf k out' = [] := by
  obtain ⟨st1, out1, h1, inv, _⟩ := run_refines (pa := pa) ops (inv_init cfg)
  rw [h] at h1; cases h1
  obtain ⟨st2, out2, h2, inv2, ho2⟩ := step_refines (pa := pa) op inv
  rw [hs] at h2; cases h2
  have hsock : ∀ cur, sock cfg pa k cur op = (cur, []) := by
    intro cur
    cases op <;> simp [concerns] at hk <;> simp [sock, hk]
  refine ⟨?_, ?_⟩
  · rw [inv2.get k, inv.get k, hsock]
  · rw [ho2 k, hsock]; rfl

/-- C10: what is stored and reported for a socket depends only on its own events and on the scans. -/
theorem socket_depends_on_own_events (cfg : Cfg) (pa : Parsers) (ops : List Op) (k : Key)
    {st st' : Mon} {out out' : List Out} (h : run cfg pa {} ops = some (st, out))
    (h' : run cfg pa {} (ops.filter (concerns k)) = some (st', out')) :
    AMap.get st.map k = AMap.get st'.map k ∧ outsOf k out = outsOf k out' := by
  obtain ⟨st1, out1, h1, inv1, ho1⟩ := run_refines (pa := pa) ops (inv_init cfg)
  rw [h] at h1; cases h1
  obtain ⟨st2, out2, h2, inv2, ho2⟩ := run_refines (pa := pa) (ops.filter (concerns k)) (inv_init cfg)
  rw [h'] at h2; cases h2
  have hc := sockRun_concerns cfg pa k ops none
  refine ⟨?_, ?_⟩
  · rw [inv1.get k, inv2.get k, hc]
  · rw [ho1 k, ho2 k, hc]

/-! ## C11 -/

/-- Time of the last event of an exchange: its last response, else its last request, else the connect. -/
def lastActivity (p : Pairs) : UInt64 :=
  match p.responses, p.requests, p.connects with
  | some s, _, _ => s.lastTs
  | none, some s, _ => s.lastTs
  | none, none, some s => s.lastTs
  | none, none, none => 0

/-- C11: a scan takes an exchange out iff it is old enough, outputs it, and leaves every other one as
it is.  `age` counts whole seconds; exchanges at time 0 (no timestamp) are never taken. -/
theorem scan_flushes_exactly_expired (cfg : Cfg) (pa : Parsers) (ops : List Op) {st : Mon} {out : List Out}
    (h : run cfg pa {} ops = some (st, out)) (now : Nat) (k : Key) (p : Pairs) (hp : AMap.get st.map k = some p)
    (ht : (lastActivity p).toNat < 2 ^ 63) :
    let age : Int := (now / 1000000000 : Nat) - ((lastActivity p).toNat / 1000000000 : Nat)
    let expired := (lastActivity p).toNat ≠ 0 ∧
      ((p.responses.isSome ∧ cfg.getFdReuseTimeout ≤ age) ∨ cfg.getNoResponseThreshold ≤ age)
    (expired → AMap.get (scan cfg pa st now).1.map k = none ∧
      ∃ o, outsOf k (scan cfg pa st now).2 = [o] ∧ o.pairs = p) ∧
    (¬ expired → AMap.get (scan cfg pa st now).1.map k = some p ∧ outsOf k (scan cfg pa st now).2 = []) := by
  obtain ⟨st1, out1, h1, inv, _⟩ := run_refines (pa := pa) ops (inv_init cfg)
  rw [h] at h1; cases h1
  obtain ⟨st2, out2, h2, inv2, ho2⟩ := step_refines (pa := pa) (.scan now) inv
  simp only [step, Option.some.injEq] at h2
  have hg := inv.get k
  rw [hp] at hg
  obtain ⟨x, hx, hpx⟩ := Option.map_eq_some_iff.1 hg.symm
  have hdue : due cfg now p = true ↔ ((lastActivity p).toNat ≠ 0 ∧
      ((p.responses.isSome ∧ cfg.getFdReuseTimeout ≤ ((now / 1000000000 : Nat) : Int) - ((lastActivity p).toNat / 1000000000 : Nat)) ∨
        cfg.getNoResponseThreshold ≤ ((now / 1000000000 : Nat) : Int) - ((lastActivity p).toNat / 1000000000 : Nat))) := by
    have e1 : p.timeoutTs = lastActivity p := rfl
    have e2 : (p.timeoutTs ≠ 0) ↔ (lastActivity p).toNat ≠ 0 := by
      rw [e1, ne_eq, ne_eq, ← UInt64.toNat_inj]; simp
    have e3 : ((now : Int).tdiv 1000000000 - (toI64 p.timeoutTs).tdiv 1000000000) =
        ((now / 1000000000 : Nat) : Int) - ((lastActivity p).toNat / 1000000000 : Nat) := by
      rw [e1, toI64_of_lt ht]; rfl
    simp only [due, Bool.and_eq_true, decide_eq_true_eq, Bool.or_eq_true, ge_iff_le, e2, e3]
  have hs : (scan cfg pa st now).1 = st2 ∧ (scan cfg pa st now).2 = out2 := by rw [h2]; exact ⟨rfl, rfl⟩
  simp only [hs.1, hs.2]
  constructor
  · intro hexp
    have hd := hdue.2 hexp
    have e1 : sock cfg pa k (st.map.get k |>.map (fun _ => x)) (.scan now) = (none, [sout cfg pa x false]) := by
      simp [sock, sScan, hp, hpx, hd]
    simp only [hp, Option.map_some] at e1
    refine ⟨?_, ?_⟩
    · rw [inv2.get k, hx, e1]; rfl
    · refine ⟨(sout cfg pa x false).toOut cfg.snaplen, ?_, ?_⟩
      · rw [ho2 k, hx, e1]; rfl
      · rw [← hpx]; simp only [sout]; split <;> rfl
  · intro hexp
    have hd : due cfg now p = false := by
      cases hdd : due cfg now p with
      | false => rfl
      | true => exact absurd (hdue.1 hdd) hexp
    have e1 : sock cfg pa k (some x) (.scan now) = (some x, []) := by
      simp [sock, sScan, hpx, hd]
    refine ⟨?_, ?_⟩
    · rw [inv2.get k, hx, e1]; simp [hpx]
    · rw [ho2 k, hx, e1]; rfl

/-- Non-vacuity: two sockets; the answered one is flushed after 15 s, the unanswered one after 120 s. -/
example :
    let q (fd : Int) : Evt := { pid := 1, fd := fd, ts := 1000000000, res := 5, latency := 3 }
    let r : Evt := { pid := 1, fd := 2, ts := 1500000000, res := 7 }
    let ops : List Op := [.request (q 2), .request (q 3), .response r, .scan 16000000000]
    ∃ st out, run {} (fun _ => false) {} ops = some (st, out) ∧ out.length = 1 ∧ st.size = 1 ∧
      (AMap.get st.map ⟨1, 2⟩).isNone ∧ (AMap.get st.map ⟨1, 3⟩).isSome ∧
      (scan {} (fun _ => false) st 121000000000).2.length = 1 ∧
      (scan {} (fun _ => false) st 120999999999).2.length = 0 := by
  refine ⟨_, _, rfl, ?_⟩
  decide

end Kindling.Net
