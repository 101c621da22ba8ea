import Verif.Net.Udp
/-
C13, and the UDP half of C14: DNS over UDP.
-/
namespace Kindling.Net.Udp
open Kindling Kindling.Net

variable {κ : Type} [DecidableEq κ]

theorem inv_empty : Inv ([] : Mon κ) := ⟨by simp, by simp⟩

theorem inv_run {cfg : Cfg} (ops : List (Op κ)) {m : Mon κ} (h : Inv m) : Inv (run cfg m ops).1 := by
  induction ops generalizing m with
  | nil => exact h
  | cons op ops ih => simp only [run]; exact ih (inv_step h op)

theorem run_slot {cfg : Cfg} (ops : List (Op κ)) {m : Mon κ} (h : Inv m) (k : κ) (id : Int) :
    (stored (run cfg m ops).1 k id, ofSlot k id (run cfg m ops).2) = slotRun cfg k id (stored m k id) ops := by
  induction ops generalizing m with
  | nil => rfl
  | cons op ops ih =>
    have h1 := step_slot (cfg := cfg) h op k id
    have h2 := ih (inv_step (cfg := cfg) h op)
    simp only [run, slotRun, ofSlot_append]
    rw [← h1, ← h2]

/-- C13/C14: the whole UDP monitor is, for each socket and transaction id, a one-place cell: a query fills it
(replacing an unanswered one), the next response with this id or the timeout empties it and reports the query.
Both what is stored and what is reported agree with this, for every history. -/
theorem udp_each_id_on_its_own (cfg : Cfg) (ops : List (Op κ)) (k : κ) (id : Int) :
    stored (run cfg [] ops).1 k id = (slotRun cfg k id none ops).1 ∧
    ofSlot k id (run cfg [] ops).2 = (slotRun cfg k id none ops).2 := by
  have h := run_slot (cfg := cfg) ops (inv_empty (κ := κ)) k id
  have hs : stored ([] : Mon κ) k id = none := rfl
  rw [hs] at h
  exact ⟨congrArg Prod.fst h, congrArg Prod.snd h⟩

/-- What a cell holds was put there by a query, and every report of a cell concerns such a query. -/
theorem slotRun_sound (cfg : Cfg) (k : κ) (id : Int) (ops : List (Op κ)) (cur : Option UReq) (hc : ∀ r, cur = some r → r.id = id) :
    (∀ r, (slotRun cfg k id cur ops).1 = some r → cur = some r ∨ Op.request k r ∈ ops) ∧
    ∀ rep ∈ (slotRun cfg k id cur ops).2, rep.key = k ∧ rep.req.id = id ∧ (cur = some rep.req ∨ Op.request k rep.req ∈ ops) ∧
      (∀ e, rep.resp = some e → Op.response k id e ∈ ops) := by
  induction ops generalizing cur with
  | nil => simp [slotRun]; 
  | cons op ops ih =>
    simp only [slotRun]
    have key : (∀ r, (slot cfg k id cur op).1 = some r → r.id = id ∧ (cur = some r ∨ op = .request k r)) ∧
        ∀ rep ∈ (slot cfg k id cur op).2, rep.key = k ∧ cur = some rep.req ∧ (∀ e, rep.resp = some e → op = .response k id e) := by
      cases op with
      | request k' r =>
        simp only [slot]
        split
        · rename_i hh; obtain ⟨rfl, rfl⟩ := hh; simp
        · refine ⟨fun r' hr' => ⟨hc r' hr', .inl hr'⟩, by simp⟩
      | response k' id' e =>
        simp only [slot]
        split
        · rename_i hh; obtain ⟨rfl, rfl⟩ := hh
          cases cur with
          | none => simp
          | some r => simp
        · exact ⟨fun r' hr' => ⟨hc r' hr', .inl hr'⟩, by simp⟩
      | scan now =>
        simp only [slot]
        cases cur with
        | none => simp
        | some r =>
          simp only []
          split
          · simp
          · simp; exact hc r rfl
    obtain ⟨k1, k2⟩ := key
    obtain ⟨i1, i2⟩ := ih (slot cfg k id cur op).1 (fun r hr => (k1 r hr).1)
    refine ⟨fun r hr => ?_, fun rep hrep => ?_⟩
    · rcases i1 r hr with h | h
      · rcases (k1 r h).2 with h | h
        · exact .inl h
        · exact .inr (by simp [h])
      · exact .inr (by simp [h])
    · rcases List.mem_append.1 hrep with h | h
      · obtain ⟨a, b, c⟩ := k2 rep h
        exact ⟨a, hc _ b, .inl b, fun e he => by simp [c e he]⟩
      · obtain ⟨a, b, c, d⟩ := i2 rep h
        refine ⟨a, b, ?_, fun e he => by simp [d e he]⟩
        rcases c with h | h
        · rcases (k1 _ h).2 with h | h
          · exact .inl h
          · exact .inr (by simp [h])
        · exact .inr (by simp [h])

/-- C14 (UDP): a reported response is attributed to a query that was sent on the same socket with the same
transaction id, and a report without response concerns a query that was sent. -/
theorem udp_response_attributed (cfg : Cfg) (ops : List (Op κ)) (rep : Rep κ) (h : rep ∈ (run cfg [] ops).2) :
    Op.request rep.key rep.req ∈ ops ∧ ∀ e, rep.resp = some e → Op.response rep.key rep.req.id e ∈ ops := by
  have h1 : rep ∈ ofSlot rep.key rep.req.id (run cfg [] ops).2 := by simp [ofSlot, h]
  rw [(udp_each_id_on_its_own cfg ops rep.key rep.req.id).2] at h1
  obtain ⟨_, h2⟩ := slotRun_sound cfg rep.key rep.req.id ops none (by simp)
  obtain ⟨_, _, h3, h4⟩ := h2 rep h1
  refine ⟨?_, h4⟩
  rcases h3 with h | h
  · simp at h
  · exact h

/-- The query `r` is sent while no earlier query of the same id on the same socket is outstanding. -/
def Fresh (cfg : Cfg) (pre : List (Op κ)) : Op κ → Prop
  | .request k r => (slotRun cfg k r.id none pre).1 = none
  | _ => True

/-- No query repeats the id of an outstanding one. -/
def NoRepeat (cfg : Cfg) (ops : List (Op κ)) : Prop := ∀ pre op post, ops = pre ++ op :: post → Fresh cfg pre op

/-- Every counter is exact. -/
def Exact (m : Mon κ) : Prop := ∀ k c, AMap.get m k = some c → c.count = c.reqs.length

theorem exact_step {cfg : Cfg} {m : Mon κ} (h : Inv m) (he : Exact m) (op : Op κ)
    (hf : ∀ k r, op = .request k r → stored m k r.id = none) : Exact (step cfg m op).1 := by
  intro k c hc
  cases op with
  | request k' r =>
    have hn := hf k' r rfl
    simp only [step, request] at hc
    cases hg : AMap.get m k' with
    | none =>
      simp only [hg, AMap.get_set] at hc
      split at hc
      · cases hc; simp [Cache.addRequest, AMap.set]
      · exact he k c hc
    | some c0 =>
      simp only [hg, AMap.get_set] at hc
      split at hc
      · cases hc
        simp only [stored, hg] at hn
        have := he k' c0 hg
        simp only [Cache.addRequest, AMap.length_set_of_none hn]; omega
      · exact he k c hc
  | response k' id e =>
    simp only [step, response] at hc
    cases hg : AMap.get m k' with
    | none => simp only [hg] at hc; exact he k c hc
    | some c0 =>
      obtain ⟨h1, h2⟩ := h.each k' c0 hg
      have h3 := he k' c0 hg
      simp only [hg] at hc
      cases hr : AMap.get c0.reqs id with
      | none =>
        simp only [getMatch_none hr, show ¬ c0.count ≤ 0 by omega, ↓reduceIte, AMap.get_set] at hc
        split at hc
        · cases hc; exact h3
        · exact he k c hc
      | some r =>
        simp only [getMatch_some hr] at hc
        have h4 := AMap.length_del_of_some h1.wf hr
        split at hc
        · rw [AMap.get_del] at hc
          split at hc
          · simp at hc
          · exact he k c hc
        · rw [AMap.get_set] at hc
          split at hc
          · cases hc; simp only [Cache.deleteRequest]; omega
          · exact he k c hc
  | scan now =>
    simp only [step] at hc
    obtain ⟨_, i2, _⟩ := scanAll_get cfg now m m h.wf h.wf
    rw [i2 k] at hc
    cases hg : AMap.get m k with
    | none => rw [hg] at hc; simp at hc
    | some c0 =>
      rw [hg] at hc
      simp only [scanned] at hc
      obtain ⟨_, j2, _, _⟩ := scanReqs_self (cfg := cfg) (now := now) (h.each k c0 hg).1
      have := he k c0 hg
      split at hc
      · simp at hc
      · cases hc; omega

theorem run_append (cfg : Cfg) (a b : List (Op κ)) (m : Mon κ) :
    (run cfg m (a ++ b)).1 = (run cfg (run cfg m a).1 b).1 := by
  induction a generalizing m with
  | nil => rfl
  | cons op a ih => simp only [List.cons_append, run]; exact ih _

/-- C13, for histories in which no query repeats the id of an outstanding query: the counter of a socket is
the number of its outstanding queries, and the socket has a cache exactly while a query is outstanding.
(Without the condition the claim is false: `repeated_id_leaks_cache`.) -/
theorem udp_counter_exact_partial (cfg : Cfg) (ops : List (Op κ)) (hf : NoRepeat cfg ops) (k : κ) :
    (∀ c, AMap.get (run cfg [] ops).1 k = some c → c.count = c.reqs.length ∧ AMap.WF c.reqs) ∧
    ((AMap.get (run cfg [] ops).1 k).isSome ↔ ∃ id r, (slotRun cfg k id none ops).1 = some r) := by
  have hex : Exact (run cfg [] ops).1 := by
    induction ops using snoc_ind with
    | nil => intro k c hc; simp [run] at hc
    | snoc l op ih =>
      have hi := ih (fun pre o post e => hf pre o (post ++ [op]) (by simp [e]))
      rw [run_append]
      simp only [run]
      refine exact_step (inv_run l inv_empty) hi op (fun k r e => ?_)
      have := hf l op [] rfl
      rw [e] at this
      rw [(udp_each_id_on_its_own cfg l k r.id).1]; exact this
  have hinv : Inv (run cfg [] ops).1 := inv_run ops inv_empty
  refine ⟨fun c hc => ⟨hex k c hc, (hinv.each k c hc).1.wf⟩, ?_⟩
  constructor
  · intro hs
    obtain ⟨c, hc⟩ := Option.isSome_iff_exists.1 hs
    obtain ⟨h1, h2⟩ := hinv.each k c hc
    have := hex k c hc
    cases hr : c.reqs with
    | nil => rw [hr] at this; simp at this; omega
    | cons p rest =>
      refine ⟨p.1, p.2, ?_⟩
      rw [← (udp_each_id_on_its_own cfg ops k p.1).1]
      simp only [stored, hc]
      exact AMap.get_of_mem h1.wf (by rw [hr]; simp)
  · rintro ⟨id, r, h⟩
    rw [← (udp_each_id_on_its_own cfg ops k id).1] at h
    simp only [stored] at h
    split at h
    · simp at h
    · rename_i c hc; simp [hc]

def q1 : UReq := { id := 7, ev := { pid := 1, fd := 2, ts := 1000000000 } }
def q2 : UReq := { id := 8, ev := { pid := 1, fd := 2, ts := 2000000000 } }
def a1 : Evt := { pid := 1, fd := 2, ts := 3000000000 }

/-- The condition of `udp_counter_exact_partial` is met by a history in which an id is used again after its
response, and the cache then holds two queries. -/
example : NoRepeat ({} : Cfg) [.request 0 q1, .response 0 7 a1, .request 0 q1, .request (0 : Nat) q2] := by
  intro pre op post h
  match pre, h with
  | [], h => simp only [List.nil_append, List.cons.injEq] at h; rw [← h.1]; simp only [Fresh]; decide
  | [_], h => simp only [List.cons_append, List.nil_append, List.cons.injEq] at h; rw [← h.2.1]; trivial
  | [a, b], h => simp only [List.cons_append, List.nil_append, List.cons.injEq] at h; obtain ⟨rfl, rfl, rfl, _⟩ := h; simp only [Fresh]; decide
  | [a, b, c], h => simp only [List.cons_append, List.nil_append, List.cons.injEq] at h; obtain ⟨rfl, rfl, rfl, rfl, _⟩ := h; simp only [Fresh]; decide
  | a :: b :: c :: d :: e, h => simp at h

/-- C13 fails of the code: once a query repeats the id of an outstanding query, the counter of the socket is too
large for ever, so that the cache of the socket is never dropped, whatever happens later. -/
theorem repeated_id_leaks_cache (cfg : Cfg) (pre post : List (Op κ)) (k : κ) (r : UReq)
    (h : ((slotRun cfg k r.id none pre).1).isSome) :
    ∃ c, AMap.get (run cfg [] (pre ++ .request k r :: post)).1 k = some c ∧ c.count > c.reqs.length := by
  have hi : Inv (run cfg [] pre).1 := inv_run pre inv_empty
  rw [run_append]
  simp only [run]
  have hstart : ∃ c, AMap.get (step cfg (run cfg [] pre).1 (.request k r)).1 k = some c ∧ c.count > c.reqs.length := by
    rw [← (udp_each_id_on_its_own cfg pre k r.id).1] at h
    simp only [stored] at h
    cases hg : AMap.get (run cfg [] pre).1 k with
    | none => simp [hg] at h
    | some c =>
      simp only [hg] at h
      obtain ⟨w, hw⟩ := Option.isSome_iff_exists.1 h
      refine ⟨c.addRequest r, by simp [step, request, hg], ?_⟩
      have := (hi.each k c hg).1.ge
      simp only [Cache.addRequest, AMap.length_set_of_some hw]; omega
  have hi1 := inv_step (cfg := cfg) hi (.request k r)
  generalize (step cfg (run cfg [] pre).1 (.request k r)).1 = m at hstart hi1
  clear hi h
  induction post generalizing m with
  | nil => exact hstart
  | cons op post ih =>
    simp only [run]
    apply ih _ _ (inv_step hi1 op)
    obtain ⟨c, hc, hgt⟩ := hstart
    obtain ⟨h1, h2⟩ := hi1.each k c hc
    cases op with
    | request k' r' =>
      simp only [step, request]
      by_cases hk : k' = k
      · subst hk
        simp only [hc, AMap.get_set_self]
        refine ⟨_, rfl, ?_⟩
        simp only [Cache.addRequest]
        cases hr : AMap.get c.reqs r'.id with
        | none => rw [AMap.length_set_of_none hr]; omega
        | some w => rw [AMap.length_set_of_some hr]; omega
      · split <;> exact ⟨c, by rw [AMap.get_set_ne _ _ hk]; exact hc, hgt⟩
    | response k' id e =>
      simp only [step, response]
      by_cases hk : k' = k
      · subst hk
        simp only [hc]
        cases hr : AMap.get c.reqs id with
        | none =>
          simp only [getMatch_none hr, show ¬ c.count ≤ 0 by omega, ↓reduceIte, AMap.get_set_self]
          exact ⟨c, rfl, hgt⟩
        | some w =>
          have h4 := AMap.length_del_of_some h1.wf hr
          simp only [getMatch_some hr, show ¬ c.count - 1 ≤ 0 by omega, ↓reduceIte, AMap.get_set_self]
          exact ⟨_, rfl, by simp only [Cache.deleteRequest]; omega⟩
      · cases hg : AMap.get m k' with
        | none => exact ⟨c, hc, hgt⟩
        | some c0 =>
          simp only []
          split
          · exact ⟨c, by rw [AMap.get_del_ne _ hk]; exact hc, hgt⟩
          · exact ⟨c, by rw [AMap.get_set_ne _ _ hk]; exact hc, hgt⟩
    | scan now =>
      simp only [step]
      obtain ⟨_, i2, _⟩ := scanAll_get cfg now m m hi1.wf hi1.wf
      obtain ⟨j1, j2, _, _⟩ := scanReqs_self (cfg := cfg) (now := now) h1
      rw [i2 k, hc]
      simp only [scanned]
      have : (scanReqs cfg now c c.reqs).1.isEmpty = false := by
        simp only [Cache.isEmpty, decide_eq_false_iff_not]; omega
      simp only [this, Bool.false_eq_true, ↓reduceIte]
      exact ⟨_, rfl, by omega⟩

/-- Such histories exist. -/
example : ((slotRun ({} : Cfg) (0 : Nat) q1.id none [.request 0 q1]).1).isSome := by decide

/-- The first of two queries with the same id is never reported. -/
theorem repeated_query_not_reported : ∃ ops : List (Op Nat),
    Op.request 0 q1 ∈ ops ∧ (run {} [] ops).2 = [{ key := 0, req := { q1 with ev := a1 }, resp := some a1 }] ∧
    stored (run {} [] ops).1 0 7 = none :=
  ⟨[.request 0 q1, .request 0 { q1 with ev := a1 }, .response 0 7 a1], by simp, by decide, by decide⟩

end Kindling.Net.Udp

namespace Kindling.Net.Udp.Conc
open Kindling Kindling.Net Kindling.Net.Udp

/-! ## The scanner between two events of the consumer

Smaller steps of the scanner (network_analyzer.go:322-343): it looks at a stored request, later deletes and
reports it; it finds the cache empty, later deletes it.  Consumer events stay atomic.  One socket. -/

structure S where
  cache : Option Cache := none
  /-- the request the scanner holds -/
  hand : Option UReq := none
  /-- the scanner has found the cache empty (339) -/
  found : Bool := false
  reports : List UReq := []
deriving DecidableEq

inductive Act where
  | request (r : UReq)
  | response (id : Int) (e : Evt)
  | look (id : Int)
  | delete
  | check
  | drop
deriving DecidableEq

def act (s : S) : Act → S
  | .request r => { s with cache := some ((s.cache.getD {}).addRequest r) }
  | .response id _ => match s.cache with
    | none => s
    | some c => match c.getMatchRequest id with
      | (c', r, size) => { s with cache := if size ≤ 0 then none else some c', reports := r.toList ++ s.reports }
  | .look id => match s.cache with
    | none => s
    | some c => { s with hand := AMap.get c.reqs id }
  | .delete => match s.hand, s.cache with
    | some r, some c => { s with cache := some (c.deleteRequest r.id), hand := none, reports := r :: s.reports }
    | some r, none => { s with hand := none, reports := r :: s.reports }
    | none, _ => s
  | .check => match s.cache with
    | some c => { s with found := c.isEmpty }
    | none => s
  | .drop => if s.found then { s with cache := none, found := false } else s

/-- A query answered while the scanner times it out is reported twice. -/
theorem udp_query_reported_twice : (([.request q1, .request q2, .look 7, .response 7 a1, .delete] : List Act).foldl act {}).reports = [q1, q1] := by
  decide

/-- A query sent while the scanner drops the empty cache of its socket is lost: not stored, not reported. -/
theorem udp_query_lost_in_race :
    (([.request q1, .look 7, .delete, .check, .request q2, .drop] : List Act).foldl act {}).cache = none ∧
    (([.request q1, .look 7, .delete, .check, .request q2, .drop] : List Act).foldl act {}).reports = [q1] := by
  decide

end Kindling.Net.Udp.Conc
