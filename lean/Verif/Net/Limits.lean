import Verif.Net.ConcSeq
import Verif.Net.UdpProps
/-
What the time limits and the times of an exchange are in numbers: the defaults of the configuration, the
limit between two connect events, the times and sizes of exchanges that lack a side.
-/
namespace Kindling.Net.Limits
open Kindling Kindling.Net

/-- Whole seconds of a time in nanoseconds (`/ 1e9` on int64). -/
def seconds (ns : Int) : Int := ns.tdiv 1000000000

/-- Go's `int64(x)`: the value congruent to `x` modulo 2^64 that fits into 64 bits with sign. -/
theorem toI64_spec (u : UInt64) : (2 ^ 64 ∣ (u.toNat : Int) - toI64 u) ∧ -(2 ^ 63) ≤ toI64 u ∧ toI64 u < 2 ^ 63 := by
  have := u.toNat_lt
  unfold toI64
  split
  · refine ⟨⟨0, by omega⟩, by omega, by omega⟩
  · refine ⟨⟨1, by omega⟩, by omega, by omega⟩

/-- C11: with nothing configured a scan flushes an answered exchange 15 seconds after its last event, and any
exchange after 120 seconds. -/
theorem default_flush (cfg : Cfg) (hf : cfg.fdReuseTimeout ≤ 0) (hn : cfg.noResponseThreshold ≤ 0) (now : Int) (p : Pairs) :
    due cfg now p = true ↔ lastActivity p ≠ 0 ∧
      ((p.responses.isSome = true ∧ seconds now - seconds (toI64 (lastActivity p)) ≥ 15) ∨
        seconds now - seconds (toI64 (lastActivity p)) ≥ 120) := by
  have hl : p.timeoutTs = lastActivity p := by
    unfold Pairs.timeoutTs lastActivity
    cases p.responses <;> cases p.requests <;> cases p.connects <;> rfl
  have h1 : cfg.getFdReuseTimeout = 15 := by unfold Cfg.getFdReuseTimeout orDefault; rw [if_neg (by omega)]
  have h2 : cfg.getNoResponseThreshold = 120 := by unfold Cfg.getNoResponseThreshold orDefault; rw [if_neg (by omega)]
  simp only [due, h1, h2, hl, seconds]
  simp

/-- C11: a configured limit is used as it is. -/
theorem configured_flush (cfg : Cfg) (hf : 0 < cfg.fdReuseTimeout) (hn : 0 < cfg.noResponseThreshold) (now : Int) (p : Pairs) :
    due cfg now p = true ↔ lastActivity p ≠ 0 ∧
      ((p.responses.isSome = true ∧ seconds now - seconds (toI64 (lastActivity p)) ≥ cfg.fdReuseTimeout) ∨
        seconds now - seconds (toI64 (lastActivity p)) ≥ cfg.noResponseThreshold) := by
  have hl : p.timeoutTs = lastActivity p := by
    unfold Pairs.timeoutTs lastActivity
    cases p.responses <;> cases p.requests <;> cases p.connects <;> rfl
  have h1 : cfg.getFdReuseTimeout = cfg.fdReuseTimeout := by unfold Cfg.getFdReuseTimeout orDefault; rw [if_pos hf]
  have h2 : cfg.getNoResponseThreshold = cfg.noResponseThreshold := by
    unfold Cfg.getNoResponseThreshold orDefault; rw [if_pos hn]
  simp only [due, h1, h2, hl, seconds]
  simp

/-- C13: a DNS query over UDP is given up 120 seconds after it was sent, or after the configured time. -/
theorem udp_given_up (cfg : Cfg) (now : Int) (r : Udp.UReq) :
    Udp.expired cfg now r = true ↔
      seconds now - seconds (toI64 r.ev.ts) ≥ if 0 < cfg.noResponseThreshold then cfg.noResponseThreshold else 120 := by
  unfold Udp.expired Cfg.getNoResponseThreshold orDefault seconds
  rw [decide_eq_true_eq]

/-- How many seconds may lie between the connect events of one attempt. -/
def connectSeconds (cfg : Cfg) : Nat := if 0 < cfg.connectTimeout then cfg.connectTimeout.toNat else 1

/-- C06: two connect events of a socket belong to different attempts exactly if the second one is later than
the start of the first by more than the limit or comes from another port; an event from before the start
belongs to the same attempt. -/
theorem connect_split (cfg : Cfg) (c : Events) (e : Evt) (hl : c.event.latency ≤ c.event.ts)
    (hc : connectSeconds cfg * 1000000000 < 2 ^ 64) :
    c.isTimeout e cfg.getConnectTimeout.toNat = true ↔
      c.event.ts.toNat - c.event.latency.toNat ≤ e.ts.toNat ∧
      (e.ts.toNat - (c.event.ts.toNat - c.event.latency.toNat) > connectSeconds cfg * 1000000000 ∨ e.sport ≠ c.event.sport) := by
  have hlim : cfg.getConnectTimeout.toNat = connectSeconds cfg := by
    unfold Cfg.getConnectTimeout orDefault connectSeconds; split <;> rfl
  rw [hlim]
  have hstart : (c.event.ts - c.event.latency).toNat = c.event.ts.toNat - c.event.latency.toNat :=
    UInt64.toNat_sub_of_le _ _ hl
  have hn : (UInt64.ofNat (connectSeconds cfg) * 1000000000).toNat = connectSeconds cfg * 1000000000 := by
    rw [UInt64.toNat_mul, UInt64.toNat_ofNat']
    have : connectSeconds cfg < 2 ^ 64 := by omega
    rw [Nat.mod_eq_of_lt this]
    exact Nat.mod_eq_of_lt hc
  unfold Events.isTimeout
  simp only
  split
  · rename_i h
    rw [UInt64.lt_iff_toNat_lt, hstart] at h
    simp; omega
  · rename_i h
    rw [UInt64.lt_iff_toNat_lt, hstart] at h
    have hd : (e.ts - (c.event.ts - c.event.latency)).toNat = e.ts.toNat - (c.event.ts.toNat - c.event.latency.toNat) := by
      rw [UInt64.toNat_sub_of_le _ _ (by rw [UInt64.le_iff_toNat_le, hstart]; omega), hstart]
    simp only [Bool.or_eq_true, decide_eq_true_eq, bne_iff_ne, GT.gt, UInt64.lt_iff_toNat_lt, hn, hd]
    constructor
    · intro h'; exact ⟨by omega, h'⟩
    · exact fun h' => h'.2

example : connectSeconds { connectTimeout := 0 } = 1 ∧ connectSeconds {} = 100 := by decide

/-- C06: what becomes of a connect event: a new exchange if the socket has none; if the exchange of the socket has
nothing but a connect of the same attempt, the event takes the place of that connect; otherwise that
exchange is reported and the event starts a new one. -/
theorem connect_event (cfg : Cfg) (st : Mon) (e : Evt) (h : ∀ p, AMap.get st.map (keyOf e) = some p → p.connects.isSome ∨ p.requests.isSome) :
    ∃ st' out, analyseConnect cfg Conc.noContinue st e = some (st', out) ∧
      match AMap.get st.map (keyOf e) with
      | none => out = [] ∧ AMap.get st'.map (keyOf e) =
          some { connects := some (newEvents e cfg.snaplen), requests := none, responses := none, maxLen := cfg.snaplen }
      | some p => if p.requests = none ∧ ∀ c, p.connects = some c → c.isTimeout e cfg.getConnectTimeout.toNat = false then
            out = [] ∧ AMap.get st'.map (keyOf e) = some { p with connects := some { event := e, mergable := none, maxLen := p.maxLen } }
          else out = [.report p] ∧ AMap.get st'.map (keyOf e) =
            some { connects := some (newEvents e cfg.snaplen), requests := none, responses := none, maxLen := cfg.snaplen } := by
  unfold analyseConnect
  simp only [show ({ connects := some (newEvents e cfg.snaplen), maxLen := cfg.snaplen } : Pairs).key = keyOf e from rfl]
  cases hg : AMap.get st.map (keyOf e) with
  | none => exact ⟨_, _, rfl, rfl, by simp⟩
  | some p =>
    have hn : Conc.nonEmpty p := h p hg
    have hrep : ∃ st' out, some (distribute Conc.noContinue st p (some { connects := some (newEvents e cfg.snaplen), maxLen := cfg.snaplen })) = some (st', out) ∧
        (out = [.report p] ∧ AMap.get st'.map (keyOf e) = some { connects := some (newEvents e cfg.snaplen), requests := none, responses := none, maxLen := cfg.snaplen }) := by
      rw [Conc.distribute_eq hn]
      exact ⟨_, _, rfl, rfl, AMap.get_set_self _ _ _⟩
    cases hr : p.requests with
    | some r =>
      obtain ⟨st', out, h1, h2⟩ := hrep
      refine ⟨st', out, ?_, ?_⟩
      · rw [← h1]; cases p.connects <;> simp [hr]
      · simp only [hr]; exact h2
    | none =>
      cases hc : p.connects with
      | none => simp [hr, hc, Conc.nonEmpty] at hn
      | some c =>
        by_cases ht : c.isTimeout e cfg.getConnectTimeout.toNat = true
        · obtain ⟨st', out, h1, h2⟩ := hrep
          refine ⟨st', out, ?_, ?_⟩
          · rw [← h1]; simp [hr, hc, ht]
          · simp only [hc, Option.some.injEq, forall_eq', ht]; simpa using h2
        · simp only [Bool.not_eq_true] at ht
          simp only [hr, hc, ht, Bool.false_eq_true, if_false, Pairs.mergeConnect, true_and, Option.some.injEq, forall_eq', if_true]
          exact ⟨_, _, rfl, rfl, AMap.get_set_self _ _ _⟩

/-- C09: an exchange without a response: no time to wait for, to download or in total, no bytes received. -/
theorem unanswered_times (p : Pairs) (h : p.responses = none) :
    p.waitingTime = some (-1) ∧ p.downloadTime = -1 ∧ p.duration = some 0 ∧ p.responseSize = 0 := by
  simp [Pairs.waitingTime, Pairs.downloadTime, Pairs.duration, Pairs.responseSize, h]

/-- C09: an exchange without a request: no time to send, no bytes sent. -/
theorem connect_only_times (p : Pairs) (h : p.requests = none) : p.sentTime = -1 ∧ p.requestSize = 0 := by
  simp [Pairs.sentTime, Pairs.requestSize, h]

/-- C09: an exchange without a connect event took no time to connect. -/
theorem no_connect_time (p : Pairs) (h : p.connects = none) : p.connectDuration = 0 := by
  simp [Pairs.connectDuration, h]

end Kindling.Net.Limits

namespace Kindling.Net.Udp.Conc
open Kindling Kindling.Net Kindling.Net.Udp

/-- C13, C14: queries and answers do to the cache of one socket what they do in the monitor of all sockets. -/
theorem act_agrees {κ : Type} [DecidableEq κ] (m : Mon κ) (k : κ) (s : S) (h : s.cache = AMap.get m k) :
    (∀ r, (act s (.request r)).cache = AMap.get (request m k r) k) ∧
    (∀ id e, (act s (.response id e)).cache = AMap.get (response m k id e).1 k ∧
      (act s (.response id e)).reports = (response m k id e).2.map (·.req) ++ s.reports) := by
  refine ⟨?_, ?_⟩
  · intro r
    simp only [act, request, h]
    cases AMap.get m k <;> simp
  · intro id e
    simp only [act, response, h]
    cases hc : AMap.get m k with
    | none => simp [h, hc]
    | some c =>
      simp only
      rcases hm : c.getMatchRequest id with ⟨c', r, size⟩
      simp only
      refine ⟨?_, ?_⟩
      · split <;> simp
      · cases r <;> simp

end Kindling.Net.Udp.Conc
