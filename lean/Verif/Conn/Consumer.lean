import Verif.Conn.Decode
/-
The netlink consumer: the circuit breaker, the receive loop, and the way from messages to lookups.
metadata/conntracker/internal/circuit_breaker.go, consumer.go, message.go, conntracker.go.
-/
namespace Kindling.Conn.Consumer

open Kindling.Conn.Lookup Kindling.Conn.Decode

/-! ### Circuit breaker -/

/-- `CircuitBreaker` (circuit_breaker.go:32-51). -/
structure Br where
  count : Nat
  rate : Nat
  isOpen : Bool
  last : Int
deriving DecidableEq

/-- `NewCircuitBreaker` (circuit_breaker.go:57-60): -1 stands for no limit. -/
def limitOf (m : Int) : Int := if m = -1 then 9223372036854775807 else m

def second : Int := 1000000000

/-- The time since the last update, at least one second (circuit_breaker.go:118-125), in nanoseconds. -/
def delta (s : Br) (now : Int) : Nat := (max second (now - s.last)).toNat

/-- The new rate (circuit_breaker.go:127-138).  Computed with exact fractions where the code computes with float64. -/
def newRate (s : Br) (now : Int) : Nat :=
  if s.rate = 0 then s.count * 1000000000 / delta s now
  else (s.count * 1000000000 + 4 * s.rate * delta s now) / (5 * delta s now)

/-- `update` (circuit_breaker.go:113-151). -/
def update (limit : Int) (s : Br) (now : Int) : Br :=
  if s.isOpen then s
  else { count := 0, rate := newRate s now, isOpen := decide ((newRate s now : Int) > limit), last := now }

/-- `Reset` (circuit_breaker.go:99-105). -/
def reset (now : Int) : Br := ⟨0, 0, false, now⟩

/-- `Tick` (circuit_breaker.go:89-92). -/
def tick (s : Br) (n : Nat) : Br := { s with count := s.count + n }

inductive Op
  | tick (n : Nat)
  | update (now : Int)
  | reset (now : Int)

def Op.isReset : Op → Prop
  | .reset _ => True
  | _ => False

def step (limit : Int) (s : Br) : Op → Br
  | .tick n => tick s n
  | .update now => update limit s now
  | .reset now => reset now

def run (limit : Int) : Br → List Op → Br
  | s, [] => s
  | s, o :: os => run limit (step limit s o) os

/-- C80.  An open breaker stays open until it is reset. -/
theorem stays_open (limit : Int) (s : Br) (os : List Op) (h : s.isOpen = true) (hr : ∀ o ∈ os, ¬ o.isReset) :
    (run limit s os).isOpen = true := by
  induction os generalizing s with
  | nil => exact h
  | cons o os ih =>
    refine ih _ ?_ (fun x hx => hr x (List.mem_cons_of_mem _ hx))
    cases o with
    | tick n => exact h
    | update now => simp only [step, update, h, if_true]
    | reset now => exact absurd trivial (hr (.reset now) (by simp))

/-- Only updates open it, and a reset closes it. -/
theorem opened_by_update (limit : Int) (s : Br) (o : Op) (h : s.isOpen = false) (ho : (step limit s o).isOpen = true) :
    ∃ now, o = .update now ∧ (newRate s now : Int) > limit := by
  cases o with
  | tick n => simp only [step, tick, h] at ho; cases ho
  | update now =>
    refine ⟨now, rfl, ?_⟩
    simp only [step, update, h, Bool.false_eq_true, if_false] at ho
    exact of_decide_eq_true ho
  | reset now => simp only [step, reset] at ho; cases ho

def ticks : List Nat → List Op := List.map Op.tick

theorem run_append (limit : Int) (s : Br) (a b : List Op) : run limit s (a ++ b) = run limit (run limit s a) b := by
  induction a generalizing s with
  | nil => rfl
  | cons o r ih => exact ih _

theorem run_ticks (limit : Int) (s : Br) (ns : List Nat) : run limit s (ticks ns) = { s with count := s.count + ns.sum } := by
  induction ns generalizing s with
  | nil => rfl
  | cons n r ih =>
    have e : run limit s (ticks (n :: r)) = run limit (tick s n) (ticks r) := rfl
    rw [e, ih]
    simp only [tick, List.sum_cons, Nat.add_assoc]

theorem delta_pos (s : Br) (now : Int) : 1000000000 ≤ delta s now := by
  unfold delta second; omega

/-- The first interval after a reset is judged by its own rate: the breaker opens iff more than `limit` events per second
(rounded down) came, over an interval of at least one second. -/
theorem first_interval (limit : Nat) (t0 now : Int) (ns : List Nat) :
    (run limit (reset t0) (ticks ns ++ [.update now])).isOpen = true ↔
      (limit + 1) * (max second (now - t0)).toNat ≤ ns.sum * 1000000000 := by
  rw [run_append, run_ticks]
  simp only [run, step, update, reset, Bool.false_eq_true, if_false, decide_eq_true_eq, newRate, if_true, Nat.zero_add]
  have hd : delta ⟨ns.sum, 0, false, t0⟩ now = (max second (now - t0)).toNat := rfl
  rw [hd]
  have hp : 0 < (max second (now - t0)).toNat := by unfold second; omega
  rw [← Nat.le_div_iff_mul_le hp]
  omega

/-- One interval of a history: events, then an update. -/
abbrev Window := List Nat × Int
def windows : List Window → List Op
  | [] => []
  | (ns, now) :: ws => ticks ns ++ .update now :: windows ws

/-- Spec: every interval has at most `limit` events per second. -/
def Calm (limit : Nat) : Int → List Window → Prop
  | _, [] => True
  | t, (ns, now) :: ws => ns.sum * 1000000000 ≤ limit * (max second (now - t)).toNat ∧ Calm limit now ws

/-- Every interval has at least `c` events per second. -/
def Busy (c : Nat) : Int → List Window → Prop
  | _, [] => True
  | t, (ns, now) :: ws => c * (max second (now - t)).toNat ≤ ns.sum * 1000000000 ∧ Busy c now ws

theorem step_window (limit : Int) (s : Br) (ns : List Nat) (now : Int) (ho : s.isOpen = false) (hc : s.count = 0) :
    run limit s (ticks ns ++ [.update now]) =
      ⟨0, newRate { s with count := ns.sum } now, decide ((newRate { s with count := ns.sum } now : Int) > limit), now⟩ := by
  rw [run_append, run_ticks, hc, Nat.zero_add]
  simp only [run, step, update, ho, Bool.false_eq_true, if_false]

theorem windows_cons (limit : Int) (s : Br) (ns : List Nat) (now : Int) (ws : List Window) :
    run limit s (windows ((ns, now) :: ws)) = run limit (run limit s (ticks ns ++ [.update now])) (windows ws) := by
  rw [← run_append]
  simp only [windows, List.append_assoc, List.singleton_append]

/-- A load that stays within the limit never opens the breaker. -/
theorem calm_stays_closed (limit : Nat) (s : Br) (ws : List Window) (ho : s.isOpen = false) (hc : s.count = 0) (hr : s.rate ≤ limit)
    (h : Calm limit s.last ws) : (run limit s (windows ws)).isOpen = false := by
  induction ws generalizing s with
  | nil => exact ho
  | cons w ws ih =>
    obtain ⟨ns, now⟩ := w
    rw [windows_cons, step_window _ _ _ _ ho hc]
    have hle : newRate { s with count := ns.sum } now ≤ limit := by
      have hp := delta_pos { s with count := ns.sum } now
      have h1 : ns.sum * 1000000000 ≤ limit * delta { s with count := ns.sum } now := h.1
      unfold newRate
      simp only
      generalize delta { s with count := ns.sum } now = d at *
      generalize ns.sum * 1000000000 = c at *
      have h2 : s.rate * d ≤ limit * d := Nat.mul_le_mul_right _ hr
      split
      · exact Nat.div_le_of_le_mul (by rw [Nat.mul_comm d]; exact h1)
      · refine Nat.div_le_of_le_mul ?_
        rw [Nat.mul_assoc, Nat.mul_assoc, Nat.mul_comm d]
        omega
    refine ih _ ?_ rfl hle h.2
    simp only [decide_eq_false_iff_not]
    omega

/-- A load of at least five events per second above the limit opens it, after at most `limit + 2` updates. -/
theorem busy_opens_partial (limit : Nat) (s : Br) (ws : List Window) (hc : s.count = 0)
    (h : Busy (limit + 5) s.last ws) (hlen : limit + 1 < ws.length + s.rate) (hr : s.isOpen = true ∨ s.rate ≤ limit) :
    (run limit s (windows ws)).isOpen = true := by
  have hw : ∀ ws o, o ∈ windows ws → ¬ o.isReset := by
    intro ws
    induction ws with
    | nil => simp [windows]
    | cons w ws ih =>
      intro o ho
      obtain ⟨ns, now⟩ := w
      simp only [windows, List.mem_append, List.mem_cons, ticks, List.mem_map] at ho
      rcases ho with ⟨n, _, rfl⟩ | rfl | ho
      · exact fun h => h
      · exact fun h => h
      · exact ih o ho
  induction ws generalizing s with
  | nil =>
    rcases hr with hr | hr
    · exact hr
    · simp only [List.length_nil] at hlen; omega
  | cons w ws ih =>
    obtain ⟨ns, now⟩ := w
    cases ho : s.isOpen with
    | true => exact stays_open _ _ _ ho (hw _)
    | false =>
      rw [ho] at hr
      have hr : s.rate ≤ limit := by simpa using hr
      rw [windows_cons, step_window _ _ _ _ ho hc]
      have hge : s.rate + 1 ≤ newRate { s with count := ns.sum } now := by
        have hp := delta_pos { s with count := ns.sum } now
        have h1 : (limit + 5) * delta { s with count := ns.sum } now ≤ ns.sum * 1000000000 := h.1
        unfold newRate
        simp only
        generalize delta { s with count := ns.sum } now = d at *
        generalize ns.sum * 1000000000 = c at *
        have h2 : s.rate * d ≤ limit * d := Nat.mul_le_mul_right _ hr
        rw [Nat.add_mul] at h1
        split
        · rename_i hz
          rw [Nat.le_div_iff_mul_le (by omega), hz]
          omega
        · rw [Nat.le_div_iff_mul_le (by omega), Nat.add_mul, Nat.mul_left_comm, Nat.mul_assoc]
          omega
      by_cases hop : (newRate { s with count := ns.sum } now : Int) > (limit : Int)
      · refine stays_open _ _ _ ?_ (hw _)
        simp only [decide_eq_true_eq]
        exact hop
      · refine ih _ rfl h.2 ?_ (Or.inr ?_)
        · simp only [List.length_cons] at hlen ⊢
          omega
        · simp only
          omega

/-- Finding: the rate is rounded down, so a breaker whose rate is at the limit never opens under a load of up to four
events per second above it, however long it lasts. -/
theorem slight_overload_never_opens (limit : Nat) (hl : 0 < limit) (n : Nat) (t : Int) :
    let ws := (List.range n).map (fun (i : Nat) => (([limit + 4] : List Nat), t + ((i : Int) + 1) * second))
    Busy (limit + 4) t ws ∧ (run limit ⟨0, limit, false, t⟩ (windows ws)).isOpen = false := by
  have key : ∀ (n : Nat) (t : Int), (run limit ⟨0, limit, false, t⟩
      (windows ((List.range n).map (fun (i : Nat) => (([limit + 4] : List Nat), t + ((i : Int) + 1) * second))))) = ⟨0, limit, false, t + n * second⟩ ∧
      Busy (limit + 4) t ((List.range n).map (fun (i : Nat) => (([limit + 4] : List Nat), t + ((i : Int) + 1) * second))) := by
    intro n
    induction n with
    | zero => intro t; exact ⟨by simp [windows, run], trivial⟩
    | succ n ih =>
      intro t
      have e : (List.range (n + 1)).map (fun (i : Nat) => (([limit + 4] : List Nat), t + ((i : Int) + 1) * second)) =
          ([limit + 4], t + second) :: (List.range n).map (fun (i : Nat) => (([limit + 4] : List Nat), (t + second) + ((i : Int) + 1) * second)) := by
        rw [List.range_succ_eq_map, List.map_cons, List.map_map]
        have hf : ((fun (i : Nat) => (([limit + 4] : List Nat), t + ((i : Int) + 1) * second)) ∘ Nat.succ) =
            (fun (i : Nat) => (([limit + 4] : List Nat), (t + second) + ((i : Int) + 1) * second)) := by
          funext i
          simp only [Function.comp, Nat.succ_eq_add_one, Int.natCast_add, second, Prod.mk.injEq, true_and]
          omega
        have h0 : t + (((0 : Nat) : Int) + 1) * second = t + second := by unfold second; omega
        rw [hf, h0]
      have hmax : (max second ((t + second) - t)).toNat = 1000000000 := by unfold second; omega
      have hd : delta ⟨[limit + 4].sum, limit, false, t⟩ (t + second) = 1000000000 := hmax
      have hn : newRate ⟨[limit + 4].sum, limit, false, t⟩ (t + second) = limit := by
        unfold newRate
        rw [hd]
        rw [if_neg (show ¬ limit = 0 by omega)]
        show ((limit + 4 + 0) * 1000000000 + 4 * limit * 1000000000) / (5 * 1000000000) = limit
        omega
      rw [e]
      refine ⟨?_, ?_, (ih (t + second)).2⟩
      · rw [windows_cons, step_window _ _ _ _ rfl rfl]
        simp only [hn]
        have hdec : decide ((limit : Int) > (limit : Int)) = false := by simp
        rw [hdec, (ih (t + second)).1]
        congr 1
        unfold second
        omega
      · rw [hmax]
        exact Nat.le_refl _
  intro ws
  exact ⟨(key n t).2, by rw [(key n t).1]⟩

/-! ### Sampling -/

/-- The sampling rate after a trip (consumer.go:488), in exact fractions: `num / den` of the messages. -/
structure Rate where
  num : Nat
  den : Nat
def Rate.lt (a b : Rate) : Prop := a.num * b.den < b.num * a.den
def resample (limit rate : Nat) (r : Rate) : Rate := ⟨limit * r.num * 95, rate * r.den * 100⟩

/-- After every trip the rate is strictly lower; nothing in the code raises it again. -/
theorem resample_lower (limit rate : Nat) (r : Rate) (h : limit < rate) (hn : 0 < r.num) (hd : 0 < r.den) : (resample limit rate r).lt r := by
  unfold Rate.lt resample
  simp only
  have h1 : limit * (r.num * r.den) ≤ rate * (r.num * r.den) := Nat.mul_le_mul_right _ (by omega)
  have h2 : 0 < r.num * r.den := Nat.mul_pos hn hd
  have h3 : 0 < rate * (r.num * r.den) := Nat.mul_pos (by omega) h2
  have e1 : limit * r.num * 95 * r.den = 95 * (limit * (r.num * r.den)) := by
    rw [Nat.mul_right_comm, Nat.mul_comm 95, Nat.mul_assoc limit]
  have e2 : r.num * (rate * r.den * 100) = 100 * (rate * (r.num * r.den)) := by
    rw [Nat.mul_comm 100, ← Nat.mul_assoc, Nat.mul_left_comm]
  omega

/-! ### The filter of the socket -/

/-- The instructions of the filter (golang.org/x/net/bpf): load a random 32-bit number, compare and skip, return. -/
inductive Insn
  | rand
  | jumpLess (val skipTrue skipFalse : Nat)
  | ret (n : Nat)
deriving DecidableEq

/-- The kernel's interpreter, for these instructions: the number of bytes taken of a message; `none` if the program runs out. -/
def exec (rnd : Nat) : List Insn → Nat → Option Nat
  | [], _ => none
  | .rand :: p, _ => exec rnd p rnd
  | .jumpLess v t f :: p, a => exec rnd (p.drop (if a < v then t else f)) a
  | .ret n :: _, _ => some n
termination_by p => p.length
decreasing_by all_goals simp only [List.length_cons, List.length_drop]; omega

/-- bpf_sampler.go:20-40 `GenerateBPFSampler`; a rate above 1 is refused.  Exact fractions for float64; the conversion to 32 bits
is taken modulo 2^32 (it is only out of range for the rate 1, which initNetlinkSocket never passes). -/
def generate (r : Rate) : Option (List Insn) :=
  if r.den < r.num then none
  else some [.rand, .jumpLess (4294967296 * r.num / r.den % 4294967296) 0 1, .ret 4096, .ret 0]

/-- consumer.go:368-383 (end of `initNetlinkSocket`): what the new socket does with a message for which the kernel draws the number
`rnd`; no filter from the rate 1 on, and a nil program if the generator failed (its error is dropped). -/
def passes (r : Rate) (rnd : Nat) : Option Bool :=
  if r.den ≤ r.num then some true
  else (exec rnd ((generate r).getD []) 0).map (fun n => decide (0 < n))

/-- The consumer while it streams: its breaker and the rate of its socket (consumer.go:460-495 `throttle`). -/
structure Stream where
  br : Br
  rate : Rate
  trips : Nat

inductive StreamOp
  | read (n : Nat) (now : Int)
  | update (now : Int)

/-- consumer.go:460-495 `throttle` on every read (the kernel is at least 3.15 and the socket can be made again), and the updates of
the breaker; one atomic step each. -/
def Stream.step (limit : Nat) (s : Stream) : StreamOp → Stream
  | .update now => { s with br := Consumer.update limit s.br now }
  | .read n now =>
    let br := tick s.br n
    if br.isOpen then ⟨reset now, resample limit br.rate s.rate, s.trips + 1⟩ else { s with br := br }

def Stream.run (limit : Nat) : Stream → List StreamOp → Stream
  | s, [] => s
  | s, o :: os => Stream.run limit (s.step limit o) os

/-- `Events` (consumer.go:143-160): rate 1. -/
def Stream.init (now : Int) : Stream := ⟨reset now, ⟨1, 1⟩, 0⟩

/-- `a / b ≤ (95/100) ^ n`, with a positive denominator. -/
def Rate.Below (r : Rate) (n : Nat) : Prop := 0 < r.den ∧ r.num * 100 ^ n ≤ r.den * 95 ^ n

structure Stream.Ok (limit : Nat) (s : Stream) : Prop where
  opened : s.br.isOpen = true → limit < s.br.rate
  below : s.rate.Below s.trips

theorem resample_below (limit rate : Nat) (r : Rate) (n : Nat) (h : limit < rate) (hb : r.Below n) : (resample limit rate r).Below (n + 1) := by
  obtain ⟨hd, hb⟩ := hb
  refine ⟨Nat.mul_pos (Nat.mul_pos (by omega) hd) (by omega), ?_⟩
  show limit * r.num * 95 * 100 ^ (n + 1) ≤ rate * r.den * 100 * 95 ^ (n + 1)
  have e1 : limit * r.num * 95 * 100 ^ (n + 1) = 9500 * (limit * r.num * 100 ^ n) := by
    rw [Nat.pow_succ, Nat.mul_assoc (limit * r.num), Nat.mul_comm 95, Nat.mul_assoc (100 ^ n), ← Nat.mul_assoc (limit * r.num)]
    exact Nat.mul_comm _ _
  have e2 : rate * r.den * 100 * 95 ^ (n + 1) = 9500 * (rate * r.den * 95 ^ n) := by
    rw [Nat.pow_succ, Nat.mul_assoc (rate * r.den), Nat.mul_comm 100, Nat.mul_assoc (95 ^ n), ← Nat.mul_assoc (rate * r.den)]
    exact Nat.mul_comm _ _
  rw [e1, e2, Nat.mul_assoc limit, Nat.mul_assoc rate]
  exact Nat.mul_le_mul_left _ (Nat.mul_le_mul (by omega) hb)

theorem stream_step_ok (limit : Nat) (s : Stream) (o : StreamOp) (h : s.Ok limit) : (s.step limit o).Ok limit := by
  cases o with
  | update now =>
    refine ⟨fun ho => ?_, h.below⟩
    cases hc : s.br.isOpen with
    | true =>
      have e : Consumer.update limit s.br now = s.br := by unfold update; rw [if_pos hc]
      show limit < (Consumer.update limit s.br now).rate
      rw [e]
      exact h.opened hc
    | false =>
      have e : Consumer.update limit s.br now = ⟨0, newRate s.br now, decide ((newRate s.br now : Int) > limit), now⟩ := by
        unfold update; rw [if_neg (by simp [hc])]
      have ho' : (Consumer.update limit s.br now).isOpen = true := ho
      show limit < (Consumer.update limit s.br now).rate
      rw [e] at ho' ⊢
      have := of_decide_eq_true ho'
      show limit < newRate s.br now
      omega
  | read n now =>
    unfold Stream.step
    simp only
    split
    · rename_i ho
      exact ⟨(fun hf => by cases hf), resample_below _ _ _ _ (h.opened ho) h.below⟩
    · rename_i ho
      exact ⟨fun hf => absurd hf ho, h.below⟩

theorem stream_run_ok (limit : Nat) (os : List StreamOp) : ∀ s : Stream, s.Ok limit → (Stream.run limit s os).Ok limit := by
  induction os with
  | nil => exact fun s h => h
  | cons o os ih => exact fun s h => ih _ (stream_step_ok limit s o h)

theorem stream_init_ok (limit : Nat) (now : Int) : (Stream.init now).Ok limit := ⟨(fun h => by cases h), (by decide : 0 < 1), (by decide : 1 * 100 ^ 0 ≤ 1 * 95 ^ 0)⟩

/-- C80: whatever was read and whenever the rates were updated, after `n` trips of the breaker the socket lets at most the share
`0.95 ^ n` of the messages pass, and the filter is always a valid program. -/
theorem share_after_trips (limit : Nat) (now : Int) (os : List StreamOp) :
    let s := Stream.run limit (Stream.init now) os
    0 < s.rate.den ∧ s.rate.num * 100 ^ s.trips ≤ s.rate.den * 95 ^ s.trips ∧ ∀ rnd, (passes s.rate rnd).isSome = true := by
  have h := stream_run_ok limit os _ (stream_init_ok limit now)
  refine ⟨h.below.1, h.below.2, fun rnd => ?_⟩
  unfold passes
  split
  · rfl
  · rename_i hlt
    rw [show generate (Stream.run limit (Stream.init now) os).rate = some _ from if_neg (by omega)]
    simp only [Option.getD_some, exec]
    split <;> simp [exec]

/-- C80: the filter passes the messages whose random number is below the share of all 32-bit numbers. -/
theorem passes_iff (r : Rate) (hd : 0 < r.den) (h : r.num < r.den) (rnd : Nat) : passes r rnd = some (decide (rnd < 4294967296 * r.num / r.den)) := by
  unfold passes
  rw [if_neg (by omega), show generate r = some _ from if_neg (by omega)]
  have hlt : 4294967296 * r.num / r.den < 4294967296 := by
    rw [Nat.div_lt_iff_lt_mul hd]
    exact Nat.mul_lt_mul_of_pos_left h (by omega)
  rw [Nat.mod_eq_of_lt hlt]
  generalize 4294967296 * r.num / r.den = c
  simp only [Option.getD_some, exec]
  by_cases hc : rnd < c
  · simp [hc, exec]
  · simp [hc, exec]

theorem countP_lt (c n : Nat) : (List.range n).countP (fun i => decide (i < c)) = min c n := by
  induction n with
  | zero => simp
  | succ n ih =>
    rw [List.range_succ, List.countP_append, ih, List.countP_cons, List.countP_nil]
    by_cases h : n < c
    · rw [decide_eq_true h]; simp only [if_true]; omega
    · rw [decide_eq_false h]; simp only [Bool.false_eq_true, if_false]; omega

/-- C80: of all 32-bit numbers, exactly the share `num / den` (rounded down to a whole number of them) lets a message pass. -/
theorem passed_share (r : Rate) (hd : 0 < r.den) (n : Nat) (hn : n = 4294967296) :
    (List.range n).countP (fun rnd => passes r rnd = some true) = min (n * r.num / r.den) n := by
  subst hn
  by_cases h : r.num < r.den
  · rw [← countP_lt]
    refine List.countP_congr (fun x _ => ?_)
    rw [passes_iff r hd h]
    simp
  · have hall : ∀ rnd, passes r rnd = some true := fun rnd => if_pos (by omega)
    have hge : 4294967296 ≤ 4294967296 * r.num / r.den := by
      rw [Nat.le_div_iff_mul_le hd]
      exact Nat.mul_le_mul_left _ (by omega)
    rw [Nat.min_eq_right hge, List.countP_eq_length.2 (fun x _ => by simp [hall])]
    exact List.length_range

/-- C80, disagreement: the share is never raised again.  After 433 trips, over whatever time, the socket passes no message at all. -/
theorem worn_out (limit : Nat) (now : Int) (os : List StreamOp) (h : 433 ≤ (Stream.run limit (Stream.init now) os).trips) (rnd : Nat) :
    passes (Stream.run limit (Stream.init now) os).rate rnd = some false := by
  have hb := (stream_run_ok limit os _ (stream_init_ok limit now)).below
  generalize Stream.run limit (Stream.init now) os = s at h hb
  obtain ⟨hd, hb⟩ := hb
  obtain ⟨k, hk⟩ : ∃ k, s.trips = 433 + k := ⟨s.trips - 433, by omega⟩
  rw [hk, Nat.pow_add, Nat.pow_add] at hb
  have hp : 0 < 100 ^ k := Nat.pow_pos (by omega)
  have hle : (95 : Nat) ^ k ≤ 100 ^ k := Nat.pow_le_pow_left (by omega) _
  have hb' : s.rate.num * 100 ^ 433 * 100 ^ k ≤ s.rate.den * 95 ^ 433 * 100 ^ k := by
    refine Nat.le_trans (Nat.le_of_eq (Nat.mul_assoc _ _ _)) (Nat.le_trans hb ?_)
    rw [← Nat.mul_assoc]
    exact Nat.mul_le_mul_left _ hle
  have hb2 : s.rate.num * 100 ^ 433 ≤ s.rate.den * 95 ^ 433 := Nat.le_of_mul_le_mul_right hb' hp
  have hnum : 4294967296 * 95 ^ 433 < 100 ^ 433 := by
    set_option exponentiation.threshold 500 in decide +kernel
  have hlt : 4294967296 * s.rate.num < s.rate.den := by
    refine Nat.lt_of_mul_lt_mul_right (a := 100 ^ 433) ?_
    calc 4294967296 * s.rate.num * 100 ^ 433 = 4294967296 * (s.rate.num * 100 ^ 433) := Nat.mul_assoc _ _ _
      _ ≤ 4294967296 * (s.rate.den * 95 ^ 433) := Nat.mul_le_mul_left _ hb2
      _ = s.rate.den * (4294967296 * 95 ^ 433) := Nat.mul_left_comm _ _ _
      _ < s.rate.den * 100 ^ 433 := Nat.mul_lt_mul_of_pos_left hnum hd
  rw [passes_iff _ hd (by omega), Nat.div_eq_of_lt hlt]
  simp

/-- The trips come about: a load above the limit after every one of them. -/
theorem trips_happen (limit n : Nat) : ∀ s : Stream, s.br = reset 0 →
    (Stream.run limit s (List.replicate n [StreamOp.read (limit + 1) 0, .update 1000000000, .read 0 0]).flatten).trips = s.trips + n := by
  induction n with
  | zero => exact fun s _ => rfl
  | succ n ih =>
    intro s hs
    obtain ⟨br, rate, trips⟩ := s
    simp only at hs
    subst hs
    rw [List.replicate_succ, List.flatten_cons]
    have e1 : newRate (tick (reset 0) (limit + 1)) 1000000000 = limit + 1 := by
      simp only [newRate, tick, reset, delta, second, if_true]
      rw [show (max (1000000000 : Int) (1000000000 - 0)).toNat = 1000000000 from by decide]
      omega
    have e2 : Consumer.update limit (tick (reset 0) (limit + 1)) 1000000000 = ⟨0, limit + 1, true, 1000000000⟩ := by
      unfold update
      rw [if_neg (show ¬ (tick (reset 0) (limit + 1)).isOpen = true from fun h => by cases h), e1, decide_eq_true (by omega)]
    have e3 : Stream.run limit ⟨reset 0, rate, trips⟩ ([StreamOp.read (limit + 1) 0, .update 1000000000, .read 0 0] ++
        (List.replicate n [StreamOp.read (limit + 1) 0, .update 1000000000, .read 0 0]).flatten) =
        Stream.run limit ⟨reset 0, resample limit (limit + 1) rate, trips + 1⟩
          (List.replicate n [StreamOp.read (limit + 1) 0, .update 1000000000, .read 0 0]).flatten := by
      show Stream.run limit (Stream.step limit ⟨Consumer.update limit (tick (reset 0) (limit + 1)) 1000000000, rate, trips⟩ (.read 0 0)) _ = _
      rw [e2]
      rfl
    rw [e3, ih _ rfl]
    simp only
    omega

example : 433 ≤ (Stream.run 500 (Stream.init 0) (List.replicate 433 [StreamOp.read 501 0, .update 1000000000, .read 0 0]).flatten).trips := by
  rw [trips_happen 500 433 (Stream.init 0) rfl]; decide

/-- One trip at twice the limit: 47.5 per cent of the messages pass. -/
example : let s := Stream.run 500 (Stream.init 0) [.read 1000 1, .update 1000000000, .read 10 1000000001]
    s.trips = 1 ∧ (passes s.rate 2040109464 = some true) ∧ passes s.rate 2040109465 = some false := by
  simp [Stream.run, Stream.step, Stream.init, Consumer.update, reset, tick, newRate, delta, second, resample, passes, generate, exec]

/-! ### Receive loop -/

/-- The header type of a message: data, end of a dump, or error with its data. -/
inductive Msg
  | data (b : Bytes)
  | done (b : Bytes)
  | error (b : Bytes)
deriving DecidableEq

def Msg.bytes : Msg → Bytes
  | .data b => b
  | .done b => b
  | .error b => b

/-- `checkMessage` (message.go:19-47): fails for error messages that are short or carry a code other than 0. -/
def bad : Msg → Bool
  | .error b => decide (b.length < 4) || !decide (b.take 4 = [0, 0, 0, 0])
  | _ => false

def isDone : Msg → Bool
  | .done _ => true
  | _ => false

/-- The messages of one read that are handed on, and whether it ends a dump (consumer.go:419-440). -/
def batch (msgs : List Msg) : Option (List Msg × Bool) :=
  if msgs.any bad then none
  else match msgs.getLast? with
    | some (.done _) => some (msgs.dropLast, true)
    | _ => some (msgs, false)

/-- `receive` (consumer.go:396-448) over the reads of a socket: the events, and whether the loop has ended before the
reads ran out.  Read errors count as reads without messages; throttling of the stream is not part of this definition. -/
def receive (streaming : Bool) : List (List Msg) → List (List Msg) × Bool
  | [] => ([], false)
  | m :: ms => match batch m with
    | none => receive streaming ms
    | some (ev, fin) => if fin && !streaming then ([ev], true) else let r := receive streaming ms; (ev :: r.1, r.2)

/-- Without errors and end messages every message arrives, in order, as one event per read. -/
theorem all_received_partial (streaming : Bool) (ms : List (List Msg)) (h : ∀ m ∈ ms, ∀ x ∈ m, bad x = false ∧ isDone x = false) :
    receive streaming ms = (ms, false) := by
  induction ms with
  | nil => rfl
  | cons m r ih =>
    have hm := h m (by simp)
    have hb : batch m = some (m, false) := by
      unfold batch
      rw [if_neg]
      · split
        · rename_i b hl
          have := hm _ (List.mem_of_getLast? hl)
          simp [isDone] at this
        · rfl
      · rw [List.any_eq_true]
        rintro ⟨x, hx, hx'⟩
        rw [(hm x hx).1] at hx'
        cases hx'
    rw [receive, hb]
    simp only [Bool.false_and, Bool.false_eq_true, if_false, ih (fun x hx => h x (List.mem_cons_of_mem _ hx))]

/-- A dump ends at its end message, and everything before it arrives. -/
theorem dump_received (ms : List (List Msg)) (l : List Msg) (b : Bytes) (rest : List (List Msg))
    (h : ∀ m ∈ ms ++ [l], ∀ x ∈ m, bad x = false ∧ isDone x = false) :
    receive false (ms ++ (l ++ [.done b]) :: rest) = (ms ++ [l], true) := by
  induction ms with
  | nil =>
    have hl := h l (by simp)
    have hb : batch (l ++ [.done b]) = some (l, true) := by
      unfold batch
      rw [if_neg]
      · simp
      · rw [List.any_eq_true]
        rintro ⟨x, hx, hx'⟩
        rcases List.mem_append.1 hx with hx | hx
        · rw [(hl x hx).1] at hx'; cases hx'
        · rw [List.mem_singleton] at hx
          subst hx
          cases hx'
    rw [List.nil_append, receive, hb]
    rfl
  | cons m r ih =>
    have hm := h m (by simp)
    have hb : batch m = some (m, false) := by
      unfold batch
      rw [if_neg]
      · split
        · rename_i b hl
          have := hm _ (List.mem_of_getLast? hl)
          simp [isDone] at this
        · rfl
      · rw [List.any_eq_true]
        rintro ⟨x, hx, hx'⟩
        rw [(hm x hx).1] at hx'
        cases hx'
    rw [List.cons_append, receive, hb]
    simp only [Bool.false_and, Bool.false_eq_true, if_false, ih (fun x hx => h x (by
      rw [List.cons_append]; exact List.mem_cons_of_mem _ hx)), List.cons_append]

/-- Finding: "Messages with error codes are simply skipped", says the code, but all messages of the read are. -/
theorem error_drops_read (streaming : Bool) (a c : List Msg) (e : Msg) (he : bad e = true) (ms : List (List Msg)) :
    receive streaming ((a ++ e :: c) :: ms) = receive streaming ms := by
  have hb : batch (a ++ e :: c) = none := by
    unfold batch
    rw [if_pos]
    rw [List.any_eq_true]
    exact ⟨e, by simp, he⟩
  rw [receive, hb]

/-- Finding: so a dump whose last read contains an error does not end: the loop waits for further reads. -/
theorem dump_with_error_never_ends (a c : List Msg) (e : Msg) (he : bad e = true) (b : Bytes) :
    (receive false [a ++ e :: (c ++ [.done b])]).2 = false := by
  rw [error_drops_read _ _ _ _ he]
  rfl

/-! ### From messages to lookups -/

/-- The connections of one event, registered one after the other (conntracker.go:256-262, 232-240). -/
def registerAll (limit : Int) (timeout now : Nat) (orphan : Bool) : CSt → List Con → Option CSt
  | s, [] => some s
  | s, c :: cs => match register limit timeout now s c orphan with
    | none => none
    | some s' => registerAll limit timeout now orphan s' cs

/-- One event: decoding and registering. -/
def event (limit : Int) (timeout now : Nat) (orphan : Bool) (s : CSt) (msgs : List Bytes) : Option CSt := match decodeAll msgs with
  | none => none
  | some cs => registerAll limit timeout now orphan s cs

/-- A kernel message and what it says. -/
structure KMsg where
  fam : UInt8
  x : UInt8
  y : UInt8
  pre : List Attr
  o : Dir
  mid : List Attr
  r : Dir
  post : List Attr
  fo : Bool
  fr : Bool

def KMsg.bytes (m : KMsg) : Bytes := [m.fam, 0, m.x, m.y] ++ wire (message m.pre m.o m.mid m.r m.post m.fo m.fr)

def KMsg.Ok (m : KMsg) : Prop := (m.fam = 2 ∨ m.fam = 10) ∧ m.o.Ok ∧ m.r.Ok ∧ m.o.num = m.r.num ∧
  (∀ a ∈ message m.pre m.o m.mid m.r m.post m.fo m.fr, a.Ok) ∧ (∀ a ∈ m.pre ++ m.mid, a.ty ≠ 1 ∧ a.ty ≠ 2)

/-- The messages of an event act on the cache exactly as the connections they carry, so that the results on lookups
(`dnat_sound`, `dnat_found`) apply to what the kernel sends. -/
theorem event_runs (limit : Int) (timeout now : Nat) (orphan : Bool) (s : CSt) (ms : List KMsg) (h : ∀ m ∈ ms, m.Ok) :
    event limit timeout now orphan s (ms.map KMsg.bytes) =
      Lookup.run limit timeout s (ms.map (fun m => (now, .con m.o.flow m.r.flow m.o.num orphan))) := by
  have hd : decodeAll (ms.map KMsg.bytes) = some (ms.map (fun m => con m.o.flow m.r.flow m.o.num)) := by
    have := all_decoded (ms.map (fun m => (m.bytes, con m.o.flow m.r.flow m.o.num))) (by
      intro p hp
      obtain ⟨m, hm, rfl⟩ := List.mem_map.1 hp
      obtain ⟨h1, h2, h3, h4, h5, h6⟩ := h m hm
      exact message_decodes m.fam m.x m.y h1 m.pre m.o m.mid m.r m.post m.fo m.fr h2 h3 h4 h5 h6)
    rw [List.map_map, List.map_map] at this
    exact this
  unfold event
  rw [hd]
  clear hd h
  induction ms generalizing s with
  | nil => rfl
  | cons m r ih =>
    simp only [List.map_cons, registerAll, Lookup.run, Lookup.step]
    cases register limit timeout now s (con m.o.flow m.r.flow m.o.num) orphan with
    | none => rfl
    | some s' => exact ih s'

/-! ### Examples -/

example : Calm 100 0 [([50, 50], second), ([300], 4 * second)] :=
  ⟨by decide, by decide, trivial⟩
example : (run 100 (reset 0) (windows [([101], second)])).isOpen = true := by decide
example : (run 100 (reset 0) (windows [([100], second), ([104], 2 * second), ([104], 3 * second)])).isOpen = false := by decide
example : Busy 105 0 [([105], second)] := by simp [Busy, second]
example : receive false [[.data [1]], [.data [2], .done []], [.data [3]]] = ([[.data [1]], [.data [2]]], true) := by decide
example : bad (.error [254, 255, 255, 255]) = true := by decide

/-- Only error messages without the code 0 are refused: an acknowledgement, even without anything after its code, is not. -/
theorem bad_iff (m : Msg) : bad m = true ↔ ∃ b, m = .error b ∧ ¬ ∃ rest, b = 0 :: 0 :: 0 :: 0 :: rest := by
  cases m with
  | data b => simp [bad]
  | done b => simp [bad]
  | error b =>
    rw [show (∃ b', Msg.error b = .error b' ∧ ¬ ∃ rest, b' = 0 :: 0 :: 0 :: 0 :: rest) ↔
      ¬ ∃ rest, b = 0 :: 0 :: 0 :: 0 :: rest by simp]
    match b with
    | [] => simp [bad]
    | [_] => simp [bad]
    | [_, _] => simp [bad]
    | [_, _, _] => simp [bad]
    | a :: b :: c :: d :: r =>
      by_cases ha : a = 0 <;> by_cases hb : b = 0 <;> by_cases hc : c = 0 <;> by_cases hd : d = 0 <;>
        simp [bad, ha, hb, hc, hd]

end Kindling.Conn.Consumer
