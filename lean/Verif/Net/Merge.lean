import Verif.Net.Model
/-
C08 and C09: merging fragments and the latency components.
-/
namespace Kindling.Net
open Kindling

/-- The state after a first fragment and the later ones of the same direction. -/
def mergeAll (maxLen : Int) (e0 : Evt) (es : List Evt) : Events :=
  es.foldl Events.merge (newEvents e0 maxLen)

/-! ## Helper lemmas -/

theorem merge_merged (s : Events) (e : Evt) : (s.merge e).merged =
    { events := if s.merged.events.length < 10 then s.merged.events ++ [e] else s.merged.events
      latency := e.ts - s.merged.ts + s.merged.latency
      resVal := s.merged.resVal + e.res
      ts := e.ts
      data := s.merged.data ++ e.data.take (appendLength s.maxLen s.merged.data.length e.data.length) } := rfl

@[simp] theorem merge_maxLen (s : Events) (e : Evt) : (s.merge e).maxLen = s.maxLen := rfl
@[simp] theorem merge_event (s : Events) (e : Evt) : (s.merge e).event = s.event := rfl

theorem mergeAll_snoc (n : Int) (e0 : Evt) (es : List Evt) (e : Evt) :
    mergeAll n e0 (es ++ [e]) = (mergeAll n e0 es).merge e := by simp [mergeAll]

theorem mergeAll_event (n : Int) (e0 : Evt) (es : List Evt) : (mergeAll n e0 es).event = e0 := by
  suffices ∀ s : Events, (es.foldl Events.merge s).event = s.event from this _
  induction es with
  | nil => intro s; rfl
  | cons e r ih => intro s; simp [ih]

theorem mergeAll_maxLen (n : Int) (e0 : Evt) (es : List Evt) : (mergeAll n e0 es).maxLen = n := by
  suffices ∀ s : Events, (es.foldl Events.merge s).maxLen = s.maxLen from this _
  induction es with
  | nil => intro s; rfl
  | cons e r ih => intro s; simp [ih]

theorem getData_merged (s : Events) : s.getData = s.merged.data := by
  simp only [Events.getData, Events.merged]; cases s.mergable <;> rfl
theorem lastTs_merged (s : Events) : s.lastTs = s.merged.ts := by
  simp only [Events.lastTs, Events.merged]; cases s.mergable <;> rfl
theorem duration_merged (s : Events) : s.duration = s.merged.latency := by
  simp only [Events.duration, Events.merged]; cases s.mergable <;> rfl
theorem resVal_merged (s : Events) : s.resVal = s.merged.resVal := by
  simp only [Events.resVal, Events.merged]; cases s.mergable <;> rfl
theorem size_merged (s : Events) : s.size = s.merged.events.length := by
  simp only [Events.size, Events.merged]; cases s.mergable <;> rfl

/-- A byte budget: taking from two parts in turn is taking from their concatenation. -/
theorem take_budget (a b : Bytes) (n : Nat) :
    a.take n ++ b.take (n - (a.take n).length) = (a ++ b).take n := by
  rw [List.take_append]
  congr 1
  by_cases h : n ≤ a.length
  · simp [Nat.min_eq_left h, Nat.sub_eq_zero_of_le h]
  · have : (a.take n).length = a.length := by simp; omega
    rw [this]

theorem appendLength_eq (maxLen : Int) (h : Nat) (d : Bytes) :
    d.take (appendLength maxLen h d.length) = d.take (maxLen.toNat - h) := by
  simp only [appendLength]
  split
  · have : maxLen.toNat - h = 0 := by omega
    rw [this]
  · split
    · rename_i h1 h2
      rw [List.take_length, List.take_of_length_le (by omega)]
    · congr 1; omega

theorem mergeAll_data (n : Int) (e0 : Evt) (es : List Evt) :
    (mergeAll n e0 es).merged.data = e0.data ++ (es.map Evt.data).flatten.take (n.toNat - e0.data.length) := by
  induction es using snoc_ind with
  | nil => simp [mergeAll, newEvents, Events.merged]
  | snoc es e ih =>
    rw [mergeAll_snoc, merge_merged]
    simp only [mergeAll_maxLen, appendLength_eq]
    rw [ih, List.append_assoc]
    congr 1
    simp only [List.map_append, List.map_cons, List.map_nil, List.flatten_append, List.flatten_cons,
      List.flatten_nil, List.append_nil]
    rw [← take_budget]
    congr 2
    simp only [List.length_append, List.length_take]
    omega

theorem mergeAll_resVal (n : Int) (e0 : Evt) (es : List Evt) :
    (mergeAll n e0 es).merged.resVal = ((e0 :: es).map Evt.res).sum := by
  induction es using snoc_ind with
  | nil => simp [mergeAll, newEvents, Events.merged]
  | snoc es e ih =>
    rw [mergeAll_snoc, merge_merged]
    simp only [ih, List.map_cons, List.sum_cons, List.map_append, List.map_nil, List.sum_append, List.sum_nil]
    omega

theorem mergeAll_events (n : Int) (e0 : Evt) (es : List Evt) :
    (mergeAll n e0 es).merged.events = (e0 :: es).take 10 := by
  induction es using snoc_ind with
  | nil => simp [mergeAll, newEvents, Events.merged]
  | snoc es e ih =>
    rw [mergeAll_snoc, merge_merged]
    simp only [ih]
    by_cases h : (e0 :: es).length < 10
    · have h1 : (e0 :: es).take 10 = e0 :: es := List.take_of_length_le (by omega)
      have h2 : (e0 :: (es ++ [e])).take 10 = e0 :: (es ++ [e]) := by
        apply List.take_of_length_le; simp at h ⊢; omega
      rw [h1, h2, if_pos h]; simp
    · have h1 : ((e0 :: es).take 10).length = 10 := by simp at h ⊢; omega
      rw [if_neg (by omega)]
      rw [← List.cons_append, List.take_append]
      have : 10 - (e0 :: es).length = 0 := by omega
      rw [this]; simp

theorem last_snoc (e0 : Evt) (es : List Evt) (e : Evt) (h : e0 :: (es ++ [e]) ≠ []) :
    (e0 :: (es ++ [e])).getLast h = e := by
  have := List.getLast_append_of_ne_nil (l := e0 :: es) (l' := [e]) (by simp) (by simp)
  simpa using this

theorem mergeAll_ts (n : Int) (e0 : Evt) (es : List Evt) :
    (mergeAll n e0 es).merged.ts = ((e0 :: es).getLast (by simp)).ts := by
  induction es using snoc_ind with
  | nil => rfl
  | snoc es e ih => rw [mergeAll_snoc, merge_merged, last_snoc]

theorem mergeAll_latency (n : Int) (e0 : Evt) (es : List Evt) :
    (mergeAll n e0 es).merged.latency = ((e0 :: es).getLast (by simp)).ts - e0.ts + e0.latency := by
  induction es using snoc_ind with
  | nil => simp [mergeAll, newEvents, Events.merged]
  | snoc es e ih =>
    rw [mergeAll_snoc, merge_merged]
    simp only [ih, mergeAll_ts]
    rw [last_snoc]
    generalize ((e0 :: es).getLast _).ts = x
    grind

/-! ## C08 -/

/-- C08: the kept payload of a direction is a prefix of the concatenated fragments, its length is
exactly what fits: everything, or the larger of the snap length and the first fragment. -/
theorem merged_payload_prefix (snaplen : Int) (e0 : Evt) (es : List Evt) :
    (mergeAll snaplen e0 es).getData <+: ((e0 :: es).map Evt.data).flatten ∧
    (mergeAll snaplen e0 es).getData.length =
      min ((e0 :: es).map Evt.data).flatten.length (max snaplen.toNat e0.data.length) := by
  rw [getData_merged, mergeAll_data]
  constructor
  · simp only [List.map_cons, List.flatten_cons]
    exact List.prefix_append_right_inj _ |>.2 (List.take_prefix _ _)
  · simp only [List.map_cons, List.flatten_cons, List.length_append, List.length_take]
    omega

/-- C08: byte total exact, events kept in order from the first one (at most ten), the exchange ends
at its last fragment. -/
theorem merged_counts_exact (snaplen : Int) (e0 : Evt) (es : List Evt) :
    (mergeAll snaplen e0 es).resVal = ((e0 :: es).map Evt.res).sum ∧
    (∀ i, i < (mergeAll snaplen e0 es).size → (mergeAll snaplen e0 es).getEvent i = (e0 :: es)[i]?) ∧
    (mergeAll snaplen e0 es).size = min 10 (es.length + 1) ∧
    (mergeAll snaplen e0 es).lastTs = ((e0 :: es).getLast (by simp)).ts := by
  refine ⟨by rw [resVal_merged, mergeAll_resVal], ?_, ?_, by rw [lastTs_merged, mergeAll_ts]⟩
  · intro i hi
    rw [size_merged, mergeAll_events] at hi
    by_cases h0 : i = 0
    · subst h0; simp [Events.getEvent, mergeAll_event]
    · have hev := mergeAll_events snaplen e0 es
      simp only [Events.getEvent, h0, ↓reduceIte]
      cases hm : (mergeAll snaplen e0 es).mergable with
      | none =>
        simp only [Events.merged, hm] at hev
        have := congrArg List.length hev
        simp only [List.length_cons, List.length_nil, List.length_take] at this hi
        omega
      | some m =>
        simp only [Events.merged, hm] at hev
        simp only [hev]
        rw [List.getElem?_take_of_lt]
        simp only [List.length_take] at hi; omega
  · rw [size_merged, mergeAll_events]; simp; omega

/-- Non-vacuity: three fragments, snap length 4. -/
example :
    let e (d : Bytes) (r : Int) : Evt := { pid := 1, fd := 2, data := d, res := r }
    (mergeAll 4 (e [1, 2, 3] 300) [e [4, 5] 2, e [6] 1]).getData = [1, 2, 3, 4] ∧
    (mergeAll 4 (e [1, 2, 3] 300) [e [4, 5] 2, e [6] 1]).resVal = 303 ∧
    (mergeAll 2 (e [1, 2, 3] 300) [e [4, 5] 2]).getData = [1, 2, 3] := by decide

/-! ## C09 -/

/-- An exchange made of the given request and response events. -/
def exchange (snaplen : Int) (q0 : Evt) (qs : List Evt) (r0 : Evt) (rs : List Evt) : Pairs :=
  { requests := some (mergeAll snaplen q0 qs), responses := some (mergeAll snaplen r0 rs), maxLen := snaplen }

theorem toI64_of_lt {u : UInt64} (h : u.toNat < 2 ^ 63) : toI64 u = u.toNat := by simp [toI64, h]

theorem toNat_sub_le {a b : UInt64} (h : b.toNat ≤ a.toNat) : (a - b).toNat = a.toNat - b.toNat :=
  UInt64.toNat_sub_of_le a b (UInt64.le_iff_toNat_le.2 h)

/-- C09, as machine arithmetic: sent, waiting and download time always add up to the duration modulo
2^64, whatever the timestamps. -/
theorem latency_parts_add_up (snaplen : Int) (q0 r0 : Evt) (qs rs : List Evt) :
    let p := exchange snaplen q0 qs r0 rs
    ∃ d : UInt64, p.duration = some d ∧
      (mergeAll snaplen q0 qs).duration +
      ((mergeAll snaplen r0 rs).firstTs - r0.latency - (mergeAll snaplen q0 qs).lastTs) +
      (mergeAll snaplen r0 rs).duration = d := by
  refine ⟨_, rfl, ?_⟩
  rw [duration_merged, duration_merged, lastTs_merged, lastTs_merged, mergeAll_latency, mergeAll_latency,
    mergeAll_ts, mergeAll_ts, mergeAll_event]
  simp only [Events.firstTs, mergeAll_event, Evt.startTime]
  generalize ((q0 :: qs).getLast _).ts = x
  generalize ((r0 :: rs).getLast _).ts = y
  grind

/-- C09: for an exchange in time order (request first, syscalls start before they end, all before
2^63 ns) the three reported components are non-negative and add up to the reported duration, which is
the end of the response minus the start of the request. -/
theorem latency_parts_reported (snaplen : Int) (q0 r0 : Evt) (qs rs : List Evt)
    (hq0 : q0.latency.toNat ≤ q0.ts.toNat)
    (hq : q0.ts.toNat ≤ ((q0 :: qs).getLast (by simp)).ts.toNat)
    (hqr : ((q0 :: qs).getLast (by simp)).ts.toNat + r0.latency.toNat ≤ r0.ts.toNat)
    (hr : r0.ts.toNat ≤ ((r0 :: rs).getLast (by simp)).ts.toNat)
    (hmax : ((r0 :: rs).getLast (by simp)).ts.toNat < 2 ^ 63) :
    let p := exchange snaplen q0 qs r0 rs
    ∃ (w : Int) (d : UInt64), p.waitingTime = some w ∧ p.duration = some d ∧
      0 ≤ p.sentTime ∧ 0 ≤ w ∧ 0 ≤ p.downloadTime ∧
      p.sentTime + w + p.downloadTime = toI64 d ∧
      toI64 d = ((r0 :: rs).getLast (by simp)).ts.toNat - (q0.ts.toNat - q0.latency.toNat) := by
  refine ⟨_, _, rfl, rfl, ?_⟩
  simp only [Pairs.sentTime, Pairs.downloadTime, exchange]
  rw [duration_merged, duration_merged, lastTs_merged, lastTs_merged, mergeAll_latency, mergeAll_latency,
    mergeAll_ts, mergeAll_ts, mergeAll_event]
  simp only [Events.firstTs, mergeAll_event, Evt.startTime]
  generalize ((q0 :: qs).getLast _).ts = x at *
  generalize ((r0 :: rs).getLast _).ts = y at *
  have a1 : (x - q0.ts).toNat = x.toNat - q0.ts.toNat := toNat_sub_le hq
  have a2 : (x - q0.ts + q0.latency).toNat = x.toNat - q0.ts.toNat + q0.latency.toNat := by
    rw [UInt64.toNat_add, a1, Nat.mod_eq_of_lt]; omega
  have b1 : (r0.ts - r0.latency).toNat = r0.ts.toNat - r0.latency.toNat := toNat_sub_le (by omega)
  have b2 : (r0.ts - r0.latency - x).toNat = r0.ts.toNat - r0.latency.toNat - x.toNat := by
    rw [toNat_sub_le (by rw [b1]; omega), b1]
  have c1 : (y - r0.ts).toNat = y.toNat - r0.ts.toNat := toNat_sub_le hr
  have c2 : (y - r0.ts + r0.latency).toNat = y.toNat - r0.ts.toNat + r0.latency.toNat := by
    rw [UInt64.toNat_add, c1, Nat.mod_eq_of_lt]; omega
  have d1 : (q0.ts - q0.latency).toNat = q0.ts.toNat - q0.latency.toNat := toNat_sub_le hq0
  have d2 : (y - (q0.ts - q0.latency)).toNat = y.toNat - (q0.ts.toNat - q0.latency.toNat) := by
    rw [toNat_sub_le (by rw [d1]; omega), d1]
  rw [toI64_of_lt (by rw [a2]; omega), toI64_of_lt (by rw [b2]; omega), toI64_of_lt (by rw [c2]; omega),
    toI64_of_lt (by rw [d2]; omega), a2, b2, c2, d2]
  omega

/-- Non-vacuity: request 100..110, response 150..170 (two fragments): 10 + 35 + 25. -/
example :
    let q0 : Evt := { pid := 1, fd := 2, ts := 110, latency := 10 }
    let r0 : Evt := { pid := 1, fd := 2, ts := 150, latency := 5 }
    let r1 : Evt := { pid := 1, fd := 2, ts := 170, latency := 1 }
    let p := exchange 1000 q0 [] r0 [r1]
    (p.sentTime, p.waitingTime, p.downloadTime, p.duration) = (10, some 35, 25, some 70) := by decide

/-! ## C12 -/

/-- C12: the slow label follows the threshold configured for the protocol, else the global one, else
500 ms; durations below 2^63 ns. -/
theorem slow_iff (table : AMap String Int) (global : Int) (duration : UInt64) (protocol : String)
    (hd : duration.toNat < 2 ^ 63) :
    isSlow table global duration protocol = true ↔
      (∃ v, AMap.get table protocol = some v ∧ 0 < v ∧ v * 1000000 ≤ duration.toNat) ∨
      ((∀ v, AMap.get table protocol = some v → v ≤ 0) ∧
        ((0 < global ∧ global * 1000000 ≤ duration.toNat) ∨ (global ≤ 0 ∧ 500000000 ≤ duration.toNat))) := by
  simp only [isSlow, toI64_of_lt hd, decide_eq_true_eq, slowThreshold, orDefault]
  cases AMap.get table protocol with
  | none => by_cases hg : global > 0 <;> simp [hg] <;> omega
  | some v => by_cases hv : v > 0 <;> by_cases hg : global > 0 <;> simp [hv, hg] <;> omega

example : isSlow [("mysql", 100)] 500 100000000 "mysql" = true ∧ isSlow [("mysql", 100)] 500 99999999 "mysql" = false ∧
    isSlow [("mysql", 0)] 0 499999999 "mysql" = false ∧ isSlow [] 0 500000000 "http" = true := by decide

end Kindling.Net
