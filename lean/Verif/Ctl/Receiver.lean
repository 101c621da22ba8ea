import Verif.Basic
import Verif.Model.Event
import Verif.Tools.Ip
/-
The receiver of the probe's events (`collector/pkg/component/receiver/cgoreceiver/cgoreceiver.go`,
`self_metrics.go`): the copy of an event out of the C structure, the two goroutines and their channel,
`Shutdown`, and the counters per event name.
-/
namespace Kindling.Ctl.Receiver
open Kindling Kindling.Model

/-! ### Copying an event -/

/-- `kindling_event_t_for_go` (cgo_func.h:47-88).  A C string is the text before its first zero byte; a value is the
memory at its pointer, `len` bytes of which belong to it.  Simplified: timestamp, category, latency, thread and
descriptor, which are copied field by field (cgoreceiver.go:130-157), are one value `rest`. -/
structure CEvent (T R : Type) where
  name : String
  paramsNumber : Nat
  attrs : List (String × Bytes × Nat × T)
  rest : R

variable {T R : Type}

/-- One turn of the loop at cgoreceiver.go:161-166. -/
def copyAttr (a : String × Bytes × Nat × T) : String × T × Bytes := (a.1, a.2.2.2, a.2.1.take a.2.2.1)

/-- The loop at cgoreceiver.go:161-166, `k` turns from index `i` on, writing into the array of the new event.  An index
outside the two arrays of 16 is a panic (`none`). -/
def copyGo (src : List (String × Bytes × Nat × T)) : Nat → Nat → List (String × T × Bytes) → Option (List (String × T × Bytes))
  | 0, _, dst => some dst
  | k + 1, i, dst => match src[i]? with
    | none => none
    | some a => if i < dst.length then copyGo src k (i + 1) (dst.set i (copyAttr a)) else none

/-- `convertEvent` (cgoreceiver.go:126-168); `zero` is the value type of an attribute that was not written. -/
def convertEvent (zero : T) (c : CEvent T R) : Option (Event T R) :=
  match copyGo c.attrs c.paramsNumber 0 (List.replicate 16 ("", zero, [])) with
  | none => none
  | some attrs => some { name := c.name, paramsNumber := c.paramsNumber, attrs := attrs, rest := c.rest }

theorem copyGo_eq (src : List (String × Bytes × Nat × T)) (k i : Nat) (dst : List (String × T × Bytes)) (hs : i + k ≤ src.length)
    (hd : src.length ≤ dst.length) :
    copyGo src k i dst = some (dst.take i ++ ((src.drop i).take k).map copyAttr ++ dst.drop (i + k)) := by
  induction k generalizing i dst with
  | zero => simp [copyGo]
  | succ k ih =>
    have hi : i < src.length := by omega
    have hid : i < dst.length := by omega
    simp only [copyGo, List.getElem?_eq_getElem hi, if_pos hid]
    rw [ih (i + 1) _ (by omega) (by simpa using hd)]
    have e1 : (dst.set i (copyAttr src[i])).take (i + 1) = dst.take i ++ [copyAttr src[i]] := by
      rw [List.take_add_one, List.take_set_of_le (Nat.le_refl i)]
      simp [hid]
    have e2 : (dst.set i (copyAttr src[i])).drop (i + 1 + k) = dst.drop (i + (k + 1)) := by
      rw [List.drop_set_of_lt (by omega)]
      congr 1
      omega
    have e3 : (src.drop i).take (k + 1) = src[i] :: (src.drop (i + 1)).take k := by
      rw [List.drop_eq_getElem_cons hi, List.take_succ_cons]
    rw [e1, e2, e3]
    simp

/-- C85: for every event the probe sends with at most 16 parameters, looking a parameter up gives exactly the first
one of that name among those in use, with its type and its bytes. -/
theorem converted_attr (zero : T) (c : CEvent T R) (hlen : c.attrs.length = 16) (hn : c.paramsNumber ≤ 16) :
    ∃ e, convertEvent zero c = some e ∧ e.name = c.name ∧ e.rest = c.rest ∧ e.paramsNumber = c.paramsNumber ∧ e.attrs.length = 16 ∧
      ∀ key, getAttr e key = ((c.attrs.take c.paramsNumber).find? (fun a => a.1 == key)).map
        (fun a => (a.1, a.2.2.2, a.2.1.take a.2.2.1)) := by
  have h := copyGo_eq c.attrs c.paramsNumber 0 (List.replicate 16 ("", zero, [])) (by omega) (by simp [hlen])
  refine ⟨_, by rw [convertEvent, h], rfl, rfl, rfl, ?_, ?_⟩
  · simp only [List.take_zero, List.nil_append, List.drop_zero, List.length_append, List.length_map, List.length_take, List.length_drop,
      List.length_replicate]
    omega
  · intro key
    have e : (List.take c.paramsNumber (((c.attrs.drop 0).take c.paramsNumber).map copyAttr ++
        (List.replicate 16 ("", zero, [])).drop (0 + c.paramsNumber))) = (c.attrs.take c.paramsNumber).map (copyAttr (T := T)) := by
      rw [List.take_append_of_le_length (by simp; omega)]
      rw [List.take_of_length_le (by simp; omega)]
      simp
    simp only [getAttr, List.take_zero, List.nil_append]
    rw [e, List.find?_map]
    rfl

/-- C85, finding: an event that claims more than 16 parameters crashes the collector. -/
theorem too_many_params (zero : T) (c : CEvent T R) (hlen : c.attrs.length = 16) (hn : 16 < c.paramsNumber) : convertEvent zero c = none := by
  have key : ∀ (k i : Nat) (dst : List (String × T × Bytes)), 16 < i + k → i ≤ 16 → copyGo c.attrs k i dst = none := by
    intro k
    induction k with
    | zero => intro i dst h1 h2; omega
    | succ k ih =>
      intro i dst h1 h2
      simp only [copyGo]
      cases hs : c.attrs[i]? with
      | none => rfl
      | some a =>
        have : i < 16 := by
          have := (List.getElem?_eq_some_iff.1 hs).1
          omega
        simp only
        split
        · exact ih (i + 1) _ (by omega) (by omega)
        · rfl
  rw [convertEvent, key _ 0 _ (by omega) (by omega)]

example : (convertEvent (R := Unit) 0 ⟨"read", 2, ("fd", [3, 0, 9], 2, 7) :: ("data", [1, 2], 1, 8) :: List.replicate 14 ("junk", [], 0, 0), ()⟩).map
    (fun e => (getAttr e "fd", getAttr e "data", getAttr e "junk")) = some (some ("fd", 7, [3, 0]), some ("data", 8, [1]), none) := rfl

/-! ### The two goroutines -/

/-- The receiver while it runs: the events the probe has handed over so far, those of the current batch not yet in the
channel, the channel, those passed to the analyzers, whether `stopCh` is closed, and whether each of the two goroutines
has returned. -/
structure St (E : Type) where
  fetched : List E
  batch : List E
  chan : List E
  consumed : List E
  closed : Bool
  prodDone : Bool
  consDone : Bool

variable {E : Type}

def initial : St E := ⟨[], [], [], [], false, false, false⟩

/-- One step of any goroutine; `cap` is the capacity of the channel, 300 000 (cgoreceiver.go:56).  A goroutine in a `select`
with the closed channel and another ready case may take either; one with a `default` takes the closed channel.
Simplified: a probe call that hands over nothing is the batch []; counters are below. -/
inductive Step (cap : Nat) : St E → St E → Prop
  /-- cgoreceiver.go:89-90: only if the batch is empty and the channel not closed. -/
  | fetch (s : St E) (b : List E) (hp : s.prodDone = false) (hb : s.batch = []) (hc : s.closed = false) :
      Step cap s { s with fetched := s.fetched ++ b, batch := b }
  /-- cgoreceiver.go:91-95. -/
  | push (s : St E) (e : E) (r : List E) (hp : s.prodDone = false) (hb : s.batch = e :: r) (hr : s.chan.length < cap) :
      Step cap s { s with batch := r, chan := s.chan ++ [e] }
  /-- cgoreceiver.go:86-88. -/
  | prodExit (s : St E) (hp : s.prodDone = false) (hb : s.batch = []) (hc : s.closed = true) : Step cap s { s with prodDone := true }
  /-- cgoreceiver.go:108-112. -/
  | consume (s : St E) (e : E) (r : List E) (hp : s.consDone = false) (hr : s.chan = e :: r) :
      Step cap s { s with chan := r, consumed := s.consumed ++ [e] }
  /-- cgoreceiver.go:105-107. -/
  | consExit (s : St E) (hp : s.consDone = false) (hc : s.closed = true) : Step cap s { s with consDone := true }
  /-- `Shutdown` closes the channel (cgoreceiver.go:117-123). -/
  | close (s : St E) (hc : s.closed = false) : Step cap s { s with closed := true }

/-- States that follow a state. -/
inductive Steps (cap : Nat) : St E → St E → Prop
  | refl (s : St E) : Steps cap s s
  | tail {a b c : St E} : Steps cap a b → Step cap b c → Steps cap a c

theorem Steps.trans {cap : Nat} {a b c : St E} (h : Steps cap a b) (h' : Steps cap b c) : Steps cap a c := by
  induction h' with
  | refl => exact h
  | tail _ hs ih => exact .tail ih hs

theorem Steps.one {cap : Nat} {a b : St E} (h : Step cap a b) : Steps cap a b := .tail (.refl _) h

/-- C85: every event of the probe is passed on exactly once and in order: at any time the events handed over are those
consumed, then those in the channel, then those left of the batch; and the channel never exceeds its capacity. -/
theorem in_order {cap : Nat} {s : St E} (h : Steps cap initial s) :
    s.fetched = s.consumed ++ s.chan ++ s.batch ∧ s.chan.length ≤ cap := by
  have key : ∀ {a b : St E}, Steps cap a b → (a.fetched = a.consumed ++ a.chan ++ a.batch ∧ a.chan.length ≤ cap) →
      b.fetched = b.consumed ++ b.chan ++ b.batch ∧ b.chan.length ≤ cap := by
    intro a b h
    induction h with
    | refl => exact id
    | tail _ hs ih =>
      intro h0
      obtain ⟨h1, h2⟩ := ih h0
      cases hs with
      | fetch b hp hb hc => simp only [hb, List.append_nil] at *; exact ⟨by rw [h1], h2⟩
      | push e r hp hb hr =>
        refine ⟨by simp only [h1, hb]; simp, ?_⟩
        simp only [List.length_append, List.length_cons, List.length_nil]; omega
      | prodExit => exact ⟨h1, h2⟩
      | consume e r hp hr =>
        refine ⟨by simp only [h1, hr]; simp, ?_⟩
        rw [hr] at h2; simp only [List.length_cons] at h2; simp only; omega
      | consExit => exact ⟨h1, h2⟩
      | close => exact ⟨h1, h2⟩
  exact key h ⟨rfl, Nat.zero_le _⟩

/-- When nothing is in flight, everything the probe handed over has been consumed. -/
theorem all_consumed_partial {cap : Nat} {s : St E} (h : Steps cap initial s) (hb : s.batch = []) (hc : s.chan = []) : s.consumed = s.fetched := by
  have := (in_order h).1
  rw [hb, hc] at this
  simpa using this.symm

/-- C85: while the receiver is not shut down it never gets stuck with a capacity of at least one: whatever is in flight can be consumed,
by steps that keep it open. -/
theorem drains {cap : Nat} (hcap : 0 < cap) (s : St E) (hp : s.prodDone = false) (hk : s.consDone = false) :
    ∃ s', Steps cap s s' ∧ s'.batch = [] ∧ s'.chan = [] ∧ s'.consumed = s.consumed ++ s.chan ++ s.batch ∧ s'.closed = s.closed ∧
      s'.prodDone = false ∧ s'.consDone = false := by
  have empty : ∀ (c : List E) (s : St E), s.chan = c → s.consDone = false →
      ∃ s', Steps cap s s' ∧ s'.batch = s.batch ∧ s'.chan = [] ∧ s'.consumed = s.consumed ++ c ∧ s'.closed = s.closed ∧
        s'.prodDone = s.prodDone ∧ s'.consDone = false := by
    intro c
    induction c with
    | nil => intro s hc hk; exact ⟨s, .refl _, rfl, hc, by simp, rfl, rfl, hk⟩
    | cons e r ih =>
      intro s hc hk
      obtain ⟨s', h1, h2, h3, h4, h5, h6, h7⟩ := ih { s with chan := r, consumed := s.consumed ++ [e] } rfl hk
      exact ⟨s', (Steps.one (.consume s e r hk hc)).trans h1, h2, h3, by rw [h4]; simp, h5, h6, h7⟩
  have go : ∀ (b : List E) (s : St E), s.batch = b → s.chan = [] → s.prodDone = false → s.consDone = false →
      ∃ s', Steps cap s s' ∧ s'.batch = [] ∧ s'.chan = [] ∧ s'.consumed = s.consumed ++ b ∧ s'.closed = s.closed ∧
        s'.prodDone = false ∧ s'.consDone = false := by
    intro b
    induction b with
    | nil => intro s hb hc hp hk; exact ⟨s, .refl _, hb, hc, by simp, rfl, hp, hk⟩
    | cons e r ih =>
      intro s hb hc hp hk
      have s1 : Step cap s { s with batch := r, chan := s.chan ++ [e] } := .push s e r hp hb (by rw [hc]; exact hcap)
      have s2 : Step cap { s with batch := r, chan := s.chan ++ [e] } { s with batch := r, chan := [], consumed := s.consumed ++ [e] } :=
        .consume { s with batch := r, chan := s.chan ++ [e] } e [] hk (by simp [hc])
      obtain ⟨s', h1, h2, h3, h4, h5, h6, h7⟩ := ih { s with batch := r, chan := [], consumed := s.consumed ++ [e] } rfl rfl hp hk
      exact ⟨s', ((Steps.one s1).tail s2).trans h1, h2, h3, by rw [h4]; simp, h5, h6, h7⟩
  obtain ⟨s1, a1, a2, a3, a4, a5, a6, a7⟩ := empty s.chan s rfl hk
  obtain ⟨s2, b1, b2, b3, b4, b5, b6, b7⟩ := go s.batch s1 a2 a3 (by rw [a6]; exact hp) a7
  exact ⟨s2, a1.trans b1, b2, b3, by rw [b4, a4], by rw [b5, a5], b6, b7⟩

/-- C85: after `Shutdown` closed the channel nothing more is asked from the probe. -/
theorem no_fetch_after_close {cap : Nat} {s s' : St E} (h : Steps cap s s') (hc : s.closed = true) : s'.fetched = s.fetched ∧ s'.closed = true := by
  induction h with
  | refl => exact ⟨rfl, hc⟩
  | tail _ hs ih =>
    obtain ⟨h1, h2⟩ := ih
    cases hs with
    | fetch b hp hb hcl => rw [h2] at hcl; exact absurd hcl (by decide)
    | push e r hp hb hr => exact ⟨h1, h2⟩
    | prodExit => exact ⟨h1, h2⟩
    | consume e r hp hr => exact ⟨h1, h2⟩
    | consExit => exact ⟨h1, h2⟩
    | close => exact ⟨h1, rfl⟩

/-- `Shutdown` returns when both goroutines are done (`shutdownWG.Wait`, cgoreceiver.go:121); it can as long as the consumer
is running, or the rest of the batch fits into the channel. -/
theorem shutdown_can_return {cap : Nat} (hcap : 0 < cap) (s : St E) (hc : s.closed = true) (hp : s.prodDone = false)
    (hf : s.consDone = false ∨ s.chan.length + s.batch.length ≤ cap) :
    ∃ s', Steps cap s s' ∧ s'.prodDone = true ∧ s'.consDone = true := by
  cases hk : s.consDone with
  | false =>
    obtain ⟨s1, a1, a2, _, _, a5, a6, a7⟩ := drains hcap s hp hk
    have s2 := Step.prodExit (cap := cap) s1 a6 a2 (by rw [a5]; exact hc)
    have s3 := Step.consExit (cap := cap) { s1 with prodDone := true } a7 (by simp only; rw [a5]; exact hc)
    exact ⟨_, (a1.tail s2).tail s3, rfl, rfl⟩
  | true =>
    rcases hf with hf | hf
    · rw [hk] at hf; exact absurd hf (by decide)
    have go : ∀ (b : List E) (s : St E), s.batch = b → s.closed = true → s.prodDone = false → s.consDone = true → s.chan.length + b.length ≤ cap →
        ∃ s', Steps cap s s' ∧ s'.prodDone = true ∧ s'.consDone = true := by
      intro b
      induction b with
      | nil =>
        intro s hb hc hp hk _
        exact ⟨_, Steps.one (.prodExit s hp hb hc), rfl, hk⟩
      | cons e r ih =>
        intro s hb hc hp hk hl
        simp only [List.length_cons] at hl
        obtain ⟨s', h1, h2⟩ := ih { s with batch := r, chan := s.chan ++ [e] } rfl hc hp hk
          (by simp only [List.length_append, List.length_cons, List.length_nil]; omega)
        exact ⟨s', (Steps.one (.push s e r hp hb (by omega))).trans h1, h2⟩
    exact go s.batch s rfl hc hp hk hf

/-- Once the consumer is gone, the number of events that did not reach the analyzers does not change: they are lost. -/
theorem lost_at_shutdown {cap : Nat} {s s' : St E} (h : Steps cap s s') (hk : s.consDone = true) (hc : s.closed = true) :
    s'.consumed = s.consumed ∧ s'.chan ++ s'.batch = s.chan ++ s.batch ∧ s'.consDone = true ∧ s'.closed = true := by
  induction h with
  | refl => exact ⟨rfl, rfl, hk, hc⟩
  | tail _ hs ih =>
    obtain ⟨h1, h2, h3, h4⟩ := ih
    cases hs with
    | fetch b hp hb hcl => rw [h4] at hcl; exact absurd hcl (by decide)
    | push e r hp hb hr => exact ⟨h1, by rw [← h2, hb]; simp, h3, h4⟩
    | prodExit => exact ⟨h1, h2, h3, h4⟩
    | consume e r hp hr => rw [h3] at hp; exact absurd hp (by decide)
    | consExit => exact ⟨h1, h2, rfl, h4⟩
    | close => exact ⟨h1, h2, h3, rfl⟩

/-- C85, finding: if the consumer returns first and more events are in flight than the channel holds, the other goroutine
waits for room for ever and `Shutdown` never returns. -/
theorem shutdown_hangs {cap : Nat} {s s' : St E} (h : Steps cap s s') (hk : s.consDone = true) (hc : s.closed = true) (hp : s.prodDone = false)
    (hf : cap < s.chan.length + s.batch.length) (hl : s.chan.length ≤ cap) : s'.prodDone = false := by
  have key : s'.prodDone = false ∧ s'.chan.length ≤ cap := by
    induction h with
    | refl => exact ⟨hp, hl⟩
    | tail hh hs ih =>
      obtain ⟨h1, h2⟩ := ih
      obtain ⟨l1, l2, l3, l4⟩ := lost_at_shutdown hh hk hc
      cases hs with
      | fetch b hp hb hcl => rw [l4] at hcl; exact absurd hcl (by decide)
      | push e r hp hb hr => exact ⟨h1, by simp only [List.length_append, List.length_cons, List.length_nil]; omega⟩
      | prodExit hp' hb hc' =>
        have := congrArg List.length l2
        simp only [hb, List.length_append, List.length_nil] at this
        omega
      | consume e r hp hr => rw [l3] at hp; exact absurd hp (by decide)
      | consExit => exact ⟨h1, h2⟩
      | close => exact ⟨h1, h2⟩
  exact key.1

/-- Such a state is reached with any batch larger than the room left. -/
theorem shutdown_hang_reachable (cap : Nat) (es : List E) (hes : cap < es.length) :
    ∃ s : St E, Steps cap initial s ∧ s.closed = true ∧ s.consDone = true ∧ s.prodDone = false ∧ s.chan.length ≤ cap ∧
      cap < s.chan.length + s.batch.length ∧ ∀ s', Steps cap s s' → s'.prodDone = false := by
  let s : St E := ⟨es, es, [], [], true, false, true⟩
  have h : Steps cap initial s :=
    ((Steps.one (Step.fetch (initial : St E) es rfl rfl rfl)).tail (Step.close _ rfl)).tail (Step.consExit _ rfl rfl)
  exact ⟨s, h, rfl, rfl, rfl, Nat.zero_le _, by simpa [s] using hes, fun s' hs => shutdown_hangs hs rfl rfl rfl (by simpa [s] using hes) (Nat.zero_le _)⟩

example : Steps 2 (initial : St Nat) ⟨[5, 6, 7], [7], [6], [5], false, false, false⟩ :=
  ((((Steps.one (Step.fetch initial [5, 6, 7] rfl rfl rfl)).tail (Step.push _ 5 [6, 7] rfl rfl (by decide))).tail
    (Step.push _ 6 [7] rfl rfl (by decide)))).tail (Step.consume _ 5 [6] rfl rfl)

/-! ### Counters -/

/-- The name under which a subscription is counted (self_metrics.go:108-114): what follows the first `-`, up to the second. -/
def rawName (n : Bytes) : Bytes :=
  match Ip.split 45 n with
  | [] => []
  | [a] => a
  | _ :: b :: _ => b

/-- `constnames.OtherEvent`. -/
def other : Bytes := [111, 116, 104, 101, 114]

/-- `newDynamicStats` (self_metrics.go:102-119). -/
def newStats (subs : List Bytes) : AMap Bytes Nat :=
  AMap.set (subs.foldl (fun m n => AMap.set m (rawName n) 0) []) other 0

/-- `dynamicStats.add` with value 1 (self_metrics.go:121-129, cgoreceiver.go:94). -/
def addStat (m : AMap Bytes Nat) (n : Bytes) : AMap Bytes Nat :=
  match m.get n with
  | some v => AMap.set m n (v + 1)
  | none => match m.get other with
    | some v => AMap.set m other (v + 1)
    | none => m

/-- What each counter should say: events of that name, and under `other` those without a counter. -/
def expected (names : List Bytes) (es : List Bytes) (n : Bytes) : Nat :=
  if n = other then (es.filter (fun e => !(names.contains e) || e == other)).length else (es.filter (fun e => e == n)).length

theorem newStats_get (subs : List Bytes) (n : Bytes) :
    (newStats subs).get n = if n = other ∨ n ∈ subs.map rawName then some 0 else none := by
  have key : ∀ (subs : List Bytes) (m : AMap Bytes Nat), (∀ n, m.get n = none ∨ m.get n = some 0) → ∀ n,
      AMap.get (subs.foldl (fun m n => AMap.set m (rawName n) 0) m) n = if n ∈ subs.map rawName then some 0 else m.get n := by
    intro subs
    induction subs with
    | nil => intro m _ n; simp
    | cons x r ih =>
      intro m hm n
      simp only [List.foldl_cons, List.map_cons, List.mem_cons]
      rw [ih _ (fun n => by rw [AMap.get_set]; split; exact Or.inr rfl; exact hm n) n, AMap.get_set]
      by_cases h1 : n ∈ r.map rawName
      · simp [h1]
      · by_cases h2 : n = rawName x
        · simp [h2]
        · simp [h1, h2, Ne.symm h2]
  simp only [newStats, AMap.get_set]
  rw [key subs [] (fun n => Or.inl rfl) n]
  by_cases h : n = other
  · simp [h]
  · simp [h, Ne.symm h]

theorem stats_step (names es : List Bytes) (e : Bytes) (m : AMap Bytes Nat)
    (ih : ∀ n, m.get n = if n = other ∨ n ∈ names then some (expected names es n) else none) (n : Bytes) :
    (addStat m e).get n = if n = other ∨ n ∈ names then some (expected names (es ++ [e]) n) else none := by
  unfold addStat
  by_cases he : e = other ∨ e ∈ names
  · rw [ih e, if_pos he]
    simp only [AMap.get_set, ih n]
    by_cases hen : e = n
    · subst hen
      simp only [if_true, if_pos he, expected, List.filter_append, List.length_append]
      by_cases ho : e = other
      · subst ho; simp
      · simp [ho]
    · simp only [if_neg hen]
      by_cases hn : n = other ∨ n ∈ names
      · simp only [if_pos hn, expected, List.filter_append, List.length_append]
        by_cases ho : n = other
        · subst ho
          have hmem : e ∈ names := he.resolve_left hen
          simp [hmem, hen]
        · simp [ho, hen]
      · simp [if_neg hn]
  · rw [ih e, if_neg he, ih other, if_pos (Or.inl rfl)]
    simp only [AMap.get_set, ih n]
    simp only [not_or] at he
    by_cases hn : n = other
    · subst hn
      simp [expected, List.filter_append, he.2]
    · simp only [if_neg (Ne.symm hn)]
      by_cases hn' : n = other ∨ n ∈ names
      · have hne : e ≠ n := by rintro rfl; exact he.2 (hn'.resolve_left hn)
        simp [expected, hn, List.filter_append, hne]
      · simp [if_neg hn']

/-- C85: the counter of every subscribed name is exactly the number of events of that name, and `other` counts the rest. -/
theorem stats_exact (subs es : List Bytes) (n : Bytes) :
    (es.foldl addStat (newStats subs)).get n =
      if n = other ∨ n ∈ subs.map rawName then some (expected (subs.map rawName) es n) else none := by
  have key : ∀ (es done : List Bytes) (m : AMap Bytes Nat),
      (∀ n, m.get n = if n = other ∨ n ∈ subs.map rawName then some (expected (subs.map rawName) done n) else none) →
      (es.foldl addStat m).get n = if n = other ∨ n ∈ subs.map rawName then some (expected (subs.map rawName) (done ++ es) n) else none := by
    intro es
    induction es with
    | nil => intro done m hm; rw [List.foldl_nil, hm n, List.append_nil]
    | cons e r ih =>
      intro done m hm
      rw [List.foldl_cons, ih (done ++ [e]) _ (stats_step _ _ _ _ hm)]
      simp
  refine key es [] _ (fun n => ?_)
  rw [newStats_get]
  simp [expected]

/-- Every event is counted exactly once: by its own name or by `other`. -/
theorem stats_once (names es : List Bytes) (e : Bytes) :
    expected names (es ++ [e]) (if e ∈ names then e else other) = expected names es (if e ∈ names then e else other) + 1 ∧
    ∀ n, n = other ∨ n ∈ names → n ≠ (if e ∈ names then e else other) → expected names (es ++ [e]) n = expected names es n := by
  constructor
  · by_cases h : e ∈ names
    · by_cases ho : e = other
      · subst ho; simp [h, expected]
      · simp [h, expected, ho]
    · simp [h, expected]
  · intro n hin hn
    by_cases h : e ∈ names
    · rw [if_pos h] at hn
      by_cases ho : n = other
      · subst ho; simp [expected, h, Ne.symm hn]
      · simp [expected, ho, Ne.symm hn]
    · rw [if_neg h] at hn
      have hne : e ≠ n := by rintro rfl; exact h (hin.resolve_left hn)
      simp [expected, hn, hne]

example : rawName (bs "kprobe-tcp_close") = bs "tcp_close" ∧ rawName (bs "page-fault-user") = bs "fault" ∧
    rawName (bs "page_fault") = bs "page_fault" := by decide

/-- C85: the name without a dash is counted as it is; of others, what stands between the first dash and the second or the end. -/
theorem rawName_spec (a b c : Bytes) (ha : (45 : UInt8) ∉ a) (hb : (45 : UInt8) ∉ b) :
    rawName a = a ∧ rawName (a ++ 45 :: b) = b ∧ rawName (a ++ 45 :: (b ++ 45 :: c)) = b := by
  have ha' : ∀ x ∈ a, x ≠ (45 : UInt8) := fun x hx h => ha (h ▸ hx)
  have hb' : ∀ x ∈ b, x ≠ (45 : UInt8) := fun x hx h => hb (h ▸ hx)
  refine ⟨?_, ?_, ?_⟩
  · unfold rawName; rw [Ip.split_last a ha']
  · unfold rawName; rw [Ip.split_piece a b ha', Ip.split_last b hb']
  · unfold rawName; rw [Ip.split_piece a _ ha', Ip.split_piece b c hb']

end Kindling.Ctl.Receiver
