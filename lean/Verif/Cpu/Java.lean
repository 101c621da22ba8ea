import Verif.Cpu.Events
import Verif.Cpu.Expire
import Verif.Cpu.Signal
/-
Transactions that the Java agent reports: `ConsumeTransactionIdEvent` and `analyzerJavaTraceTime`
(cpuanalyzer/cpu_analyzer.go:104-165), with the expiry of delete_javatrace.go, up to the signal (send_trigger.go:24-41).

Simplified: an event is one step, so is a sweep (the queue of the transactions is raced for, see Cpu/Locks.lean, C100); the lookup of
the container is given with the event.
-/
namespace Kindling.Cpu.Java
open Kindling Kindling.Cpu.Events

/-- What `GetByContainerId` gives of a container (k8scache.go:105-113): workload, container and pod. -/
structure Names where
  workload : Bytes
  container : Bytes
  pod : Bytes
deriving DecidableEq

/-- `AttributeValue` (model/attribute_map.go). -/
inductive V
  | str (b : Bytes)
  | int (i : Int)
  | bool (b : Bool)
deriving DecidableEq

/-- The data group (cpu_analyzer.go:160-161): labels, timestamp, `request_total_time`. -/
structure Span where
  labels : AMap String V
  time : Nat
  total : Int
deriving DecidableEq

/-- `key := ev.TraceId + ev.PidString` (cpu_analyzer.go:124). -/
def key (e : TxEv) : Bytes := e.traceId ++ e.pid

/-- The labels (cpu_analyzer.go:140-159) for the entry `en` and the end `ex`; `ok` is `kubernetes.IsInitSuccess`. -/
def labels (ok : Bool) (find : Bytes → Option Names) (en ex : TxEv) : AMap String V :=
  let l : AMap String V :=
    [("is_slow", .bool true), ("pid", .int (Dec.parseInt 64 ex.pid).1), ("protocol", .str en.protocol), ("content_key", .str en.url),
     ("isInstallApm", .bool true), ("is_server", .bool true), ("trace_id", .str ex.traceId)]
  let l := if en.protocol = bs "http" then l.set "http_url" (.str en.url) else l
  if ok then match find ex.containerId with
    | some n => ((l.set "dst_workload_name" (.str n.workload)).set "dst_container" (.str n.container)).set "dst_pod" (.str n.pod)
    | none => l
  else l

/-- The times are unsigned 64-bit numbers; `slow` is `uint64(ca.cfg.JavaTraceSlowTime)`, in milliseconds (cpu_analyzer.go:136-138). -/
def took (en ex : TxEv) : UInt64 := Expire.spend (UInt64.ofNat en.time) (UInt64.ofNat ex.time)
def isSlow (slow : UInt64) (en ex : TxEv) : Bool := Expire.slowTrace slow (UInt64.ofNat en.time) (UInt64.ofNat ex.time)

/-- The span of an end (cpu_analyzer.go:139-161). -/
def span (ok : Bool) (find : Bytes → Option Names) (en ex : TxEv) : Span := ⟨labels ok find en ex, en.time, (took en ex).toInt64.toInt⟩

inductive Op
  | ev (ok : Bool) (find : Bytes → Option Names) (e : TxEv)
  | sweep

/-- `javaTraceExpiredQueue` and `javaTraces`, and the groups given to `ReceiveDataGroupAsSignal`. -/
structure St where
  exp : Expire.St Bytes TxEv
  out : List Span

def init : St := ⟨⟨[], []⟩, []⟩

/-- `analyzerJavaTraceTime` (cpu_analyzer.go:121-165) and one round of `JavaTraceDelete` (delete_javatrace.go:44-70). -/
def step (slow : UInt64) (delay : Nat) (s : St) : Nat × Op → St
  | (now, .sweep) => { s with exp := Expire.stepOp delay now s.exp .sweep }
  | (now, .ev ok find e) =>
    let s := { s with exp := Expire.stepOp delay now s.exp (.exit (key e)) }
    if e.isEntry = 1 then { s with exp := Expire.stepOp delay now s.exp (.put (key e) e) }
    else match s.exp.map.get (key e) with
      | none => s
      | some en => if isSlow slow en e then { s with out := s.out ++ [span ok find en e] } else s

def run (slow : UInt64) (delay : Nat) (s : St) (l : List (Nat × Op)) : St := l.foldl (step slow delay) s

/-- `ConsumeTransactionIdEvent` up to here (cpu_analyzer.go:104-118): without sampling only the timeline gets the event (C94). -/
def consumeTx (sampling : Bool) (slow : UInt64) (delay : Nat) (s : St) (now : Nat) (ok : Bool) (find : Bytes → Option Names) (e : Tcp.Metric.Ev)
    (t : Thread) : St :=
  if sampling then step slow delay s (now, .ev ok find (txEvent e t)) else s

/-! ### Specification -/

/-- The clock does not go back. -/
def Clock (l : List (Nat × Op)) : Prop := l.Pairwise (fun a b => a.1 ≤ b.1)

/-- An operation is an event of the transaction with this key. -/
def About (k : Bytes) : Op → Prop
  | .ev _ _ e => key e = k
  | .sweep => False

/-- It is an entry of it. -/
def Entry (k : Bytes) : Op → Prop
  | .ev _ _ e => key e = k ∧ e.isEntry = 1
  | .sweep => False

/-! ### Keys -/

/-- Transactions whose trace ids have one length are told apart: the key says the id and the process. -/
theorem key_inj {a b : TxEv} (hl : a.traceId.length = b.traceId.length) : key a = key b ↔ a.traceId = b.traceId ∧ a.pid = b.pid := by
  constructor
  · intro h
    exact List.append_inj h hl
  · rintro ⟨h1, h2⟩
    unfold key
    rw [h1, h2]

/-- Finding: without that they are not.  Whatever the id, the transaction of process 12 and that with one more digit of process 2 share
a key. -/
theorem keys_meet (id : Bytes) (a b : TxEv) (ha : a.traceId = id ++ bs "1") (ha' : a.pid = Dec.digits 2) (hb : b.traceId = id)
    (hb' : b.pid = Dec.digits 12) : key a = key b ∧ a.traceId ≠ b.traceId ∧ a.pid ≠ b.pid := by
  refine ⟨?_, ?_, ?_⟩
  · unfold key
    rw [ha, ha', hb, hb', List.append_assoc]
    congr 1
    simp [Dec.digits, Dec.digit, bs]
  · rw [ha, hb]
    intro h
    have := congrArg List.length h
    simp [bs] at this
  · rw [ha', hb']
    intro h
    exact absurd (Dec.digits_inj h) (by decide)

/-! ### The map -/

theorem sweep_keeps {delay now : Nat} (k : Bytes) : ∀ (q : List (Expire.Elem Bytes)) (m : AMap Bytes TxEv),
    (∀ x ∈ q, x.key = k → now < x.time + delay) →
    (Expire.sweep delay now q m).2.get k = m.get k ∧ ∀ x ∈ (Expire.sweep delay now q m).1, x ∈ q := by
  intro q
  induction q with
  | nil => intro m _; exact ⟨rfl, fun x hx => hx⟩
  | cons y q ih =>
    intro m h
    simp only [Expire.sweep]
    split
    · exact ⟨rfl, fun x hx => hx⟩
    · rename_i hn
      have hy : y.key ≠ k := fun he => hn (h y (by simp) he)
      obtain ⟨h1, h2⟩ := ih (m.del y.key) (fun x hx => h x (List.mem_cons_of_mem _ hx))
      exact ⟨h1.trans (AMap.get_del_ne _ hy), fun x hx => List.mem_cons_of_mem _ (h2 x hx)⟩

/-- Requests to forget the key are young at time `t`. -/
def Fresh (delay t : Nat) (k : Bytes) (s : St) : Prop := ∀ x ∈ s.exp.queue, x.key = k → t < x.time + delay

theorem fresh_step {slow : UInt64} {delay t : Nat} {k : Bytes} {s : St} (h : Fresh delay t k s) (o : Nat × Op)
    (ho : About k o.2 → t < o.1 + delay) (ht : o.1 ≤ t) : Fresh delay t k (step slow delay s o) := by
  obtain ⟨now, o⟩ := o
  cases o with
  | sweep =>
    intro x hx hk
    exact h x ((sweep_keeps k s.exp.queue s.exp.map (fun y hy hk => Nat.lt_of_le_of_lt ht (h y hy hk))).2 x hx) hk
  | ev ok find e =>
    have hq : (step slow delay s (now, .ev ok find e)).exp.queue = s.exp.queue ++ [⟨key e, now⟩] := by
      simp only [step]
      split
      · rfl
      · split
        · rfl
        · split <;> rfl
    intro x hx hk
    rw [hq] at hx
    rcases List.mem_append.1 hx with hx | hx
    · exact h x hx hk
    · cases List.mem_singleton.1 hx
      exact ho hk

theorem held_step {slow : UInt64} {delay t : Nat} {k : Bytes} {s : St} (h : Fresh delay t k s) (o : Nat × Op) (he : ¬ Entry k o.2)
    (ht : o.1 ≤ t) : (step slow delay s o).exp.map.get k = s.exp.map.get k := by
  obtain ⟨now, o⟩ := o
  cases o with
  | sweep => exact (sweep_keeps k s.exp.queue s.exp.map (fun y hy hk => Nat.lt_of_le_of_lt ht (h y hy hk))).1
  | ev ok find e =>
    simp only [step]
    split
    · rename_i h1
      have hk : key e ≠ k := fun hk => he ⟨hk, h1⟩
      exact AMap.get_set_ne _ _ hk
    · split
      · rfl
      · split <;> rfl

theorem fresh_run {slow : UInt64} {delay t : Nat} {k : Bytes} (l : List (Nat × Op)) {s : St} (h : Fresh delay t k s)
    (hl : ∀ o ∈ l, o.1 ≤ t ∧ (About k o.2 → t < o.1 + delay)) : Fresh delay t k (run slow delay s l) := by
  induction l generalizing s with
  | nil => exact h
  | cons o r ih =>
    exact ih (fresh_step h o (hl o (by simp)).2 (hl o (by simp)).1) (fun o' ho' => hl o' (List.mem_cons_of_mem _ ho'))

theorem held_run {slow : UInt64} {delay t : Nat} {k : Bytes} (l : List (Nat × Op)) {s : St} (h : Fresh delay t k s)
    (hl : ∀ o ∈ l, o.1 ≤ t ∧ (About k o.2 → t < o.1 + delay) ∧ ¬ Entry k o.2) :
    (run slow delay s l).exp.map.get k = s.exp.map.get k := by
  induction l generalizing s with
  | nil => rfl
  | cons o r ih =>
    have ho := hl o (by simp)
    rw [show run slow delay s (o :: r) = run slow delay (step slow delay s o) r from rfl,
      ih (fresh_step h o ho.2.1 ho.1) (fun o' ho' => hl o' (List.mem_cons_of_mem _ ho')), held_step h o ho.2.2 ho.1]

/-! ### Reports -/

theorem run_append (slow : UInt64) (delay : Nat) (s : St) (a b : List (Nat × Op)) :
    run slow delay s (a ++ b) = run slow delay (run slow delay s a) b := List.foldl_append

/-- A transaction that ends before it expires is reported exactly if it was slow: with the URL, protocol and time of its entry, the id
and process of its end, and the time between them; whatever happens to other transactions, and whenever the sweeps come.  What is asked of
other events of the same key: no entry in between, and none so old that it expires before the end. -/
theorem slow_is_reported (slow : UInt64) (delay : Nat) (a b : List (Nat × Op)) (t1 t2 : Nat) (ok1 ok2 : Bool) (f1 f2 : Bytes → Option Names)
    (en ex : TxEv) (hc : Clock (a ++ (t1, .ev ok1 f1 en) :: b ++ [(t2, .ev ok2 f2 ex)])) (hk : key en = key ex) (hen : en.isEntry = 1)
    (hex : ex.isEntry ≠ 1) (hb : ∀ o ∈ b, ¬ Entry (key ex) o.2) (ha : ∀ o ∈ a, About (key ex) o.2 → t2 < o.1 + delay)
    (ht : t2 < t1 + delay) :
    (run slow delay init (a ++ (t1, .ev ok1 f1 en) :: b ++ [(t2, .ev ok2 f2 ex)])).out =
      (run slow delay init (a ++ (t1, .ev ok1 f1 en) :: b)).out ++ (if isSlow slow en ex then [span ok2 f2 en ex] else []) := by
  have hp := List.pairwise_append.1 hc
  have hq := List.pairwise_append.1 hp.1
  have hle : ∀ o ∈ a ++ (t1, .ev ok1 f1 en) :: b, o.1 ≤ t2 := fun o ho => hp.2.2 o ho (t2, .ev ok2 f2 ex) (by simp)
  have hb1 : ∀ o ∈ b, t1 ≤ o.1 := fun o ho => (List.pairwise_cons.1 hq.2.1).1 o ho
  have hf0 : Fresh delay t2 (key ex) init := fun x hx => by cases hx
  have hf1 := fresh_run (slow := slow) a hf0 (fun o ho => ⟨hle o (by simp [ho]), ha o ho⟩)
  have hf2 := fresh_step (slow := slow) hf1 (t1, .ev ok1 f1 en) (fun _ => ht) (hle _ (by simp))
  have hg : (run slow delay init (a ++ (t1, .ev ok1 f1 en) :: b)).exp.map.get (key ex) = some en := by
    rw [run_append, show run slow delay (run slow delay init a) ((t1, .ev ok1 f1 en) :: b) =
      run slow delay (step slow delay (run slow delay init a) (t1, .ev ok1 f1 en)) b from rfl,
      held_run b hf2 (fun o ho => ⟨hle o (by simp [ho]), fun _ => Nat.lt_of_lt_of_le ht (Nat.add_le_add_right (hb1 o ho) _), hb o ho⟩)]
    simp only [step]
    rw [if_pos hen, ← hk]
    exact AMap.get_set_self _ _ _
  rw [run_append]
  simp only [run, List.foldl_cons, List.foldl_nil, step]
  rw [if_neg hex]
  have hg' : (Expire.stepOp delay t2 (List.foldl (step slow delay) init (a ++ (t1, .ev ok1 f1 en) :: b)).exp (.exit (key ex))).map.get (key ex) =
      some en := hg
  rw [hg']
  dsimp only
  split
  · rfl
  · simp

/-- Nothing is invented: every report belongs to an end in the history and an earlier entry with the same key, with more than the
threshold between them. -/
theorem reports_are_slow (slow : UInt64) (delay : Nat) (l : List (Nat × Op)) (r : Span) (hr : r ∈ (run slow delay init l).out) :
    ∃ (a b c : List (Nat × Op)) (t1 t2 : Nat) (ok1 ok2 : Bool) (f1 f2 : Bytes → Option Names) (en ex : TxEv),
      l = a ++ (t1, .ev ok1 f1 en) :: b ++ (t2, .ev ok2 f2 ex) :: c ∧ key en = key ex ∧ en.isEntry = 1 ∧ ex.isEntry ≠ 1 ∧
      isSlow slow en ex = true ∧ r = span ok2 f2 en ex := by
  have hm : ∀ (l : List (Nat × Op)) (k : Bytes) (en : TxEv), (run slow delay init l).exp.map.get k = some en →
      ∃ (a b : List (Nat × Op)) (t1 : Nat) (ok1 : Bool) (f1 : Bytes → Option Names),
        l = a ++ (t1, .ev ok1 f1 en) :: b ∧ key en = k ∧ en.isEntry = 1 := by
    intro l k en
    induction l using snoc_ind with
    | nil => intro h; cases h
    | snoc l o ih =>
      intro h
      rw [run_append] at h
      have ext : (run slow delay init l).exp.map.get k = some en → ∃ (a b : List (Nat × Op)) (t1 : Nat) (ok1 : Bool)
          (f1 : Bytes → Option Names), l ++ [o] = a ++ (t1, .ev ok1 f1 en) :: b ∧ key en = k ∧ en.isEntry = 1 := by
        intro h'
        obtain ⟨a, b, t1, ok1, f1, h1, h2⟩ := ih h'
        exact ⟨a, b ++ [o], t1, ok1, f1, by rw [h1]; simp, h2⟩
      obtain ⟨now, o⟩ := o
      simp only [run, List.foldl_cons, List.foldl_nil] at h
      cases o with
      | sweep =>
        refine ext ?_
        have sw : ∀ (q : List (Expire.Elem Bytes)) (m : AMap Bytes TxEv), (Expire.sweep delay now q m).2.get k = some en → m.get k = some en := by
          intro q
          induction q with
          | nil => exact fun m h => h
          | cons x q ihq =>
            intro m h
            simp only [Expire.sweep] at h
            split at h
            · exact h
            · have := ihq _ h
              rw [AMap.get_del] at this
              split at this
              · cases this
              · exact this
        exact sw _ _ h
      | ev ok find e =>
        simp only [step] at h
        split at h
        · rename_i h1
          have h' : (AMap.set (run slow delay init l).exp.map (key e) e).get k = some en := h
          rw [AMap.get_set] at h'
          split at h'
          · rename_i hke
            cases h'
            exact ⟨l, [], now, ok, find, rfl, hke, h1⟩
          · exact ext h'
        · split at h
          · exact ext h
          · split at h
            · exact ext h
            · exact ext h
  induction l using snoc_ind with
  | nil => cases hr
  | snoc l o ih =>
    have ext : r ∈ (run slow delay init l).out → ∃ (a b c : List (Nat × Op)) (t1 t2 : Nat) (ok1 ok2 : Bool) (f1 f2 : Bytes → Option Names)
        (en ex : TxEv), l ++ [o] = a ++ (t1, .ev ok1 f1 en) :: b ++ (t2, .ev ok2 f2 ex) :: c ∧ key en = key ex ∧ en.isEntry = 1 ∧
        ex.isEntry ≠ 1 ∧ isSlow slow en ex = true ∧ r = span ok2 f2 en ex := by
      intro h
      obtain ⟨a, b, c, t1, t2, ok1, ok2, f1, f2, en, ex, h1, h2⟩ := ih h
      exact ⟨a, b, c ++ [o], t1, t2, ok1, ok2, f1, f2, en, ex, by rw [h1]; simp, h2⟩
    rw [run_append] at hr
    obtain ⟨now, o⟩ := o
    simp only [run, List.foldl_cons, List.foldl_nil] at hr
    cases o with
    | sweep => exact ext hr
    | ev ok find e =>
      simp only [step] at hr
      split at hr
      · exact ext hr
      · rename_i h1
        split at hr
        · exact ext hr
        · rename_i en hg
          split at hr
          · rename_i hs
            rcases List.mem_append.1 hr with hr | hr
            · exact ext hr
            · obtain ⟨a, b, t1, ok1, f1, h2, h3, h4⟩ := hm l (key e) en hg
              exact ⟨a, b, [], t1, now, ok1, ok, f1, find, en, e, by rw [h2], h3, h4, h1, hs, List.mem_singleton.1 hr⟩
          · exact ext hr

/-- An end that comes after a sweep that found its entry expired is not reported, however slow the transaction was: no transaction of
`delay` and more plus an interval of sweeps is ever a signal. -/
theorem expired_is_lost (slow : UInt64) (delay : Nat) (a b c : List (Nat × Op)) (t1 ts t2 : Nat) (ok1 ok2 : Bool) (f1 f2 : Bytes → Option Names)
    (en ex : TxEv) (hc : Clock (a ++ (t1, .ev ok1 f1 en) :: b ++ (ts, .sweep) :: c ++ [(t2, .ev ok2 f2 ex)])) (hk : key en = key ex)
    (hex : ex.isEntry ≠ 1) (hb : ∀ o ∈ b ++ c, ¬ Entry (key ex) o.2) (ht : t1 + delay ≤ ts) :
    (run slow delay init (a ++ (t1, .ev ok1 f1 en) :: b ++ (ts, .sweep) :: c ++ [(t2, .ev ok2 f2 ex)])).out =
      (run slow delay init (a ++ (t1, .ev ok1 f1 en) :: b ++ (ts, .sweep) :: c)).out := by
  -- the queue is in order
  have hinv : ∀ (l : List (Nat × Op)) (s : St) (t : Nat), Expire.Inv t s.exp → Clock l → (∀ o ∈ l, t ≤ o.1) →
      ∃ t', (∀ o ∈ l, o.1 ≤ t') ∧ (t' = t ∨ ∃ o ∈ l, o.1 = t') ∧ Expire.Inv t' (run slow delay s l).exp := by
    intro l
    induction l with
    | nil => intro s t h _ _; exact ⟨t, by simp, Or.inl rfl, h⟩
    | cons o r ih =>
      intro s t h hcl hle
      have ho := hle o (by simp)
      have h1 : Expire.Inv o.1 (step slow delay s o).exp := by
        obtain ⟨now, o⟩ := o
        cases o with
        | sweep => exact Expire.step_inv h ho .sweep
        | ev ok find e =>
          have h2 : Expire.Inv now (Expire.stepOp delay now s.exp (.exit (key e))) := Expire.step_inv h ho (.exit (key e))
          simp only [step]
          split
          · exact Expire.step_inv (delay := delay) h2 (Nat.le_refl _) (.put (key e) e)
          · split
            · exact h2
            · split <;> exact h2
      have hcl' := List.pairwise_cons.1 hcl
      obtain ⟨t', h3, h4, h5⟩ := ih (step slow delay s o) o.1 h1 hcl'.2 hcl'.1
      refine ⟨t', ?_, ?_, h5⟩
      · intro o' ho'
        rcases List.mem_cons.1 ho' with rfl | ho'
        · rcases h4 with rfl | ⟨o2, ho2, rfl⟩
          · exact Nat.le_refl _
          · exact hcl'.1 o2 ho2
        · exact h3 o' ho'
      · rcases h4 with rfl | ⟨o2, ho2, rfl⟩
        · exact Or.inr ⟨o, by simp, rfl⟩
        · exact Or.inr ⟨o2, List.mem_cons_of_mem _ ho2, rfl⟩
  have horder : ∀ l, Clock l → Expire.Sorted (run slow delay init l).exp.queue := by
    intro l hl
    obtain ⟨t', _, _, h⟩ := hinv l init 0 ⟨List.Pairwise.nil, by simp [init]⟩ hl (fun o _ => Nat.zero_le _)
    exact h.1
  -- once in the queue, the entry is there or forgotten
  let W : St → Prop := fun s => (⟨key ex, t1⟩ : Expire.Elem Bytes) ∈ s.exp.queue ∨ s.exp.map.get (key ex) = none
  have hnone : ∀ (o : Nat × Op) (s : St), ¬ Entry (key ex) o.2 → s.exp.map.get (key ex) = none →
      (step slow delay s o).exp.map.get (key ex) = none := by
    intro o s ho hs
    obtain ⟨now, o⟩ := o
    cases o with
    | sweep =>
      have sw : ∀ (q : List (Expire.Elem Bytes)) (m : AMap Bytes TxEv), m.get (key ex) = none → (Expire.sweep delay now q m).2.get (key ex) = none := by
        intro q
        induction q with
        | nil => exact fun m h => h
        | cons x q ihq =>
          intro m h
          simp only [Expire.sweep]
          split
          · exact h
          · refine ihq _ ?_
            rw [AMap.get_del]
            split
            · rfl
            · exact h
      exact sw _ _ hs
    | ev ok find e =>
      simp only [step]
      split
      · rename_i h1
        have : key e ≠ key ex := fun hke => ho ⟨hke, h1⟩
        exact (AMap.get_set_ne _ _ this).trans hs
      · split
        · exact hs
        · split <;> exact hs
  have hW : ∀ (o : Nat × Op) (s : St), Expire.Sorted s.exp.queue → ¬ Entry (key ex) o.2 → W s → W (step slow delay s o) := by
    intro o s hso ho hw
    rcases hw with hw | hw
    · obtain ⟨now, o⟩ := o
      cases o with
      | sweep =>
        obtain ⟨g1, g2⟩ := Expire.sweep_spec delay now s.exp.queue s.exp.map hso
        by_cases hn : now < t1 + delay
        · exact Or.inl (by
            show _ ∈ (Expire.sweep delay now s.exp.queue s.exp.map).1
            rw [g1]
            exact List.mem_filter.2 ⟨hw, by simpa using hn⟩)
        · exact Or.inr ((g2 (key ex)).trans (if_pos ⟨_, hw, rfl, by simpa using hn⟩))
      | ev ok find e =>
        have hq : (step slow delay s (now, .ev ok find e)).exp.queue = s.exp.queue ++ [⟨key e, now⟩] := by
          simp only [step]
          split
          · rfl
          · split
            · rfl
            · split <;> rfl
        exact Or.inl (by rw [hq]; exact List.mem_append_left _ hw)
    · exact Or.inr (hnone o s ho hw)
  have hA : Clock (a ++ (t1, .ev ok1 f1 en) :: b) := (List.pairwise_append.1 (List.pairwise_append.1 hc).1).1
  have hWb : ∀ (pre : List (Nat × Op)), (∃ post, pre ++ post = b) → W (run slow delay init (a ++ (t1, .ev ok1 f1 en) :: pre)) := by
    intro pre
    induction pre using snoc_ind with
    | nil =>
      intro _
      refine Or.inl ?_
      rw [run_append]
      simp only [run, List.foldl_cons, List.foldl_nil, step]
      rw [hk]
      split
      · simp [Expire.stepOp]
      · split
        · simp [Expire.stepOp]
        · split <;> simp [Expire.stepOp]
    | snoc pre o ih =>
      rintro ⟨post, hpost⟩
      have hin : o ∈ b := by rw [← hpost]; simp
      rw [show a ++ (t1, Op.ev ok1 f1 en) :: (pre ++ [o]) = (a ++ (t1, .ev ok1 f1 en) :: pre) ++ [o] by simp, run_append]
      refine hW o _ ?_ (hb o (by simp [hin])) (ih ⟨o :: post, by rw [← hpost]; simp⟩)
      refine horder _ (List.Pairwise.sublist ?_ hA)
      rw [← hpost]
      refine List.Sublist.append_left (List.Sublist.cons_cons _ ?_) a
      rw [List.append_assoc]
      exact List.sublist_append_left _ _
  have hfin : (run slow delay init (a ++ (t1, .ev ok1 f1 en) :: b ++ (ts, .sweep) :: c)).exp.map.get (key ex) = none := by
    rw [run_append]
    have hs : (step slow delay (run slow delay init (a ++ (t1, .ev ok1 f1 en) :: b)) (ts, .sweep)).exp.map.get (key ex) = none := by
      rcases hWb b ⟨[], by simp⟩ with hw | hw
      · exact ((Expire.sweep_spec delay ts _ _ (horder _ hA)).2 (key ex)).trans (if_pos ⟨_, hw, rfl, ht⟩)
      · exact hnone (ts, .sweep) _ (fun h => h) hw
    have rest : ∀ (c : List (Nat × Op)) (s : St), (∀ o ∈ c, ¬ Entry (key ex) o.2) → s.exp.map.get (key ex) = none →
        (run slow delay s c).exp.map.get (key ex) = none := by
      intro c
      induction c with
      | nil => exact fun s _ h => h
      | cons o r ih =>
        exact fun s hl h => ih _ (fun o' ho' => hl o' (List.mem_cons_of_mem _ ho')) (hnone o s (hl o (by simp)) h)
    exact rest c _ (fun o ho => hb o (by simp [ho])) hs
  rw [run_append]
  simp only [run, List.foldl_cons, List.foldl_nil, step]
  rw [if_neg hex]
  have hg' : (Expire.stepOp delay t2 (List.foldl (step slow delay) init (a ++ (t1, .ev ok1 f1 en) :: b ++ (ts, .sweep) :: c)).exp
      (.exit (key ex))).map.get (key ex) = none := hfin
  rw [hg']

/-- Finding: an end does not remove its entry, so a second end is reported as well. -/
theorem second_end_reported (slow : UInt64) (delay : Nat) (s : St) (t1 t2 : Nat) (ok1 ok2 : Bool) (f1 f2 : Bytes → Option Names)
    (en ex ex' : TxEv) (hg : s.exp.map.get (key ex) = some en) (hk : key ex' = key ex) (h1 : ex.isEntry ≠ 1) (h2 : ex'.isEntry ≠ 1)
    (hs : isSlow slow en ex = true) (hs' : isSlow slow en ex' = true) :
    (run slow delay s [(t1, .ev ok1 f1 ex), (t2, .ev ok2 f2 ex')]).out = s.out ++ [span ok1 f1 en ex, span ok2 f2 en ex'] := by
  have hg1 : (Expire.stepOp delay t1 s.exp (.exit (key ex))).map.get (key ex) = some en := hg
  have e1 : step slow delay s (t1, .ev ok1 f1 ex) =
      ⟨Expire.stepOp delay t1 s.exp (.exit (key ex)), s.out ++ [span ok1 f1 en ex]⟩ := by
    simp only [step]
    rw [if_neg h1, hg1]
    dsimp only
    rw [if_pos hs]
  simp only [run, List.foldl_cons, List.foldl_nil]
  rw [e1]
  simp only [step]
  rw [if_neg h2, hk]
  have hg2 : (Expire.stepOp delay t2 (Expire.stepOp delay t1 s.exp (.exit (key ex))) (.exit (key ex))).map.get (key ex) = some en := hg
  rw [hg2]
  dsimp only
  rw [if_pos hs']
  simp

/-! ### What is reported -/

theorem get_labels (ok : Bool) (find : Bytes → Option Names) (en ex : TxEv) (k : String) :
    (span ok find en ex).labels.get k =
      if k = "dst_pod" then (if ok then find ex.containerId else none).map (fun n => .str n.pod)
      else if k = "dst_container" then (if ok then find ex.containerId else none).map (fun n => .str n.container)
      else if k = "dst_workload_name" then (if ok then find ex.containerId else none).map (fun n => .str n.workload)
      else if k = "http_url" then (if en.protocol = bs "http" then some (.str en.url) else none)
      else if k = "is_slow" then some (.bool true)
      else if k = "pid" then some (.int (Dec.parseInt 64 ex.pid).1)
      else if k = "protocol" then some (.str en.protocol)
      else if k = "content_key" then some (.str en.url)
      else if k = "isInstallApm" then some (.bool true)
      else if k = "is_server" then some (.bool true)
      else if k = "trace_id" then some (.str ex.traceId)
      else none := by
  have base : ∀ (p : Int) (pr u t : Bytes), AMap.get [("is_slow", V.bool true), ("pid", .int p), ("protocol", .str pr), ("content_key", .str u),
     ("isInstallApm", .bool true), ("is_server", .bool true), ("trace_id", .str t)] k =
      if k = "is_slow" then some (.bool true)
      else if k = "pid" then some (.int p)
      else if k = "protocol" then some (.str pr)
      else if k = "content_key" then some (.str u)
      else if k = "isInstallApm" then some (.bool true)
      else if k = "is_server" then some (.bool true)
      else if k = "trace_id" then some (.str t)
      else none := by
    intro p pr u t
    simp only [AMap.get, eq_comm (b := k)]
  have hurl : ∀ (l : AMap String V), (if en.protocol = bs "http" then l.set "http_url" (.str en.url) else l).get k =
      if en.protocol = bs "http" ∧ k = "http_url" then some (.str en.url) else l.get k := by
    intro l
    by_cases h : en.protocol = bs "http"
    · rw [if_pos h, AMap.get_set]
      simp only [h, true_and, eq_comm (b := k)]
    · rw [if_neg h, if_neg (fun hh => h hh.1)]
  have hn : ∀ (l : AMap String V), (if ok then match find ex.containerId with
      | some n => ((l.set "dst_workload_name" (.str n.workload)).set "dst_container" (.str n.container)).set "dst_pod" (.str n.pod)
      | none => l else l).get k =
      match (if ok then find ex.containerId else none) with
      | some n => if k = "dst_pod" then some (.str n.pod) else if k = "dst_container" then some (.str n.container)
          else if k = "dst_workload_name" then some (.str n.workload) else l.get k
      | none => l.get k := by
    intro l
    cases ok with
    | false => rfl
    | true =>
      simp only [if_true]
      cases find ex.containerId with
      | none => rfl
      | some n => simp only [AMap.get_set, eq_comm (b := k)]
  show (labels ok find en ex).get k = _
  unfold labels
  dsimp only
  rw [hn, hurl, base]
  generalize (if ok then find ex.containerId else none) = n
  by_cases h1 : k = "dst_pod"
  · subst h1
    cases n <;> by_cases h : en.protocol = bs "http" <;> simp [h]
  · by_cases h2 : k = "dst_container"
    · subst h2
      cases n <;> by_cases h : en.protocol = bs "http" <;> simp [h]
    · by_cases h3 : k = "dst_workload_name"
      · subst h3
        cases n <;> by_cases h : en.protocol = bs "http" <;> simp [h]
      · by_cases h4 : k = "http_url"
        · subst h4
          cases n <;> by_cases h : en.protocol = bs "http" <;> simp [h]
        · cases n <;> simp only [h1, h2, h3, h4, and_false, if_false]

/-- The labels that are always there. -/
theorem span_labels (ok : Bool) (find : Bytes → Option Names) (en ex : TxEv) :
    (span ok find en ex).labels.get "trace_id" = some (.str ex.traceId) ∧ (span ok find en ex).labels.get "content_key" = some (.str en.url) ∧
    (span ok find en ex).labels.get "protocol" = some (.str en.protocol) ∧ (span ok find en ex).labels.get "is_slow" = some (.bool true) ∧
    (span ok find en ex).labels.get "is_server" = some (.bool true) ∧ (span ok find en ex).labels.get "isInstallApm" = some (.bool true) ∧
    (span ok find en ex).labels.get "http_url" = (if en.protocol = bs "http" then some (.str en.url) else none) := by
  simp only [get_labels]
  simp

/-- The workload, the container and the pod are there exactly if the metadata is marked as initialised and knows the container. -/
theorem span_names (ok : Bool) (find : Bytes → Option Names) (en ex : TxEv) :
    (span ok find en ex).labels.get "dst_workload_name" = (if ok then find ex.containerId else none).map (fun n => .str n.workload) ∧
    (span ok find en ex).labels.get "dst_container" = (if ok then find ex.containerId else none).map (fun n => .str n.container) ∧
    (span ok find en ex).labels.get "dst_pod" = (if ok then find ex.containerId else none).map (fun n => .str n.pod) := by
  simp only [get_labels]
  simp

/-- The process is that of the thread that sent the end. -/
theorem span_pid (ok : Bool) (find : Bytes → Option Names) (en : TxEv) (e : Tcp.Metric.Ev) (t : Thread) (ht : t.pid < 2 ^ 32) :
    (span ok find en (txEvent e t)).labels.get "pid" = some (.int t.pid) := by
  have hp : Dec.parseInt 64 (Dec.digits t.pid) = ((t.pid : Int), true) := by
    have := Dec.parseInt_formatInt 64 (t.pid : Int) (by omega) (by
      have : (t.pid : Int) < 2 ^ 32 := by exact_mod_cast ht
      omega)
    have hf : Dec.formatInt (t.pid : Int) = Dec.digits t.pid := by
      unfold Dec.formatInt
      rw [if_neg (by omega)]
      simp
    rwa [hf] at this
  have hpid : (txEvent e t).pid = Dec.digits t.pid := rfl
  rw [get_labels, hpid, hp]
  simp

/-- For times in order, slow is more than the threshold in milliseconds, the span begins at the entry and its value is the time it took. -/
theorem took_exact (slow : UInt64) (ok : Bool) (find : Bytes → Option Names) (en ex : TxEv) (h : en.time ≤ ex.time) (hx : ex.time < 2 ^ 63) (hm : slow.toNat * 1000000 < 2 ^ 64) :
    (isSlow slow en ex = true ↔ en.time + slow.toNat * 1000000 < ex.time) ∧ (span ok find en ex).time = en.time ∧
    (span ok find en ex).total = (ex.time - en.time : Nat) := by
  have h1 : (UInt64.ofNat en.time).toNat = en.time := by
    rw [UInt64.toNat_ofNat']; omega
  have h2 : (UInt64.ofNat ex.time).toNat = ex.time := by
    rw [UInt64.toNat_ofNat']; omega
  have hle : UInt64.ofNat en.time ≤ UInt64.ofNat ex.time := by rw [UInt64.le_iff_toNat_le, h1, h2]; exact h
  refine ⟨?_, rfl, ?_⟩
  · have := Expire.slowTrace_iff_partial slow (UInt64.ofNat en.time) (UInt64.ofNat ex.time) hle hm
    rw [h1, h2] at this
    exact this
  · have hs : (took en ex).toNat = ex.time - en.time := by
      unfold took Expire.spend
      rw [UInt64.toNat_sub_of_le _ _ hle, h1, h2]
    have e1 : (span ok find en ex).total = (took en ex).toBitVec.toInt := rfl
    rw [e1, BitVec.toInt_eq_toNat_cond]
    have e2 : (took en ex).toBitVec.toNat = (took en ex).toNat := rfl
    rw [e2, hs, if_pos (by omega)]

/-- An event is an entry exactly if its text is the number one; every other text, also one that is no number, makes it an end. -/
theorem entry_iff (e : Tcp.Metric.Ev) (t : Thread) :
    (txEvent e t).isEntry = 1 ↔ ∃ n, getString e "is_enter" = List.replicate n 48 ++ [49] := by
  show parseUint 32 (getString e "is_enter") = 1 ↔ _
  generalize getString e "is_enter" = s
  have hgo : ∀ (s : Bytes) (n : Nat), 1 ≤ n → n < 2 ^ 32 → (parseGo 32 n s = 1 ↔ s = [] ∧ n = 1) := by
    intro s
    induction s with
    | nil => intro n h1 h2; simp [parseGo]
    | cons c r ih =>
      intro n h1 h2
      simp only [parseGo]
      split
      · split
        · constructor
          · intro h; omega
          · rintro ⟨h, _⟩; cases h
        · rw [ih _ (by omega) (by omega)]
          constructor
          · rintro ⟨_, h⟩; omega
          · rintro ⟨h, _⟩; cases h
      · constructor
        · intro h; omega
        · rintro ⟨h, _⟩; cases h
  unfold parseUint
  induction s with
  | nil =>
    constructor
    · intro h; cases h
    · rintro ⟨n, h⟩
      have := congrArg List.length h
      simp at this
  | cons c r ih =>
    simp only [parseGo]
    have hc48 : c = 48 ↔ c.toNat = 48 := ⟨fun h => by rw [h]; rfl, fun h => UInt8.toNat_inj.1 h⟩
    have hc49 : c = 49 ↔ c.toNat = 49 := ⟨fun h => by rw [h]; rfl, fun h => UInt8.toNat_inj.1 h⟩
    split
    · rename_i hd
      rw [if_neg (by omega)]
      by_cases h0 : c.toNat = 48
      · have e0 : 0 * 10 + (c.toNat - 48) = 0 := by omega
        rw [e0, hc48.2 h0]
        refine Iff.trans ih ?_
        constructor
        · rintro ⟨n, h⟩
          exact ⟨n + 1, by rw [h, List.replicate_succ]; rfl⟩
        · rintro ⟨n, h⟩
          cases n with
          | zero => cases h
          | succ n =>
            rw [List.replicate_succ] at h
            exact ⟨n, (List.cons.inj h).2⟩
      · rw [hgo r _ (by omega) (by omega)]
        constructor
        · rintro ⟨h1, h2⟩
          exact ⟨0, by rw [h1, hc49.2 (by omega)]; rfl⟩
        · rintro ⟨n, h⟩
          cases n with
          | zero =>
            have hi := List.cons.inj h
            have := hc49.1 hi.1
            exact ⟨hi.2, by omega⟩
          | succ n =>
            rw [List.replicate_succ] at h
            exact absurd (hc48.1 (List.cons.inj h).1) h0
    · rename_i hd
      constructor
      · intro h; cases h
      · rintro ⟨n, h⟩
        cases n with
        | zero => exact absurd (hc49.1 (List.cons.inj h).1) (by omega)
        | succ n =>
          rw [List.replicate_succ] at h
          exact absurd (hc48.1 (List.cons.inj h).1) (by omega)

/-! ### The signal -/

/-- How `ReceiveDataGroupAsSignal` (send_trigger.go:29-41) reads the group; `str` is the text of a string of bytes. -/
def toTrace (str : Bytes → String) (id : Nat) (r : Span) : Signal.Trace :=
  { id := id
    pid := match r.labels.get "pid" with | some (.int i) => i | _ => 0
    contentKey := match r.labels.get "content_key" with | some (.str b) => str b | _ => ""
    isSlow := match r.labels.get "is_slow" with | some (.bool b) => b | _ => false
    isServer := match r.labels.get "is_server" with | some (.bool b) => b | _ => false
    fromApm := match r.labels.get "isInstallApm" with | some (.bool b) => b | _ => false
    duration := some r.total }

/-- With the profile running a reported transaction waits as a signal under its URL and process, unless one is waiting there already; from
then on the requests of the process as seen by the probe are no signals; the timeline of requests gets nothing. -/
theorem report_is_signal (str : Bytes → String) (id : Nat) (s : Signal.St) (hs : s.enabled = true) (ok : Bool) (find : Bytes → Option Names)
    (en : TxEv) (e : Tcp.Metric.Ev) (t : Thread) (ht : t.pid < 2 ^ 32) :
    let d := toTrace str id (span ok find en (txEvent e t))
    let s' := Signal.receive s d
    Signal.key d = str en.url ++ toString (t.pid : Int) ∧ s'.samples.get (Signal.key d) = some ((s.samples.get (Signal.key d)).getD d) ∧
    s'.apm.get t.pid = some true ∧ s'.traces = s.traces ∧ s'.triggers = s.triggers ∧
    ∀ x : Signal.Trace, x.pid = t.pid → x.fromApm = false → (Signal.receive s' x).samples = s'.samples := by
  intro d s'
  obtain ⟨_, l2, _, l4, l5, l6, _⟩ := span_labels ok find en (txEvent e t)
  have l7 := span_pid ok find en e t ht
  have d1 : d.pid = t.pid := by simp [d, toTrace, l7]
  have d2 : d.contentKey = str en.url := by simp [d, toTrace, l2]
  have d3 : d.isSlow = true := by simp [d, toTrace, l4]
  have d4 : d.fromApm = true := by simp [d, toTrace, l6]
  have hr : s' = { s with apm := s.apm.set t.pid true, samples := Signal.loadOrStore s.samples d } := by
    show Signal.receive s d = _
    unfold Signal.receive
    simp [hs, d3, d4, d1]
  refine ⟨by unfold Signal.key; rw [d1, d2], ?_, ?_, by rw [hr], by rw [hr], ?_⟩
  · rw [hr]
    show (Signal.loadOrStore s.samples d).get (Signal.key d) = _
    unfold Signal.loadOrStore
    cases h : s.samples.get (Signal.key d) with
    | some v => exact h
    | none => exact AMap.get_set_self _ _ _
  · rw [hr]
    exact AMap.get_set_self _ _ _
  · intro x hx hfx
    have ha : s'.apm.get x.pid = some true := by rw [hx, hr]; exact AMap.get_set_self _ _ _
    have he : s'.enabled = true := by rw [hr]; exact hs
    unfold Signal.receive
    simp only [he, hfx, ha, Option.getD_some, Bool.not_true, Bool.false_eq_true, if_false, if_true]
    split
    · rfl
    · split <;> rfl

/-- Without sampling there is no report, whatever comes. -/
theorem no_sampling (slow : UInt64) (delay : Nat) (s : St) (now : Nat) (ok : Bool) (find : Bytes → Option Names) (e : Tcp.Metric.Ev) (t : Thread) :
    consumeTx false slow delay s now ok find e t = s := rfl

/-- An entry of process 12 and an end 700 ms later are reported; a third process shares the key. -/
def exEn : TxEv := ⟨1000000000, bs "ab", 1, bs "http", bs "/x", bs "12", bs "c1"⟩
def exEx : TxEv := ⟨1700000000, bs "ab", 0, bs "http", bs "", bs "12", bs "c1"⟩
def exOther : TxEv := ⟨1800000000, bs "ab1", 0, bs "http", bs "", bs "2", bs "c2"⟩
example : Clock ([] ++ (5, .ev true (fun _ => none) exEn) :: [(6, .sweep)] ++ [(7, .ev true (fun _ => none) exEx)]) ∧ key exEn = key exEx ∧
    isSlow 500 exEn exEx = true ∧ 7 < 5 + 120 ∧ key exOther = key exEn := by
  refine ⟨by simp [Clock], by decide +kernel, ?_, by decide, by decide +kernel⟩
  exact (took_exact 500 true (fun _ => none) exEn exEx (by decide) (by decide) (by decide)).1.2 (by decide)

/-- The end of the other process, which never began anything, is reported with this URL. -/
example : (run 500 120 init [(5, .ev false (fun _ => none) exEn), (6, .ev false (fun _ => none) exOther)]).out =
    [span false (fun _ => none) exEn exOther] := by
  have hs : isSlow 500 exEn exOther = true := (took_exact 500 true (fun _ => none) exEn exOther (by decide) (by decide) (by decide)).1.2 (by decide)
  have := slow_is_reported 500 120 [] [] 5 6 false false (fun _ => none) (fun _ => none) exEn exOther (by simp [Clock]) (by decide +kernel) rfl
    (by decide) (fun _ h => by cases h) (fun _ h => by cases h) (by decide)
  rw [if_pos hs] at this
  exact this

end Kindling.Cpu.Java
