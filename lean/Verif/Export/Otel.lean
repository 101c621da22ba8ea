import Verif.Export.Prom
import Verif.Export.Adapter
/-
The OpenTelemetry exporter (component/consumer/exporter/otelexporter/{consume,instrument,agg_kind,otelexporter}.go)
on top of the default aggregator.

Simplified:
* the adapters are not part of this file: a call of `Consume` is given the adapted results (`Verif.Export.Adapter`);
* the OpenTelemetry library is its calls: a batch of measurements, a span, an observed value; the callback of a
  registered gauge observer runs once per collection (`observe`);
* `Consume` holds the exporter's mutex and the callback's `DumpSingle` holds the aggregator's lock: both are atomic steps;
* the `debug` messages and the self-metrics are not modelled.
-/
namespace Kindling.Export.Otel
open Kindling Kindling.Agg Kindling.Export.Prom

/-! ## Code -/

/-- agg_kind.go `MetricAggregationKind`: three known texts and any other text. -/
inductive MKind where
  | gauge | counter | histogram | other
deriving DecidableEq, Repr

/-- agg_kind.go: the two synchronous instruments. -/
inductive Ins where
  | counter | histogram
deriving DecidableEq, Repr

structure Cfg where
  /-- `metric_aggregation_map` -/
  kinds : String → Option MKind
  custom : List (String × Bytes)
  /-- the exporter kind supports spans (`defaultTracer` is not nil) -/
  tracer : Bool

inductive RType where
  | metric | trace | other
deriving DecidableEq, Repr

/-- tools/adapter `AdaptedResult`; `none` labels is a nil `AttrsMap`. -/
structure Adapted where
  type : RType
  attrs : List (String × AttrVal)
  labels : Option Labels
  ts : Nat
  metrics : List Metric
deriving DecidableEq, Repr

/-- What the library is told. -/
inductive Out where
  | batch (attrs : List (String × AttrVal)) (ms : List (String × Ins × Int))
  | span (attrs : List (String × AttrVal))
  | observed (name : String) (value : Int) (labels : List (String × Bytes))
deriving DecidableEq, Repr

/-- instrument.go:23-35: the aggregator, the instrument cache and the registered gauge observers, oldest first. -/
structure St where
  agg : State
  ins : AMap String Ins
  observers : List String
deriving DecidableEq

def St.empty : St := ⟨[], [], []⟩

def traceName : String := "kindling_trace_request_duration_nanoseconds"
def workloadName : String := "kindling_k8s_workload_info"

/-- instrument.go:44-56: the three aggregated metrics, all of kind `last`. -/
def otelKinds : KindMap := fun m =>
  if m = rttName ∨ m = traceName ∨ m = workloadName then some [⟨m, .last, []⟩] else none

/-- instrument.go:134-171. -/
def traceSelectors : List Selector :=
  [⟨"protocol", .string⟩, ⟨"is_server", .boolean⟩, ⟨"container_id", .string⟩, ⟨"src_node", .string⟩,
   ⟨"src_node_ip", .string⟩, ⟨"src_namespace", .string⟩, ⟨"src_pod", .string⟩, ⟨"src_workload_name", .string⟩,
   ⟨"src_workload_kind", .string⟩, ⟨"src_service", .string⟩, ⟨"src_ip", .string⟩, ⟨"src_container_id", .string⟩,
   ⟨"src_container", .string⟩, ⟨"dst_node", .string⟩, ⟨"dst_node_ip", .string⟩, ⟨"dst_namespace", .string⟩,
   ⟨"dst_pod", .string⟩, ⟨"dst_workload_name", .string⟩, ⟨"dst_workload_kind", .string⟩, ⟨"dst_service", .string⟩,
   ⟨"dst_ip", .string⟩, ⟨"dst_port", .int⟩, ⟨"dnat_ip", .string⟩, ⟨"dnat_port", .int⟩, ⟨"dst_container_id", .string⟩,
   ⟨"dst_container", .string⟩, ⟨"request_reqxfer_status", .string⟩, ⟨"request_processing_status", .string⟩,
   ⟨"response_rspxfer_status", .string⟩, ⟨"request_duration_status", .string⟩, ⟨"request_content", .string⟩,
   ⟨"response_content", .string⟩]

/-- instrument.go:173-198. -/
def rttSelectors : List Selector :=
  [⟨"src_node", .string⟩, ⟨"src_node_ip", .string⟩, ⟨"src_namespace", .string⟩, ⟨"src_pod", .string⟩,
   ⟨"src_workload_name", .string⟩, ⟨"src_workload_kind", .string⟩, ⟨"src_service", .string⟩, ⟨"src_ip", .string⟩,
   ⟨"src_port", .int⟩, ⟨"src_container_id", .string⟩, ⟨"src_container", .string⟩, ⟨"dst_node", .string⟩,
   ⟨"dst_node_ip", .string⟩, ⟨"dst_namespace", .string⟩, ⟨"dst_pod", .string⟩, ⟨"dst_workload_name", .string⟩,
   ⟨"dst_workload_kind", .string⟩, ⟨"dst_service", .string⟩, ⟨"dst_ip", .string⟩, ⟨"dst_port", .int⟩,
   ⟨"dst_container_id", .string⟩, ⟨"dst_container", .string⟩]

/-- instrument.go:200-206. -/
def workloadSelectors : List Selector :=
  [⟨"namespace", .string⟩, ⟨"workload_kind", .string⟩, ⟨"workload_name", .string⟩]

/-- instrument.go:121-132 `getSelector`. -/
def selector (name : String) : Option (List Selector) :=
  if name = traceName then some traceSelectors
  else if name = rttName then some rttSelectors
  else if name = workloadName then some workloadSelectors
  else none

/-- instrument.go:71-83 `createNewInstrument`. -/
def createIns : MKind → Ins
  | .counter => .counter
  | .histogram => .histogram
  | _ => .counter

/-- instrument.go:61-69 `getInstrument`. -/
def getIns (m : AMap String Ins) (name : String) (k : MKind) : AMap String Ins × Ins :=
  match AMap.get m name with
  | some i => (m, i)
  | none => (AMap.set m name (createIns k), createIns k)

/-- instrument.go:86-107 `recordLastValue`: registers the observer unless the aggregator knows the name, then records; `none`
is a panic (nil labels dereferenced by the selectors).  The error for a name without selector is logged only. -/
def recordLast (s : St) (name : String) (v : Int) (labels : Option Labels) (ts : Nat) : Option St :=
  let obs := if checkExist s.agg name then s.observers else s.observers ++ [name]
  match selector name with
  | none => some { s with observers := obs }
  | some sel => match labels with
    | none => none
    | some l => (aggregate otelKinds s.agg ⟨name, l, ts, [⟨name, .int v⟩]⟩ sel).map
        (fun a => { s with agg := a, observers := obs })

/-- consume.go:72-98: the loop of `exportMetric`. -/
def metricLoop (c : Cfg) (r : Adapted) : St → List (String × Ins × Int) → List Metric → Option (St × List (String × Ins × Int))
  | s, acc, [] => some (s, acc)
  | s, acc, m :: ms =>
    match c.kinds m.name, m.data with
    | some .gauge, .int v => match recordLast s m.name v r.labels r.ts with
      | none => none
      | some s' => metricLoop c r s' acc ms
    | some k, .int v => let p := getIns s.ins m.name k
      metricLoop c r { s with ins := p.1 } (acc ++ [(m.name, p.2, v)]) ms
    | _, _ => metricLoop c r s acc ms

/-- consume.go:70-102 `exportMetric`. -/
def exportMetric (c : Cfg) (s : St) (r : Adapted) : Option (St × List Out) :=
  (metricLoop c r s [] r.metrics).map (fun p => (p.1, if p.2.isEmpty then [] else [.batch r.attrs p.2]))

/-- consume.go:44-54, 57-68: one result. -/
def exportOne (c : Cfg) (s : St) (r : Adapted) : Option (St × List Out) :=
  match r.type with
  | .metric => exportMetric c s r
  | .trace => some (s, if c.tracer then [.span r.attrs] else [])
  | .other => some (s, [])

/-- consume.go:42-55 `Export`, over the results of all adapters (30-38). -/
def exportAll (c : Cfg) (s : St) : List Adapted → Option (St × List Out)
  | [] => some (s, [])
  | r :: rs => match exportOne c s r with
    | none => none
    | some (s', o) => (exportAll c s' rs).map (fun p => (p.1, o ++ p.2))

/-- instrument.go:93-97, one dumped group; a metric that is not an integer would panic. -/
def observeGroup (c : Cfg) (name : String) (g : Group) : Option (List Out) :=
  match g.metrics with
  | [] => some []
  | m :: _ => match m.data with
    | .int v => some [.observed name v (labelText g.labels ++ c.custom)]
    | _ => none

/-- instrument.go:88-98: the callback of the observer. -/
def observe (c : Cfg) (s : St) (name : String) : Option (St × List Out) :=
  if name ∈ s.observers then
    match dumpSingle s.agg name with
    | none => none
    | some (a, gs) => (mapOpt (observeGroup c name) gs).map (fun os => ({ s with agg := a }, os.flatten))
  else some (s, [])

inductive OOp where
  | consume (rs : List Adapted)
  | observe (name : String)
  | restart
deriving DecidableEq

/-- One step; `restart` is a successful `NewMeter` (otelexporter.go:316-353, called hourly by 355-369): the factory is
replaced by a new one.  When stopping the old controller fails nothing changes. -/
def ostep (c : Cfg) (s : St) : OOp → Option (St × List Out)
  | .consume rs => exportAll c s rs
  | .observe n => observe c s n
  | .restart => some (St.empty, [])

def orun (c : Cfg) : St → List OOp → Option (St × List Out)
  | s, [] => some (s, [])
  | s, op :: ops => match ostep c s op with
    | none => none
    | some (s', o) => (orun c s' ops).map (fun p => (p.1, o ++ p.2))

/-! ## Specification -/

/-- The measurement a metric should cause. -/
def measure (c : Cfg) (m : Metric) : Option (String × Ins × Int) :=
  match c.kinds m.name, m.data with
  | some .counter, .int v => some (m.name, .counter, v)
  | some .other, .int v => some (m.name, .counter, v)
  | some .histogram, .int v => some (m.name, .histogram, v)
  | _, _ => none

/-- The batch or span a result should cause. -/
def wantedOne (c : Cfg) (r : Adapted) : List Out :=
  match r.type with
  | .metric => if r.metrics.filterMap (measure c) = [] then [] else [.batch r.attrs (r.metrics.filterMap (measure c))]
  | .trace => if c.tracer then [.span r.attrs] else []
  | .other => []

def wanted (c : Cfg) : OOp → List Out
  | .consume rs => rs.flatMap (wantedOne c)
  | _ => []

def isSync : Out → Bool
  | .observed .. => false
  | _ => true

/-- Values recorded for a gauge and a label set since it was last observed. -/
abbrev Rec := String → LabelKeys → List Int

/-- The gauge value a metric of a result carries: name, label set, value. -/
def gaugeValue (c : Cfg) (r : Adapted) (m : Metric) : Option (String × LabelKeys × Int) :=
  match c.kinds m.name, m.data, selector m.name, r.labels with
  | some .gauge, .int v, some sel, some l => some (m.name, getLabelKeys sel l, v)
  | _, _, _, _ => none

def Rec.add (A : Rec) : Option (String × LabelKeys × Int) → Rec
  | none => A
  | some e => fun n k => if n = e.1 ∧ k = e.2.1 then A n k ++ [e.2.2] else A n k

def Rec.result (c : Cfg) (A : Rec) (r : Adapted) : Rec :=
  if r.type = .metric then r.metrics.foldl (fun B m => B.add (gaugeValue c r m)) A else A

def Rec.step (c : Cfg) (A : Rec) : OOp → Rec
  | .consume rs => rs.foldl (Rec.result c) A
  | .observe m => fun n k => if n = m then [] else A n k
  | .restart => fun _ _ => []

def recorded (c : Cfg) (ops : List OOp) : Rec := ops.foldl (Rec.step c) (fun _ _ => [])

/-! ## Invariant -/

/-- What the aggregator holds for a series with values `vs`. -/
def Holds (n : String) (o : Option ValuesMap) (vs : List Int) : Prop :=
  match vs.getLast? with
  | none => o = none
  | some v => ∃ ts, o = some ⟨[(n, [⟨n, .last v⟩])], ts⟩

structure Inv (c : Cfg) (s : St) (A : Rec) : Prop where
  vals : ∀ n k, Holds n (lookup s.agg n k) (A n k)
  wf : ∀ n r, AMap.get s.agg n = some r → AMap.WF r
  known : ∀ n r, AMap.get s.agg n = some r → n ∈ s.observers ∧ (selector n).isSome
  fed : ∀ n, n ∈ s.observers → (selector n).isSome → (AMap.get s.agg n).isSome
  once : (s.observers.filter (fun n => (selector n).isSome)).Nodup
  ins : ∀ n i, AMap.get s.ins n = some i → ∃ k, c.kinds n = some k ∧ i = createIns k

theorem inv_empty (c : Cfg) : Inv c St.empty (fun _ _ => []) where
  vals := fun _ _ => rfl
  wf := fun _ _ h => by cases h
  known := fun _ _ h => by cases h
  fed := fun _ h => by cases h
  once := List.nodup_nil
  ins := fun _ _ h => by cases h

theorem kinds_of_selector {n : String} (h : (selector n).isSome) : otelKinds n = some [⟨n, .last, []⟩] := by
  unfold selector at h
  unfold otelKinds
  by_cases h1 : n = traceName
  · simp [h1]
  · by_cases h2 : n = rttName
    · simp [h2]
    · by_cases h3 : n = workloadName
      · simp [h3]
      · simp [h1, h2, h3] at h

theorem holds_record {n : String} (hs : (selector n).isSome) {r : Recorder} {k : LabelKeys} {vs : List Int}
    (h : Holds n (AMap.get r k) vs) (v : Int) (ts : Nat) :
    ∃ vm, Recorder.record otelKinds r k [⟨n, .int v⟩] ts = some (AMap.set r k vm) ∧ Holds n (some vm) (vs ++ [v]) := by
  have hk := kinds_of_selector hs
  refine ⟨⟨[(n, [⟨n, .last v⟩])], ts⟩, ?_, by simp [Holds]⟩
  unfold Holds at h
  cases hl : vs.getLast? with
  | none =>
    simp only [hl] at h
    simp [Recorder.record, Recorder.loadOrNew, h, newAggValuesMap, hk, ValuesMap.recordAll, ValuesMap.calculate, AMap.set, AMap.get,
      newAggValue, Acc.init, mapOpt, AggVal.apply, Acc.apply, Acc.calculate]
  | some w =>
    simp only [hl] at h
    obtain ⟨t, h⟩ := h
    simp [Recorder.record, Recorder.loadOrNew, h, ValuesMap.recordAll, ValuesMap.calculate, AMap.set, AMap.get,
      mapOpt, AggVal.apply, Acc.apply, Acc.calculate]

/-- A gauge value with labels is recorded. -/
theorem record_inv {c : Cfg} {s : St} {A : Rec} (h : Inv c s A) (n : String) {sel : List Selector} (hs : selector n = some sel)
    (v : Int) (l : Labels) (ts : Nat) :
    ∃ s', recordLast s n v (some l) ts = some s' ∧ Inv c s' (A.add (some (n, getLabelKeys sel l, v))) ∧ s'.ins = s.ins := by
  have hsome : (selector n).isSome := by rw [hs]; rfl
  have hl : ∀ k, AMap.get ((AMap.get s.agg n).getD []) k = lookup s.agg n k := by
    intro k; simp only [lookup]; cases AMap.get s.agg n <;> rfl
  have hv := h.vals n (getLabelKeys sel l)
  rw [← hl] at hv
  obtain ⟨vm, hrec, hh⟩ := holds_record hsome hv v ts
  refine ⟨⟨AMap.set s.agg n (AMap.set ((AMap.get s.agg n).getD []) (getLabelKeys sel l) vm), s.ins,
    if checkExist s.agg n then s.observers else s.observers ++ [n]⟩, ?_, ?_, rfl⟩
  · simp only [recordLast, hs, aggregate, hrec, Option.map_some]
  · have hobs : ∀ x, x ∈ (if checkExist s.agg n then s.observers else s.observers ++ [n]) ↔ x ∈ s.observers ∨ x = n := by
      intro x
      by_cases hc : checkExist s.agg n = true
      · simp only [hc, if_true]
        refine ⟨Or.inl, ?_⟩
        rintro (hx | rfl)
        · exact hx
        · simp only [checkExist, Option.isSome_iff_exists] at hc
          obtain ⟨r, hr⟩ := hc
          exact (h.known _ _ hr).1
      · simp [hc]
    refine ⟨?_, ?_, ?_, ?_, ?_, h.ins⟩
    · intro n' k'
      simp only [lookup_set, Rec.add]
      by_cases hn : n = n'
      · subst hn
        simp only [if_true, true_and, AMap.get_set]
        by_cases hk : getLabelKeys sel l = k'
        · subst hk; simp only [if_true]; exact hh
        · simp only [hk, if_false, Ne.symm hk]
          rw [hl]; exact h.vals n k'
      · simp only [hn, if_false, Ne.symm hn, false_and]
        exact h.vals n' k'
    · intro n' r hr
      rw [AMap.get_set] at hr
      split at hr
      · cases hr
        refine AMap.WF.set ?_ _ _
        cases hg : AMap.get s.agg n with
        | none => exact AMap.wf_nil
        | some r => exact h.wf _ _ hg
      · exact h.wf _ _ hr
    · intro n' r hr
      rw [hobs]
      rw [AMap.get_set] at hr
      split at hr
      · rename_i he; subst he; exact ⟨Or.inr rfl, hsome⟩
      · exact ⟨Or.inl (h.known _ _ hr).1, (h.known _ _ hr).2⟩
    · intro n' hn' hs'
      rw [hobs] at hn'
      rw [AMap.get_set]
      split
      · rfl
      · rename_i hne
        rcases hn' with hx | rfl
        · exact h.fed n' hx hs'
        · exact absurd rfl hne
    · by_cases hc : checkExist s.agg n = true
      · simp only [hc, if_true]; exact h.once
      · simp only [hc, Bool.false_eq_true, if_false, List.filter_append]
        rw [List.nodup_append]
        refine ⟨h.once, by simp [List.filter, hsome], ?_⟩
        intro a ha b hb hab
        subst hab
        simp only [List.filter_cons, hsome, if_true, List.filter_nil, List.mem_singleton] at hb
        subst hb
        have := h.fed a (List.mem_filter.1 ha).1 hsome
        exact hc this

/-- The result's labels are present wherever a gauge value needs them. -/
def SafeMetric (c : Cfg) (r : Adapted) (m : Metric) : Prop :=
  ¬ (c.kinds m.name = some .gauge ∧ (∃ v, m.data = .int v) ∧ (selector m.name).isSome ∧ r.labels = none)

theorem recordLast_none {c : Cfg} {s : St} {A : Rec} (h : Inv c s A) (n : String) (hs : selector n = none)
    (v : Int) (l : Option Labels) (ts : Nat) :
    recordLast s n v l ts = some { s with observers := s.observers ++ [n] } ∧
      Inv c { s with observers := s.observers ++ [n] } A := by
  have hn : checkExist s.agg n = false := by
    cases hg : AMap.get s.agg n with
    | none => simp [checkExist, hg]
    | some r => have := (h.known _ _ hg).2; rw [hs] at this; cases this
  refine ⟨by simp [recordLast, hs, hn], h.vals, h.wf, ?_, ?_, ?_, h.ins⟩
  · intro n' r hr
    exact ⟨List.mem_append_left _ (h.known _ _ hr).1, (h.known _ _ hr).2⟩
  · intro n' hn' hs'
    rcases List.mem_append.1 hn' with hx | hx
    · exact h.fed n' hx hs'
    · simp only [List.mem_singleton] at hx; subst hx; rw [hs] at hs'; cases hs'
  · simp only [List.filter_append, List.filter_cons, hs, Option.isSome_none, Bool.false_eq_true, if_false, List.filter_nil,
      List.append_nil]
    exact h.once

theorem getIns_spec {c : Cfg} {s : St} {A : Rec} (h : Inv c s A) (n : String) (k : MKind) (hk : c.kinds n = some k) :
    (getIns s.ins n k).2 = createIns k ∧ Inv c { s with ins := (getIns s.ins n k).1 } A := by
  unfold getIns
  cases hg : AMap.get s.ins n with
  | some i =>
    obtain ⟨k', hk', rfl⟩ := h.ins _ _ hg
    rw [hk] at hk'; cases hk'
    exact ⟨rfl, h⟩
  | none =>
    refine ⟨rfl, h.vals, h.wf, h.known, h.fed, h.once, ?_⟩
    intro n' i hi
    simp only [AMap.get_set] at hi
    split at hi
    · rename_i he; subst he; cases hi; exact ⟨k, hk, rfl⟩
    · exact h.ins _ _ hi

theorem metricLoop_spec {c : Cfg} (r : Adapted) (ms : List Metric) {s : St} {A : Rec} (h : Inv c s A) (acc : List (String × Ins × Int)) :
    (¬ (∀ m ∈ ms, SafeMetric c r m) → metricLoop c r s acc ms = none) ∧
    ((∀ m ∈ ms, SafeMetric c r m) → ∃ s', metricLoop c r s acc ms = some (s', acc ++ ms.filterMap (measure c)) ∧
      Inv c s' (ms.foldl (fun B m => B.add (gaugeValue c r m)) A)) := by
  induction ms generalizing s A acc with
  | nil => exact ⟨fun hn => absurd (fun m hm => by cases hm) hn, fun _ => ⟨s, by simp [metricLoop], h⟩⟩
  | cons m ms ih =>
    have skip : measure c m = none → gaugeValue c r m = none → SafeMetric c r m →
        (metricLoop c r s acc (m :: ms) = metricLoop c r s acc ms) →
        (¬ (∀ x ∈ m :: ms, SafeMetric c r x) → metricLoop c r s acc (m :: ms) = none) ∧
        ((∀ x ∈ m :: ms, SafeMetric c r x) → ∃ s', metricLoop c r s acc (m :: ms) = some (s', acc ++ (m :: ms).filterMap (measure c)) ∧
          Inv c s' ((m :: ms).foldl (fun B m => B.add (gaugeValue c r m)) A)) := by
      intro e1 e2 e3 e4
      rw [e4]
      obtain ⟨i1, i2⟩ := ih h acc
      refine ⟨fun hn => i1 (fun hall => hn ?_), fun hall => ?_⟩
      · intro x hx
        rcases List.mem_cons.1 hx with rfl | hx
        · exact e3
        · exact hall x hx
      · obtain ⟨s', a, b⟩ := i2 (fun x hx => hall x (List.mem_cons_of_mem _ hx))
        refine ⟨s', ?_, ?_⟩
        · rw [a, List.filterMap_cons_none e1]
        · simpa only [List.foldl_cons, e2, Rec.add] using b
    have safeOf : c.kinds m.name ≠ some .gauge → SafeMetric c r m := fun hne hs => hne hs.1
    cases hd : m.data with
    | hist hh =>
      exact skip (by unfold measure; rw [hd]; split <;> simp_all) (by unfold gaugeValue; rw [hd]; split <;> simp_all)
        (fun hs => by obtain ⟨_, ⟨v, hv⟩, _⟩ := hs; rw [hd] at hv; cases hv)
        (by simp only [metricLoop, hd]; cases c.kinds m.name with
          | none => rfl
          | some k => cases k <;> rfl)
    | none =>
      exact skip (by unfold measure; rw [hd]; split <;> simp_all) (by unfold gaugeValue; rw [hd]; split <;> simp_all)
        (fun hs => by obtain ⟨_, ⟨v, hv⟩, _⟩ := hs; rw [hd] at hv; cases hv)
        (by simp only [metricLoop, hd]; cases c.kinds m.name with
          | none => rfl
          | some k => cases k <;> rfl)
    | int v =>
      cases hk : c.kinds m.name with
      | none =>
        exact skip (by simp only [measure, hk]) (by simp only [gaugeValue, hk]) (safeOf (by rw [hk]; simp))
          (by simp only [metricLoop, hk])
      | some k =>
        by_cases hg : k = .gauge
        · subst hg
          have em : measure c m = none := by simp only [measure, hk]
          cases hsel : selector m.name with
          | none =>
            obtain ⟨e, hi⟩ := recordLast_none h m.name hsel v r.labels r.ts
            obtain ⟨i1, i2⟩ := ih hi acc
            have hsafe : SafeMetric c r m := fun hs => by have := hs.2.2.1; rw [hsel] at this; cases this
            have eg : gaugeValue c r m = none := by simp only [gaugeValue, hk, hd, hsel]
            have el : metricLoop c r s acc (m :: ms) = metricLoop c r { s with observers := s.observers ++ [m.name] } acc ms := by
              simp only [metricLoop, hk, hd, e]
            rw [el]
            refine ⟨fun hn => i1 (fun hall => hn ?_), fun hall => ?_⟩
            · intro x hx
              rcases List.mem_cons.1 hx with rfl | hx
              · exact hsafe
              · exact hall x hx
            · obtain ⟨s', a, b⟩ := i2 (fun x hx => hall x (List.mem_cons_of_mem _ hx))
              refine ⟨s', by rw [a, List.filterMap_cons_none em], by simpa only [List.foldl_cons, eg, Rec.add] using b⟩
          | some sel =>
            cases hlab : r.labels with
            | none =>
              have hbad : ¬ SafeMetric c r m := fun hs => hs ⟨hk, ⟨v, hd⟩, by rw [hsel]; rfl, hlab⟩
              refine ⟨fun _ => ?_, fun hall => absurd (hall m (List.mem_cons_self ..)) hbad⟩
              simp only [metricLoop, hk, hd, recordLast, hsel, hlab]
            | some l =>
              obtain ⟨s1, e, hi, _⟩ := record_inv h m.name hsel v l r.ts
              obtain ⟨i1, i2⟩ := ih hi acc
              have hsafe : SafeMetric c r m := fun hs => by have := hs.2.2.2; rw [hlab] at this; cases this
              have eg : gaugeValue c r m = some (m.name, getLabelKeys sel l, v) := by simp only [gaugeValue, hk, hd, hsel, hlab]
              have el : metricLoop c r s acc (m :: ms) = metricLoop c r s1 acc ms := by
                simp only [metricLoop, hk, hd, hlab, e]
              rw [el]
              refine ⟨fun hn => i1 (fun hall => hn ?_), fun hall => ?_⟩
              · intro x hx
                rcases List.mem_cons.1 hx with rfl | hx
                · exact hsafe
                · exact hall x hx
              · obtain ⟨s', a, b⟩ := i2 (fun x hx => hall x (List.mem_cons_of_mem _ hx))
                refine ⟨s', by rw [a, List.filterMap_cons_none em], by simpa only [List.foldl_cons, eg] using b⟩
        · obtain ⟨e, hi⟩ := getIns_spec h m.name k hk
          have em : measure c m = some (m.name, createIns k, v) := by
            cases k <;> first | exact absurd rfl hg | simp only [measure, hk, hd, createIns]
          have eg : gaugeValue c r m = none := by
            cases k <;> first | exact absurd rfl hg | simp only [gaugeValue, hk]
          have el : metricLoop c r s acc (m :: ms) =
              metricLoop c r { s with ins := (getIns s.ins m.name k).1 } (acc ++ [(m.name, createIns k, v)]) ms := by
            rw [← e]
            cases k <;> first | exact absurd rfl hg | simp only [metricLoop, hk, hd]
          obtain ⟨i1, i2⟩ := ih hi (acc ++ [(m.name, createIns k, v)])
          have hsafe : SafeMetric c r m := safeOf (by rw [hk]; intro hc; cases hc; exact hg rfl)
          rw [el]
          refine ⟨fun hn => i1 (fun hall => hn ?_), fun hall => ?_⟩
          · intro x hx
            rcases List.mem_cons.1 hx with rfl | hx
            · exact hsafe
            · exact hall x hx
          · obtain ⟨s', a, b⟩ := i2 (fun x hx => hall x (List.mem_cons_of_mem _ hx))
            refine ⟨s', by rw [a, List.filterMap_cons_some em, List.append_assoc]; rfl, by simpa only [List.foldl_cons, eg, Rec.add] using b⟩

/-- The labels a result needs are present. -/
def SafeResult (c : Cfg) (r : Adapted) : Prop := r.type = .metric → ∀ m ∈ r.metrics, SafeMetric c r m

theorem exportOne_spec {c : Cfg} (r : Adapted) {s : St} {A : Rec} (h : Inv c s A) :
    (¬ SafeResult c r → exportOne c s r = none) ∧
    (SafeResult c r → ∃ s', exportOne c s r = some (s', wantedOne c r) ∧ Inv c s' (A.result c r)) := by
  unfold SafeResult exportOne wantedOne Rec.result
  cases ht : r.type with
  | metric =>
    obtain ⟨i1, i2⟩ := metricLoop_spec r r.metrics h []
    refine ⟨fun hn => ?_, fun hall => ?_⟩
    · simp only [exportMetric]
      rw [i1 (fun hall => hn (fun _ => hall))]; rfl
    · obtain ⟨s', a, b⟩ := i2 (hall rfl)
      refine ⟨s', ?_, by simpa using b⟩
      simp only [exportMetric, a, Option.map_some, List.nil_append]
      cases r.metrics.filterMap (measure c) <;> simp
  | trace => exact ⟨fun hn => absurd (fun hc => by cases hc) hn, fun _ => ⟨s, rfl, by simpa using h⟩⟩
  | other => exact ⟨fun hn => absurd (fun hc => by cases hc) hn, fun _ => ⟨s, rfl, by simpa using h⟩⟩

theorem exportAll_spec {c : Cfg} (rs : List Adapted) {s : St} {A : Rec} (h : Inv c s A) :
    (¬ (∀ r ∈ rs, SafeResult c r) → exportAll c s rs = none) ∧
    ((∀ r ∈ rs, SafeResult c r) → ∃ s', exportAll c s rs = some (s', rs.flatMap (wantedOne c)) ∧ Inv c s' (rs.foldl (Rec.result c) A)) := by
  induction rs generalizing s A with
  | nil => exact ⟨fun hn => absurd (fun m hm => by cases hm) hn, fun _ => ⟨s, rfl, h⟩⟩
  | cons r rs ih =>
    obtain ⟨o1, o2⟩ := exportOne_spec r h
    by_cases hr : SafeResult c r
    · obtain ⟨s1, e, hi⟩ := o2 hr
      obtain ⟨i1, i2⟩ := ih hi
      refine ⟨fun hn => ?_, fun hall => ?_⟩
      · simp only [exportAll, e]
        rw [i1 (fun hall => hn (fun x hx => by
          rcases List.mem_cons.1 hx with rfl | hx
          · exact hr
          · exact hall x hx))]
        rfl
      · obtain ⟨s', a, b⟩ := i2 (fun x hx => hall x (List.mem_cons_of_mem _ hx))
        exact ⟨s', by simp [exportAll, e, a], b⟩
    · refine ⟨fun _ => by simp only [exportAll, o1 hr], fun hall => absurd (hall r (List.mem_cons_self ..)) hr⟩

/-! ## Observation -/

/-- What one observation reports: the series with values, each once, with its last value. -/
def Reports (c : Cfg) (A : Rec) (n : String) (os : List Out) : Prop :=
  ∃ ks : List LabelKeys, ks.Nodup ∧ (∀ k, k ∈ ks ↔ A n k ≠ []) ∧
    os = ks.map (fun k => .observed n ((A n k).getLast?.getD 0) (labelText (getLabels k) ++ c.custom))

theorem observe_spec {c : Cfg} {s : St} {A : Rec} (h : Inv c s A) (n : String) :
    ∃ s' os, observe c s n = some (s', os) ∧ Reports c A n os ∧ Inv c s' (A.step c (.observe n)) := by
  have hnone : AMap.get s.agg n = none → ∀ k, A n k = [] := by
    intro hg k
    have hv := h.vals n k
    simp only [lookup, hg, Option.bind_none, Holds] at hv
    cases hl : (A n k).getLast? with
    | none => simpa using hl
    | some v => simp only [hl] at hv; obtain ⟨_, hv⟩ := hv; cases hv
  have hsame : AMap.get s.agg n = none → A.step c (.observe n) = A := by
    intro hg
    funext n' k
    simp only [Rec.step]
    split
    · rename_i he; subst he; exact (hnone hg k).symm
    · rfl
  by_cases ho : n ∈ s.observers
  · cases hg : AMap.get s.agg n with
    | none =>
      refine ⟨s, [], by simp [observe, ho, dumpSingle, hg, mapOpt], ⟨[], List.nodup_nil, ?_, rfl⟩, by rw [hsame hg]; exact h⟩
      intro k; simp [hnone hg k]
    | some r =>
      have hw := h.wf _ _ hg
      have hval : ∀ p ∈ r, ∃ ts, p.2 = ⟨[(n, [⟨n, .last ((A n p.1).getLast?.getD 0)⟩])], ts⟩ ∧ A n p.1 ≠ [] := by
        intro p hp
        have hv := h.vals n p.1
        simp only [lookup, hg, Option.bind_some, AMap.get_of_mem hw hp, Holds] at hv
        cases hl : (A n p.1).getLast? with
        | none => simp [hl] at hv
        | some v =>
          simp only [hl, Option.some.injEq] at hv
          obtain ⟨ts, hv⟩ := hv
          exact ⟨ts, by simpa using hv, by intro hc; simp [hc] at hl⟩
      have hdump : ∀ r : Recorder, (∀ p ∈ r, ∃ ts, p.2 = ⟨[(n, [⟨n, .last ((A n p.1).getLast?.getD 0)⟩])], ts⟩ ∧ A n p.1 ≠ []) →
          ∃ gs, r.dump n = some gs ∧ ∃ os, mapOpt (observeGroup c n) gs = some os ∧
            os.flatten = r.map (fun p => .observed n ((A n p.1).getLast?.getD 0) (labelText (getLabels p.1) ++ c.custom)) := by
        intro r
        induction r with
        | nil => intro _; exact ⟨[], rfl, [], rfl, rfl⟩
        | cons p r ih =>
          intro hall
          obtain ⟨gs, h1, os, h2, h3⟩ := ih (fun q hq => hall q (List.mem_cons_of_mem _ hq))
          obtain ⟨ts, hp, _⟩ := hall p (List.mem_cons_self ..)
          simp only [Recorder.dump] at h1
          refine ⟨⟨n, getLabels p.1, ts, [⟨n, .int ((A n p.1).getLast?.getD 0)⟩]⟩ :: gs, ?_,
            [.observed n ((A n p.1).getLast?.getD 0) (labelText (getLabels p.1) ++ c.custom)] :: os, ?_, ?_⟩
          · have hg : p.2.getAll = some [⟨n, .int ((A n p.1).getLast?.getD 0)⟩] := by
              simp [hp, ValuesMap.getAll, mapOpt, AggVal.get, Acc.get]
            have ht : p.2.ts = ts := by rw [hp]
            simp only [Recorder.dump]
            exact mapOpt_cons_eq_some.2 ⟨_, _, by simp only [hg, ht, Option.map_some], h1, rfl⟩
          · simp [mapOpt, observeGroup, h2]
          · simp [h3]
      obtain ⟨gs, h1, os, h2, h3⟩ := hdump r hval
      refine ⟨{ s with agg := AMap.set s.agg n [] }, os.flatten, ?_, ⟨AMap.keys r, hw, ?_, ?_⟩, ?_⟩
      · simp [observe, ho, dumpSingle, hg, h1, h2]
      · intro k
        constructor
        · intro hk
          obtain ⟨p, hp, rfl⟩ := List.mem_map.1 hk
          exact (hval p hp).choose_spec.2
        · intro hk
          refine Decidable.by_contra (fun hc => hk ?_)
          have hv := h.vals n k
          simp only [lookup, hg, Option.bind_some, (AMap.get_eq_none_iff r k).2 hc, Holds] at hv
          cases hl : (A n k).getLast? with
          | none => simpa using hl
          | some v => simp [hl] at hv
      · rw [h3]; simp [AMap.keys]
      · refine ⟨?_, ?_, ?_, ?_, h.once, h.ins⟩
        · intro n' k
          simp only [lookup_set, Rec.step]
          by_cases he : n = n'
          · subst he; simp [Holds]
          · simp only [he, if_false, Ne.symm he]; exact h.vals n' k
        · intro n' r' hr'
          rw [AMap.get_set] at hr'
          split at hr'
          · cases hr'; exact AMap.wf_nil
          · exact h.wf _ _ hr'
        · intro n' r' hr'
          rw [AMap.get_set] at hr'
          split at hr'
          · rename_i he; subst he; exact h.known _ _ hg
          · exact h.known _ _ hr'
        · intro n' hn' hs'
          rw [AMap.get_set]
          split
          · rfl
          · exact h.fed _ hn' hs'
  · have hg : AMap.get s.agg n = none := by
      cases hg : AMap.get s.agg n with
      | none => rfl
      | some r => exact absurd (h.known _ _ hg).1 ho
    refine ⟨s, [], by simp [observe, ho], ⟨[], List.nodup_nil, ?_, rfl⟩, by rw [hsame hg]; exact h⟩
    intro k; simp [hnone hg k]

/-! ## Histories -/

/-- The labels a call needs are present. -/
def SafeOp (c : Cfg) : OOp → Prop
  | .consume rs => ∀ r ∈ rs, SafeResult c r
  | _ => True

theorem sync_of_wanted (c : Cfg) (rs : List Adapted) : (rs.flatMap (wantedOne c)).filter isSync = rs.flatMap (wantedOne c) := by
  rw [List.filter_eq_self]
  intro o ho
  obtain ⟨r, _, hr⟩ := List.mem_flatMap.1 ho
  unfold wantedOne at hr
  split at hr
  · split at hr
    · cases hr
    · simp only [List.mem_singleton] at hr; subst hr; rfl
  · split at hr
    · simp only [List.mem_singleton] at hr; subst hr; rfl
    · cases hr
  · cases hr

theorem ostep_spec {c : Cfg} (op : OOp) {s : St} {A : Rec} (h : Inv c s A) :
    (¬ SafeOp c op → ostep c s op = none) ∧
    (SafeOp c op → ∃ s' o, ostep c s op = some (s', o) ∧ Inv c s' (A.step c op) ∧ o.filter isSync = wanted c op ∧
      ∀ n, op = .observe n → Reports c A n o) := by
  cases op with
  | consume rs =>
    obtain ⟨i1, i2⟩ := exportAll_spec rs h
    refine ⟨i1, fun hs => ?_⟩
    obtain ⟨s', a, b⟩ := i2 hs
    exact ⟨s', _, a, b, sync_of_wanted c rs, fun n hn => by cases hn⟩
  | observe n =>
    refine ⟨fun hn => absurd trivial hn, fun _ => ?_⟩
    obtain ⟨s', os, a, b, d⟩ := observe_spec h n
    refine ⟨s', os, a, d, ?_, fun m hm => by cases hm; exact b⟩
    obtain ⟨ks, _, _, rfl⟩ := b
    simp only [wanted, List.filter_eq_nil_iff]
    intro o ho
    obtain ⟨k, _, rfl⟩ := List.mem_map.1 ho
    simp [isSync]
  | restart => exact ⟨fun hn => absurd trivial hn, fun _ => ⟨_, _, rfl, inv_empty c, rfl, fun n hn => by cases hn⟩⟩

theorem orun_spec {c : Cfg} (ops : List OOp) {s : St} {A : Rec} (h : Inv c s A) :
    (¬ (∀ op ∈ ops, SafeOp c op) → orun c s ops = none) ∧
    ((∀ op ∈ ops, SafeOp c op) → ∃ s' o, orun c s ops = some (s', o) ∧ Inv c s' (ops.foldl (Rec.step c) A) ∧
      o.filter isSync = ops.flatMap (wanted c)) := by
  induction ops generalizing s A with
  | nil => exact ⟨fun hn => absurd (fun m hm => by cases hm) hn, fun _ => ⟨s, [], rfl, h, rfl⟩⟩
  | cons op ops ih =>
    obtain ⟨o1, o2⟩ := ostep_spec op h
    by_cases hr : SafeOp c op
    · obtain ⟨s1, o, e, hi, hf, _⟩ := o2 hr
      obtain ⟨i1, i2⟩ := ih hi
      refine ⟨fun hn => ?_, fun hall => ?_⟩
      · simp only [orun, e]
        rw [i1 (fun hall => hn (fun x hx => by
          rcases List.mem_cons.1 hx with rfl | hx
          · exact hr
          · exact hall x hx))]
        rfl
      · obtain ⟨s', o', a, b, d⟩ := i2 (fun x hx => hall x (List.mem_cons_of_mem _ hx))
        exact ⟨s', o ++ o', by simp [orun, e, a], b, by simp [List.filter_append, hf, d]⟩
    · refine ⟨fun _ => by simp only [orun, o1 hr], fun hall => absurd (hall op (List.mem_cons_self ..)) hr⟩

theorem of_run {c : Cfg} {ops : List OOp} {s : St} {out : List Out} (h : orun c St.empty ops = some (s, out)) :
    Inv c s (recorded c ops) ∧ out.filter isSync = ops.flatMap (wanted c) := by
  obtain ⟨i1, i2⟩ := orun_spec ops (inv_empty c)
  by_cases hall : ∀ op ∈ ops, SafeOp c op
  · obtain ⟨s', o, e, hi, hf⟩ := i2 hall
    rw [h] at e; cases e
    exact ⟨hi, hf⟩
  · rw [i1 hall] at h; cases h

/-! ## Theorems -/

/-- C88: in every history, the batches and spans given to the library are exactly these: one batch per metric result, in order,
with the result's labels and one measurement per integer metric with a configured kind other than gauge, on a histogram if so
configured and on a counter otherwise; one span per trace result if the exporter has a tracer. -/
theorem batches_exact_partial {c : Cfg} {ops : List OOp} {s : St} {out : List Out} (h : orun c St.empty ops = some (s, out)) :
    out.filter isSync = ops.flatMap (wanted c) := (of_run h).2

/-- C88: an observation of a gauge reports every label set that got a value since the last observation (or restart) exactly
once, with the last such value, the labels of the set in text and the custom labels. -/
theorem gauge_observed {c : Cfg} {ops : List OOp} {s s' : St} {out os : List Out} (n : String)
    (h : orun c St.empty ops = some (s, out)) (ho : ostep c s (.observe n) = some (s', os)) :
    Reports c (recorded c ops) n os := by
  obtain ⟨s2, o2, e, _, _, hr⟩ := (ostep_spec (.observe n) (of_run h).1).2 trivial
  rw [ho] at e; cases e
  exact hr n rfl

/-- C88: the exporter panics exactly when a metric result without label map carries an integer of a supported gauge. -/
theorem panics_iff (c : Cfg) (ops : List OOp) : orun c St.empty ops = none ↔ ¬ ∀ op ∈ ops, SafeOp c op := by
  obtain ⟨i1, i2⟩ := orun_spec ops (inv_empty c)
  refine ⟨fun h hall => ?_, i1⟩
  obtain ⟨s', o, e, _⟩ := i2 hall
  rw [h] at e; cases e

/-- C88: the observer of a supported gauge is registered at most once per start of the exporter, and it is registered once a
value waits to be observed. -/
theorem observer_once {c : Cfg} {ops : List OOp} {s : St} {out : List Out} (h : orun c St.empty ops = some (s, out)) :
    (s.observers.filter (fun n => (selector n).isSome)).Nodup ∧ ∀ n k, recorded c ops n k ≠ [] → n ∈ s.observers := by
  have hi := (of_run h).1
  refine ⟨hi.once, fun n k hk => ?_⟩
  cases hg : AMap.get s.agg n with
  | some r => exact (hi.known _ _ hg).1
  | none =>
    exfalso
    have hv := hi.vals n k
    simp only [lookup, hg, Option.bind_none, Holds] at hv
    cases hl : (recorded c ops n k).getLast? with
    | none => exact hk (by simpa using hl)
    | some v => simp only [hl] at hv; obtain ⟨_, hv⟩ := hv; cases hv

/-- The selector tables are usable: distinct names, typed, at most 37. -/
theorem selectors_good {n : String} {sel : List Selector} (h : selector n = some sel) :
    sel.length ≤ 37 ∧ (sel.map (·.name)).Nodup ∧ ∀ s ∈ sel, s.vtype ≠ .unset := by
  unfold selector at h
  split at h
  · cases h; exact ⟨by decide, by decide +kernel, by decide +kernel⟩
  · split at h
    · cases h; exact ⟨by decide, by decide +kernel, by decide +kernel⟩
    · split at h
      · cases h; exact ⟨by decide, by decide +kernel, by decide +kernel⟩
      · cases h

/-- C88: the labels of an observation are the selected labels of the result with the values it had; absent or mistyped ones
read as zero values. -/
theorem observed_labels {n : String} {sel : List Selector} (h : selector n = some sel) (l : Labels) (hl : l.Int64) (k : String) :
    AMap.get (getLabels (getLabelKeys sel l)) k = (sel.find? (fun s => s.name = k)).bind (typedRead l) := by
  obtain ⟨h1, h2, h3⟩ := selectors_good h
  exact series_labels sel h1 h2 h3 l hl k

/-- C88: two results feed the same series iff they agree on all selected labels. -/
theorem gauge_series_iff {n : String} {sel : List Selector} (h : selector n = some sel) (l1 l2 : Labels) :
    getLabelKeys sel l1 = getLabelKeys sel l2 ↔ ∀ s ∈ sel, typedRead l1 s = typedRead l2 s :=
  Agg.same_series_iff sel (selectors_good h).1 l1 l2

/-- The type of a converter's value fits the type of a selector. -/
def fits : Labels.VT → VType → Bool
  | .int64, .int => true
  | .bool, .boolean => true
  | .string, .string | .strEmpty, .string | .fromInt, .string | .fromError, .string | .fromErrorStatus, .string => true
  | _, _ => false

/-- C88: every label that the network adapter computes for a single slow or failed request, for any protocol, is selected
with its type, so that (`observed_labels`) none of them is lost in the gauge. -/
theorem trace_labels_kept (p : Adapter.Proto) :
    (∀ d ∈ Adapter.dictOf Adapter.traceToMetric p, ∃ s ∈ traceSelectors, bs s.name = d.newKey ∧ fits d.vt s.vtype = true) ∧
    (∀ k ∈ Adapter.traceToMetric.vkeys, ∃ s ∈ traceSelectors, bs s.name = k) := by
  cases p <;> refine ⟨?_, ?_⟩ <;> decide +kernel

/-- Finding: three selected labels are computed for no protocol: the gauge always reports them empty. -/
theorem trace_labels_blank (p : Adapter.Proto) :
    ∀ k ∈ ["container_id", "src_node_ip", "dst_node_ip"], k ∈ traceSelectors.map (·.name) ∧
      bs k ∉ (Adapter.dictOf Adapter.traceToMetric p).map (·.newKey) ∧ bs k ∉ Adapter.traceToMetric.vkeys := by
  cases p <;> decide +kernel

theorem recorded_unsupported (c : Cfg) {n : String} (hn : c.kinds n ≠ some .gauge ∨ selector n = none) (k : LabelKeys) (ops : List OOp) :
    recorded c ops n k = [] := by
  have hadd : ∀ (A : Rec) (r : Adapted) (m : Metric), A n k = [] → A.add (gaugeValue c r m) n k = [] := by
    intro A r m hA
    cases hg : gaugeValue c r m with
    | none => exact hA
    | some e =>
      simp only [Rec.add]
      rw [if_neg]
      · exact hA
      · rintro ⟨rfl, _⟩
        unfold gaugeValue at hg
        split at hg
        · rename_i hk _ hsel _
          cases hg
          rcases hn with hn | hn
          · exact hn hk
          · simp only at hn; rw [hsel] at hn; cases hn
        · cases hg
  have hms : ∀ (ms : List Metric) (r : Adapted) (A : Rec), A n k = [] →
      ms.foldl (fun B m => B.add (gaugeValue c r m)) A n k = [] := by
    intro ms
    induction ms with
    | nil => intro _ A hA; exact hA
    | cons m ms ih => intro r A hA; exact ih r _ (hadd A r m hA)
  have hrs : ∀ (rs : List Adapted) (A : Rec), A n k = [] → rs.foldl (Rec.result c) A n k = [] := by
    intro rs
    induction rs with
    | nil => intro A hA; exact hA
    | cons r rs ih =>
      intro A hA
      refine ih _ ?_
      unfold Rec.result
      split
      · exact hms _ _ _ hA
      · exact hA
  unfold recorded
  induction ops using snoc_ind with
  | nil => rfl
  | snoc ops op ih =>
    rw [List.foldl_append]
    simp only [List.foldl_cons, List.foldl_nil]
    cases op with
    | consume rs => exact hrs rs _ ih
    | observe m => simp only [Rec.step]; split <;> first | rfl | exact ih
    | restart => rfl

/-- Finding: a metric configured as a gauge that is none of the three supported ones is never reported, and each of its
values registers one more observer. -/
theorem unsupported_gauge {c : Cfg} {n : String} (hs : selector n = none) {ops : List OOp} {s : St} {out : List Out}
    (h : orun c St.empty ops = some (s, out)) :
    (∃ s', ostep c s (.observe n) = some (s', [])) ∧
    (c.kinds n = some .gauge → ∀ v attrs l ts, ∃ s', ostep c s (.consume [⟨.metric, attrs, l, ts, [⟨n, .int v⟩]⟩]) = some (s', []) ∧
      s'.observers.count n = s.observers.count n + 1) := by
  refine ⟨?_, fun hk v attrs l ts => ?_⟩
  · obtain ⟨s', o, e, _, _, hr⟩ := (ostep_spec (.observe n) (of_run h).1).2 trivial
    obtain ⟨ks, _, h2, rfl⟩ := hr n rfl
    have : ks = [] := List.eq_nil_iff_forall_not_mem.2 (fun k hk => (h2 k).1 hk (recorded_unsupported c (.inr hs) k ops))
    subst this
    exact ⟨s', e⟩
  · refine ⟨{ s with observers := s.observers ++ [n] }, ?_, by simp⟩
    simp [ostep, exportAll, exportOne, exportMetric, metricLoop, hk, (recordLast_none (of_run h).1 n hs v l ts).1]

/-- Finding: histogram metrics never reach the library. -/
theorem histograms_dropped (c : Cfg) (s : St) (r : Adapted) (hh : ∀ m ∈ r.metrics, ∃ x, m.data = .hist x) (ht : r.type = .metric) :
    exportOne c s r = some (s, []) := by
  have : ∀ ms : List Metric, (∀ m ∈ ms, ∃ x, m.data = .hist x) → metricLoop c r s [] ms = some (s, []) := by
    intro ms
    induction ms with
    | nil => intro _; rfl
    | cons m ms ih =>
      intro hall
      obtain ⟨x, hx⟩ := hall m (List.mem_cons_self ..)
      have := ih (fun y hy => hall y (List.mem_cons_of_mem _ hy))
      simp only [metricLoop, hx]
      cases c.kinds m.name with
      | none => exact this
      | some k => cases k <;> exact this
  simp [exportOne, ht, exportMetric, this _ hh]

/-- Finding: values of gauges recorded but not yet observed are lost when the meter is renewed: nothing more is reported. -/
theorem restart_loses_values {c : Cfg} (ops : List OOp) {s0 s : St} {out : List Out} (h : orun c s0 ops = some (s, out)) (n : String) :
    ∃ s', orun c s0 (ops ++ [.restart, .observe n]) = some (s', out) := by
  induction ops generalizing s0 out with
  | nil =>
    simp only [orun, Option.some.injEq, Prod.mk.injEq] at h
    obtain ⟨_, rfl⟩ := h
    exact ⟨St.empty, by simp [orun, ostep, observe, St.empty]⟩
  | cons op ops ih =>
    simp only [orun] at h
    simp only [List.cons_append, orun]
    cases hs : ostep c s0 op with
    | none => simp [hs] at h
    | some p =>
      simp only [hs, Option.map_eq_some_iff, Prod.mk.injEq] at h
      obtain ⟨q, hq, rfl, rfl⟩ := h
      obtain ⟨s', e⟩ := ih hq
      exact ⟨s', by simp [e]⟩

/-! ## The hypotheses are met -/

def cfg0 : Cfg where
  kinds := fun n => if n = rttName then some .gauge else if n = "a_total" then some .counter
    else if n = "h_time" then some .histogram else if n = "free" then some .gauge else none
  custom := [("cluster", bs "c1")]
  tracer := true

def res0 (v : Int) (pod : String) : Adapted :=
  ⟨.metric, [("pod", .str (bs pod))], some [("src_pod", .str (bs pod)), ("src_port", .int 80)], 5,
    [⟨rttName, .int v⟩, ⟨"a_total", .int (v + 1)⟩, ⟨"h_time", .int (v + 2)⟩, ⟨"a_total", .hist ⟨0, 0, [], []⟩⟩, ⟨"unknown", .int 1⟩]⟩

def ops0 : List OOp := [.consume [res0 7 "p", res0 8 "q"], .consume [res0 9 "p", ⟨.trace, [], none, 0, []⟩]]

/-- Two pods, the first with two values: both reported once, the first with its last value; batches and a span. -/
example : (orun cfg0 St.empty (ops0 ++ [.observe rttName, .observe rttName])).map (fun p => p.2.filter isSync) =
    some [.batch [("pod", .str (bs "p"))] [("a_total", .counter, 8), ("h_time", .histogram, 9)],
      .batch [("pod", .str (bs "q"))] [("a_total", .counter, 9), ("h_time", .histogram, 10)],
      .batch [("pod", .str (bs "p"))] [("a_total", .counter, 10), ("h_time", .histogram, 11)], .span []] := by decide +kernel

example : ((orun cfg0 St.empty (ops0 ++ [.observe rttName, .observe rttName])).map (fun p =>
    (p.2.filter (fun o => !isSync o)).map (fun o => match o with | .observed n v l => (n, v, l.length) | _ => ("", 0, 0)))) =
    some [(rttName, 9, 23), (rttName, 8, 23)] := by decide +kernel

example : selector "free" = none ∧ cfg0.kinds "free" = some .gauge := by decide +kernel
example : orun cfg0 St.empty [.consume [{ res0 1 "p" with labels := none }]] = none := by decide +kernel

/-- `fits` says what it should: the value computed is of the type of the selector, whatever the labels are. -/
theorem fits_iff (d : Labels.Dict) (t : VType) : fits d.vt t = true ↔ ∀ l : Labels.Lab, match t, Labels.entryVal l d with
    | .int, .int _ => True
    | .boolean, .bool _ => True
    | .string, .str _ => True
    | _, _ => False := by
  have hl : ∃ _ : Labels.Lab, True := ⟨⟨fun _ => [], fun _ => 0, fun _ => false⟩, trivial⟩
  obtain ⟨l0, -⟩ := hl
  constructor
  · intro h l
    unfold Labels.entryVal
    revert h
    by_cases he : l.gi Labels.errorType = 3 <;> cases d.vt <;> cases t <;> simp [fits, he]
  · intro h
    have := h l0
    revert this
    unfold Labels.entryVal
    by_cases he : l0.gi Labels.errorType = 3 <;> cases d.vt <;> cases t <;> simp [fits, he]

end Kindling.Export.Otel
