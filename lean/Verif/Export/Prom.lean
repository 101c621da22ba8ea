import Verif.Agg.AllLabels
import Verif.Agg.LabelProps
import Verif.Agg.HistProps
import Verif.Export.Sanitize
/-
The Prometheus exporter (component/consumer/exporter/prometheusexporter/{consume,collector,prometheus}.go) on top of the
cumulative aggregator, with the simple adapter (tools/adapter/simple_adapter.go).

Simplified:
* `float64(...)` conversions keep the integer and sums do not overflow; `Verif.Export.Float` has the floats and the 64 bits: C116;
* `Consume` and `Collect` are atomic steps and read the clock once each (`now`);
* metric names are lists of code points where `sanitize` works on them;
* the client library's checks in `NewConstMetric` / `NewConstHistogram` are an arbitrary predicate `valid` on the
  sanitized name and the labels; the registry that gathers the samples is not modelled;
* the results of the network adapter (`Verif.Export.Adapter`) are an arbitrary function `net`.
-/
namespace Kindling.Export.Prom
open Kindling Kindling.Agg Kindling.Export.Sanitize

/-! ## Code -/

/-- model/attribute_map.go:215-217, 231-233, 255-257 `ToString`. -/
def text : AttrVal → Bytes
  | .str s => s
  | .int i => Dec.formatInt i
  | .bool b => Dec.formatBool b

/-- collector.go:84, 89: the boundaries in nanoseconds. -/
def promBounds : List Int :=
  [10000000, 20000000, 50000000, 80000000, 130000000, 200000000, 300000000, 400000000, 500000000, 700000000,
   1000000000, 2000000000, 5000000000, 30000000000]

/-- constnames/metrics.go:34 `TcpRttMetricName`. -/
def rttName : String := "kindling_tcp_srtt_microseconds"
/-- collector.go:74-75 with constnames/metrics.go:50-56: the two histogram names. -/
def topoHist : String := "kindling_topology_request_request_time_histogram"
def entityHist : String := "kindling_entity_request_request_time_histogram"

/-- collector.go:79-91: the aggregation configuration of `newCollector`. -/
def promKinds : KindMap := fun m =>
  if m = rttName then some [⟨rttName, .last, []⟩]
  else if m = topoHist then some [⟨topoHist, .histogram, promBounds⟩]
  else if m = entityHist then some [⟨entityHist, .histogram, promBounds⟩]
  else none

/-- collector.go:92: five minutes in nanoseconds. -/
def promExpiration : Int := 300000000000

/-- A sample handed to the Prometheus client. -/
inductive Sample where
  | counter (name : List Nat) (labels : List (String × Bytes)) (value : Int) (micros : Nat)
  | hist (name : List Nat) (labels : List (String × Bytes)) (count : Nat) (sum : Int) (buckets : AMap Int Nat) (micros : Nat)
deriving DecidableEq, Repr

/-- collector.go:25-30: label names and values (the two slices as pairs, in map order). -/
def labelText (l : Labels) : List (String × Bytes) := l.map (fun p => (p.1, text p.2))

/-- collector.go:48-52: boundary to count; `none` when there are fewer counts than boundaries (index out of range). -/
def bucketMap : List Int → List Nat → AMap Int Nat → Option (AMap Int Nat)
  | [], _, acc => some acc
  | _ :: _, [], _ => none
  | b :: bs, c :: cs, acc => bucketMap bs cs (AMap.set acc b c)

/-- Code points of a metric name. -/
def runes (s : String) : List Nat := s.toList.map Char.toNat

/-- collector.go:31-64, one metric; `none` is a panic. -/
def sampleOf (t : Tables) (valid : List Nat → List (String × Bytes) → Bool) (ls : List (String × Bytes)) (micros : Nat)
    (m : Metric) : Option (List Sample) :=
  match m.data with
  | .int v =>
    match sanitize t (runes m.name) true with
    | .ok n => some (if valid n ls then [.counter n ls v micros] else [])
    | _ => none
  | .hist h =>
    match bucketMap h.bounds h.buckets [] with
    | none => none
    | some b =>
      match sanitize t (runes m.name) true with
      | .ok n => some (if valid n ls then [.hist n ls h.count h.sum b micros] else [])
      | _ => none
  | .none => some []

/-- collector.go:21-65, one group; the timestamp is `ts / 1000` microseconds (95-97). -/
def groupSamples (t : Tables) (valid : List Nat → List (String × Bytes) → Bool) (g : Group) : Option (List Sample) :=
  (mapOpt (sampleOf t valid (labelText g.labels) (g.ts / 1000)) g.metrics).map List.flatten

/-- collector.go:18-66 `Collect`. -/
def collect (t : Tables) (valid : List Nat → List (String × Bytes) → Bool) (st : CState) (now : Int) :
    Option (CState × List Sample) :=
  match cdump promExpiration st now with
  | none => none
  | some (st', gs) => (mapOpt (groupSamples t valid) gs).map (fun ss => (st', ss.flatten))

/-- tools/adapter `AdaptedResult`, the fields the exporter reads. -/
structure Adapted where
  isMetric : Bool
  labels : Labels
  ts : Nat
  metrics : List Metric

/-- prometheus.go:51-52, with constnames/const.go:43-45: the groups the simple adapter accepts. -/
def tcpGroups : List String := ["tcp_rtt_metric_group", "tcp_retransmit_metric_group", "tcp_drop_metric_group"]
/-- prometheus.go:66-68: the groups of the network adapter. -/
def netGroups : List String :=
  ["net_request_metric_group", "aggregated_net_request_metric_group", "single_net_request_metric_group"]

/-- simple_adapter.go:13-27 `Adapt`. -/
def simpleAdapt (g : Group) : List Adapted :=
  if g.name ∈ tcpGroups then [⟨true, g.labels, g.ts, g.metrics⟩] else []

/-- consume.go:18-36 with the table prometheus.go:65-72: network groups go to the network adapter, everything else to
the simple one. -/
def adapt (net : Group → List Adapted) (g : Group) : List Adapted :=
  if g.name ∈ netGroups then net g else simpleAdapt g

/-- consume.go:40-55 `Export` and `exportMetric`: metric results are recorded under the group name "". -/
def exportAll (st : CState) (now : Int) : List Adapted → Option CState
  | [] => some st
  | r :: rs =>
    if r.isMetric then
      match caggregate promKinds st ⟨"", r.labels, r.ts, r.metrics⟩ now with
      | none => none
      | some st' => exportAll st' now rs
    else exportAll st now rs

/-- consume.go:9-38 `Consume` of a group that is not nil. -/
def consume (net : Group → List Adapted) (st : CState) (g : Group) (now : Int) : Option CState :=
  exportAll st now (adapt net g)

inductive POp where
  | consume (g : Group) (now : Int)
  | collect (now : Int)

/-- One call of the exporter. -/
def pstep (t : Tables) (valid : List Nat → List (String × Bytes) → Bool) (net : Group → List Adapted) (st : CState) :
    POp → Option (CState × List Sample)
  | .consume g now => (consume net st g now).map (fun s => (s, []))
  | .collect now => collect t valid st now

/-- A history of the exporter from its start; `none` if some call panics. -/
def prun (t : Tables) (valid : List Nat → List (String × Bytes) → Bool) (net : Group → List Adapted) :
    CState → List POp → Option (CState × List Sample)
  | st, [] => some (st, [])
  | st, op :: ops => match pstep t valid net st op with
    | none => none
    | some (st', out) => (prun t valid net st' ops).map (fun p => (p.1, out ++ p.2))

/-! ## Specification -/

/-- The records a call adds, as calls of the aggregator. -/
def recordsOf (net : Group → List Adapted) : POp → List COp
  | .consume g now => ((adapt net g).filter (·.isMetric)).map (fun r => .record ⟨"", r.labels, r.ts, r.metrics⟩ now)
  | .collect now => [.dump now]

/-- The records of a label set that are still alive: recorded, and at no later collection older than five minutes without
an update. -/
def live (net : Group → List Adapted) (ops : List POp) (k : LabelKeys) : List CRec :=
  cpending promExpiration (ops.flatMap (recordsOf net)) "" k

/-- Timestamp of the last record that carries a metric of the first one. -/
def lastTs : List CRec → Nat
  | [] => 0
  | r0 :: rs => (r0 :: rs).foldl (fun u r => if r.1.any (fun x => r0.1.any (fun y => y.name = x.name)) then r.2.1 else u) 0

/-! ## Refinement of the aggregator -/

theorem crun_append (kinds : KindMap) (ex : Int) (a b : List COp) (st : CState) :
    crun kinds ex st (a ++ b) = (crun kinds ex st a).bind (fun p => (crun kinds ex p.1 b).map (fun q => (q.1, p.2 ++ q.2))) := by
  induction a generalizing st with
  | nil => simp [crun]
  | cons op r ih =>
    simp only [List.cons_append, crun]
    cases cstep kinds ex st op with
    | none => rfl
    | some p =>
      simp only [ih]
      cases crun kinds ex p.1 r with
      | none => rfl
      | some q => simp only [Option.bind_some, Option.map_some, Option.map_map, Function.comp_def, List.append_assoc]

theorem exportAll_crun (st : CState) (now : Int) (rs : List Adapted) :
    (exportAll st now rs).map (fun s => (s, ([] : List Group))) =
      crun promKinds promExpiration st ((rs.filter (·.isMetric)).map (fun r => .record ⟨"", r.labels, r.ts, r.metrics⟩ now)) := by
  induction rs generalizing st with
  | nil => rfl
  | cons r rs ih =>
    simp only [exportAll]
    by_cases h : r.isMetric = true
    · simp only [h, if_true, List.filter_cons_of_pos, List.map_cons, crun, cstep]
      cases caggregate promKinds st ⟨"", r.labels, r.ts, r.metrics⟩ now with
      | none => rfl
      | some s =>
        simp only [Option.map_some, ← ih s, Option.map_map, Function.comp_def, List.nil_append]
    · simp only [h, Bool.false_eq_true, if_false, List.filter_cons_of_neg, not_false_eq_true]
      exact ih st

theorem prun_crun {t : Tables} {valid : List Nat → List (String × Bytes) → Bool} {net : Group → List Adapted}
    {ops : List POp} {st st' : CState} {out : List Sample} (h : prun t valid net st ops = some (st', out)) :
    ∃ gs, crun promKinds promExpiration st (ops.flatMap (recordsOf net)) = some (st', gs) := by
  induction ops generalizing st out with
  | nil =>
    simp only [prun, Option.some.injEq, Prod.mk.injEq] at h
    obtain ⟨rfl, _⟩ := h
    exact ⟨[], rfl⟩
  | cons op ops ih =>
    simp only [prun] at h
    cases hs : pstep t valid net st op with
    | none => simp [hs] at h
    | some p =>
      obtain ⟨s1, o1⟩ := p
      simp only [hs, Option.map_eq_some_iff, Prod.mk.injEq] at h
      obtain ⟨q, hq, rfl, _⟩ := h
      obtain ⟨gs, hgs⟩ := ih hq
      rw [List.flatMap_cons, crun_append]
      cases op with
      | consume g now =>
        simp only [pstep, consume, Option.map_eq_some_iff, Prod.mk.injEq] at hs
        obtain ⟨s, hs, rfl, _⟩ := hs
        have := exportAll_crun st now (adapt net g)
        rw [hs] at this
        refine ⟨[] ++ gs, ?_⟩
        simp only [recordsOf]
        rw [← this]
        simp only [Option.map_some, Option.bind_some]
        rw [hgs]; rfl
      | collect now =>
        simp only [pstep, collect] at hs
        cases hd : cdump promExpiration st now with
        | none => simp [hd] at hs
        | some p =>
          obtain ⟨s2, g2⟩ := p
          simp only [hd, Option.map_eq_some_iff, Prod.mk.injEq] at hs
          obtain ⟨_, _, rfl, _⟩ := hs
          refine ⟨(g2 ++ []) ++ gs, ?_⟩
          simp only [recordsOf, crun, cstep, hd, Option.map_some, Option.bind_some]
          rw [hgs]; rfl

/-! ## The timestamp of a series -/

theorem calculate_ts {vm vm' : ValuesMap} {x : Metric} {ts : Nat} (h : vm.calculate x ts = some vm') :
    vm'.ts = if (AMap.get vm.values x.name).isSome then ts else vm.ts := by
  unfold ValuesMap.calculate at h
  cases hg : AMap.get vm.values x.name with
  | none => simp only [hg, Option.some.injEq] at h; subst h; rfl
  | some vs =>
    simp only [hg] at h
    split at h
    · cases h
    · simp only [Option.some.injEq] at h; subst h; rfl

theorem recordAll_ts {ms : List Metric} {vm vm' : ValuesMap} {ts : Nat} (h : vm.recordAll ms ts = some vm') :
    vm'.ts = if ms.any (fun x => (AMap.get vm.values x.name).isSome) then ts else vm.ts := by
  induction ms generalizing vm with
  | nil => simp only [ValuesMap.recordAll, Option.some.injEq] at h; subst h; simp
  | cons x r ih =>
    simp only [ValuesMap.recordAll] at h
    cases hc : vm.calculate x ts with
    | none => simp [hc] at h
    | some vm1 =>
      simp only [hc] at h
      rw [ih h]
      simp only [keys_calculate hc, calculate_ts hc, List.any_cons]
      by_cases hx : (AMap.get vm.values x.name).isSome = true <;> simp [hx]

theorem recordMany_ts {kinds : KindMap} {r0 : List Metric} (rs : List CRec) {vm : ValuesMap}
    (h : recordMany (newAggValuesMap (withDefault kinds) r0) (plain rs) = some vm) :
    vm.ts = rs.foldl (fun u r => if r.1.any (fun x => r0.any (fun y => y.name = x.name)) then r.2.1 else u) 0 := by
  induction rs using snoc_ind generalizing vm with
  | nil => simp only [plain, List.map_nil, recordMany, Option.some.injEq] at h; subst h; rfl
  | snoc rs r ih =>
    have hp : plain (rs ++ [r]) = plain rs ++ [(r.1, r.2.1)] := by simp [plain]
    rw [hp] at h
    cases hm : recordMany (newAggValuesMap (withDefault kinds) r0) (plain rs) with
    | none =>
      exfalso
      have hnone : ∀ (l : List (List Metric × Nat)) (v : ValuesMap) (q : List Metric × Nat), recordMany v l = none →
          recordMany v (l ++ [q]) = none := by
        intro l
        induction l with
        | nil => intro v q h; simp [recordMany] at h
        | cons a l ihl =>
          intro v q h
          simp only [recordMany, List.cons_append] at h ⊢
          split at h
          · rfl
          · exact ihl _ _ h
      rw [hnone _ _ _ hm] at h; cases h
    | some vm1 =>
      rw [recordMany_append hm] at h
      rw [List.foldl_append, recordAll_ts h]
      simp only [names_recordMany hm, List.foldl_cons, List.foldl_nil, ih hm]

/-! ## What a collection exports -/

theorem live_state {t : Tables} {valid : List Nat → List (String × Bytes) → Bool} {net : Group → List Adapted}
    {ops : List POp} {st : CState} {out : List Sample} (h : prun t valid net [] ops = some (st, out)) (k : LabelKeys) :
    match live net ops k with
    | [] => clookup st "" k = none
    | r :: rs => ∃ e, clookup st "" k = some e ∧
        recordMany (newAggValuesMap (withDefault promKinds) r.1) (plain (r :: rs)) = some e.vm ∧ e.vm.ts = lastTs (r :: rs) := by
  obtain ⟨gs, hg⟩ := prun_crun h
  have hr := (crun_rep (crep_init promKinds) hg).2 "" k
  simp only [live, cpending]
  cases hA : List.foldl (CPending.step promExpiration) (fun _ _ => []) (ops.flatMap (recordsOf net)) "" k with
  | nil => simp only [hA] at hr; exact hr
  | cons r rs =>
    simp only [hA] at hr
    obtain ⟨e, h1, h2, _⟩ := hr
    exact ⟨e, h1, h2, recordMany_ts (r :: rs) h2⟩

/-- Only the group name "" is ever recorded. -/
theorem only_unnamed {t : Tables} {valid : List Nat → List (String × Bytes) → Bool} {net : Group → List Adapted}
    {ops : List POp} {st : CState} {out : List Sample} (h : prun t valid net [] ops = some (st, out)) (n : String)
    (k : LabelKeys) (hn : n ≠ "") : clookup st n k = none := by
  obtain ⟨gs, hg⟩ := prun_crun h
  have hr := (crun_rep (crep_init promKinds) hg).2 n k
  have hz : ∀ (l : List COp), (∀ g now, COp.record g now ∈ l → g.name = "") → ∀ A : CPending, A n k = [] →
      List.foldl (CPending.step promExpiration) A l n k = [] := by
    intro l
    induction l with
    | nil => intro _ A hA; exact hA
    | cons op l ih =>
      intro hl A hA
      refine ih (fun g now hm => hl g now (List.mem_cons_of_mem _ hm)) _ ?_
      cases op with
      | record g now =>
        have := hl g now (List.mem_cons_self ..)
        simp only [CPending.step]
        rw [if_neg (by rw [this]; exact fun hc => hn hc.1)]
        exact hA
      | dump now => simp only [CPending.step, hA, ite_self]
  have : List.foldl (CPending.step promExpiration) (fun _ _ => []) (ops.flatMap (recordsOf net)) n k = [] := by
    refine hz _ ?_ _ rfl
    intro g now hm
    obtain ⟨op, _, hop⟩ := List.mem_flatMap.1 hm
    cases op with
    | consume g' now' =>
      simp only [recordsOf, List.mem_map] at hop
      obtain ⟨r, _, hr⟩ := hop
      cases hr; rfl
    | collect now' => simp [recordsOf] at hop
  simp only [this] at hr
  exact hr

theorem exported {t : Tables} {valid : List Nat → List (String × Bytes) → Bool} {net : Group → List Adapted}
    {ops : List POp} {st st' : CState} {out ss : List Sample} {now : Int} (h : prun t valid net [] ops = some (st, out))
    (hc : collect t valid st now = some (st', ss)) {k : LabelKeys} {r0 : CRec} {rs : List CRec}
    (hl : live net ops k = r0 :: rs) {m : String} (hm : m ∈ r0.1.map (·.name)) {cs : List KindConfig} {c : KindConfig}
    (hk : withDefault promKinds m = some cs) (hcs : c ∈ cs) {acc : Acc} {d : MData}
    (hf : foldApply (Acc.init c) (valuesOf m (plain (r0 :: rs))) = some acc) (hd : acc.get = some d) :
    ∃ y, sampleOf t valid (labelText (getLabels k)) (lastTs (r0 :: rs) / 1000) ⟨c.outputName, d⟩ = some y ∧ ∀ s ∈ y, s ∈ ss := by
  have hlive := live_state h k
  simp only [hl] at hlive
  obtain ⟨e, he, hrm, hts⟩ := hlive
  unfold collect at hc
  cases hdump : cdump promExpiration st now with
  | none => simp [hdump] at hc
  | some p =>
    obtain ⟨s2, gs⟩ := p
    simp only [hdump, Option.map_eq_some_iff, Prod.mk.injEq] at hc
    obtain ⟨ll, hll, _, rfl⟩ := hc
    obtain ⟨cops, hcops⟩ := prun_crun h
    obtain ⟨ms, hms, hg⟩ := cumulative_dump_exports_all _ hcops hdump "" k e he
    obtain ⟨y, hy, hyy⟩ := mapOpt_some hll hg
    simp only [groupSamples, Option.map_eq_some_iff] at hyy
    obtain ⟨ys, hys, rfl⟩ := hyy
    have hev := recordMany_evolves hrm m
    rw [get_newAggValuesMap, if_pos hm, hk] at hev
    simp only [Option.map_some] at hev
    obtain ⟨vs', hvs', hE⟩ := hev
    obtain ⟨v', hv'mem, hname, hfold⟩ := All2.mem_left hE (List.mem_map.2 ⟨c, hcs, rfl⟩ : newAggValue c ∈ cs.map newAggValue)
    have hacc : v'.acc = acc := by
      have : foldApply (Acc.init c) (valuesOf m (plain (r0 :: rs))) = some v'.acc := hfold
      rw [hf] at this; exact (Option.some.inj this).symm
    have hg' : v'.get = some ⟨c.outputName, d⟩ := by
      simp only [AggVal.get, hacc, hd, Option.map_some, Option.some.injEq, Metric.mk.injEq, and_true]
      rw [hname]; rfl
    simp only [ValuesMap.getAll, Option.map_eq_some_iff] at hms
    obtain ⟨l2, hl2, rfl⟩ := hms
    obtain ⟨a, ha, haa⟩ := mapOpt_some hl2 (AMap.mem_of_get hvs')
    obtain ⟨z, hz, hzz⟩ := mapOpt_some haa hv'mem
    rw [hg'] at hzz; cases hzz
    obtain ⟨w, hw, hww⟩ := mapOpt_some hys (List.mem_flatten.2 ⟨a, ha, hz⟩)
    rw [hts] at hww
    exact ⟨w, hww, fun s hs => List.mem_flatten.2 ⟨_, hy, List.mem_flatten.2 ⟨w, hw, hs⟩⟩⟩

/-- Total of a list of recorded data: integers count themselves, histograms their sum. -/
def total : List MData → Int
  | [] => 0
  | .int v :: r => v + total r
  | .hist h :: r => h.sum + total r
  | .none :: r => total r

theorem foldApply_total (a : Int) (ds : List MData) : foldApply (.sum a) ds = some (.sum (a + total ds)) := by
  induction ds generalizing a with
  | nil => simp [foldApply, total]
  | cons d r ih =>
    cases d with
    | int v => simp only [foldApply, Acc.apply, Acc.calculate, ih, total]; congr 2; omega
    | hist h => simp only [foldApply, Acc.apply, Acc.merge, ih, total]; congr 2; omega
    | none => simp only [foldApply, Acc.apply, ih, total]

/-- C87: whatever was consumed and collected before, a collection exports every metric of a live label set that is not
specially configured as a counter with the total of everything recorded for it while the label set was alive, the labels
as text, and the time of the last record. -/
theorem counter_exported_partial {t : Tables} {valid : List Nat → List (String × Bytes) → Bool} {net : Group → List Adapted}
    {ops : List POp} {st st' : CState} {out ss : List Sample} {now : Int} (h : prun t valid net [] ops = some (st, out))
    (hc : collect t valid st now = some (st', ss)) {k : LabelKeys} {r0 : CRec} {rs : List CRec}
    (hl : live net ops k = r0 :: rs) {m : String} (hm : m ∈ r0.1.map (·.name))
    (hk : m ≠ rttName ∧ m ≠ topoHist ∧ m ≠ entityHist) {n : List Nat} (hn : sanitize t (runes m) true = .ok n)
    (hv : valid n (labelText (getLabels k)) = true) :
    .counter n (labelText (getLabels k)) (total (valuesOf m (plain (r0 :: rs)))) (lastTs (r0 :: rs) / 1000) ∈ ss := by
  have hw : withDefault promKinds m = some [⟨m, .sum, []⟩] := by
    simp [withDefault, promKinds, hk.1, hk.2.1, hk.2.2]
  obtain ⟨y, hy, hsub⟩ := exported h hc hl hm hw (List.mem_singleton.2 rfl) (foldApply_total 0 _) rfl
  simp only [sampleOf, hn, hv, if_true, Option.some.injEq, Int.zero_add] at hy
  subst hy
  exact hsub _ (List.mem_singleton.2 rfl)

/-- C87: the round-trip time is exported with the last recorded value. -/
theorem rtt_exported {t : Tables} {valid : List Nat → List (String × Bytes) → Bool} {net : Group → List Adapted}
    {ops : List POp} {st st' : CState} {out ss : List Sample} {now : Int} (h : prun t valid net [] ops = some (st, out))
    (hc : collect t valid st now = some (st', ss)) {k : LabelKeys} {r0 : CRec} {rs : List CRec}
    (hl : live net ops k = r0 :: rs) (hm : rttName ∈ r0.1.map (·.name)) {vs : List Int} {v : Int}
    (hvs : valuesOf rttName (plain (r0 :: rs)) = (vs ++ [v]).map MData.int)
    {n : List Nat} (hn : sanitize t (runes rttName) true = .ok n) (hv : valid n (labelText (getLabels k)) = true) :
    .counter n (labelText (getLabels k)) v (lastTs (r0 :: rs) / 1000) ∈ ss := by
  have hw : withDefault promKinds rttName = some [⟨rttName, .last, []⟩] := by decide
  have hf : foldApply (Acc.init ⟨rttName, .last, []⟩) (valuesOf rttName (plain (r0 :: rs))) = some (.last v) := by
    rw [hvs, show Acc.init ⟨rttName, .last, []⟩ = .last 0 from rfl, foldApply_last]; simp
  obtain ⟨y, hy, hsub⟩ := exported h hc hl hm hw (List.mem_singleton.2 rfl) hf rfl
  simp only [sampleOf, hn, hv, if_true, Option.some.injEq] at hy
  subst hy
  exact hsub _ (List.mem_singleton.2 rfl)

theorem bucketMap_get (f : Int → Nat) (bs : List Int) (acc : AMap Int Nat) :
    ∃ b, bucketMap bs (bs.map f) acc = some b ∧ ∀ x, AMap.get b x = if x ∈ bs then some (f x) else AMap.get acc x := by
  induction bs generalizing acc with
  | nil => exact ⟨acc, rfl, fun x => by simp⟩
  | cons c r ih =>
    obtain ⟨b, hb, hx⟩ := ih (AMap.set acc c (f c))
    refine ⟨b, by simpa [bucketMap] using hb, ?_⟩
    intro x
    rw [hx x]
    by_cases hr : x ∈ r
    · simp [hr]
    · by_cases he : x = c
      · subst he; simp [hr, AMap.get_set_self]
      · simp [hr, he, AMap.get_set_ne _ _ (Ne.symm he)]

/-- C87: the request time histograms are exported with the number and the sum of all recorded values and, at every
boundary, the number of values up to it, whether the values came one by one or as histograms over the same boundaries. -/
theorem histogram_exported {t : Tables} {valid : List Nat → List (String × Bytes) → Bool} {net : Group → List Adapted}
    {ops : List POp} {st st' : CState} {out ss : List Sample} {now : Int} (h : prun t valid net [] ops = some (st, out))
    (hc : collect t valid st now = some (st', ss)) {k : LabelKeys} {r0 : CRec} {rs : List CRec}
    (hl : live net ops k = r0 :: rs) {m : String} (hm : m ∈ r0.1.map (·.name)) (hk : m = topoHist ∨ m = entityHist)
    {vss : List (List Int)} (hvs : All2 (Carries promBounds) (valuesOf m (plain (r0 :: rs))) vss)
    {n : List Nat} (hn : sanitize t (runes m) true = .ok n) (hv : valid n (labelText (getLabels k)) = true) :
    ∃ b, .hist n (labelText (getLabels k)) vss.flatten.length vss.flatten.sum b (lastTs (r0 :: rs) / 1000) ∈ ss ∧
      ∀ x, AMap.get b x = if x ∈ promBounds then some (vss.flatten.countP (· ≤ x)) else none := by
  have hw : withDefault promKinds m = some [⟨m, .histogram, promBounds⟩] := by
    rcases hk with rfl | rfl <;> decide
  have hf := histogram_of_all_values m promBounds _ vss hvs
  obtain ⟨y, hy, hsub⟩ := exported h hc hl hm hw (List.mem_singleton.2 rfl) hf rfl
  obtain ⟨b, hb, hx⟩ := bucketMap_get (fun b => vss.flatten.countP (· ≤ b)) promBounds []
  simp only [sampleOf, histOf, hb, hn, hv, if_true, Option.some.injEq] at hy
  subst hy
  refine ⟨b, hsub _ (List.mem_singleton.2 rfl), ?_⟩
  intro x
  rw [hx x, AMap.get_nil]

/-! ## Nothing else is exported -/

def Sample.labels : Sample → List (String × Bytes)
  | .counter _ l _ _ => l
  | .hist _ l _ _ _ _ => l

theorem new_wf (kinds : KindMap) (ms : List Metric) : AMap.WF (newAggValuesMap kinds ms).values := by
  have : ∀ (ms : List Metric) (acc : AMap String (List AggVal)), AMap.WF acc →
      AMap.WF (ms.foldl (fun acc m => match kinds m.name with
        | none => acc
        | some cs => AMap.set acc m.name (cs.map newAggValue)) acc) := by
    intro ms
    induction ms with
    | nil => intro acc h; exact h
    | cons x r ih =>
      intro acc h
      simp only [List.foldl_cons]
      apply ih
      split
      · exact h
      · exact h.set _ _
  exact this ms [] AMap.wf_nil

theorem recordAll_wf {ms : List Metric} {vm vm' : ValuesMap} {ts : Nat} (hw : AMap.WF vm.values)
    (h : vm.recordAll ms ts = some vm') : AMap.WF vm'.values := by
  induction ms generalizing vm with
  | nil => simp only [ValuesMap.recordAll, Option.some.injEq] at h; subst h; exact hw
  | cons x r ih =>
    simp only [ValuesMap.recordAll] at h
    cases hc : vm.calculate x ts with
    | none => simp [hc] at h
    | some vm1 =>
      simp only [hc] at h
      refine ih ?_ h
      unfold ValuesMap.calculate at hc
      split at hc
      · simp only [Option.some.injEq] at hc; subst hc; exact hw
      · split at hc
        · cases hc
        · simp only [Option.some.injEq] at hc; subst hc; exact hw.set _ _

theorem recordMany_wf {rs : List (List Metric × Nat)} {vm vm' : ValuesMap} (hw : AMap.WF vm.values)
    (h : recordMany vm rs = some vm') : AMap.WF vm'.values := by
  induction rs generalizing vm with
  | nil => simp only [recordMany, Option.some.injEq] at h; subst h; exact hw
  | cons r rs ih =>
    simp only [recordMany] at h
    split at h
    · cases h
    · rename_i vm1 h1
      exact ih (recordAll_wf hw h1) h

/-- C87: nothing else is exported.  Every sample belongs to a live label set, to a metric of its first record, and
carries the configured aggregate of exactly the values recorded for that metric while the label set was alive. -/
theorem only_live_exported {t : Tables} {valid : List Nat → List (String × Bytes) → Bool} {net : Group → List Adapted}
    {ops : List POp} {st st' : CState} {out ss : List Sample} {now : Int} (h : prun t valid net [] ops = some (st, out))
    (hc : collect t valid st now = some (st', ss)) {s : Sample} (hs : s ∈ ss) :
    ∃ k r0 rs m cs c acc d y, live net ops k = r0 :: rs ∧ m ∈ r0.1.map (·.name) ∧ withDefault promKinds m = some cs ∧ c ∈ cs ∧
      foldApply (Acc.init c) (valuesOf m (plain (r0 :: rs))) = some acc ∧ acc.get = some d ∧
      sampleOf t valid (labelText (getLabels k)) (lastTs (r0 :: rs) / 1000) ⟨c.outputName, d⟩ = some y ∧ s ∈ y := by
  unfold collect at hc
  cases hdump : cdump promExpiration st now with
  | none => simp [hdump] at hc
  | some p =>
    obtain ⟨s2, gs⟩ := p
    simp only [hdump, Option.map_eq_some_iff, Prod.mk.injEq] at hc
    obtain ⟨ll, hll, _, rfl⟩ := hc
    obtain ⟨l1, hl1, hs1⟩ := List.mem_flatten.1 hs
    obtain ⟨g, hg, hgs⟩ := (mapOpt_mem hll).1 hl1
    simp only [groupSamples, Option.map_eq_some_iff] at hgs
    obtain ⟨ys, hys, rfl⟩ := hgs
    obtain ⟨y, hy, hsy⟩ := List.mem_flatten.1 hs1
    obtain ⟨M, hM, hMy⟩ := (mapOpt_mem hys).1 hy
    simp only [cdump, Option.map_eq_some_iff, Prod.mk.injEq] at hdump
    obtain ⟨l, hl, _, rfl⟩ := hdump
    obtain ⟨gl, hgl, hgg⟩ := List.mem_flatten.1 hg
    obtain ⟨⟨n, r⟩, hnr, hrd⟩ := (mapOpt_mem hl).1 hgl
    simp only [CRecorder.dump] at hrd
    obtain ⟨⟨k, e⟩, hke, hge⟩ := (mapOpt_mem hrd).1 hgg
    simp only [Option.map_eq_some_iff] at hge
    obtain ⟨ms, hms, rfl⟩ := hge
    obtain ⟨cops, hcops⟩ := prun_crun h
    have hwf := (crun_rep (crep_init promKinds) hcops).1
    have hlk : clookup st n k = some e := by
      simp only [clookup, AMap.get_of_mem hwf.1 hnr, Option.bind_some]
      exact AMap.get_of_mem (hwf.2 _ hnr) hke
    have hn : n = "" := Decidable.by_contra fun hn => by
      have := only_unnamed h n k hn
      rw [hlk] at this; cases this
    subst hn
    have hlive := live_state h k
    cases hL : live net ops k with
    | nil => simp only [hL] at hlive; rw [hlk] at hlive; cases hlive
    | cons r0 rs =>
      simp only [hL] at hlive
      obtain ⟨e', he', hrm, hts⟩ := hlive
      rw [hlk] at he'; cases he'
      simp only [ValuesMap.getAll, Option.map_eq_some_iff] at hms
      obtain ⟨l2, hl2, rfl⟩ := hms
      obtain ⟨a, ha, hMa⟩ := List.mem_flatten.1 hM
      obtain ⟨⟨m, vs⟩, hmv, hva⟩ := (mapOpt_mem hl2).1 ha
      obtain ⟨v, hv, hvM⟩ := (mapOpt_mem hva).1 hMa
      have hget : AMap.get e.vm.values m = some vs := AMap.get_of_mem (recordMany_wf (new_wf _ _) hrm) hmv
      have hev := recordMany_evolves hrm m
      rw [get_newAggValuesMap] at hev
      by_cases hm : m ∈ r0.1.map (·.name)
      · rw [if_pos hm] at hev
        cases hcs : withDefault promKinds m with
        | none => simp only [hcs, Option.map_none] at hev; rw [hget] at hev; cases hev
        | some cs =>
          simp only [hcs, Option.map_some] at hev
          obtain ⟨vs', hvs', hE⟩ := hev
          rw [hget] at hvs'; cases hvs'
          obtain ⟨u, hu, hname, hfold⟩ := All2.mem_right hE hv
          obtain ⟨c, hcc, rfl⟩ := List.mem_map.1 hu
          simp only [AggVal.get, Option.map_eq_some_iff] at hvM
          obtain ⟨d, hd, rfl⟩ := hvM
          refine ⟨k, r0, rs, m, cs, c, v.acc, d, y, hL, hm, hcs, hcc, hfold, hd, ?_, hsy⟩
          rw [← hts]
          have : v.name = c.outputName := hname
          rw [← this]
          exact hMy
      · rw [if_neg hm] at hev
        rw [hget] at hev; cases hev

/-! ## The labels -/

theorem addLabel_keyOfAttr (acc : Labels) (p : String × AttrVal)
    (hi : ∀ i, p.2 = .int i → -(2 ^ 63 : Nat) ≤ i ∧ i < (2 ^ 63 : Nat)) :
    addLabel acc (keyOfAttr p) = AMap.set acc p.1 p.2 := by
  obtain ⟨n, v⟩ := p
  cases v with
  | str s => rfl
  | int i =>
    simp only [addLabel, keyOfAttr]
    rw [Dec.parseInt_formatInt 64 i (hi i rfl).1 (hi i rfl).2]
  | bool b =>
    simp only [addLabel, keyOfAttr]
    have : ∀ b, parseBool (Dec.formatBool b) = b := by decide
    rw [this]

/-- C87: the exported labels of a series are exactly the labels its records came with. -/
theorem labels_restored {l : Labels} (hw : AMap.WF l) (hne : AMap.get l "" = none) (hi : l.Int64) {k : LabelKeys}
    (hk : getLabelsKeys l = .ok k) (n : String) : AMap.get (getLabels k) n = AMap.get l n := by
  unfold getLabelsKeys at hk
  split at hk
  · cases hk
  · simp only [Res.ok.injEq] at hk
    have hp : List.Perm k (l.map keyOfAttr ++ List.replicate (maxLabelKeySize - l.length) LabelKey.blank) := by
      rw [← hk]; exact sort_perm _
    have hform : ∀ x ∈ k, x = LabelKey.blank ∨ ∃ p ∈ l, x = keyOfAttr p := by
      intro x hx
      rcases List.mem_append.1 (hp.mem_iff.1 hx) with h1 | h1
      · obtain ⟨p, hp, rfl⟩ := List.mem_map.1 h1
        exact Or.inr ⟨p, hp, rfl⟩
      · exact Or.inl (List.mem_replicate.1 h1).2
    have hgetl : ∀ p ∈ l, AMap.get l p.1 = some p.2 := fun p hp => AMap.get_of_mem hw hp
    have key : ∀ (k : List LabelKey) (acc : Labels), (∀ x ∈ k, x = LabelKey.blank ∨ ∃ p ∈ l, x = keyOfAttr p) →
        AMap.get (k.foldl addLabel acc) n =
          if (∃ p ∈ l, p.1 = n ∧ keyOfAttr p ∈ k) then AMap.get l n else AMap.get acc n := by
      intro k
      induction k with
      | nil => intro acc _; simp
      | cons x k ih =>
        intro acc hx
        simp only [List.foldl_cons]
        rw [ih _ (fun y hy => hx y (List.mem_cons_of_mem _ hy))]
        rcases hx x (List.mem_cons_self ..) with rfl | ⟨p, hp, rfl⟩
        · have hbl : addLabel acc LabelKey.blank = acc := rfl
          rw [hbl]
          have : (∃ p ∈ l, p.1 = n ∧ keyOfAttr p ∈ LabelKey.blank :: k) ↔ (∃ p ∈ l, p.1 = n ∧ keyOfAttr p ∈ k) := by
            constructor
            · rintro ⟨p, hp, hn, hm⟩
              rcases List.mem_cons.1 hm with hm | hm
              · exfalso
                have h1 := keyOfAttr_name p
                rw [hm] at h1
                have h2 := hgetl p hp
                rw [← h1] at h2
                simp only [LabelKey.blank] at h2
                rw [hne] at h2; cases h2
              · exact ⟨p, hp, hn, hm⟩
            · rintro ⟨p, hp, hn, hm⟩
              exact ⟨p, hp, hn, List.mem_cons_of_mem _ hm⟩
          simp only [this]
        · rw [addLabel_keyOfAttr acc p (fun i hpi => hi p.1 i (by rw [hgetl p hp, hpi]))]
          by_cases hpn : p.1 = n
          · have h1 : ∃ q ∈ l, q.1 = n ∧ keyOfAttr q ∈ keyOfAttr p :: k := ⟨p, hp, hpn, List.mem_cons_self ..⟩
            rw [if_pos h1]
            split
            · rfl
            · rw [hpn, AMap.get_set_self, ← hpn]; exact (hgetl p hp).symm
          · rw [AMap.get_set_ne _ _ hpn]
            have : (∃ q ∈ l, q.1 = n ∧ keyOfAttr q ∈ keyOfAttr p :: k) ↔ (∃ q ∈ l, q.1 = n ∧ keyOfAttr q ∈ k) := by
              constructor
              · rintro ⟨q, hq, hn, hm⟩
                rcases List.mem_cons.1 hm with hm | hm
                · exact absurd ((congrArg Prod.fst (keyOfAttr_inj hm)).symm.trans hn) hpn
                · exact ⟨q, hq, hn, hm⟩
              · rintro ⟨q, hq, hn, hm⟩
                exact ⟨q, hq, hn, List.mem_cons_of_mem _ hm⟩
            simp only [this]
    simp only [getLabels]
    rw [key k [] hform, AMap.get_nil]
    split
    · rfl
    · rename_i hno
      cases hg : AMap.get l n with
      | none => rfl
      | some v =>
        exact absurd ⟨(n, v), AMap.mem_of_get hg, rfl, hp.mem_iff.2 (List.mem_append_left _ (List.mem_map.2 ⟨_, AMap.mem_of_get hg, rfl⟩))⟩ hno

/-! ## No panic -/

/-- A metric the collector can take: as many counts as boundaries, and a name that is not a single symbol. -/
def GoodMetric (t : Tables) (m : Metric) : Prop :=
  (∀ h, m.data = .hist h → h.buckets.length = h.bounds.length) ∧ sanitize t (runes m.name) true ≠ .panic

def GoodVal (t : Tables) (v : AggVal) : Prop :=
  (∀ a c, v.acc ≠ .avg a c) ∧ (∀ h, v.acc = .hist h → h.buckets.length = h.bounds.length) ∧
  sanitize t (runes v.name) true ≠ .panic

theorem addBuckets_ok {a b : List Nat} (h : b.length ≤ a.length) : ∃ c, addBuckets a b = some c ∧ c.length = a.length := by
  induction b generalizing a with
  | nil => exact ⟨a, by cases a <;> rfl, rfl⟩
  | cons d ds ih =>
    cases a with
    | nil => simp at h
    | cons x xs =>
      obtain ⟨c, hc, hl⟩ := ih (a := xs) (by simpa using h)
      exact ⟨(x + d) :: c, by simp [addBuckets, hc], by simp [hl]⟩

theorem bumpBuckets_length (v : Int) (bs : List Int) (cs : List Nat) : (bumpBuckets v bs cs).length = cs.length := by
  induction bs generalizing cs with
  | nil => cases cs <;> rfl
  | cons b r ih => cases cs with
    | nil => rfl
    | cons c cs => simp [bumpBuckets, ih]

theorem apply_good {t : Tables} {v : AggVal} {d : MData} (hv : GoodVal t v) (hd : ∀ h, d = .hist h → h.buckets.length = h.bounds.length) :
    ∃ v', v.apply d = some v' ∧ GoodVal t v' := by
  obtain ⟨n, acc⟩ := v
  obtain ⟨h1, h2, h3⟩ := hv
  simp only [AggVal.apply]
  cases d with
  | none => exact ⟨_, rfl, h1, h2, h3⟩
  | int i =>
    refine ⟨_, rfl, ?_, ?_, h3⟩
    · intro a c
      cases acc <;> simp [Acc.calculate]
      exact absurd rfl (h1 _ _)
    · intro h hh
      cases acc with
      | hist s =>
        simp only [Acc.calculate, Acc.hist.injEq] at hh
        subst hh
        simp only [bumpBuckets_length]
        exact h2 s rfl
      | _ => simp [Acc.calculate] at hh
  | hist hd' =>
    have hlen := hd hd' rfl
    cases acc with
    | avg a c => exact absurd rfl (h1 a c)
    | sum a => exact ⟨_, rfl, (by intro a c; simp), (by intro h hh; cases hh), h3⟩
    | max a => exact ⟨_, rfl, (by intro a c; simp), (by intro h hh; cases hh), h3⟩
    | last a => exact ⟨_, rfl, (by intro a c; simp), (by intro h hh; cases hh), h3⟩
    | count a => exact ⟨_, rfl, (by intro a c; simp), (by intro h hh; cases hh), h3⟩
    | hist s =>
      have hs := h2 s rfl
      simp only [Acc.apply, Acc.merge]
      by_cases hb : s.bounds.length ≠ hd'.bounds.length
      · rw [if_pos hb]
        exact ⟨_, rfl, h1, h2, h3⟩
      · rw [if_neg hb]
        have hb := Decidable.not_not.1 hb
        obtain ⟨c, hc, hcl⟩ := addBuckets_ok (a := s.buckets) (b := hd'.buckets) (by omega)
        simp only [hc]
        refine ⟨_, rfl, by intro a c; simp, ?_, h3⟩
        intro h hh
        simp only [Acc.hist.injEq] at hh
        subst hh
        simp only; omega

def GoodVM (t : Tables) (vm : ValuesMap) : Prop := ∀ p ∈ vm.values, ∀ v ∈ p.2, GoodVal t v

def GoodSt (t : Tables) (st : CState) : Prop := ∀ p ∈ st, ∀ q ∈ p.2, GoodVM t q.2.vm

theorem mapOpt_good {t : Tables} {d : MData} (hd : ∀ h, d = .hist h → h.buckets.length = h.bounds.length) (vs : List AggVal)
    (h : ∀ v ∈ vs, GoodVal t v) : ∃ vs', mapOpt (fun v => AggVal.apply v d) vs = some vs' ∧ ∀ v ∈ vs', GoodVal t v := by
  induction vs with
  | nil => exact ⟨[], rfl, by simp⟩
  | cons v r ih =>
    obtain ⟨v', hv', hg⟩ := apply_good (h v (List.mem_cons_self ..)) hd
    obtain ⟨r', hr', hgr⟩ := ih (fun x hx => h x (List.mem_cons_of_mem _ hx))
    refine ⟨v' :: r', mapOpt_cons_eq_some.2 ⟨v', r', hv', hr', rfl⟩, ?_⟩
    intro x hx
    rcases List.mem_cons.1 hx with rfl | hx
    · exact hg
    · exact hgr x hx

theorem evm_good {t : Tables} (ms : List Metric) (e : EVM) (ts : Nat) (now : Int) (he : GoodVM t e.vm)
    (hm : ∀ m ∈ ms, GoodMetric t m) : ∃ e', e.recordAll ms ts now = some e' ∧ GoodVM t e'.vm := by
  induction ms generalizing e with
  | nil => exact ⟨e, rfl, he⟩
  | cons x r ih =>
    have hr := fun m hx => hm m (List.mem_cons_of_mem _ hx)
    simp only [EVM.recordAll, EVM.calculate]
    cases hg : AMap.get e.vm.values x.name with
    | none => exact ih e he hr
    | some vs =>
      obtain ⟨vs', hvs', hgood⟩ := mapOpt_good (hm x (List.mem_cons_self ..)).1 vs (he _ (AMap.mem_of_get hg))
      simp only [ValuesMap.calculate, hg, hvs', Option.map_some]
      refine ih _ ?_ hr
      intro p hp
      rcases mem_set hp with rfl | hp
      · exact hgood
      · exact he p hp

theorem newEVM_good {t : Tables} (hcfg : ∀ m ∈ [rttName, topoHist, entityHist], sanitize t (runes m) true ≠ .panic)
    (ms : List Metric) (hm : ∀ m ∈ ms, GoodMetric t m) : GoodVM t (newEVM promKinds ms).vm := by
  have key : ∀ (ms : List Metric) (acc : AMap String (List AggVal)), (∀ m ∈ ms, GoodMetric t m) →
      (∀ p ∈ acc, ∀ v ∈ p.2, GoodVal t v) →
      ∀ p ∈ (ms.foldl (fun acc m => match withDefault promKinds m.name with
        | none => acc
        | some cs => AMap.set acc m.name (cs.map newAggValue)) acc), ∀ v ∈ p.2, GoodVal t v := by
    intro ms
    induction ms with
    | nil => intro acc _ h; exact h
    | cons x r ih =>
      intro acc hm h
      simp only [List.foldl_cons]
      apply ih _ (fun m hx => hm m (List.mem_cons_of_mem _ hx))
      split
      · exact h
      · rename_i cs hcs
        intro p hp
        rcases mem_set hp with rfl | hp
        · intro v hv
          obtain ⟨c, hc, rfl⟩ := List.mem_map.1 hv
          simp only [withDefault, promKinds] at hcs
          by_cases h1 : x.name = rttName
          · simp only [h1, if_true, Option.some.injEq] at hcs
            subst hcs
            simp only [List.mem_singleton] at hc
            subst hc
            exact ⟨by intro a c; simp [newAggValue, Acc.init], by intro h hh; simp [newAggValue, Acc.init] at hh, hcfg _ (by simp [newAggValue])⟩
          · by_cases h2 : x.name = topoHist
            · simp only [h2, if_true] at hcs
              rw [if_neg (by decide)] at hcs
              simp only [Option.some.injEq] at hcs
              subst hcs
              simp only [List.mem_singleton] at hc
              subst hc
              refine ⟨by intro a c; simp [newAggValue, Acc.init], ?_, hcfg _ (by simp [newAggValue])⟩
              intro h hh
              simp only [newAggValue, Acc.init, Acc.hist.injEq] at hh
              subst hh; simp
            · by_cases h3 : x.name = entityHist
              · simp only [h3, if_true] at hcs
                rw [if_neg (by decide), if_neg (by decide)] at hcs
                simp only [Option.some.injEq] at hcs
                subst hcs
                simp only [List.mem_singleton] at hc
                subst hc
                refine ⟨by intro a c; simp [newAggValue, Acc.init], ?_, hcfg _ (by simp [newAggValue])⟩
                intro h hh
                simp only [newAggValue, Acc.init, Acc.hist.injEq] at hh
                subst hh; simp
              · simp only [h1, h2, h3, if_false, Option.some.injEq] at hcs
                subst hcs
                simp only [List.mem_singleton] at hc
                subst hc
                exact ⟨by intro a c; simp [newAggValue, Acc.init], by intro h hh; simp [newAggValue, Acc.init] at hh,
                  (hm x (List.mem_cons_self ..)).2⟩
        · exact h p hp
  exact key ms [] hm (by simp)

theorem caggregate_good {t : Tables} (hcfg : ∀ m ∈ [rttName, topoHist, entityHist], sanitize t (runes m) true ≠ .panic)
    {st : CState} (hst : GoodSt t st) (g : Group) (now : Int) (hl : g.labels.length ≤ 37) (hm : ∀ m ∈ g.metrics, GoodMetric t m) :
    ∃ st', caggregate promKinds st g now = some st' ∧ GoodSt t st' := by
  have hk : getLabelsKeys g.labels = .ok (sortByName (g.labels.map keyOfAttr ++
      List.replicate (maxLabelKeySize - g.labels.length) LabelKey.blank)) := by
    unfold getLabelsKeys
    rw [if_neg (by unfold maxLabelKeySize; omega)]
  simp only [caggregate, hk, CRecorder.record]
  generalize sortByName _ = key
  have hr : ∀ q ∈ (AMap.get st g.name).getD [], GoodVM t q.2.vm := by
    cases hg : AMap.get st g.name with
    | none => simp
    | some r => exact hst _ (AMap.mem_of_get hg)
  have he : ∃ e', ((match AMap.get ((AMap.get st g.name).getD []) key with
      | some e => e | none => newEVM promKinds g.metrics).recordAll g.metrics g.ts now).map
        (fun e => AMap.set ((AMap.get st g.name).getD []) key e) = some (AMap.set ((AMap.get st g.name).getD []) key e') ∧ GoodVM t e'.vm := by
    cases hg : AMap.get ((AMap.get st g.name).getD []) key with
    | none =>
      obtain ⟨e', he', hgood⟩ := evm_good g.metrics _ g.ts now (newEVM_good hcfg _ hm) hm
      exact ⟨e', by simp only [he', Option.map_some], hgood⟩
    | some e =>
      obtain ⟨e', he', hgood⟩ := evm_good g.metrics _ g.ts now (hr _ (AMap.mem_of_get hg)) hm
      exact ⟨e', by simp only [he', Option.map_some], hgood⟩
  obtain ⟨e', he', hgood⟩ := he
  refine ⟨_, congrArg (Option.map (fun r => AMap.set st g.name r)) he', ?_⟩
  intro p hp
  rcases mem_set hp with rfl | hp
  · intro q hq
    rcases mem_set hq with rfl | hq
    · exact hgood
    · exact hr q hq
  · exact hst p hp

theorem mapOpt_exists {α β : Type} {f : α → Option β} {P : β → Prop} {l : List α} (h : ∀ x ∈ l, ∃ y, f x = some y ∧ P y) :
    ∃ ys, mapOpt f l = some ys ∧ ∀ y ∈ ys, P y := by
  induction l with
  | nil => exact ⟨[], rfl, by simp⟩
  | cons x r ih =>
    obtain ⟨y, hy, hp⟩ := h x (List.mem_cons_self ..)
    obtain ⟨ys, hys, hps⟩ := ih (fun x hx => h x (List.mem_cons_of_mem _ hx))
    refine ⟨y :: ys, mapOpt_cons_eq_some.2 ⟨y, ys, hy, hys, rfl⟩, ?_⟩
    intro z hz
    rcases List.mem_cons.1 hz with rfl | hz
    · exact hp
    · exact hps z hz

theorem bucketMap_some (bs : List Int) (cs : List Nat) (h : cs.length = bs.length) (acc : AMap Int Nat) :
    ∃ b, bucketMap bs cs acc = some b := by
  induction bs generalizing cs acc with
  | nil => exact ⟨acc, by simp [bucketMap]⟩
  | cons b r ih =>
    cases cs with
    | nil => simp at h
    | cons c cs => simpa [bucketMap] using ih cs (by simpa using h) (AMap.set acc b c)

theorem sanitize_no_err (t : Tables) (s : List Nat) (skip : Bool) : sanitize t s skip ≠ .err := by
  unfold sanitize
  split
  · simp
  · unfold addKey2
    split
    · simp
    · split <;> simp
    · simp

theorem collect_good {t : Tables} {valid : List Nat → List (String × Bytes) → Bool} {st : CState} (hst : GoodSt t st) (now : Int) :
    ∃ st' ss, collect t valid st now = some (st', ss) ∧ GoodSt t st' := by
  have hval : ∀ v : AggVal, GoodVal t v → ∃ m, v.get = some m ∧ GoodMetric t m := by
    rintro ⟨n, acc⟩ ⟨h1, h2, h3⟩
    cases acc with
    | avg a c => exact absurd rfl (h1 a c)
    | hist h => exact ⟨_, rfl, by intro h' hh; simp only [MData.hist.injEq] at hh; subst hh; exact h2 _ rfl, h3⟩
    | sum a => exact ⟨_, rfl, (by intro h' hh; cases hh), h3⟩
    | max a => exact ⟨_, rfl, (by intro h' hh; cases hh), h3⟩
    | last a => exact ⟨_, rfl, (by intro h' hh; cases hh), h3⟩
    | count a => exact ⟨_, rfl, (by intro h' hh; cases hh), h3⟩
  have hvm : ∀ vm : ValuesMap, GoodVM t vm → ∃ ms, vm.getAll = some ms ∧ ∀ m ∈ ms, GoodMetric t m := by
    intro vm hvm
    obtain ⟨l, hl, hg⟩ := mapOpt_exists (l := vm.values) (f := fun p => mapOpt AggVal.get p.2)
      (P := fun ms => ∀ m ∈ ms, GoodMetric t m) (fun p hp => mapOpt_exists (fun v hv => hval v (hvm p hp v hv)))
    refine ⟨l.flatten, by simp [ValuesMap.getAll, hl], ?_⟩
    intro m hm
    obtain ⟨x, hx, hmx⟩ := List.mem_flatten.1 hm
    exact hg x hx m hmx
  have hrec : ∀ p ∈ st, ∃ gs, CRecorder.dump p.1 p.2 = some gs ∧ ∀ g ∈ gs, ∀ m ∈ g.metrics, GoodMetric t m := by
    intro p hp
    refine mapOpt_exists (P := fun g : Group => ∀ m ∈ g.metrics, GoodMetric t m) ?_
    intro q hq
    obtain ⟨ms, hms, hg⟩ := hvm _ (hst p hp q hq)
    exact ⟨_, by simp only [hms, Option.map_some]; rfl, hg⟩
  obtain ⟨gs, hgs, hgood⟩ := mapOpt_exists hrec
  have hsam : ∀ ls micros m, GoodMetric t m → ∃ ss, sampleOf t valid ls micros m = some ss ∧ True := by
    intro ls micros m hm
    unfold sampleOf
    have hs : ∃ n, sanitize t (runes m.name) true = .ok n := by
      cases h : sanitize t (runes m.name) true with
      | ok n => exact ⟨n, rfl⟩
      | err => exact absurd h (sanitize_no_err _ _ _)
      | panic => exact absurd h hm.2
    obtain ⟨n, hn⟩ := hs
    cases hd : m.data with
    | int v => simp only [hn]; exact ⟨_, rfl, trivial⟩
    | hist h =>
      obtain ⟨b, hb⟩ := bucketMap_some h.bounds h.buckets (hm.1 h hd) []
      simp only [hb, hn]; exact ⟨_, rfl, trivial⟩
    | none => exact ⟨_, rfl, trivial⟩
  have hgr : ∀ g ∈ gs.flatten, ∃ ss, groupSamples t valid g = some ss ∧ True := by
    intro g hg
    obtain ⟨x, hx, hgx⟩ := List.mem_flatten.1 hg
    obtain ⟨ss, hss, _⟩ := mapOpt_exists (f := sampleOf t valid (labelText g.labels) (g.ts / 1000)) (l := g.metrics)
      (P := fun _ => True) (fun m hm => hsam _ _ m (hgood x hx g hgx m hm))
    exact ⟨_, by simp only [groupSamples, hss, Option.map_some]; rfl, trivial⟩
  obtain ⟨ss, hss, _⟩ := mapOpt_exists hgr
  refine ⟨_, ss.flatten, by simp only [collect, cdump, hgs, Option.map_some, hss]; rfl, ?_⟩
  intro p hp
  obtain ⟨q, hq, rfl⟩ := List.mem_map.1 hp
  intro x hx
  exact hst q hq x (List.mem_filter.1 hx).1

theorem configured_names (t : Tables) : ∀ m ∈ [rttName, topoHist, entityHist], sanitize t (runes m) true ≠ .panic := by
  intro m hm h
  obtain ⟨_, c, hc, _⟩ := (sanitize_panics_iff t _ _).1 h
  have hlen := congrArg List.length hc
  simp only [List.mem_cons, List.not_mem_nil, or_false] at hm
  simp only [List.length_cons, List.length_nil] at hlen
  rcases hm with rfl | rfl | rfl <;> exact absurd hlen (by decide)

/-- C87: as long as every adapted result has at most 37 labels, histograms with a count per boundary, and no name that is
a single symbol, neither `Consume` nor `Collect` ever crashes. -/
theorem no_panic {t : Tables} {valid : List Nat → List (String × Bytes) → Bool} {net : Group → List Adapted}
    (ops : List POp) (hops : ∀ g now, POp.consume g now ∈ ops → ∀ r ∈ adapt net g, r.isMetric = true →
      r.labels.length ≤ 37 ∧ ∀ m ∈ r.metrics, GoodMetric t m) :
    ∃ st out, prun t valid net [] ops = some (st, out) := by
  have key : ∀ (ops : List POp) (st : CState), GoodSt t st → (∀ g now, POp.consume g now ∈ ops → ∀ r ∈ adapt net g, r.isMetric = true →
      r.labels.length ≤ 37 ∧ ∀ m ∈ r.metrics, GoodMetric t m) → ∃ st' out, prun t valid net st ops = some (st', out) := by
    intro ops
    induction ops with
    | nil => intro st _ _; exact ⟨st, [], rfl⟩
    | cons op ops ih =>
      intro st hst hops
      have hrest := fun g now hm => hops g now (List.mem_cons_of_mem _ hm)
      have hstep : ∃ st' o, pstep t valid net st op = some (st', o) ∧ GoodSt t st' := by
        cases op with
        | collect now => exact collect_good hst now
        | consume g now =>
          have hg := hops g now (List.mem_cons_self ..)
          have : ∀ (rs : List Adapted) (st : CState), GoodSt t st → (∀ r ∈ rs, r.isMetric = true →
              r.labels.length ≤ 37 ∧ ∀ m ∈ r.metrics, GoodMetric t m) → ∃ st', exportAll st now rs = some st' ∧ GoodSt t st' := by
            intro rs
            induction rs with
            | nil => intro st hst _; exact ⟨st, rfl, hst⟩
            | cons r rs ih2 =>
              intro st hst hrs
              have hr2 := fun x hx => hrs x (List.mem_cons_of_mem _ hx)
              simp only [exportAll]
              by_cases hm : r.isMetric = true
              · obtain ⟨h1, h2⟩ := hrs r (List.mem_cons_self ..) hm
                obtain ⟨s1, hs1, hg1⟩ := caggregate_good (configured_names t) hst ⟨"", r.labels, r.ts, r.metrics⟩ now h1 h2
                simp only [hm, if_true, hs1]
                exact ih2 s1 hg1 hr2
              · simp only [hm, Bool.false_eq_true, if_false]
                exact ih2 st hst hr2
          obtain ⟨s1, hs1, hg1⟩ := this _ st hst hg
          exact ⟨s1, [], by simp only [pstep, consume, hs1, Option.map_some], hg1⟩
      obtain ⟨s1, o1, hs1, hg1⟩ := hstep
      obtain ⟨s2, o2, h2⟩ := ih s1 hg1 hrest
      exact ⟨s2, o1 ++ o2, by simp only [prun, hs1, h2, Option.map_some]⟩
  exact key ops [] (by intro p hp; cases hp) hops

/-! ## Findings -/

theorem set_same {κ α : Type} [DecidableEq κ] (m : AMap κ α) (k : κ) (v : α) (h : AMap.get m k = some v) : AMap.set m k v = m := by
  induction m with
  | nil => simp at h
  | cons p r ih =>
    obtain ⟨k', v'⟩ := p
    simp only [AMap.get, AMap.set] at h ⊢
    by_cases hk : k' = k
    · simp only [hk, if_true, Option.some.injEq] at h ⊢; subst h; rfl
    · simp only [hk, if_false] at h ⊢; rw [ih h]

/-- Finding (C87 fails): all groups are recorded under one name, so a label set keeps only the metrics of its first
group.  The TCP groups carry the same labels (aggregateprocessor/processor.go `newTcpLabelSelectors`): once a round-trip
time was exported for a connection, its retransmissions and drops are ignored as long as the series lives. -/
theorem later_group_ignored {t : Tables} {valid : List Nat → List (String × Bytes) → Bool} {net : Group → List Adapted}
    {ops : List POp} {st : CState} {out : List Sample} (h : prun t valid net [] ops = some (st, out)) (g : Group) (now : Int)
    (hg : g.name ∈ tcpGroups) {k : LabelKeys} (hk : getLabelsKeys g.labels = .ok k) {r0 : CRec} {rs : List CRec}
    (hl : live net ops k = r0 :: rs) (hm : ∀ m ∈ g.metrics, m.name ∉ r0.1.map (·.name)) :
    consume net st g now = some st := by
  have hlive := live_state h k
  simp only [hl] at hlive
  obtain ⟨e, he, hrm, _⟩ := hlive
  have hno : ∀ m ∈ g.metrics, AMap.get e.vm.values m.name = none := by
    intro m hmm
    have := names_recordMany hrm m.name
    cases hget : AMap.get e.vm.values m.name with
    | none => rfl
    | some vs =>
      rw [hget] at this
      simp only [Option.isSome_some] at this
      obtain ⟨y, hy, hyn⟩ := List.any_eq_true.1 this.symm
      simp only [decide_eq_true_eq] at hyn
      exact absurd (List.mem_map.2 ⟨y, hy, hyn⟩) (hm m hmm)
  have hall : ∀ ms : List Metric, (∀ m ∈ ms, AMap.get e.vm.values m.name = none) → e.recordAll ms g.ts now = some e := by
    intro ms
    induction ms with
    | nil => intro _; rfl
    | cons x r ih =>
      intro hx
      simp only [EVM.recordAll, EVM.calculate, hx x (List.mem_cons_self ..)]
      exact ih (fun m hm => hx m (List.mem_cons_of_mem _ hm))
  simp only [clookup, Option.bind_eq_some_iff] at he
  obtain ⟨r, hr, hre⟩ := he
  have hnet : g.name ∉ netGroups := by
    intro hn
    simp only [tcpGroups, netGroups, List.mem_cons, List.not_mem_nil, or_false] at hg hn
    rcases hg with hg | hg | hg <;> rw [hg] at hn <;> exact absurd hn (by decide)
  simp only [consume, adapt, if_neg hnet, simpleAdapt, if_pos hg, exportAll, if_true, caggregate, hk, CRecorder.record, hr,
    Option.getD_some, hre, hall _ hno, Option.map_some, set_same _ _ _ hre, set_same _ _ _ hr]

/-- Finding: the default adapter is the simple one, which accepts the three TCP groups only.  Every other group, such as
the TCP connect metrics or the Kubernetes workload metrics, is dropped without a message. -/
theorem other_groups_dropped (net : Group → List Adapted) (st : CState) (g : Group) (now : Int)
    (h : g.name ∉ netGroups ++ tcpGroups) : consume net st g now = some st := by
  rw [List.mem_append] at h
  simp only [consume, adapt, simpleAdapt, if_neg (fun hc => h (Or.inl hc)), if_neg (fun hc => h (Or.inr hc)), exportAll]

example : "tcp_connect_metric_group" ∉ netGroups ++ tcpGroups ∧ "k8s_workload_metric_group" ∉ netGroups ++ tcpGroups := by decide

/-- A round-trip time of one connection. -/
def rtt (v : Int) : Group := ⟨"tcp_rtt_metric_group", [("src_ip", .str [49])], 5000, [⟨rttName, .int v⟩]⟩
def retrans : Group := ⟨"tcp_retransmit_metric_group", [("src_ip", .str [49])], 6000, [⟨"kindling_tcp_retransmit_total", .int 2⟩]⟩

/-- Finding: a round-trip time is a counter for Prometheus, but it follows the last value and falls. -/
theorem rtt_counter_falls :
    (prun ascii (fun _ _ => true) (fun _ => []) [] [.consume (rtt 9) 0, .collect 1, .consume (rtt 3) 2, .collect 3]).map (·.2) =
      some [.counter (runes rttName) [("src_ip", [49])] 9 5, .counter (runes rttName) [("src_ip", [49])] 3 5] := by
  decide +kernel

/-- The hypotheses of `later_group_ignored` hold for a retransmission after a round-trip time. -/
example : ∃ k r0 rs, getLabelsKeys retrans.labels = .ok k ∧ live (fun _ => []) [.consume (rtt 9) 0] k = r0 :: rs ∧
    ∀ m ∈ retrans.metrics, m.name ∉ r0.1.map (·.name) := by
  refine ⟨_, ([⟨rttName, .int 9⟩], 5000, 0), [], rfl, by decide +kernel, by decide⟩

/-- Finding: labels that differ only in their type are different series with the same exported labels; Prometheus rejects
a collection with such a pair. -/
theorem typed_labels_collide (k : String) (i : Int) (hk : k ≠ "") :
    labelText [(k, .int i)] = labelText [(k, .str (Dec.formatInt i))] ∧
    getLabelsKeys [(k, .int i)] ≠ getLabelsKeys [(k, .str (Dec.formatInt i))] := by
  refine ⟨rfl, ?_⟩
  intro h
  have hw : ∀ v : AttrVal, AMap.WF ([(k, v)] : Labels) := by intro v; simp [AMap.WF, AMap.keys]
  have hn : ∀ v : AttrVal, AMap.get ([(k, v)] : Labels) "" = none := by intro v; simp [AMap.get, hk]
  have := (all_labels_same_series_iff (hw _) (hw _) (hn _) (hn _) (by simp) (by simp)).1 h k
  simp [AMap.get] at this

/-- Finding: a histogram that is not configured becomes a counter of its sum; its buckets are lost. -/
theorem other_histogram_flattened (m : String) (hk : m ≠ rttName ∧ m ≠ topoHist ∧ m ≠ entityHist) (h : Hist) :
    ((newEVM promKinds [⟨m, .hist h⟩]).recordAll [⟨m, .hist h⟩] 0 0).bind (fun e => e.vm.getAll) = some [⟨m, .int h.sum⟩] := by
  have hw : withDefault promKinds m = some [⟨m, .sum, []⟩] := by
    simp [withDefault, promKinds, hk.1, hk.2.1, hk.2.2]
  simp [newEVM, newAggValuesMap, hw, EVM.recordAll, EVM.calculate, ValuesMap.calculate, AMap.set, AMap.get, mapOpt,
    AggVal.apply, newAggValue, Acc.init, Acc.apply, Acc.merge, ValuesMap.getAll, AggVal.get, Acc.get]

/-- A network group with a histogram and a counter, adapted to itself. -/
def netOf (g : Group) : List Adapted := [⟨true, g.labels, g.ts, g.metrics⟩]
def netGroup : Group :=
  ⟨"aggregated_net_request_metric_group", [("pod", .str [97]), ("port", .int 80)], 7000,
   [⟨topoHist, .int 15000000⟩, ⟨"kindling_topology_request_total", .int 1⟩]⟩

def demo : List POp := [.consume netGroup 0, .consume (rtt 4) 1, .consume netGroup 2]

/-- Non-vacuity: a history with network and TCP groups runs, its collection exports three samples, and the hypotheses of
the export theorems hold. -/
example : ((prun ascii (fun _ _ => true) netOf [] demo).bind (fun p => collect ascii (fun _ _ => true) p.1 3)).map (·.2.length) = some 3 := by
  decide +kernel
example : ∃ k r0 rs, getLabelsKeys netGroup.labels = .ok k ∧ live netOf demo k = r0 :: rs ∧ rs.length = 1 ∧
    valuesOf topoHist (plain (r0 :: rs)) = [.int 15000000, .int 15000000] ∧
    total (valuesOf "kindling_topology_request_total" (plain (r0 :: rs))) = 2 := by
  refine ⟨_, (netGroup.metrics, 7000, 0), [(netGroup.metrics, 7000, 2)], rfl, by decide +kernel, rfl,
    by decide +kernel, by decide +kernel⟩

/-- C87: a collection forgets exactly the label sets whose last update is more than five minutes back. -/
theorem five_minutes (net : Group → List Adapted) (ops : List POp) (now u : Int) (k : LabelKeys) (h : lastUpdate (live net ops k) = some u) :
    live net (ops ++ [.collect now]) k = if u + 5 * 60 * 1000000000 < now then [] else live net ops k := by
  unfold live at h ⊢
  rw [List.flatMap_append, cpending, List.foldl_append]
  show (if expiredAt (now - promExpiration) (lastUpdate (cpending promExpiration (ops.flatMap (recordsOf net)) "" k)) then [] else _) = _
  rw [h]
  have he : promExpiration = 300000000000 := rfl
  have hx : expiredAt (now - promExpiration) (some u) = decide (u + 5 * 60 * 1000000000 < now) := by
    simp only [expiredAt]
    exact decide_eq_decide.2 (by omega)
  rw [hx]
  by_cases hc : u + 5 * 60 * 1000000000 < now
  · rw [if_pos (by simpa using hc), if_pos hc]
  · rw [if_neg (by simpa using hc), if_neg hc]; rfl

example : ∃ k, getLabelsKeys retrans.labels = .ok k ∧ lastUpdate (live (fun _ => []) [.consume retrans 7] k) = some 7 := by
  refine ⟨_, rfl, by decide +kernel⟩

/-- How the exporter adds up each metric, whatever its name: the round-trip time keeps the last value, the two request
times are counted between fourteen boundaries from 10 ms to 30 s, everything else is summed. -/
theorem added_up_as (m : String) :
    withDefault promKinds m = some [⟨m,
      if m = "kindling_tcp_srtt_microseconds" then .last
      else if m = "kindling_topology_request_request_time_histogram" ∨ m = "kindling_entity_request_request_time_histogram" then .histogram
      else .sum,
      if m = "kindling_topology_request_request_time_histogram" ∨ m = "kindling_entity_request_request_time_histogram" then
        [10, 20, 50, 80, 130, 200, 300, 400, 500, 700, 1000, 2000, 5000, 30000].map (· * 1000000)
      else []⟩] := by
  simp only [withDefault, promKinds, rttName, topoHist, entityHist, promBounds]
  by_cases h1 : m = "kindling_tcp_srtt_microseconds"
  · subst h1; rfl
  · by_cases h2 : m = "kindling_topology_request_request_time_histogram"
    · subst h2; rfl
    · by_cases h3 : m = "kindling_entity_request_request_time_histogram"
      · subst h3; rfl
      · simp [h1, h2, h3]

/-- Which groups go where, whatever the name: the requests to the network adapter, the connections' three groups through
unchanged, the rest nowhere. -/
theorem routed_as (net : Group → List Adapted) (g : Group) :
    adapt net g =
      if g.name = "net_request_metric_group" ∨ g.name = "aggregated_net_request_metric_group" ∨ g.name = "single_net_request_metric_group" then net g
      else if g.name = "tcp_rtt_metric_group" ∨ g.name = "tcp_retransmit_metric_group" ∨ g.name = "tcp_drop_metric_group" then
        [⟨true, g.labels, g.ts, g.metrics⟩]
      else [] := by
  simp only [adapt, simpleAdapt, netGroups, tcpGroups, List.mem_cons, List.not_mem_nil, or_false]

end Kindling.Export.Prom
