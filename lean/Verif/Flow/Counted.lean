import Verif.Flow.Count
import Verif.Export.Documented
/-
From what the analyzers hand to the aggregation processor to what Prometheus sees: `AggregateProcessor.Consume` in front of
Verif/Flow/Count.lean, with the adapters as the Prometheus exporter makes them.
-/
namespace Kindling.Flow.Counted
open Kindling Kindling.Agg Kindling.Export.Prom Kindling.Proc.Aggregate Kindling.Flow.Count
open Kindling.Export.Adapter (Conv Proto dictOf protoOf transformC dealSingle metricConvs Fresh aggEntity aggEntitySlow detailEntity
  detailEntitySlow aggTopology aggTopologySlow detailTopology detailTopologySlow traceToMetric)
open Kindling.Export.Labels (Val Lab build)

/-! ### The processor -/

/-- constnames/const.go:40-46. -/
def netName : String := "net_request_metric_group"
def singleName : String := "single_net_request_metric_group"
def connectName : String := "tcp_connect_metric_group"

/-- What happens to the collector: a record of an analyzer (`sampled` is what `isSampled` says of it and `now` the time at
which the exporter records it then), a tick of the processor, or a scrape. -/
inductive In where
  | record (g : Group) (sampled : Bool) (now : Int)
  | tick (now : Nat → Int)
  | scrape (now : Int)

/-- `AggregateProcessor.Consume` (processor.go:113-142). -/
def evOf : In → List Ev
  | .record g sampled now =>
    if g.name = netName then
      (if sampled then [.direct { g with name := singleName } now] else []) ++ [.aggregate { g with name := aggName } netSels]
    else if g.name ∈ tcpGroups then [.aggregate g tcpSels]
    else if g.name = connectName then [.aggregate g connectSels]
    else [.aggregate g netSels]
  | .tick now => [.tick now]
  | .scrape now => [.scrape now]

/-- No two kinds of groups have one name. -/
theorem names_apart : ([netName, singleName, aggName, connectName] ++ tcpGroups).Nodup := by decide

/-! ### The adapters of the exporter -/

/-- The integer metrics of a group.  Simplified: for a histogram the code panics (`GetInt` is nil). -/
def ints (ms : List Metric) : List (Bytes × Int) :=
  ms.filterMap (fun m => match m.data with | .int v => some (utf m.name, v) | _ => none)

/-- `transform` of the converter of traces as metrics (label_converter.go:284-333). -/
def traceLook (g : Group) : Agg.Labels :=
  (transformC traceToMetric [] (labOf g.labels) (Export.Documented.traceVals (labOf g.labels) (ints g.metrics))
    (build (dictOf traceToMetric (protoOf ((labOf g.labels).gs (bs "protocol")))) traceToMetric.vkeys []).mapTemplate).map
    (fun kv => (dec kv.1, attr kv.2))

/-- `dealWithSingleMetricGroup` (net_adapter.go:34-51) and the default (29-30) of `Adapt`.  Of a trace the exporter reads
nothing. -/
def singleOf (cfg : Export.Adapter.Cfg) (g : Group) : List Adapted :=
  if g.name = singleName then
    (dealSingle cfg (g.metrics.map (fun m => (utf m.name, m.data)))).map
      (fun r => ⟨!r.1, if r.1 then [] else traceLook g, g.ts, r.2.metrics.map (fun m => ⟨dec m.1, m.2⟩)⟩)
  else []

/-- The network adapter of the Prometheus exporter (prometheus.go:45-50): without constant labels. -/
def promNet (cfg : Export.Adapter.Cfg) : Group → List Adapted := Count.netOf cfg [] (singleOf cfg)

/-! ### Spec -/

/-- The record is a request received by a server and belongs to the series. -/
def isReceived (cfg : Export.Adapter.Cfg) (K : LabelKeys) : In → Bool
  | .record g _ _ => decide (g.name = netName ∧ g.labels.getBool "is_server" = true ∧
      getLabelsKeys (look [] (serverConv cfg) (aggLabels netSels g.labels)) = .ok K)
  | _ => false

/-- The record is a request sent by a client and belongs to the series. -/
def isSent (cfg : Export.Adapter.Cfg) (K : LabelKeys) : In → Bool
  | .record g _ _ => decide (g.name = netName ∧ g.labels.getBool "is_server" = false ∧
      getLabelsKeys (look [] (clientConv cfg) (aggLabels netSels g.labels)) = .ok K)
  | _ => false

/-- The record is a request received from outside the cluster, to be shown in the topology, and belongs to the series. -/
def isOutside (cfg : Export.Adapter.Cfg) (K : LabelKeys) : In → Bool
  | .record g _ _ => decide (g.name = netName ∧ cfg.externalSrc = true ∧ g.labels.getBool "is_server" = true ∧
      g.labels.getString "src_namespace" = bs "NOT_FOUND_EXTERNAL" ∧
      getLabelsKeys (look [] detailTopologySlow (aggLabels netSels g.labels)) = .ok K)
  | _ => false

/-- What the analyzers produce: a record of a request has one duration, and none comes already aggregated. -/
def Produced (is : List In) : Prop := ∀ g s now, In.record g s now ∈ is →
  g.name ≠ aggName ∧ (g.name = netName → g.labels.Int64 ∧ OneRequest g)

/-! ### Where the groups come from -/

theorem mem_set {κ α : Type} [DecidableEq κ] {m : AMap κ α} {k : κ} {v : α} {p : κ × α} (h : p ∈ AMap.set m k v) : p = (k, v) ∨ p ∈ m := by
  induction m with
  | nil => exact Or.inl (by simpa [AMap.set] using h)
  | cons x r ih =>
    obtain ⟨a, b⟩ := x
    simp only [AMap.set] at h
    split at h
    · rename_i e
      rcases List.mem_cons.1 h with h | h
      · exact Or.inl (by rw [h]; try rw [e])
      · exact Or.inr (List.mem_cons_of_mem _ h)
    · rcases List.mem_cons.1 h with h | h
      · exact Or.inr (h ▸ List.mem_cons_self ..)
      · rcases ih h with h | h
        · exact Or.inl h
        · exact Or.inr (List.mem_cons_of_mem _ h)

theorem calls_labels {kinds : KindMap} {P : String → Agg.Labels → Prop} {evs : List Ev} {st st' : State} {ops : List POp}
    (ha : ∀ g sels, Ev.aggregate g sels ∈ evs → P g.name (aggLabels sels g.labels))
    (hd : ∀ g now, Ev.direct g now ∈ evs → P g.name g.labels)
    (hst : ∀ p ∈ st, ∀ q ∈ p.2, P p.1 (getLabels q.1)) (h : calls kinds st evs = some (st', ops)) :
    ∀ g now, POp.consume g now ∈ ops → P g.name g.labels := by
  induction evs generalizing st st' ops with
  | nil =>
    simp only [calls, Option.some.injEq, Prod.mk.injEq] at h
    obtain ⟨_, rfl⟩ := h
    intro g now hm; cases hm
  | cons e r ih =>
    have ha' : ∀ g sels, Ev.aggregate g sels ∈ r → P g.name (aggLabels sels g.labels) := fun g s hm => ha g s (List.mem_cons_of_mem _ hm)
    have hd' : ∀ g now, Ev.direct g now ∈ r → P g.name g.labels := fun g s hm => hd g s (List.mem_cons_of_mem _ hm)
    cases e with
    | aggregate g sels =>
      simp only [calls] at h
      split at h
      · cases h
      · rename_i st1 h1
        refine ih ha' hd' ?_ h
        simp only [aggregate, Recorder.record, Option.map_map, Option.map_eq_some_iff, Function.comp] at h1
        obtain ⟨vm, _, rfl⟩ := h1
        intro p hp q hq
        rcases mem_set hp with rfl | hp
        · rcases mem_set hq with rfl | hq
          · exact ha g sels (List.mem_cons_self ..)
          · cases hget : AMap.get st g.name with
            | none => rw [hget] at hq; cases hq
            | some r0 =>
              rw [hget] at hq
              exact hst _ (AMap.mem_of_get hget) q hq
        · exact hst p hp q hq
    | tick now =>
      simp only [calls] at h
      split at h
      · cases h
      · rename_i st1 gs h1
        simp only [Option.map_eq_some_iff, Prod.mk.injEq] at h
        obtain ⟨⟨s2, o2⟩, h2, _, rfl⟩ := h
        simp only [dump, Option.map_eq_some_iff, Prod.mk.injEq] at h1
        obtain ⟨l, hl, rfl, rfl⟩ := h1
        intro g nw hm
        rcases List.mem_append.1 hm with hm | hm
        · obtain ⟨x, hx, he⟩ := List.mem_map.1 hm
          simp only [POp.consume.injEq] at he
          obtain ⟨rfl, _⟩ := he
          have hx1 : x.1 ∈ l.flatten := (List.of_mem_zip (List.zipIdx_eq_zip_range' (l := l.flatten) ▸ hx)).1
          obtain ⟨gs, hgs, hxg⟩ := List.mem_flatten.1 hx1
          obtain ⟨p, hp, hd⟩ := (mapOpt_mem hl).1 hgs
          obtain ⟨q, hq, hg⟩ := (mapOpt_mem hd).1 hxg
          simp only [Option.map_eq_some_iff] at hg
          obtain ⟨ms, _, he⟩ := hg
          rw [← he]
          exact hst p hp q hq
        · refine ih ha' hd' ?_ h2 g nw hm
          intro p hp q hq
          obtain ⟨p0, _, rfl⟩ := List.mem_map.1 hp
          cases hq
    | direct g now =>
      simp only [calls, Option.map_eq_some_iff, Prod.mk.injEq] at h
      obtain ⟨⟨s2, o2⟩, h2, _, rfl⟩ := h
      intro g' nw hm
      rcases List.mem_cons.1 hm with hm | hm
      · simp only [POp.consume.injEq] at hm
        obtain ⟨rfl, _⟩ := hm
        exact hd g' now (List.mem_cons_self ..)
      · exact ih ha' hd' hst h2 g' nw hm
    | scrape now =>
      simp only [calls, Option.map_eq_some_iff, Prod.mk.injEq] at h
      obtain ⟨⟨s2, o2⟩, h2, _, rfl⟩ := h
      intro g' nw hm
      rcases List.mem_cons.1 hm with hm | hm
      · cases hm
      · exact ih ha' hd' hst h2 g' nw hm

/-- The labels of an aggregated group are among those selected. -/
theorem selected_names (sels : List Selector) (l : Agg.Labels) (n : String) (h : n ∈ (aggLabels sels l).map (·.1)) :
    n ∈ sels.map (·.name) := by
  have hk : ∀ (ks : LabelKeys) (acc : Agg.Labels), n ∈ (ks.foldl addLabel acc).map (·.1) →
      n ∈ acc.map (·.1) ∨ ∃ k ∈ ks, k.name = n ∧ k.vtype ≠ .unset := by
    intro ks
    induction ks with
    | nil => exact fun acc h => Or.inl h
    | cons k r ih =>
      intro acc h
      rcases ih _ h with h | ⟨k', hk', e⟩
      · unfold addLabel at h
        split at h
        · rcases AMap.mem_keys_set.1 h with h | h
          · exact Or.inr ⟨k, List.mem_cons_self .., h.symm, by simp [*]⟩
          · exact Or.inl h
        · rcases AMap.mem_keys_set.1 h with h | h
          · exact Or.inr ⟨k, List.mem_cons_self .., h.symm, by simp [*]⟩
          · exact Or.inl h
        · rcases AMap.mem_keys_set.1 h with h | h
          · exact Or.inr ⟨k, List.mem_cons_self .., h.symm, by simp [*]⟩
          · exact Or.inl h
        · exact Or.inl h
      · exact Or.inr ⟨k', List.mem_cons_of_mem _ hk', e⟩
  rcases hk _ _ h with h | ⟨k, hks, rfl, hv⟩
  · cases h
  · unfold getLabelKeys at hks
    rcases List.mem_append.1 hks with hks | hks
    · obtain ⟨s, hs, rfl⟩ := List.mem_map.1 hks
      exact List.mem_map.2 ⟨s, List.mem_of_mem_take hs, rfl⟩
    · rw [(List.mem_replicate.1 hks).2] at hv
      exact absurd rfl hv

/-! ### The label sets of other groups -/

theorem consts_none : ConstsOk [] := fun _ _ _ => ⟨List.nodup_nil, fun _ hk => by cases hk⟩

theorem protocol_name : ∀ c ∈ aggConvs, ∀ p, bs "protocol" ∈ (dictOf c p).map (·.newKey) := by
  intro c hc p
  simp only [aggConvs, List.mem_cons, List.not_mem_nil, or_false] at hc
  rcases hc with rfl | rfl | rfl | rfl | rfl | rfl | rfl | rfl <;> cases p <;> decide +kernel

theorem duration_name : ∀ c ∈ aggConvs, ∀ p, bs "request_duration_status" ∉ (dictOf c p).map (·.newKey) := by
  intro c hc p
  simp only [aggConvs, List.mem_cons, List.not_mem_nil, or_false] at hc
  rcases hc with rfl | rfl | rfl | rfl | rfl | rfl | rfl | rfl <;> cases p <;> decide +kernel

theorem home_conv {consts : List (Bytes × Val)} {o : String} {side : Bool} {K : LabelKeys} (h : Home consts o side K) :
    ∃ c l, c ∈ aggConvs ∧ getLabelsKeys (look consts c l) = .ok K := by
  obtain ⟨c, l, h1, _, h3⟩ := h
  refine ⟨c, l, ?_, h3⟩
  split at h1
  · exact sub_slow (Or.inl h1)
  · exact sub_slow (Or.inr h1)

/-- Requests and TCP metrics never share a label set: the former have a protocol. -/
theorem tcp_apart {c : Conv} (hc : c ∈ aggConvs) (l l' : Agg.Labels) {K : LabelKeys} (h : getLabelsKeys (look [] c l) = .ok K)
    (hl : "protocol" ∉ l'.map (·.1)) : getLabelsKeys l' ≠ .ok K := by
  intro h'
  have hk : bs "protocol" ∉ [bs "dst_node", bs "dst_pod", bs "dst_ip", bs "dst_port"] := by decide +kernel
  have hd : dec (bs "protocol") = "protocol" := by decide +kernel
  have hne : "protocol" ≠ "" := by decide
  refine hl ((key_names h' _ hne).1 ((key_names h _ hne).2 ?_))
  rw [← hd]
  exact (look_names hc (consts_none c hc) l _ hk).2 (Or.inl (protocol_name c hc _))

/-- The labels of a trace as a metric say how long the request took. -/
theorem trace_name (g : Group) : "request_duration_status" ∈ (traceLook g).map (·.1) := by
  have hd : dec (bs "request_duration_status") = "request_duration_status" := by decide +kernel
  have hmc : traceToMetric ∈ metricConvs := by simp [metricConvs]
  obtain ⟨hD, _⟩ := Export.Adapter.metric_dictionaries _ hmc (protoOf ((labOf g.labels).gs (bs "protocol"))) [] ⟨List.nodup_nil, fun _ hk => by cases hk⟩
  have hT := Export.Labels.transformed_map _ _ _ hD (labOf g.labels) (Export.Documented.traceVals (labOf g.labels) (ints g.metrics)) (by rfl)
    (by
      intro kv hkv
      simp only [Export.Documented.traceVals, List.mem_cons, List.not_mem_nil, or_false] at hkv
      rcases hkv with rfl | rfl | rfl | rfl | rfl <;> simp) _ (Export.Labels.mapTemplate_pooled _ _ _ hD)
  have hm := AMap.mem_of_get ((hT.1 (bs "request_duration_status") _).2 (List.mem_append_left _ (List.mem_append_right _
    (List.mem_cons_of_mem _ (List.mem_cons_of_mem _ (List.mem_cons_of_mem _ (List.mem_cons_self ..)))))))
  unfold traceLook transformC
  rw [List.map_map, ← hd]
  exact List.mem_map.2 ⟨_, hm, rfl⟩

/-- Requests counted and requests shown one by one never share a label set. -/
theorem trace_apart {c : Conv} (hc : c ∈ aggConvs) (l : Agg.Labels) (g : Group) {K : LabelKeys} (h : getLabelsKeys (look [] c l) = .ok K) :
    getLabelsKeys (traceLook g) ≠ .ok K := by
  intro h'
  have hk : bs "request_duration_status" ∉ [bs "dst_node", bs "dst_pod", bs "dst_ip", bs "dst_port"] := by decide +kernel
  have hd : dec (bs "request_duration_status") = "request_duration_status" := by decide +kernel
  have hne : "request_duration_status" ≠ "" := by decide
  have h1 := (key_names h _ hne).1 ((key_names h' _ hne).2 (trace_name g))
  rw [← hd] at h1
  rcases (look_names hc (consts_none c hc) l _ hk).1 h1 with h | h
  · exact duration_name c hc _ h
  · cases h

/-- No other group of the pipeline has the label set of a series of requests. -/
theorem others_apart {kinds : KindMap} {is : List In} {st : State} {ops : List POp} (hcalls : calls kinds [] (is.flatMap evOf) = some (st, ops))
    (cfg : Export.Adapter.Cfg) {c : Conv} (hc : c ∈ aggConvs) {l : Agg.Labels} {K : LabelKeys} (h : getLabelsKeys (look [] c l) = .ok K) :
    ∀ g now, POp.consume g now ∈ ops → g.name ≠ aggName → ∀ r ∈ adapt (promNet cfg) g, r.isMetric = true → getLabelsKeys r.labels ≠ .ok K := by
  have hsrc := calls_labels (P := fun n l => n ∈ tcpGroups → "protocol" ∉ l.map (·.1)) (evs := is.flatMap evOf)
    (by
      intro g sels hm ht hp
      obtain ⟨i, _, hi⟩ := List.mem_flatMap.1 hm
      cases i with
      | tick now => simp [evOf] at hi
      | scrape now => simp [evOf] at hi
      | record g0 s now =>
        simp only [evOf] at hi
        split at hi
        · rcases List.mem_append.1 hi with hi | hi
          · split at hi <;> simp at hi
          · simp only [List.mem_singleton, Ev.aggregate.injEq] at hi
            rw [hi.1] at ht
            exact absurd ht (show aggName ∉ tcpGroups by decide)
        · split at hi
          · simp only [List.mem_singleton, Ev.aggregate.injEq] at hi
            rw [hi.2] at hp
            exact absurd (selected_names _ _ _ hp) (by decide)
          · rename_i hn
            split at hi <;>
            · simp only [List.mem_singleton, Ev.aggregate.injEq] at hi
              rw [hi.1] at ht
              exact absurd ht hn)
    (by
      intro g now hm ht
      obtain ⟨i, _, hi⟩ := List.mem_flatMap.1 hm
      cases i with
      | tick now => simp [evOf] at hi
      | scrape now => simp [evOf] at hi
      | record g0 s now =>
        simp only [evOf] at hi
        split at hi
        · rcases List.mem_append.1 hi with hi | hi
          · split at hi
            · simp only [List.mem_singleton, Ev.direct.injEq] at hi
              rw [hi.1] at ht
              exact absurd ht (show singleName ∉ tcpGroups by decide)
            · cases hi
          · simp at hi
        · split at hi
          · simp at hi
          · split at hi <;> simp at hi)
    (fun p hp => by cases hp) hcalls
  intro g now hm hn r hr hmet
  unfold adapt at hr
  split at hr
  · unfold promNet Count.netOf at hr
    rw [if_neg hn] at hr
    unfold singleOf at hr
    split at hr
    · obtain ⟨x, _, rfl⟩ := List.mem_map.1 hr
      simp only [Bool.not_eq_true'] at hmet
      simp only [hmet, Bool.false_eq_true, ↓reduceIte]
      exact trace_apart hc l g h
    · cases hr
  · unfold simpleAdapt at hr
    split at hr
    · rename_i ht
      rw [List.mem_singleton] at hr
      subst hr
      exact tcp_apart hc l g.labels h (hsrc g now hm ht)
    · cases hr

/-! ### Counting -/

theorem counted_records (cfg : Export.Adapter.Cfg) (K : LabelKeys) {is : List In} (h : Produced is) :
    (is.flatMap evOf).countP (received cfg [] K) = is.countP (isReceived cfg K) ∧
    (is.flatMap evOf).countP (sent cfg [] K) = is.countP (isSent cfg K) ∧
    (is.flatMap evOf).countP (fromOutside cfg [] K) = is.countP (isOutside cfg K) := by
  induction is with
  | nil => exact ⟨rfl, rfl, rfl⟩
  | cons i r ih =>
    obtain ⟨h1, h2, h3⟩ := ih (fun g s now hm => h g s now (List.mem_cons_of_mem _ hm))
    simp only [List.flatMap_cons, List.countP_append, h1, h2, h3, List.countP_cons]
    cases i with
    | tick now => simp [evOf, received, sent, fromOutside, isReceived, isSent, isOutside]
    | scrape now => simp [evOf, received, sent, fromOutside, isReceived, isSent, isOutside]
    | record g s now =>
      have hn := (h g s now (List.mem_cons_self ..)).1
      by_cases hg : g.name = netName
      · cases s <;> simp [evOf, hg, received, sent, fromOutside, isReceived, isSent, isOutside, List.countP_cons, Nat.add_comm]
      · have e : evOf (.record g s now) = [.aggregate g (if g.name ∈ tcpGroups then tcpSels else if g.name = connectName then connectSels else netSels)] := by
          simp only [evOf, hg, ↓reduceIte]
          split
          · rfl
          · split <;> rfl
        rw [e]
        simp [hg, hn, received, sent, fromOutside, isReceived, isSent, isOutside]

theorem produced_requests {is : List In} (h : Produced is) : Requests (is.flatMap evOf) := by
  intro g sels hm hn
  obtain ⟨i, hi, he⟩ := List.mem_flatMap.1 hm
  cases i with
  | tick now => simp [evOf] at he
  | scrape now => simp [evOf] at he
  | record g0 s now =>
    obtain ⟨h1, h2⟩ := h g0 s now hi
    simp only [evOf] at he
    split at he
    · rename_i hnet
      rcases List.mem_append.1 he with he | he
      · split at he <;> simp at he
      · simp only [List.mem_singleton, Ev.aggregate.injEq] at he
        obtain ⟨rfl, rfl⟩ := he
        exact ⟨rfl, (h2 hnet).1, (h2 hnet).2⟩
    · exfalso
      split at he
      · simp only [List.mem_singleton, Ev.aggregate.injEq] at he
        exact h1 (he.1 ▸ hn)
      · split at he <;>
        · simp only [List.mem_singleton, Ev.aggregate.injEq] at he
          exact h1 (he.1 ▸ hn)

/-- C119, the whole way.  Whatever the analyzers hand to the processor, in whatever order with ticks and scrapes, and
whichever records are sampled: with any configuration that counts requests a scrape shows, for a series seen within five
minutes of every scrape, the number of records of received (sent, and received from outside) requests of the series that
came before the last tick. -/
theorem every_request_counted {kinds : KindMap} (hc : OutputOf kinds "request_total_time" "request_count" .count)
    {cfg : Export.Adapter.Cfg} {K : LabelKeys} {is later : List In} {nows : Nat → Int} (hq : ∀ now, In.tick now ∉ later)
    (hp : Produced (is ++ .tick nows :: later))
    {st : State} {ops : List POp} (hcalls : calls kinds [] ((is ++ .tick nows :: later).flatMap evOf) = some (st, ops))
    {t : Export.Sanitize.Tables} (ht : ∀ c, 97 ≤ c → c ≤ 122 → t.letter c = true)
    {valid : List Nat → List (String × Bytes) → Bool} {ps ps' : CState} {out ss : List Sample}
    (hrun : prun t valid (promNet cfg) [] ops = some (ps, out)) {now : Int} (hcol : collect t valid ps now = some (ps', ss))
    (hsteady : Steady (promNet cfg) K ops) (hv : ∀ n, valid n (labelText (getLabels K)) = true) :
    (is.countP (isReceived cfg K) ≠ 0 →
      ∃ ts, .counter (runes "kindling_entity_request_total") (labelText (getLabels K)) (is.countP (isReceived cfg K)) ts ∈ ss) ∧
    (is.countP (isSent cfg K) + is.countP (isOutside cfg K) ≠ 0 →
      ∃ ts, .counter (runes "kindling_topology_request_total") (labelText (getLabels K))
        (is.countP (isSent cfg K) + is.countP (isOutside cfg K) : Nat) ts ∈ ss) := by
  have hp1 : Produced is := fun g s nw h => hp g s nw (List.mem_append_left _ h)
  obtain ⟨c1, c2, c3⟩ := counted_records cfg K hp1
  have hreq := produced_requests hp
  have hsplit : (is ++ In.tick nows :: later).flatMap evOf = is.flatMap evOf ++ .tick nows :: later.flatMap evOf := by
    simp [evOf]
  have hq' : ∀ now, Ev.tick now ∉ later.flatMap evOf := by
    intro nw hm
    obtain ⟨i, hi, he⟩ := List.mem_flatMap.1 hm
    cases i with
    | tick n => simp only [evOf, List.mem_singleton, Ev.tick.injEq] at he; exact hq n hi
    | scrape n => simp [evOf] at he
    | record g s n =>
      simp only [evOf] at he
      split at he
      · rcases List.mem_append.1 he with he | he
        · split at he <;> simp at he
        · simp at he
      · split at he
        · simp at he
        · split at he <;> simp at he
  have hd : ∀ g now, Ev.direct g now ∈ (is ++ .tick nows :: later).flatMap evOf → g.name ≠ aggName := by
    intro g nw hm
    obtain ⟨i, _, hi⟩ := List.mem_flatMap.1 hm
    cases i with
    | tick now => simp [evOf] at hi
    | scrape now => simp [evOf] at hi
    | record g0 s now =>
      simp only [evOf] at hi
      split at hi
      · rcases List.mem_append.1 hi with hi | hi
        · split at hi
          · simp only [List.mem_singleton, Ev.direct.injEq] at hi
            rw [hi.1]
            exact show singleName ≠ aggName by decide
          · cases hi
        · simp at hi
      · split at hi
        · simp at hi
        · split at hi <;> simp at hi
  obtain ⟨a1, a2⟩ := added_counts (cfg := cfg) (consts := []) (K := K) (evs := is.flatMap evOf) (produced_requests hp1)
  have hap : ∀ {side : Bool}, addedUp cfg [] (kindContrib .count) "request_total_time" "request_count" side K (is.flatMap evOf) ≠ 0 →
      ∀ g now, POp.consume g now ∈ ops → g.name ≠ aggName → ∀ r ∈ adapt (promNet cfg) g, r.isMetric = true → getLabelsKeys r.labels ≠ .ok K := by
    intro side hne
    obtain ⟨c, l, hcc, hl⟩ := home_conv (added_home hne)
    exact others_apart hcalls cfg hcc hl
  rw [hsplit] at hreq hcalls hd
  constructor
  · intro hne
    have := (requests_counted hc (cfg := cfg) consts_none (other := singleOf cfg) (K := K) hq' hreq hd hcalls ht hrun hcol
      (hap (side := true) (by rw [a1, c1]; exact_mod_cast hne)) hsteady hv).1
    rw [c1] at this
    exact this hne
  · intro hne
    have := (requests_counted hc (cfg := cfg) consts_none (other := singleOf cfg) (K := K) hq' hreq hd hcalls ht hrun hcol
      (hap (side := false) (by rw [a2, c2, c3]; exact_mod_cast hne)) hsteady hv).2
    rw [c2, c3] at this
    exact this hne

/-! ### No panic -/

/-- All metrics of the records are integers. -/
def Ints (is : List In) : Prop := ∀ g s now, In.record g s now ∈ is → ∀ m ∈ g.metrics, ∃ v, m.data = .int v

/-- The calls of the aggregator. -/
def opOf : Ev → List Op
  | .aggregate g sels => [.aggregate g sels]
  | .tick _ => [.dump]
  | _ => []

theorem calls_run (kinds : KindMap) (evs : List Ev) (st : State) (h : (run kinds st (evs.flatMap opOf)).isSome) :
    ∃ st' ops, calls kinds st evs = some (st', ops) := by
  induction evs generalizing st with
  | nil => exact ⟨st, [], rfl⟩
  | cons e r ih =>
    cases e with
    | aggregate g sels =>
      simp only [List.flatMap_cons, opOf, List.singleton_append, run, step] at h
      cases h1 : aggregate kinds st g sels with
      | none => rw [h1] at h; cases h
      | some st1 =>
        rw [h1] at h
        simp only [Option.map_some, Option.isSome_map] at h
        obtain ⟨s, o, h2⟩ := ih st1 h
        exact ⟨s, o, by simp only [calls, h1, h2]⟩
    | tick now =>
      simp only [List.flatMap_cons, opOf, List.singleton_append, run, step] at h
      cases h1 : dump st with
      | none => rw [h1] at h; cases h
      | some p =>
        obtain ⟨st1, gs⟩ := p
        rw [h1] at h
        simp only [Option.isSome_map] at h
        obtain ⟨s, o, h2⟩ := ih st1 h
        refine ⟨s, ?_, ?_⟩
        rotate_left
        · simp only [calls, h1, h2, Option.map_some]
          rfl
    | direct g now =>
      obtain ⟨s, o, h2⟩ := ih st h
      refine ⟨s, ?_, ?_⟩
      rotate_left
      · simp only [calls, h2, Option.map_some]
        rfl
    | scrape now =>
      obtain ⟨s, o, h2⟩ := ih st h
      refine ⟨s, ?_, ?_⟩
      rotate_left
      · simp only [calls, h2, Option.map_some]
        rfl

/-- The names of the outputs of the built-in configuration. -/
def outNames : List String := ["request_total_time", "request_total_time_avg", "request_count", "request_io", "response_io",
  "kindling_tcp_srtt_microseconds", "kindling_tcp_retransmit_total", "kindling_tcp_packet_loss_total"]

/-- An accumulator of the built-in configuration: no histogram. -/
def Plain (v : AggVal) : Prop := v.name ∈ outNames ∧ ∀ h, v.acc ≠ .hist h

theorem builtin_plain {m : String} {cs : List KindConfig} (h : builtin m = some cs) : ∀ c ∈ cs, Plain (newAggValue c) := by
  have hb := builtin_cases h
  simp only [List.mem_cons, Prod.mk.injEq, List.not_mem_nil, or_false] at hb
  intro c hc
  have key : ∀ n k, n ∈ outNames → k ≠ Kind.histogram → Plain (newAggValue ⟨n, k, []⟩) := by
    intro n k hn hk
    refine ⟨hn, ?_⟩
    intro h e
    cases k <;> simp_all [newAggValue, Acc.init]
  rcases hb with ⟨_, rfl⟩ | ⟨_, rfl⟩ | ⟨_, rfl⟩ | ⟨_, rfl⟩ | ⟨_, rfl⟩ | ⟨_, rfl⟩ <;>
    simp only [List.mem_cons, List.not_mem_nil, or_false] at hc
  · rcases hc with rfl | rfl | rfl <;> exact key _ _ (by decide) (by decide)
  all_goals subst hc; exact key _ _ (by decide) (by decide)

theorem calculate_plain {v v' : AggVal} {d : MData} (h : Plain v) (ha : v.apply d = some v') : Plain v' := by
  obtain ⟨n, a⟩ := v
  simp only [AggVal.apply, Option.map_eq_some_iff] at ha
  obtain ⟨a', h1, rfl⟩ := ha
  refine ⟨h.1, ?_⟩
  have hnh := h.2
  simp only at hnh ⊢
  intro x e
  subst e
  cases d with
  | int i =>
    cases a <;> simp only [Acc.apply, Acc.calculate, Option.some.injEq, reduceCtorEq] at h1
    exact hnh _ rfl
  | none =>
    simp only [Acc.apply, Option.some.injEq] at h1
    exact hnh _ h1
  | hist y =>
    cases a <;> simp only [Acc.apply, Acc.merge, Option.some.injEq, reduceCtorEq] at h1
    exact hnh _ rfl

def PlainVM (vm : ValuesMap) : Prop := ∀ p ∈ vm.values, ∀ v ∈ p.2, Plain v

theorem new_plain (ms : List Metric) : PlainVM (newAggValuesMap builtin ms) := by
  have key : ∀ (ms : List Metric) (acc : AMap String (List AggVal)), (∀ p ∈ acc, ∀ v ∈ p.2, Plain v) →
      ∀ p ∈ ms.foldl (fun acc m => match builtin m.name with
        | none => acc
        | some cs => AMap.set acc m.name (cs.map newAggValue)) acc, ∀ v ∈ p.2, Plain v := by
    intro ms
    induction ms with
    | nil => exact fun acc h => h
    | cons m r ih =>
      intro acc h
      refine ih _ ?_
      cases hb : builtin m.name with
      | none => simp only [hb]; exact h
      | some cs =>
        simp only [hb]
        intro p hp v hv
        rcases mem_set hp with rfl | hp
        · obtain ⟨c, hc, rfl⟩ := List.mem_map.1 hv
          exact builtin_plain hb c hc
        · exact h p hp v hv
  exact key ms [] (fun p hp => by cases hp)

theorem recordAll_plain {vm vm' : ValuesMap} {ms : List Metric} {ts : Nat} (h : PlainVM vm) (hr : vm.recordAll ms ts = some vm') : PlainVM vm' := by
  induction ms generalizing vm with
  | nil => simp only [ValuesMap.recordAll, Option.some.injEq] at hr; exact hr ▸ h
  | cons m r ih =>
    simp only [ValuesMap.recordAll] at hr
    cases hc : vm.calculate m ts with
    | none => rw [hc] at hr; cases hr
    | some vm1 =>
      rw [hc] at hr
      refine ih ?_ hr
      unfold ValuesMap.calculate at hc
      split at hc
      · simp only [Option.some.injEq] at hc; exact hc ▸ h
      · rename_i vs hvs
        split at hc
        · cases hc
        · rename_i vs' hm
          simp only [Option.some.injEq] at hc
          subst hc
          intro p hp v hv
          rcases mem_set hp with rfl | hp
          · obtain ⟨v0, hv0, ha⟩ := (mapOpt_mem hm).1 hv
            exact calculate_plain (h _ (AMap.mem_of_get hvs) v0 hv0) ha
          · exact h p hp v hv

theorem getAll_plain {vm : ValuesMap} {ms : List Metric} (h : PlainVM vm) (hg : vm.getAll = some ms) :
    ∀ m ∈ ms, m.name ∈ outNames ∧ ∃ v, m.data = .int v := by
  simp only [ValuesMap.getAll, Option.map_eq_some_iff] at hg
  obtain ⟨l, hl, rfl⟩ := hg
  intro m hm
  obtain ⟨x, hx, hmx⟩ := List.mem_flatten.1 hm
  obtain ⟨p, hp, hpx⟩ := (mapOpt_mem hl).1 hx
  obtain ⟨v, hv, hvm⟩ := (mapOpt_mem hpx).1 hmx
  obtain ⟨hn, hh⟩ := h p hp v hv
  simp only [AggVal.get, Option.map_eq_some_iff] at hvm
  obtain ⟨d, hd, rfl⟩ := hvm
  refine ⟨hn, ?_⟩
  cases ha : v.acc with
  | hist y => exact absurd ha (hh y)
  | avg a c =>
    rw [ha] at hd
    simp only [Acc.get] at hd
    split at hd
    · cases hd
    · simp only [Option.some.injEq] at hd; exact ⟨_, hd.symm⟩
  | sum a => rw [ha] at hd; simp only [Acc.get, Option.some.injEq] at hd; exact ⟨_, hd.symm⟩
  | max a => rw [ha] at hd; simp only [Acc.get, Option.some.injEq] at hd; exact ⟨_, hd.symm⟩
  | last a => rw [ha] at hd; simp only [Acc.get, Option.some.injEq] at hd; exact ⟨_, hd.symm⟩
  | count a => rw [ha] at hd; simp only [Acc.get, Option.some.injEq] at hd; exact ⟨_, hd.symm⟩

theorem set_length {κ α : Type} [DecidableEq κ] (m : AMap κ α) (k : κ) (v : α) : (AMap.set m k v).length ≤ m.length + 1 := by
  induction m with
  | nil => simp [AMap.set]
  | cons x r ih =>
    obtain ⟨a, b⟩ := x
    simp only [AMap.set]
    split
    · simp
    · simp only [List.length_cons]; omega

theorem getLabels_length (ks : LabelKeys) : (getLabels ks).length ≤ ks.length := by
  have key : ∀ (ks : LabelKeys) (acc : Agg.Labels), (ks.foldl addLabel acc).length ≤ acc.length + ks.length := by
    intro ks
    induction ks with
    | nil => intro acc; simp
    | cons k r ih =>
      intro acc
      have h1 := ih (addLabel acc k)
      have h2 : (addLabel acc k).length ≤ acc.length + 1 := by
        unfold addLabel
        split
        · exact set_length ..
        · exact set_length ..
        · exact set_length ..
        · omega
      simp only [List.foldl_cons, List.length_cons]
      omega
  have := key ks []
  simpa [getLabels] using this

/-- What the exporter is given: single records with integers, or aggregated ones. -/
def Exportable (g : Group) : Prop := (g.name = singleName ∧ ∀ m ∈ g.metrics, ∃ v, m.data = .int v) ∨
  (g.labels.length ≤ 37 ∧ ∀ m ∈ g.metrics, m.name ∈ outNames ∧ ∃ v, m.data = .int v)

theorem calls_exportable {evs : List Ev} {st st' : State} {ops : List POp}
    (hd : ∀ g now, Ev.direct g now ∈ evs → g.name = singleName ∧ ∀ m ∈ g.metrics, ∃ v, m.data = .int v)
    (hst : ∀ p ∈ st, ∀ q ∈ p.2, q.1.length ≤ 37 ∧ PlainVM q.2) (h : calls builtin st evs = some (st', ops)) :
    ∀ g now, POp.consume g now ∈ ops → Exportable g := by
  induction evs generalizing st st' ops with
  | nil =>
    simp only [calls, Option.some.injEq, Prod.mk.injEq] at h
    obtain ⟨_, rfl⟩ := h
    intro g now hm; cases hm
  | cons e r ih =>
    have hd' : ∀ g now, Ev.direct g now ∈ r → g.name = singleName ∧ ∀ m ∈ g.metrics, ∃ v, m.data = .int v :=
      fun g s hm => hd g s (List.mem_cons_of_mem _ hm)
    cases e with
    | aggregate g sels =>
      simp only [calls] at h
      split at h
      · cases h
      · rename_i st1 h1
        refine ih hd' ?_ h
        simp only [aggregate, Recorder.record, Option.map_map, Option.map_eq_some_iff, Function.comp] at h1
        obtain ⟨vm, hvm, rfl⟩ := h1
        have hold : ∀ q ∈ (AMap.get st g.name).getD [], q.1.length ≤ 37 ∧ PlainVM q.2 := by
          intro q hq
          cases hget : AMap.get st g.name with
          | none => rw [hget] at hq; cases hq
          | some r0 => rw [hget] at hq; exact hst _ (AMap.mem_of_get hget) q hq
        intro p hp q hq
        rcases mem_set hp with rfl | hp
        · rcases mem_set hq with rfl | hq
          · refine ⟨?_, recordAll_plain ?_ hvm⟩
            · simp only [getLabelKeys, List.length_append, List.length_map, List.length_take, List.length_replicate, maxLabelKeySize]
              omega
            · unfold Recorder.loadOrNew
              split
              · rename_i vm0 hget
                exact (hold _ (AMap.mem_of_get hget)).2
              · exact new_plain _
          · exact hold q hq
        · exact hst p hp q hq
    | tick now =>
      simp only [calls] at h
      split at h
      · cases h
      · rename_i st1 gs h1
        simp only [Option.map_eq_some_iff, Prod.mk.injEq] at h
        obtain ⟨⟨s2, o2⟩, h2, _, rfl⟩ := h
        simp only [dump, Option.map_eq_some_iff, Prod.mk.injEq] at h1
        obtain ⟨l, hl, rfl, rfl⟩ := h1
        intro g nw hm
        rcases List.mem_append.1 hm with hm | hm
        · obtain ⟨x, hx, he⟩ := List.mem_map.1 hm
          simp only [POp.consume.injEq] at he
          obtain ⟨rfl, _⟩ := he
          have hx1 : x.1 ∈ l.flatten := (List.of_mem_zip (List.zipIdx_eq_zip_range' (l := l.flatten) ▸ hx)).1
          obtain ⟨gs, hgs, hxg⟩ := List.mem_flatten.1 hx1
          obtain ⟨p, hp, hd⟩ := (mapOpt_mem hl).1 hgs
          obtain ⟨q, hq, hg⟩ := (mapOpt_mem hd).1 hxg
          simp only [Option.map_eq_some_iff] at hg
          obtain ⟨ms, hms, he⟩ := hg
          obtain ⟨q1, q2⟩ := hst p hp q hq
          rw [← he]
          exact Or.inr ⟨Nat.le_trans (getLabels_length _) q1, getAll_plain q2 hms⟩
        · refine ih hd' ?_ h2 g nw hm
          intro p hp q hq
          obtain ⟨p0, _, rfl⟩ := List.mem_map.1 hp
          cases hq
    | direct g now =>
      simp only [calls, Option.map_eq_some_iff, Prod.mk.injEq] at h
      obtain ⟨⟨s2, o2⟩, h2, _, rfl⟩ := h
      intro g' nw hm
      rcases List.mem_cons.1 hm with hm | hm
      · simp only [POp.consume.injEq] at hm
        obtain ⟨rfl, _⟩ := hm
        exact Or.inl (hd g' now (List.mem_cons_self ..))
      · exact ih hd' hst h2 g' nw hm
    | scrape now =>
      simp only [calls, Option.map_eq_some_iff, Prod.mk.injEq] at h
      obtain ⟨⟨s2, o2⟩, h2, _, rfl⟩ := h
      intro g' nw hm
      rcases List.mem_cons.1 hm with hm | hm
      · cases hm
      · exact ih hd' hst h2 g' nw hm

/-! #### At most 37 labels -/

theorem foldl_length {α β : Type} (f : List α → β → List α) (hf : ∀ m b, (f m b).length ≤ m.length + 1) (l : List β) (m : List α) :
    (l.foldl f m).length ≤ m.length + l.length := by
  induction l generalizing m with
  | nil => simp
  | cons b r ih =>
    have h1 := ih (f m b)
    have h2 := hf m b
    simp only [List.foldl_cons, List.length_cons]
    omega

theorem adjustM_length (a : Export.Adapter.Adj) (g : Lab) (m : AMap Bytes Val) : (Export.Adapter.adjustM a g m).length ≤ m.length + 2 := by
  cases a with
  | keep => simp [Export.Adapter.adjustM]
  | removeDst =>
    simp only [Export.Adapter.adjustM, Export.Labels.removeDstMap]
    split
    · omega
    · have h1 := set_length m (bs "dst_node") (Val.str [])
      have h2 := set_length (AMap.set m (bs "dst_node") (Val.str [])) (bs "dst_pod") (Val.str [])
      omega
  | replaceNat =>
    simp only [Export.Adapter.adjustM, Export.Labels.replaceNatMap]
    split
    · omega
    · have h1 := set_length m (bs "dst_ip") (Val.str (g.gs (bs "dnat_ip")))
      have h2 := set_length (AMap.set m (bs "dst_ip") (Val.str (g.gs (bs "dnat_ip")))) (bs "dst_port") (Val.int (g.gi (bs "dnat_port")))
      omega

theorem transformC_length (c : Conv) (g : Lab) (vals : List (Bytes × Val)) :
    (transformC c [] g vals (build (dictOf c (protoOf (g.gs (bs "protocol")))) c.vkeys []).mapTemplate).length ≤
      (dictOf c (protoOf (g.gs (bs "protocol")))).length + vals.length + 2 := by
  unfold transformC
  refine Nat.le_trans (adjustM_length _ _ _) ?_
  unfold Export.Labels.transform
  have h1 := foldl_length (fun (m : AMap Bytes Val) (d : Export.Labels.Dict) => AMap.set m d.newKey (Export.Labels.entryVal g d))
    (fun m d => set_length _ _ _) (dictOf c (protoOf (g.gs (bs "protocol")))) []
  have h2 := foldl_length Export.Labels.addVal (fun m kv => by
    unfold Export.Labels.addVal
    split
    · omega
    · exact set_length _ _ _) vals ((dictOf c (protoOf (g.gs (bs "protocol")))).foldl
      (fun (m : AMap Bytes Val) (d : Export.Labels.Dict) => AMap.set m d.newKey (Export.Labels.entryVal g d)) [])
  simp only [List.length_nil, Nat.zero_add] at h1
  simp only [build, List.foldl_nil]
  omega

theorem look_length {c : Conv} (hc : c ∈ aggConvs) (l : Agg.Labels) : (look [] c l).length ≤ 37 := by
  unfold look
  rw [List.length_map]
  refine Nat.le_trans (transformC_length c (labOf l) []) ?_
  generalize protoOf ((labOf l).gs (bs "protocol")) = p
  simp only [aggConvs, List.mem_cons, List.not_mem_nil, or_false] at hc
  rcases hc with rfl | rfl | rfl | rfl | rfl | rfl | rfl | rfl <;> cases p <;> decide +kernel

theorem traceLook_length (g : Group) : (traceLook g).length ≤ 37 := by
  unfold traceLook
  rw [List.length_map]
  refine Nat.le_trans (transformC_length traceToMetric (labOf g.labels) _) ?_
  rw [show (Export.Documented.traceVals (labOf g.labels) (ints g.metrics)).length = 5 from rfl]
  generalize protoOf ((labOf g.labels).gs (bs "protocol")) = p
  cases p <;> decide +kernel

/-! #### Names -/

theorem long_name {t : Export.Sanitize.Tables} {s : String} (h : s.toList.length ≠ 1) : Export.Sanitize.sanitize t (runes s) true ≠ .panic := by
  intro hp
  obtain ⟨_, c, hc, _⟩ := (Export.Sanitize.sanitize_panics_iff t _ _).1 hp
  have := congrArg List.length hc
  simp only [runes, List.length_map, List.length_cons, List.length_nil] at this
  exact h this

theorem metricName_long (n : Bytes) (server : Bool) : (dec (Export.Adapter.metricName n server)).toList.length ≠ 1 := by
  unfold dec
  rw [String.toList_ofList, List.length_map]
  unfold Export.Adapter.metricName
  split
  · simp
  · have h1 : (bs "kindling_entity_request_").length = 24 := by decide +kernel
    have h2 : (bs "kindling_topology_request_").length = 26 := by decide +kernel
    split <;> simp only [List.length_append, h1, h2] <;> omega

theorem created_names {ms : List (Bytes × MData)} {server : Bool} {ad : Conv × Conv} {top : Bool} :
    ∀ r ∈ Export.Adapter.createResults ms server ad top, ∀ m ∈ r.metrics, ∃ x ∈ ms, ∃ b, m = (Export.Adapter.metricName x.1 b, x.2) := by
  intro r hr m hm
  unfold Export.Adapter.createResults at hr
  rw [Export.Adapter.splitLoop_eq] at hr
  simp only [List.nil_append] at hr
  rcases List.mem_append.1 hr with hr | hr
  · split at hr
    · rw [List.mem_singleton] at hr
      subst hr
      obtain ⟨x, hx, rfl⟩ := List.mem_map.1 hm
      exact ⟨x, (List.mem_filter.1 hx).1, _, rfl⟩
    · cases hr
  · split at hr
    · rw [List.mem_singleton] at hr
      subst hr
      obtain ⟨x, hx, rfl⟩ := List.mem_map.1 hm
      exact ⟨x, (List.mem_filter.1 hx).1, _, rfl⟩
    · cases hr

/-- What the adapters make of an exportable group the collector can take. -/
theorem adapted_good {t : Export.Sanitize.Tables} {cfg : Export.Adapter.Cfg} {g : Group} (hg : Exportable g) :
    ∀ r ∈ adapt (promNet cfg) g, r.isMetric = true → r.labels.length ≤ 37 ∧ ∀ m ∈ r.metrics, GoodMetric t m := by
  have hint : ∀ m ∈ g.metrics, ∃ v, m.data = .int v := by
    rcases hg with ⟨_, h⟩ | ⟨_, h⟩
    · exact h
    · exact fun m hm => (h m hm).2
  intro r hr hmet
  unfold adapt at hr
  split at hr
  · unfold promNet Count.netOf at hr
    split at hr
    · obtain ⟨x, hx, rfl⟩ := List.mem_map.1 hr
      rw [dealAgg_adapters] at hx
      obtain ⟨a, ha, hx⟩ := List.mem_flatMap.1 hx
      obtain ⟨a1, a2, _⟩ := adapters_convs cfg g.labels a ha
      refine ⟨?_, ?_⟩
      · refine look_length ?_ _
        unfold Export.Adapter.createResults at hx
        simp only at hx
        rcases List.mem_append.1 hx with hx | hx
        · split at hx
          · rw [List.mem_singleton] at hx; subst hx; exact sub_slow (Or.inr a1)
          · cases hx
        · split at hx
          · rw [List.mem_singleton] at hx; subst hx; exact sub_slow (Or.inl a2)
          · cases hx
      · intro m hm
        obtain ⟨m0, hm0, rfl⟩ := List.mem_map.1 hm
        obtain ⟨y, hy, b, rfl⟩ := created_names x hx m0 hm0
        obtain ⟨z, hz, rfl⟩ := List.mem_map.1 hy
        obtain ⟨v, hv⟩ := hint z hz
        exact ⟨fun h he => (by simp only [hv] at he; cases he), long_name (metricName_long _ _)⟩
    · unfold singleOf at hr
      split at hr
      · obtain ⟨x, hx, rfl⟩ := List.mem_map.1 hr
        simp only [Bool.not_eq_true'] at hmet
        simp only [hmet, Bool.false_eq_true, ↓reduceIte]
        refine ⟨traceLook_length g, ?_⟩
        intro m hm
        obtain ⟨m0, hm0, rfl⟩ := List.mem_map.1 hm
        unfold dealSingle at hx
        split at hx
        · cases hx
        · rename_i tm htm
          rcases List.mem_append.1 hx with hx | hx
          · split at hx
            · rw [List.mem_singleton] at hx
              subst hx
              simp only [List.mem_singleton] at hm0
              subst hm0
              obtain ⟨z, hz, rfl⟩ := List.mem_map.1 (List.mem_of_find?_eq_some htm)
              obtain ⟨v, hv⟩ := hint z hz
              exact ⟨fun h he => (by simp only [hv] at he; cases he),
                long_name (s := dec (bs "kindling_trace_request_duration_nanoseconds")) (by decide +kernel)⟩
            · cases hx
          · split at hx
            · rw [List.mem_singleton] at hx
              subst hx
              cases hmet
            · cases hx
      · cases hr
  · unfold simpleAdapt at hr
    split at hr
    · rename_i hnet ht
      rw [List.mem_singleton] at hr
      subst hr
      rcases hg with ⟨hn, _⟩ | ⟨hl, hm⟩
      · rw [hn] at ht; exact absurd ht (by decide)
      · refine ⟨hl, fun m hmm => ?_⟩
        obtain ⟨hn, v, hv⟩ := hm m hmm
        refine ⟨fun h he => (by rw [hv] at he; cases he), long_name ?_⟩
        have : ∀ n ∈ outNames, n.toList.length ≠ 1 := by decide
        exact this _ hn
    · cases hr

/-- C119: with the built-in configuration nothing panics on the way, whatever integers the records carry and whatever
their labels. -/
theorem pipeline_never_panics {is : List In} (hi : Ints is) (cfg : Export.Adapter.Cfg) (t : Export.Sanitize.Tables)
    (valid : List Nat → List (String × Bytes) → Bool) (now : Int) :
    ∃ st ops ps out ps' ss, calls builtin [] (is.flatMap evOf) = some (st, ops) ∧
      prun t valid (promNet cfg) [] ops = some (ps, out) ∧ collect t valid ps now = some (ps', ss) := by
  have hag : ∀ g sels, Ev.aggregate g sels ∈ is.flatMap evOf → ∀ m ∈ g.metrics, ∃ v, m.data = .int v := by
    intro g sels hm
    obtain ⟨i, hmem, he⟩ := List.mem_flatMap.1 hm
    cases i with
    | tick now => simp [evOf] at he
    | scrape now => simp [evOf] at he
    | record g0 s n =>
      have h0 := hi g0 s n hmem
      simp only [evOf] at he
      split at he
      · rcases List.mem_append.1 he with he | he
        · split at he <;> simp at he
        · simp only [List.mem_singleton, Ev.aggregate.injEq] at he
          obtain ⟨rfl, _⟩ := he
          exact h0
      · split at he
        · simp only [List.mem_singleton, Ev.aggregate.injEq] at he
          exact he.1 ▸ h0
        · split at he <;>
          · simp only [List.mem_singleton, Ev.aggregate.injEq] at he
            exact he.1 ▸ h0
  have hdir : ∀ g now, Ev.direct g now ∈ is.flatMap evOf → g.name = singleName ∧ ∀ m ∈ g.metrics, ∃ v, m.data = .int v := by
    intro g nw hm
    obtain ⟨i, hmem, he⟩ := List.mem_flatMap.1 hm
    cases i with
    | tick now => simp [evOf] at he
    | scrape now => simp [evOf] at he
    | record g0 s n =>
      have h0 := hi g0 s n hmem
      simp only [evOf] at he
      split at he
      · rcases List.mem_append.1 he with he | he
        · split at he
          · simp only [List.mem_singleton, Ev.direct.injEq] at he
            obtain ⟨rfl, _⟩ := he
            exact ⟨rfl, h0⟩
          · cases he
        · simp at he
      · split at he
        · simp at he
        · split at he <;> simp at he
  obtain ⟨st, ops, hcalls⟩ := calls_run builtin (is.flatMap evOf) [] (int_history_never_panics _ (by
    intro g sels hm
    obtain ⟨e, he, ho⟩ := List.mem_flatMap.1 hm
    cases e with
    | aggregate g' s' =>
      simp only [opOf, List.mem_singleton, Op.aggregate.injEq] at ho
      obtain ⟨rfl, rfl⟩ := ho
      exact hag _ _ he
    | tick now => simp [opOf] at ho
    | direct g now => simp [opOf] at ho
    | scrape now => simp [opOf] at ho))
  have hex := calls_exportable hdir (fun p hp => by cases hp) hcalls
  obtain ⟨ps', out', h2⟩ := no_panic (t := t) (valid := valid) (net := promNet cfg) (ops ++ [.collect now]) (by
    intro g nw hm
    rcases List.mem_append.1 hm with hm | hm
    · exact adapted_good (hex g nw hm)
    · simp at hm)
  have happ : ∀ (a : List POp) (s : CState) out', prun t valid (promNet cfg) s (a ++ [.collect now]) = some (ps', out') →
      ∃ p o ss, prun t valid (promNet cfg) s a = some (p, o) ∧ collect t valid p now = some (ps', ss) := by
    intro a
    induction a with
    | nil =>
      intro s out' h
      simp only [List.nil_append, prun, pstep] at h
      cases hc : collect t valid s now with
      | none => rw [hc] at h; cases h
      | some q =>
        obtain ⟨q1, q2⟩ := q
        rw [hc] at h
        simp only [Option.map_some, Option.some.injEq, Prod.mk.injEq] at h
        exact ⟨s, [], q2, rfl, by rw [hc, h.1]⟩
    | cons op r ih =>
      intro s out' h
      simp only [List.cons_append, prun] at h ⊢
      cases hs : pstep t valid (promNet cfg) s op with
      | none => rw [hs] at h; cases h
      | some q =>
        obtain ⟨q1, q2⟩ := q
        rw [hs] at h
        simp only [Option.map_eq_some_iff, Prod.mk.injEq] at h
        obtain ⟨⟨w1, w2⟩, hw, he1, _⟩ := h
        obtain ⟨p, o, ss, h5, h6⟩ := ih q1 w2 (he1 ▸ hw)
        exact ⟨p, q2 ++ o, ss, by simp only [h5, Option.map_some], h6⟩
  obtain ⟨ps, out, ss, h3, h4⟩ := happ ops [] out' h2
  exact ⟨st, ops, ps, out, ps', ss, hcalls, h3, h4⟩

theorem calls_no_scrape {kinds : KindMap} {evs : List Ev} {st st' : State} {ops : List POp} (hn : ∀ now, Ev.scrape now ∉ evs)
    (h : calls kinds st evs = some (st', ops)) : ∀ now, POp.collect now ∉ ops := by
  induction evs generalizing st st' ops with
  | nil =>
    simp only [calls, Option.some.injEq, Prod.mk.injEq] at h
    obtain ⟨_, rfl⟩ := h
    intro now hm; cases hm
  | cons e r ih =>
    have hn' : ∀ now, Ev.scrape now ∉ r := fun now hm => hn now (List.mem_cons_of_mem _ hm)
    cases e with
    | aggregate g sels =>
      simp only [calls] at h
      split at h
      · cases h
      · exact ih hn' h
    | tick now =>
      simp only [calls] at h
      split at h
      · cases h
      · simp only [Option.map_eq_some_iff, Prod.mk.injEq] at h
        obtain ⟨⟨s2, o2⟩, h2, _, rfl⟩ := h
        intro nw hm
        rcases List.mem_append.1 hm with hm | hm
        · obtain ⟨x, _, he⟩ := List.mem_map.1 hm
          cases he
        · exact ih hn' h2 nw hm
    | direct g now =>
      simp only [calls, Option.map_eq_some_iff, Prod.mk.injEq] at h
      obtain ⟨⟨s2, o2⟩, h2, _, rfl⟩ := h
      intro nw hm
      rcases List.mem_cons.1 hm with hm | hm
      · cases hm
      · exact ih hn' h2 nw hm
    | scrape now => exact absurd (List.mem_cons_self ..) (hn now)

/-- C119, at the first scrape: with the built-in configuration, whatever integer records came before the last tick, the
scrape is answered, and in the answer every series carries the number of its requests.  Nothing is assumed of the code's
results here. -/
theorem first_scrape_exact {cfg : Export.Adapter.Cfg} {is : List In} {nows : Nat → Int} (hp : Produced (is ++ [In.tick nows])) (hi : Ints (is ++ [In.tick nows]))
    (hs : ∀ now, In.scrape now ∉ is) {t : Export.Sanitize.Tables} (ht : ∀ c, 97 ≤ c → c ≤ 122 → t.letter c = true)
    {valid : List Nat → List (String × Bytes) → Bool} (now : Int) :
    ∃ st ops ps out ps' ss, calls builtin [] ((is ++ [In.tick nows]).flatMap evOf) = some (st, ops) ∧
      prun t valid (promNet cfg) [] ops = some (ps, out) ∧ collect t valid ps now = some (ps', ss) ∧
      ∀ K, (∀ n, valid n (labelText (getLabels K)) = true) →
        (is.countP (isReceived cfg K) ≠ 0 →
          ∃ ts, .counter (runes "kindling_entity_request_total") (labelText (getLabels K)) (is.countP (isReceived cfg K)) ts ∈ ss) ∧
        (is.countP (isSent cfg K) + is.countP (isOutside cfg K) ≠ 0 →
          ∃ ts, .counter (runes "kindling_topology_request_total") (labelText (getLabels K))
            (is.countP (isSent cfg K) + is.countP (isOutside cfg K) : Nat) ts ∈ ss) := by
  obtain ⟨st, ops, ps, out, ps', ss, h1, h2, h3⟩ := pipeline_never_panics hi cfg t valid now
  refine ⟨st, ops, ps, out, ps', ss, h1, h2, h3, fun K hv => ?_⟩
  refine every_request_counted builtin_outputs.1 (later := []) (fun _ h => by cases h) hp h1 ht h2 h3 ?_ hv
  have hno := calls_no_scrape (by
    intro nw hm
    obtain ⟨i, hmem, he⟩ := List.mem_flatMap.1 hm
    cases i with
    | tick n => simp [evOf] at he
    | scrape n =>
      rcases List.mem_append.1 hmem with hmem | hmem
      · exact hs n hmem
      · simp at hmem
    | record g s n =>
      simp only [evOf] at he
      split at he
      · rcases List.mem_append.1 he with he | he
        · split at he <;> simp at he
        · simp at he
      · split at he
        · simp at he
        · split at he <;> simp at he) h1
  intro a t b he
  exact absurd (he ▸ List.mem_append_right _ (List.mem_cons_self ..)) (hno t)

/-- Two requests received by one server process, one of them slow and sampled, one sent, and a TCP record. -/
def in0 : List In := [
  .record ⟨netName, [("is_server", .bool true), ("protocol", .str (bs "http")), ("pid", .int 7)], 5, [⟨"request_total_time", .int 10⟩, ⟨"request_io", .int 3⟩]⟩ true 6,
  .record ⟨netName, [("is_server", .bool false), ("protocol", .str (bs "http"))], 7, [⟨"request_total_time", .int 11⟩]⟩ false 8,
  .record ⟨"tcp_srtt_metric_group", [("src_ip", .str (bs "10.0.0.1"))], 8, [⟨"kindling_tcp_srtt_microseconds", .int 40⟩]⟩ false 9,
  .record ⟨netName, [("is_server", .bool true), ("protocol", .str (bs "http")), ("pid", .int 7)], 9, [⟨"request_total_time", .int 12⟩]⟩ false 10]

example : ∃ st ops ps out ps' ss ts, calls builtin [] ((in0 ++ [In.tick (fun _ => 20)]).flatMap evOf) = some (st, ops) ∧
    prun t0 (fun _ _ => true) (promNet cfg0) [] ops = some (ps, out) ∧ collect t0 (fun _ _ => true) ps 30 = some (ps', ss) ∧
    .counter (runes "kindling_entity_request_total") (labelText (getLabels K0)) 2 ts ∈ ss := by
  have hi : Ints (in0 ++ [In.tick (fun _ => 20)]) := by
    intro g s now hm m hmm
    simp only [in0, List.cons_append, List.nil_append, List.mem_cons, In.record.injEq, reduceCtorEq, List.not_mem_nil, or_false] at hm
    rcases hm with ⟨rfl, _⟩ | ⟨rfl, _⟩ | ⟨rfl, _⟩ | ⟨rfl, _⟩ <;> simp only [List.mem_cons, List.not_mem_nil, or_false] at hmm
    · rcases hmm with rfl | rfl <;> exact ⟨_, rfl⟩
    all_goals subst hmm; exact ⟨_, rfl⟩
  have hp : Produced (in0 ++ [In.tick (fun _ => 20)]) := by
    intro g s now hm
    simp only [in0, List.cons_append, List.nil_append, List.mem_cons, In.record.injEq, reduceCtorEq, List.not_mem_nil, or_false] at hm
    rcases hm with ⟨rfl, _⟩ | ⟨rfl, _⟩ | ⟨rfl, _⟩ | ⟨rfl, _⟩
    · refine ⟨by decide, fun _ => ⟨?_, [], _, 10, rfl, by simp⟩⟩
      intro k i hk
      simp only [AMap.get] at hk
      by_cases e1 : "is_server" = k <;> by_cases e2 : "protocol" = k <;> by_cases e3 : "pid" = k <;> simp [e1, e2, e3] at hk
      all_goals subst hk; decide
    · refine ⟨by decide, fun _ => ⟨?_, [], _, 11, rfl, by simp⟩⟩
      intro k i hk
      simp only [AMap.get] at hk
      by_cases e1 : "is_server" = k <;> by_cases e2 : "protocol" = k <;> simp [e1, e2] at hk
    · exact ⟨by decide, fun h => absurd h (by decide)⟩
    · refine ⟨by decide, fun _ => ⟨?_, [], _, 12, rfl, by simp⟩⟩
      intro k i hk
      simp only [AMap.get] at hk
      by_cases e1 : "is_server" = k <;> by_cases e2 : "protocol" = k <;> by_cases e3 : "pid" = k <;> simp [e1, e2, e3] at hk
      all_goals subst hk; decide
  obtain ⟨st, ops, ps, out, ps', ss, h1, h2, h3, h4⟩ := first_scrape_exact (cfg := cfg0) hp hi (by simp [in0])
    (t := t0) (fun c h h' => by simp [t0, Export.Sanitize.ascii, h, h']) (valid := fun _ _ => true) 30
  have h5 := (h4 K0 (fun _ => rfl)).1
  have h7 : in0.countP (isReceived cfg0 K0) = 2 := by decide +kernel
  rw [h7] at h5
  obtain ⟨ts, h8⟩ := h5 (by decide)
  exact ⟨st, ops, ps, out, ps', ss, ts, h1, h2, h3, h8⟩

/-! ### What a series shows -/

/-- A label of a series reads as the value. -/
def reads (v : Val) : AttrVal → Prop
  | .str s => v = .str s
  | .int n => v = .int n
  | .bool b => v = .bool b

theorem transform_wf (c : Conv) (g : Lab) (p : Proto) : AMap.WF (transformC c [] g [] (build (dictOf c p) c.vkeys []).mapTemplate) := by
  have hf : ∀ (l : List Export.Labels.Dict) (m : AMap Bytes Val), AMap.WF m → AMap.WF (l.foldl (fun m d => AMap.set m d.newKey (Export.Labels.entryVal g d)) m) := by
    intro l
    induction l with
    | nil => exact fun m h => h
    | cons d r ih => exact fun m h => ih _ (AMap.WF.set h ..)
  have h0 : AMap.WF (Export.Labels.transform (build (dictOf c (protoOf (g.gs (bs "protocol")))) c.vkeys []) g [] (build (dictOf c p) c.vkeys []).mapTemplate) := by
    unfold Export.Labels.transform
    exact hf _ _ List.nodup_nil
  unfold transformC
  cases c.adj with
  | keep => exact h0
  | removeDst =>
    simp only [Export.Adapter.adjustM, Export.Labels.removeDstMap]
    split
    · exact h0
    · exact AMap.WF.set (AMap.WF.set h0 ..) ..
  | replaceNat =>
    simp only [Export.Adapter.adjustM, Export.Labels.replaceNatMap]
    split
    · exact h0
    · exact AMap.WF.set (AMap.WF.set h0 ..) ..

theorem look_shows {c : Conv} (hc : c ∈ aggConvs) {doc : List (String × Export.Documented.Src)} (h : Export.Documented.conforms c doc = true) (l : Agg.Labels)
    (hg : l.getString "protocol" ≠ bs "grpc") (k : Bytes) (v : AttrVal) :
    (dec k, v) ∈ look [] c l ↔ ∃ x ∈ doc, k = bs x.1 ∧ reads (x.2.val (labOf l)) v := by
  obtain ⟨hmc, hv⟩ := aggConv_metric c hc
  have hg' : (labOf l).gs (bs "protocol") ≠ bs "grpc" := by
    rw [show (labOf l).gs (bs "protocol") = l.getString (dec (bs "protocol")) from rfl, show dec (bs "protocol") = "protocol" by decide +kernel]
    exact hg
  have hfr : Fresh c (protoOf ((labOf l).gs (bs "protocol"))) [] := ⟨List.nodup_nil, fun k hk => by cases hk⟩
  have hs := (Export.Documented.shows_of c hmc doc h (labOf l) hg' [] hfr [] hv.symm (fun _ h => by cases h) (fun _ h => by cases h)).2 _
    (Export.Labels.mapTemplate_pooled _ _ _ (Export.Adapter.metric_dictionaries c hmc _ [] hfr).1)
  have hwf := transform_wf c (labOf l) (protoOf ((labOf l).gs (bs "protocol")))
  unfold look
  rw [List.mem_map]
  constructor
  · rintro ⟨kv, hkv, he⟩
    simp only [Prod.mk.injEq] at he
    have hk := dec_inj he.1
    have := (hs kv.1 kv.2).1 (AMap.get_of_mem hwf hkv)
    simp only [List.not_mem_nil, or_false] at this
    obtain ⟨x, hx, h1, h2⟩ := this
    refine ⟨x, hx, by rw [← hk, h1], ?_⟩
    rw [← he.2, ← h2]
    have hinv : kv.2 ≠ .invalid := by
      rw [h2]
      cases x.2 <;> simp only [Export.Documented.Src.val, Export.Documented.docCode] <;> (repeat' split) <;> simp
    cases hk2 : kv.2 with
    | invalid => exact absurd hk2 hinv
    | str s => simp [attr, reads]
    | int s => simp [attr, reads]
    | bool s => simp [attr, reads]
  · rintro ⟨x, hx, rfl, hr⟩
    have := (hs (bs x.1) (x.2.val (labOf l))).2 (Or.inl ⟨x, hx, rfl, rfl⟩)
    refine ⟨(bs x.1, x.2.val (labOf l)), AMap.mem_of_get this, ?_⟩
    cases v <;> simp only [reads] at hr <;> simp only [hr, attr]

/-- C119.  The series in which a request is counted: the labels documented for it, with their documented values read from
what the aggregation keeps of the labels of the record, and no other. -/
theorem series_labels (cfg : Export.Adapter.Cfg) (l : Agg.Labels) (hg : l.getString "protocol" ≠ bs "grpc") (k : Bytes) (v : AttrVal) :
    ((dec k, v) ∈ look [] (serverConv cfg) l ↔
      ∃ x ∈ (if cfg.podDetail then Export.Documented.docEntity else Export.Documented.docEntityAgg) ++ [("is_slow", .flag "is_slow")],
        k = bs x.1 ∧ reads (x.2.val (labOf l)) v) ∧
    ((dec k, v) ∈ look [] (clientConv cfg) l ↔
      ∃ x ∈ (if cfg.podDetail then Export.Documented.docTopology else Export.Documented.docTopologyAgg) ++ [("is_slow", .flag "is_slow")],
        k = bs x.1 ∧ reads (x.2.val (labOf l)) v) ∧
    ((dec k, v) ∈ look [] detailTopologySlow l ↔
      ∃ x ∈ Export.Documented.docTopology ++ [("is_slow", .flag "is_slow")], k = bs x.1 ∧ reads (x.2.val (labOf l)) v) := by
  obtain ⟨_, h2, _, h4, _, h6, _, h8, _⟩ := Export.Documented.conform_all
  refine ⟨?_, ?_, look_shows (by simp [aggConvs]) h6 l hg k v⟩
  · unfold serverConv
    cases cfg.podDetail
    · exact look_shows (by simp [aggConvs]) h4 l hg k v
    · exact look_shows (by simp [aggConvs]) h2 l hg k v
  · unfold clientConv
    cases cfg.podDetail
    · exact look_shows (by simp [aggConvs]) h8 l hg k v
    · exact look_shows (by simp [aggConvs]) h6 l hg k v

/-- C119: a sampled request gives the exporter one metric, its duration, if the operator wants traces as metrics, and none
otherwise; a group of another kind gives the network adapter nothing. -/
theorem sampled_exported (cfg : Export.Adapter.Cfg) (g : Group) :
    (g.name = singleName → ∀ a b v, g.metrics = a ++ ⟨"request_total_time", .int v⟩ :: b → (∀ y ∈ a, y.name ≠ "request_total_time") →
      (promNet cfg g).filter (·.isMetric) = if cfg.traceAsMetric then
        [⟨true, traceLook g, g.ts, [⟨"kindling_trace_request_duration_nanoseconds", .int v⟩]⟩] else []) ∧
    (g.name ≠ singleName → g.name ≠ aggName → promNet cfg g = []) := by
  constructor
  · intro hn a b v hm ha
    have hna : g.name ≠ aggName := by rw [hn]; decide
    have hf : (g.metrics.map (fun m => (utf m.name, m.data))).find? (fun m => m.1 == bs "request_total_time") =
        some (bs "request_total_time", .int v) := by
      rw [hm, List.map_append, List.find?_append]
      have h0 : (a.map (fun m => (utf m.name, m.data))).find? (fun m => m.1 == bs "request_total_time") = none := by
        rw [List.find?_eq_none]
        intro x hx
        obtain ⟨m, hm, rfl⟩ := List.mem_map.1 hx
        intro he
        apply ha m hm
        have hu : utf "request_total_time" = bs "request_total_time" := by decide +kernel
        exact utf_inj ((show utf m.name = bs "request_total_time" by simpa using he).trans hu.symm)
      rw [h0, List.map_cons]
      rfl
    unfold promNet Count.netOf singleOf
    rw [if_neg hna, if_pos hn]
    unfold dealSingle
    rw [hf]
    have hd : dec (bs "kindling_trace_request_duration_nanoseconds") = "kindling_trace_request_duration_nanoseconds" := by decide +kernel
    cases cfg.traceAsMetric <;> cases cfg.traceAsSpan <;> simp [hd]
  · intro h1 h2
    unfold promNet Count.netOf singleOf
    rw [if_neg h2, if_neg h1]

example : ((promNet ⟨true, false, true, true⟩ ⟨singleName, [], 5, [⟨"request_io", .int 3⟩, ⟨"request_total_time", .int 10⟩]⟩).filter (·.isMetric)).length = 1 := by
  rw [(sampled_exported _ _).1 rfl [⟨"request_io", .int 3⟩] [] 10 rfl (by simp)]
  rfl


end Kindling.Flow.Counted
