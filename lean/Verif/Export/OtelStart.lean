import Verif.Export.Otel
/-
The start of the OpenTelemetry exporter: otelexporter/otelexporter.go:70-239 `NewExporter`, 246-302 `newExporters`, 355-369
`registerResetSchedule`, helper.go and config.go.

Given: the library (whether an exporter or a controller can be made is an input), viper and mapstructure (the decoded configuration is an
input).  What the exporter then does with data is in `Verif.Export.Otel`, the restarts of its server in `Verif.Export.Server`.
-/
namespace Kindling.Export.OtelStart
open Kindling

/-- config.go:18-22, 39-42. -/
structure PromCfg where
  port : String
  withMemory : Bool
  /-- enabled and period in hours -/
  cleanUp : Option (Bool × Int)
deriving DecidableEq, Repr

/-- config.go:32-37. -/
structure AdapterCfg where
  span : Bool
  metric : Bool
  podDetail : Bool
  externalSrcIp : Bool
deriving DecidableEq, Repr

/-- config.go:7-16; a missing section is a nil pointer. -/
structure Config where
  kind : String
  prom : Option PromCfg := none
  /-- period and endpoint -/
  otlp : Option (Int × String) := none
  stdout : Option Int := none
  custom : AMap String Bytes := []
  kinds : String → Option Otel.MKind := fun _ => none
  adapter : Option AdapterCfg := none

/-- What the environment and the library answer: `os.Hostname`, `CLUSTER_ID`, `prometheus.New`, the two exporters, `cont.Start`, and the
order in which the map of labels is walked. -/
structure Env where
  host : Option Bytes
  cluster : Option Bytes
  promOk : Bool
  metricOk : Bool
  traceOk : Bool
  startOk : Bool
  order : List (String × Bytes)

/-- helper.go:37-48 and 50-69 without user information. -/
def commonLabels (e : Env) : List (String × Bytes) := [("job", bs "cmonitor"), ("instance", e.host.getD (bs "unknown"))]

/-- The loop of otelexporter.go:83-87. -/
def addCommon (custom : AMap String Bytes) : List (String × Bytes) → List (String × Bytes) → List (String × Bytes)
  | [], l => l
  | p :: r, l => addCommon custom r (if (AMap.get custom p.1).isNone then l ++ [p] else l)

/-- otelexporter.go:76-88. -/
def labelsOf (e : Env) (c : Config) : List (String × Bytes) :=
  if c.kind ≠ "prometheus" then addCommon c.custom (commonLabels e) e.order else e.order

/-- What is sent where: the server with its memory and the period of restarts, or an exporter for metrics and one for spans. -/
inductive Sink
  | server (port : String) (withMemory : Bool) (restart : Option Int)
  | stdout (period : Int)
  | otlp (endpoint : String) (period : Int)
deriving DecidableEq, Repr

/-- The exporter (otelexporter.go:54-67). -/
structure Exporter where
  sink : Sink
  tracer : Bool
  custom : List (String × Bytes)
  service : Bytes
  instance' : Bytes
  adapter : AdapterCfg
  /-- the groups of the second adapter -/
  simple : List String
deriving DecidableEq, Repr

def hour : Int := 3600000000000

/-- `time.Duration(n) * time.Hour` in 64 bits. -/
def hours (n : Int) : Int := (n * hour + 2 ^ 63) % 2 ^ 64 - 2 ^ 63

/-- otelexporter.go:355-369: `none` is the panic of `time.NewTicker`; otherwise the period, if there is one. -/
def resetSchedule (period : Int) : Option (Option Int) :=
  if period ≠ 0 then
    if hours period ≤ 0 then none else some (some (hours period))
  else some none

def simpleGroups : List String :=
  ["tcp_rtt_metric_group", "tcp_retransmit_metric_group", "tcp_drop_metric_group", "tcp_connect_metric_group", "k8s_workload_metric_group"]

/-- otelexporter.go:246-302: whether both exporters were made. -/
def newExporters (e : Env) (c : Config) : Bool :=
  if c.kind = "stdout" ∨ c.kind = "otlp" then e.metricOk && e.traceOk else false

/-- otelexporter.go:70-239; `none` is a panic (a nil section or `Logger.Panic`). -/
def newExporter (e : Env) (c : Config) : Option Exporter :=
  let custom := labelsOf e c
  let host := e.host.getD (bs "unknown")
  let service := bs "cmonitor-" ++ e.cluster.getD (bs "noclusteridset")
  if c.kind = "prometheus" then
    match c.prom with
    | none => none
    | some p =>
      if !e.promOk then none
      else match c.adapter with
        | none => none
        | some a =>
          let x : Exporter := ⟨.server p.port p.withMemory none, false, custom, service, host, a, simpleGroups⟩
          match p.cleanUp with
          | none => some x
          | some (enabled, period) =>
            if enabled then (resetSchedule period).map (fun r => { x with sink := .server p.port p.withMemory r }) else some x
  else
    let go := fun (s : Sink) =>
      if !newExporters e c then none
      else match c.adapter with
        | none => none
        | some a => if !e.startOk then none else some (⟨s, true, custom, service, host, a, simpleGroups⟩ : Exporter)
    if c.kind = "stdout" then
      match c.stdout with
      | none => none
      | some period => go (.stdout period)
    else if c.kind = "otlp" then
      match c.otlp with
      | none => none
      | some (period, endpoint) => go (.otlp endpoint period)
    else none

/-- The configuration with which `Verif.Export.Otel` runs. -/
def otelCfg (c : Config) (x : Exporter) : Otel.Cfg := ⟨c.kinds, x.custom, x.tracer⟩

/-! ### Specification -/

/-- The map of labels is walked in some order. -/
def Walks (e : Env) (c : Config) : Prop := e.order.Perm c.custom

/-- The sink that kind and section name, where restarts are wanted every `n > 0` hours. -/
inductive Names (c : Config) : Sink → Prop
  | server (p : PromCfg) (r : Option Int) (hk : c.kind = "prometheus") (hp : c.prom = some p)
      (hr : r = match p.cleanUp with | some (true, n) => if n = 0 then none else some (n * hour) | _ => none) :
      Names c (.server p.port p.withMemory r)
  | stdout (n : Int) (hk : c.kind = "stdout") (hs : c.stdout = some n) : Names c (.stdout n)
  | otlp (n : Int) (s : String) (hk : c.kind = "otlp") (hs : c.otlp = some (n, s)) : Names c (.otlp s n)

/-- A period of restarts that fits: at most 292 years, not negative. -/
def PeriodOk (c : Config) : Prop :=
  ∀ p n, c.prom = some p → p.cleanUp = some (true, n) → 0 ≤ n ∧ n * hour < 2 ^ 63

/-- The library does its part. -/
def Able (e : Env) : Prop := e.promOk = true ∧ e.metricOk = true ∧ e.traceOk = true ∧ e.startOk = true

/-! ### Theorems -/

theorem hours_exact {n : Int} (h0 : 0 ≤ n) (h1 : n * hour < 2 ^ 63) : hours n = n * hour := by
  unfold hours
  unfold hour at h1 ⊢
  omega

/-- C127: with a library that does its part and a period that fits, the exporter starts exactly if the kind is known, its section is there
and the section of the adapter is; then it sends where the section says. -/
theorem starts_iff {e : Env} {c : Config} (ha : Able e) (hp : PeriodOk c) :
    (∀ s, (∃ x, newExporter e c = some x ∧ x.sink = s) ↔ Names c s ∧ c.adapter.isSome = true) := by
  obtain ⟨a1, a2, a3, a4⟩ := ha
  have hreset : ∀ n, 0 ≤ n → n * hour < 2 ^ 63 → resetSchedule n = some (if n = 0 then none else some (n * hour)) := by
    intro n h0 h1
    unfold resetSchedule
    by_cases h : n = 0
    · simp [h]
    · have : ¬ hours n ≤ 0 := by
        rw [hours_exact h0 h1]; unfold hour; omega
      rw [if_pos h, if_neg this, if_neg h, hours_exact h0 h1]
  intro s
  have hn : Names c s ↔
      (∃ p, c.kind = "prometheus" ∧ c.prom = some p ∧
        s = .server p.port p.withMemory (match p.cleanUp with | some (true, n) => if n = 0 then none else some (n * hour) | _ => none)) ∨
      (∃ n, c.kind = "stdout" ∧ c.stdout = some n ∧ s = .stdout n) ∨
      (∃ n t, c.kind = "otlp" ∧ c.otlp = some (n, t) ∧ s = .otlp t n) := by
    constructor
    · rintro (⟨p, r, hk, hp, hr⟩ | ⟨n, hk, hs⟩ | ⟨n, t, hk, hs⟩)
      · exact Or.inl ⟨p, hk, hp, by rw [hr]⟩
      · exact Or.inr (Or.inl ⟨n, hk, hs, rfl⟩)
      · exact Or.inr (Or.inr ⟨n, t, hk, hs, rfl⟩)
    · rintro (⟨p, hk, hp, rfl⟩ | ⟨n, hk, hs, rfl⟩ | ⟨n, t, hk, hs, rfl⟩)
      · exact .server p _ hk hp rfl
      · exact .stdout n hk hs
      · exact .otlp n t hk hs
  rw [hn]
  unfold newExporter newExporters
  by_cases k1 : c.kind = "prometheus"
  · simp only [k1, if_true, a1, Bool.not_true, Bool.false_eq_true, if_false]
    have k2 : ("prometheus" : String) ≠ "stdout" := by decide
    have k3 : ("prometheus" : String) ≠ "otlp" := by decide
    cases h1 : c.prom with
    | none => simp [k2, k3]
    | some p =>
      cases h2 : c.adapter with
      | none => simp
      | some a =>
        cases h3 : p.cleanUp with
        | none =>
          simp only [h3, k2, k3, Option.some.injEq, false_and, exists_false, or_false, true_and, Option.isSome_some, and_true]
          constructor
          · rintro ⟨x, rfl, rfl⟩; exact ⟨p, rfl, by rw [h3]⟩
          · rintro ⟨q, rfl, rfl⟩; exact ⟨_, rfl, by rw [h3]⟩
        | some y =>
          obtain ⟨en, n⟩ := y
          cases en with
          | false =>
            simp only [h3, k2, k3, Option.some.injEq, false_and, exists_false, or_false, true_and, Option.isSome_some, and_true, Bool.false_eq_true, if_false]
            constructor
            · rintro ⟨x, rfl, rfl⟩; exact ⟨p, rfl, by rw [h3]⟩
            · rintro ⟨q, rfl, rfl⟩; exact ⟨_, rfl, by rw [h3]⟩
          | true =>
            obtain ⟨h0, hb⟩ := hp p n h1 h3
            simp only [h3, k2, k3, Option.some.injEq, false_and, exists_false, or_false, true_and, Option.isSome_some, and_true, if_true,
              hreset n h0 hb, Option.map_some]
            constructor
            · rintro ⟨x, rfl, rfl⟩; exact ⟨p, rfl, by rw [h3]⟩
            · rintro ⟨q, rfl, rfl⟩; exact ⟨_, rfl, by rw [h3]⟩
  · by_cases k2 : c.kind = "stdout"
    · have k3 : ("stdout" : String) ≠ "otlp" := by decide
      have k4 : ("stdout" : String) ≠ "prometheus" := by decide
      cases h1 : c.stdout <;> cases h2 : c.adapter <;> simp [k2, a2, a3, a4, eq_comm]
    · by_cases k3 : c.kind = "otlp"
      · have k4 : ("otlp" : String) ≠ "prometheus" := by decide
        have k5 : ("otlp" : String) ≠ "stdout" := by decide
        cases h1 : c.otlp with
        | none => simp [k3]
        | some y =>
          obtain ⟨n, t⟩ := y
          cases h2 : c.adapter with
          | none => simp [k3]
          | some a =>
            simp only [k3, k4, k5, a2, a3, a4, or_true, if_true, if_false, Bool.and_self, Bool.not_true, Bool.false_eq_true, false_and,
              exists_false, false_or, true_and, Option.some.injEq, Prod.mk.injEq, Option.isSome_some, and_true]
            constructor
            · rintro ⟨x, rfl, rfl⟩; exact ⟨n, t, ⟨rfl, rfl⟩, rfl⟩
            · rintro ⟨n', t', ⟨rfl, rfl⟩, rfl⟩; exact ⟨_, rfl, rfl⟩
      · simp [k1, k2, k3]

/-- What every exporter has, whatever its sink. -/
theorem parts {e : Env} {c : Config} {x : Exporter} (h : newExporter e c = some x) :
    x.tracer = decide (c.kind ≠ "prometheus") ∧ x.custom = labelsOf e c ∧ c.adapter = some x.adapter ∧ x.simple = simpleGroups ∧
    x.service = bs "cmonitor-" ++ e.cluster.getD (bs "noclusteridset") ∧ x.instance' = e.host.getD (bs "unknown") := by
  unfold newExporter at h
  by_cases k1 : c.kind = "prometheus"
  · simp only [k1, if_true] at h
    cases h1 : c.prom with
    | none => simp [h1] at h
    | some p =>
      simp only [h1] at h
      cases h0 : e.promOk with
      | false => simp [h0] at h
      | true =>
        cases h2 : c.adapter with
        | none => simp [h0, h2] at h
        | some a =>
          simp only [h0, h2, Bool.not_true, Bool.false_eq_true, if_false] at h
          cases h3 : p.cleanUp with
          | none =>
            simp only [h3, Option.some.injEq] at h
            subst h; simp [k1]
          | some y =>
            obtain ⟨en, n⟩ := y
            cases en with
            | false =>
              simp only [h3, Bool.false_eq_true, if_false, Option.some.injEq] at h
              subst h; simp [k1]
            | true =>
              simp only [h3, if_true] at h
              obtain ⟨r, -, rfl⟩ := Option.map_eq_some_iff.1 h
              simp [k1]
  · simp only [k1, if_false] at h
    have hgo : ∀ s : Sink, (if !newExporters e c then none
        else match c.adapter with
          | none => none
          | some a => if !e.startOk then none else
            some (⟨s, true, labelsOf e c, bs "cmonitor-" ++ e.cluster.getD (bs "noclusteridset"), e.host.getD (bs "unknown"), a, simpleGroups⟩ : Exporter)) = some x →
        x.tracer = decide (c.kind ≠ "prometheus") ∧ x.custom = labelsOf e c ∧ c.adapter = some x.adapter ∧ x.simple = simpleGroups ∧
          x.service = bs "cmonitor-" ++ e.cluster.getD (bs "noclusteridset") ∧ x.instance' = e.host.getD (bs "unknown") := by
      intro s hs
      cases h0 : newExporters e c <;> cases h2 : c.adapter <;> cases h3 : e.startOk <;> simp [h0, h2, h3] at hs
      subst hs
      simp [k1]
    by_cases k2 : c.kind = "stdout"
    · rw [if_pos k2] at h
      cases h1 : c.stdout with
      | none => simp [h1] at h
      | some n => simp only [h1] at h; exact hgo _ h
    · rw [if_neg k2] at h
      by_cases k3 : c.kind = "otlp"
      · rw [if_pos k3] at h
        cases h1 : c.otlp with
        | none => simp [h1] at h
        | some y => simp only [h1] at h; exact hgo _ h
      · simp [k3] at h

theorem addCommon_eq (custom : AMap String Bytes) (l acc : List (String × Bytes)) :
    addCommon custom l acc = acc ++ l.filter (fun p => (AMap.get custom p.1).isNone) := by
  induction l generalizing acc with
  | nil => simp [addCommon]
  | cons p r ih =>
    rw [addCommon, ih]
    by_cases h : (AMap.get custom p.1).isNone = true
    · simp [h]
    · simp [h]

/-- C127: the labels added to everything are the configured ones and, unless they are served to Prometheus, the job and the host, where
the configuration does not say otherwise; no label twice. -/
theorem labels_exact {e : Env} {c : Config} (hw : AMap.WF c.custom) (ho : Walks e c) {x : Exporter} (h : newExporter e c = some x) :
    (x.custom.map (·.1)).Nodup ∧
    ∀ k v, (k, v) ∈ x.custom ↔
      AMap.get c.custom k = some v ∨
      (c.kind ≠ "prometheus" ∧ AMap.get c.custom k = none ∧
        ((k = "job" ∧ v = bs "cmonitor") ∨ (k = "instance" ∧ v = match e.host with | some n => n | none => bs "unknown"))) := by
  rw [(parts h).2.1]
  have hnd : (e.order.map (·.1)).Nodup := (ho.map _).nodup_iff.2 hw
  have hmem : ∀ k v, (k, v) ∈ e.order ↔ AMap.get c.custom k = some v := by
    intro k v
    rw [ho.mem_iff]
    constructor
    · exact AMap.get_of_mem hw
    · exact AMap.mem_of_get
  have hh : (match e.host with | some n => n | none => bs "unknown") = e.host.getD (bs "unknown") := by cases e.host <;> rfl
  rw [hh]
  unfold labelsOf
  by_cases k1 : c.kind = "prometheus"
  · simp [k1, hnd, hmem]
  · rw [if_pos k1, addCommon_eq]
    constructor
    · rw [List.map_append, List.nodup_append]
      refine ⟨hnd, ?_, ?_⟩
      · have : ((commonLabels e).map (·.1)).Nodup := by simp [commonLabels]
        exact this.sublist (List.filter_sublist.map _)
      · intro a ha b hb hab
        subst hab
        obtain ⟨⟨k, v⟩, hkv, rfl⟩ := List.mem_map.1 ha
        obtain ⟨⟨k', v'⟩, hkv', hk⟩ := List.mem_map.1 hb
        have h1 := (hmem _ _).1 hkv
        have h2 := (List.mem_filter.1 hkv').2
        simp only at hk
        subst hk
        simp [h1] at h2
    · intro k v
      rw [List.mem_append, List.mem_filter, hmem]
      simp only [commonLabels, List.mem_cons, Prod.mk.injEq, List.not_mem_nil, or_false, Option.isNone_iff_eq_none, ne_eq, k1, not_false_iff,
        true_and]
      constructor
      · rintro (h | ⟨h1, h2⟩)
        · exact Or.inl h
        · exact Or.inr ⟨h2, h1⟩
      · rintro (h | ⟨h1, h2⟩)
        · exact Or.inl h
        · exact Or.inr ⟨h2, h1⟩

/-- C127: spans can be sent by every exporter but that for Prometheus. -/
theorem tracer_iff {e : Env} {c : Config} {x : Exporter} (h : newExporter e c = some x) : x.tracer = true ↔ c.kind ≠ "prometheus" := by
  rw [(parts h).1]; simp

/-- C127: the adapters are set up as the section of the adapter says, and the groups without a network request go to the second one. -/
theorem adapters_exact {e : Env} {c : Config} {x : Exporter} (h : newExporter e c = some x) :
    c.adapter = some x.adapter ∧
    ∀ g, g ∈ x.simple ↔ g = "tcp_rtt_metric_group" ∨ g = "tcp_retransmit_metric_group" ∨ g = "tcp_drop_metric_group" ∨
      g = "tcp_connect_metric_group" ∨ g = "k8s_workload_metric_group" := by
  refine ⟨(parts h).2.2.1, fun g => ?_⟩
  rw [(parts h).2.2.2.1]
  simp [simpleGroups]

/-- C127: agents of different clusters, and of different hosts, report as different services and instances. -/
theorem resources_apart {e f : Env} {c d : Config} {x y : Exporter} (hx : newExporter e c = some x) (hy : newExporter f d = some y)
    {a b : Bytes} :
    (e.cluster = some a → f.cluster = some b → (x.service = y.service ↔ a = b)) ∧
    (e.host = some a → f.host = some b → (x.instance' = y.instance' ↔ a = b)) := by
  obtain ⟨-, -, -, -, s1, i1⟩ := parts hx
  obtain ⟨-, -, -, -, s2, i2⟩ := parts hy
  refine ⟨fun h1 h2 => ?_, fun h1 h2 => ?_⟩
  · rw [s1, s2, h1, h2]; simp
  · rw [i1, i2, h1, h2]; simp

/-- C127: every way in which the start fails: it panics, no exporter without a sink is handed on. -/
theorem panics_iff (e : Env) (c : Config) (hp : PeriodOk c) :
    newExporter e c = none ↔
      (c.kind ∉ ["prometheus", "stdout", "otlp"]) ∨ c.adapter = none ∨
      (c.kind = "prometheus" ∧ (c.prom = none ∨ e.promOk = false)) ∨
      (c.kind = "stdout" ∧ c.stdout = none) ∨ (c.kind = "otlp" ∧ c.otlp = none) ∨
      (c.kind ≠ "prometheus" ∧ (e.metricOk = false ∨ e.traceOk = false ∨ e.startOk = false)) := by
  have hreset : ∀ n, 0 ≤ n → n * hour < 2 ^ 63 → resetSchedule n ≠ none := by
    intro n h0 h1
    unfold resetSchedule
    by_cases h : n = 0
    · simp [h]
    · have : ¬ hours n ≤ 0 := by
        rw [hours_exact h0 h1]; unfold hour; omega
      simp [h, this]
  unfold newExporter newExporters
  by_cases k1 : c.kind = "prometheus"
  · cases h1 : c.prom with
    | none => simp [k1]
    | some p =>
      cases h0 : e.promOk with
      | false => simp [k1]
      | true =>
        cases h2 : c.adapter with
        | none => simp [k1]
        | some a =>
          cases h3 : p.cleanUp with
          | none => simp [k1, h3]
          | some y =>
            obtain ⟨en, n⟩ := y
            cases en with
            | false => simp [k1, h3]
            | true =>
              obtain ⟨b0, b1⟩ := hp p n h1 h3
              simp [k1, h3, hreset n b0 b1]
  · by_cases k2 : c.kind = "stdout"
    · cases h1 : c.stdout <;> cases h2 : c.adapter <;> cases h3 : e.metricOk <;> cases h4 : e.traceOk <;> cases h5 : e.startOk <;>
        simp [k2]
    · by_cases k3 : c.kind = "otlp"
      · cases h1 : c.otlp <;> cases h2 : c.adapter <;> cases h3 : e.metricOk <;> cases h4 : e.traceOk <;> cases h5 : e.startOk <;>
          simp [k3]
      · simp [k1, k2, k3]

/-- C127: a period of 0 hours disables the restarts, as the configuration says. -/
theorem zero_disables {e : Env} {c : Config} {p : PromCfg} {en : Bool} {x : Exporter} (hk : c.kind = "prometheus") (hp : c.prom = some p)
    (hc : p.cleanUp = some (en, 0)) (h : newExporter e c = some x) : x.sink = .server p.port p.withMemory none := by
  unfold newExporter at h
  cases h0 : e.promOk <;> cases h2 : c.adapter <;> cases en <;> simp [hk, hp, h0, h2, hc, resetSchedule] at h <;> subst h <;> rfl

/-- Finding: a negative period of up to 292 years, or one above 292 years that wraps to a negative one, does not disable the restarts but
panics at the start. -/
theorem bad_period_panics {e : Env} {c : Config} {p : PromCfg} {n : Int} (hk : c.kind = "prometheus") (hp : c.prom = some p)
    (hc : p.cleanUp = some (true, n)) (hn : (n < 0 ∧ -2 ^ 63 ≤ n * hour) ∨ (2 ^ 63 ≤ n * hour ∧ n * hour < 2 ^ 64)) :
    newExporter e c = none := by
  have hr : resetSchedule n = none := by
    unfold resetSchedule hours
    unfold hour at hn ⊢
    have h1 : n ≠ 0 := by omega
    have h2 : (n * 3600000000000 + 2 ^ 63) % 2 ^ 64 - 2 ^ 63 ≤ 0 := by
      rcases hn with ⟨a, b⟩ | ⟨a, b⟩
      · rw [Int.emod_eq_of_lt (by omega) (by omega)]; omega
      · have : n * 3600000000000 + 2 ^ 63 = (n * 3600000000000 - 2 ^ 63) + 2 ^ 64 := by omega
        rw [this, Int.add_emod_right, Int.emod_eq_of_lt (by omega) (by omega)]; omega
    rw [if_pos h1, if_pos h2]
  unfold newExporter
  cases e.promOk <;> cases c.adapter <;> simp [hk, hp, hc, hr]

/-- C127: the exporter for Prometheus tells the library nothing of a trace, the others a span with its attributes. -/
theorem spans_sent {e : Env} {c : Config} {x : Exporter} (h : newExporter e c = some x) (r : Otel.Adapted) (hr : r.type = .trace)
    (st : Otel.St) :
    Otel.exportOne (otelCfg c x) st r = some (st, if c.kind = "prometheus" then [] else [.span r.attrs]) := by
  have ht := (parts h).1
  by_cases k : c.kind = "prometheus"
  · simp [Otel.exportOne, hr, otelCfg, ht, k]
  · simp [Otel.exportOne, hr, otelCfg, ht, k]

/-! ### Cases -/

def env0 : Env := ⟨some (bs "node-1"), some (bs "c1"), true, true, true, true, [("zone", bs "a"), ("job", bs "mine")]⟩
def cfg0 : Config :=
  { kind := "otlp", otlp := some (15, "10.10.10.10:8080"), custom := [("job", bs "mine"), ("zone", bs "a")], adapter := some ⟨false, true, true, false⟩ }
example : Able env0 ∧ PeriodOk cfg0 ∧ AMap.WF cfg0.custom ∧ Walks env0 cfg0 := by
  refine ⟨⟨rfl, rfl, rfl, rfl⟩, fun p n h => by simp [cfg0] at h, by unfold AMap.WF; decide, ?_⟩
  exact List.Perm.swap _ _ _
/-- The configured job stays, the host is added. -/
example : (newExporter env0 cfg0).map (fun x => (x.sink, x.tracer, x.custom)) =
    some (.otlp "10.10.10.10:8080" 15, true, [("zone", bs "a"), ("job", bs "mine"), ("instance", bs "node-1")]) := by decide +kernel
/-- Restarts twice a day, and a period that panics. -/
def prom0 (n : Int) : Config := { cfg0 with kind := "prometheus", prom := some ⟨":9500", false, some (true, n)⟩ }
example : (newExporter env0 (prom0 12)).map (·.sink) = some (.server ":9500" false (some 43200000000000)) := by decide +kernel
example : PeriodOk (prom0 12) := by
  intro p n h1 h2
  simp [prom0] at h1
  subst h1
  simp at h2
  subst h2
  decide
example : newExporter env0 (prom0 (-1)) = none := bad_period_panics rfl rfl rfl (by decide)
example : newExporter env0 (prom0 2562048) = none := bad_period_panics rfl rfl rfl (by decide)

end Kindling.Export.OtelStart
