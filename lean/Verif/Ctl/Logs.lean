import Verif.Dec
/-
Which lines the agent logs and where its own metrics go: observability/logger/logger.go, console.go and lumberjack.go,
component/telemetry.go, observability/telemetry.go and config.go, and the tools the components are given
(internal/application/application.go:59-76, 96-147).

Given: zap (a core writes the entries at its level or above; a tee is several cores; `Panic` panics whatever is written),
viper and mapstructure (the decoded configuration is an input), the exporters of OpenTelemetry.
-/
namespace Kindling.Ctl.Logs

/-! ### The sinks -/

/-- Levels of zap, ascending. -/
inductive Level
  | debug
  | info
  | warn
  | error
  | dpanic
  | panic
deriving DecidableEq, Repr

/-- zapcore.Level as a number (debug is -1). -/
def Level.num : Level → Int
  | .debug => -1
  | .info => 0
  | .warn => 1
  | .error => 2
  | .dpanic => 3
  | .panic => 4

/-- lumberjack.Logger as far as `ToString` prints it (lumberjack.go:34-36). -/
structure Rotation where
  filename : String
  maxSize : Int
  maxBackups : Int
  maxAge : Int
deriving DecidableEq, Repr

/-- logger.go:12-17; a section that is missing is the zero value, with a nil rotation. -/
structure Config where
  console : String := ""
  file : String := ""
  selector : List String := []
  rotation : Option Rotation := none

/-- logger.go:69-81. -/
def toLogLevel (s : String) : Level :=
  if s = "debug" then .debug
  else if s = "info" then .info
  else if s = "warn" then .warn
  else if s = "error" then .error
  else .info

/-- A zap.Logger: the level of each core it has. -/
structure Zap where
  console : Option Level
  file : Option (Level × Rotation)
deriving DecidableEq, Repr

/-- logger.go:38-62 with 20-36, console.go:25-27 and lumberjack.go:28-36.  `none` is the nil pointer of `ToString` (evaluated before
the line is logged).  Simplified: the levels are passed on rather than left in package variables (this runs once); the text of the first
line is left out. -/
def initLogger (c : Config) : Option Zap :=
  if c.console ≠ "none" ∧ c.file ≠ "none" then
    match c.rotation with
    | none => none
    | some r => some ⟨some (toLogLevel c.console), some (toLogLevel c.file, r)⟩
  else if c.file ≠ "none" then
    match c.rotation with
    | none => none
    | some r => some ⟨none, some (toLogLevel c.file, r)⟩
  else if c.console ≠ "none" then some ⟨some (toLogLevel c.console), none⟩
  else some ⟨some .dpanic, none⟩

/-- What comes of a call: lines on the console and in the file, and whether it panics. -/
structure Out where
  console : Bool
  file : Bool
  panics : Bool
deriving DecidableEq, Repr

def Out.nothing : Out := ⟨false, false, false⟩

/-- zap's `Logger.Check` and `Write`: the cores whose level is not above that of the entry. -/
def Zap.write (z : Zap) (l : Level) : Out where
  console := z.console.any (fun m => decide (m.num ≤ l.num))
  file := z.file.any (fun m => decide (m.1.num ≤ l.num))
  panics := decide (l = .panic)

/-! ### The tools of a component -/

/-- telemetry.go:116-120. -/
structure Logger where
  zap : Zap
  enableDebug : Bool

/-- telemetry.go:25-29, what the constructors of tools read. -/
structure Manager where
  zap : Zap
  selector : List String
deriving DecidableEq

/-- The loop of `SelectorOption` (telemetry.go:92-96). -/
def selected (name : String) : List String → Bool
  | [] => false
  | s :: r => if s = name then true else selected name r

/-- telemetry.go:88-98 with `WithDebug` (184-188). -/
def selectorOption (m : Manager) (name : String) : Bool :=
  if m.selector.length = 0 then true else selected name m.selector

/-- telemetry.go:80-86, 100-114. -/
def getTools (m : Manager) (name : String) : Logger := ⟨m.zap, selectorOption m name⟩

/-- telemetry.go:74-78. -/
def globalTools (m : Manager) : Logger := ⟨m.zap, true⟩

/-- telemetry.go:42-53: the selector is kept, the logger is made. -/
def construct (c : Config) : Option Manager := (initLogger c).map (fun z => ⟨z, c.selector⟩)

/-- How a component logs (telemetry.go:131-181): `Debug` and `Debugf`, `Info`, `Warn`, `Error`, `Panic` and their formatting forms, and
`Check` followed by `Write` of what it returns. -/
inductive Call
  | debug
  | info
  | warn
  | error
  | panic
  | check (l : Level)

def Logger.call (t : Logger) : Call → Out
  | .debug => if t.enableDebug then t.zap.write .debug else .nothing
  | .info => t.zap.write .info
  | .warn => t.zap.write .warn
  | .error => t.zap.write .error
  | .panic => t.zap.write .panic
  | .check l => if t.enableDebug then t.zap.write l else .nothing

/-- The names under which the components get their tools (application.go:113-147). -/
def components : List String :=
  ["otelexporter", "cameraexporter", "aggregateprocessor", "k8smetadataprocessor", "networkanalyzer", "tcpmetricanalyzer",
   "tcpconnectanalyzer", "cpuanalyzer", "k8sinfoanalyzer", "cgoreceiver"]

/-! ### Specification: the comments of docker/kindling-collector-config.yml:252-268 -/

/-- The names of the levels of a message, in ascending order. -/
def names : List (String × Level) := [("debug", .debug), ("info", .info), ("warn", .warn), ("error", .error)]

/-- A sink with the configured text takes a message: the level is `none` and takes nothing, or is one of the names and takes messages
of this name and later ones, or anything else, which counts as `info`. -/
inductive Takes : String → Level → Prop
  | named (a b : List (String × Level)) (s : String) (m : Level) (l : Level) (h : names = a ++ (s, m) :: b)
      (hl : l = m ∨ ∃ t, (t, l) ∈ b) : Takes s l
  | other (s : String) (l : Level) (h : s ≠ "none") (hn : ∀ m, (s, m) ∉ names) (hl : l = .info ∨ l = .warn ∨ l = .error) : Takes s l

/-- The call of a component for a message. -/
def callOf : Level → Call
  | .debug => .debug
  | .info => .info
  | .warn => .warn
  | .error => .error
  | _ => .panic

/-- The messages below a panic. -/
def Plain (l : Level) : Prop := ∃ s, (s, l) ∈ names

/-- A message of a component is wanted: debug messages only of selected components, if any are selected. -/
def Wanted (sel : List String) (name : String) (l : Level) : Prop := l = .debug → sel = [] ∨ name ∈ sel

theorem takes_iff (s : String) (l : Level) (hp : Plain l) :
    Takes s l ↔ s ≠ "none" ∧ (toLogLevel s).num ≤ l.num := by
  have hl : l = .debug ∨ l = .info ∨ l = .warn ∨ l = .error := by
    obtain ⟨t, h⟩ := hp
    simp only [names, List.mem_cons, Prod.mk.injEq, List.not_mem_nil, or_false] at h
    rcases h with h | h | h | h <;> simp [h.2]
  constructor
  · intro h
    cases h with
    | named a b s m l h hl2 =>
      rcases a with _ | ⟨x, a⟩
      · simp only [names, List.nil_append, List.cons.injEq, Prod.mk.injEq] at h
        obtain ⟨⟨rfl, rfl⟩, rfl⟩ := h
        rcases hl with rfl | rfl | rfl | rfl <;> decide
      · rcases a with _ | ⟨y, a⟩
        · simp only [names, List.cons_append, List.nil_append, List.cons.injEq, Prod.mk.injEq] at h
          obtain ⟨-, ⟨rfl, rfl⟩, rfl⟩ := h
          rcases hl with rfl | rfl | rfl | rfl <;> simp at hl2 <;> decide
        · rcases a with _ | ⟨z, a⟩
          · simp only [names, List.cons_append, List.nil_append, List.cons.injEq, Prod.mk.injEq] at h
            obtain ⟨-, -, ⟨rfl, rfl⟩, rfl⟩ := h
            rcases hl with rfl | rfl | rfl | rfl <;> simp at hl2 <;> decide
          · rcases a with _ | ⟨w, a⟩
            · simp only [names, List.cons_append, List.nil_append, List.cons.injEq, Prod.mk.injEq] at h
              obtain ⟨-, -, -, ⟨rfl, rfl⟩, rfl⟩ := h
              rcases hl with rfl | rfl | rfl | rfl <;> simp at hl2 <;> decide
            · simp [names] at h
    | other s l h hn hl2 =>
      refine ⟨h, ?_⟩
      have h1 : s ≠ "debug" := fun e => hn .debug (by subst e; decide)
      have h2 : s ≠ "info" := fun e => hn .info (by subst e; decide)
      have h3 : s ≠ "warn" := fun e => hn .warn (by subst e; decide)
      have h4 : s ≠ "error" := fun e => hn .error (by subst e; decide)
      simp only [toLogLevel, h1, h2, h3, h4, if_false]
      rcases hl2 with rfl | rfl | rfl <;> decide
  · rintro ⟨hs, h⟩
    by_cases h1 : s = "debug"
    · subst h1
      refine .named [] [("info", .info), ("warn", .warn), ("error", .error)] _ .debug _ rfl ?_
      rcases hl with rfl | rfl | rfl | rfl <;> simp
    by_cases h2 : s = "info"
    · subst h2
      refine .named [("debug", .debug)] [("warn", .warn), ("error", .error)] _ .info _ rfl ?_
      rcases hl with rfl | rfl | rfl | rfl <;> first | (exfalso; revert h; decide) | simp
    by_cases h3 : s = "warn"
    · subst h3
      refine .named [("debug", .debug), ("info", .info)] [("error", .error)] _ .warn _ rfl ?_
      rcases hl with rfl | rfl | rfl | rfl <;> first | (exfalso; revert h; decide) | simp
    by_cases h4 : s = "error"
    · subst h4
      refine .named [("debug", .debug), ("info", .info), ("warn", .warn)] [] _ .error _ rfl ?_
      rcases hl with rfl | rfl | rfl | rfl <;> first | (exfalso; revert h; decide) | simp
    · refine .other _ _ hs ?_ ?_
      · intro m hm
        simp only [names, List.mem_cons, Prod.mk.injEq, List.not_mem_nil, or_false] at hm
        simp [h1, h2, h3, h4] at hm
      · simp only [toLogLevel, h1, h2, h3, h4, if_false] at h
        rcases hl with rfl | rfl | rfl | rfl <;> first | (exfalso; revert h; decide) | simp

theorem selected_iff (name : String) (l : List String) : selected name l = true ↔ name ∈ l := by
  induction l with
  | nil => simp [selected]
  | cons a r ih =>
    rw [selected]
    by_cases h : a = name
    · simp [h]
    · rw [if_neg h, ih, List.mem_cons]
      constructor
      · exact Or.inr
      · rintro (e | e)
        · exact absurd e.symm h
        · exact e

theorem option_iff (m : Manager) (name : String) : selectorOption m name = true ↔ m.selector = [] ∨ name ∈ m.selector := by
  unfold selectorOption
  by_cases h : m.selector.length = 0
  · rw [if_pos h]; simp [List.length_eq_zero_iff.1 h]
  · rw [if_neg h, selected_iff]
    constructor
    · exact Or.inr
    · rintro (e | e)
      · simp [e] at h
      · exact e

theorem sinks {c : Config} {m : Manager} (h : construct c = some m) :
    m.selector = c.selector ∧
    (∀ l : Level, Plain l → (m.zap.console.any (fun x => decide (x.num ≤ l.num)) = true ↔ c.console ≠ "none" ∧ (toLogLevel c.console).num ≤ l.num)) ∧
    (∀ l : Level, m.zap.file.any (fun x => decide (x.1.num ≤ l.num)) = true ↔ c.file ≠ "none" ∧ (toLogLevel c.file).num ≤ l.num) := by
  have hp : ∀ l, Plain l → ¬ Level.dpanic.num ≤ l.num := by
    rintro l ⟨t, h⟩
    simp only [names, List.mem_cons, Prod.mk.injEq, List.not_mem_nil, or_false] at h
    rcases h with h | h | h | h <;> rw [h.2] <;> decide
  unfold construct initLogger at h
  by_cases h1 : c.console = "none" <;> by_cases h2 : c.file = "none" <;> cases h3 : c.rotation <;>
    simp only [h1, h2, h3, ne_eq, not_true, not_false_iff, and_true, and_self, and_false, if_true, if_false,
      Option.map_some, Option.map_none, Option.some.injEq, reduceCtorEq] at h
  all_goals
    subst h
    refine ⟨rfl, fun l hl => ?_, fun l => ?_⟩ <;> simp [h1, h2]
    try exact Int.not_le.1 (hp l hl)

/-! ### Theorems -/

/-- C126.  A message below a panic, of any component: it is on the console, and in the file, exactly if the level configured for this
sink takes it and, for a debug message, the component is selected or none is. -/
theorem line_written_iff {c : Config} {m : Manager} (h : construct c = some m) (name : String) {l : Level} (hl : Plain l) :
    (((getTools m name).call (callOf l)).console = true ↔ Takes c.console l ∧ Wanted c.selector name l) ∧
    (((getTools m name).call (callOf l)).file = true ↔ Takes c.file l ∧ Wanted c.selector name l) ∧
    ((getTools m name).call (callOf l)).panics = false := by
  obtain ⟨hs, hc, hf⟩ := sinks h
  rw [takes_iff _ _ hl, takes_iff _ _ hl, ← hc l hl, ← hf l]
  have ho := option_iff m name
  rw [hs] at ho
  have hw : ∀ l, l ≠ .debug → Wanted c.selector name l := fun l h e => absurd e h
  have hd : Wanted c.selector name .debug ↔ selectorOption m name = true := by rw [ho]; simp [Wanted]
  obtain ⟨t, ht⟩ := hl
  simp only [names, List.mem_cons, Prod.mk.injEq, List.not_mem_nil, or_false] at ht
  rcases ht with ⟨-, rfl⟩ | ⟨-, rfl⟩ | ⟨-, rfl⟩ | ⟨-, rfl⟩
  · rw [hd]
    cases he : selectorOption m name <;> simp [callOf, Logger.call, getTools, he, Out.nothing, Zap.write]
  all_goals simp [callOf, Logger.call, getTools, Zap.write, Wanted]

/-- C126: the agent starts to log unless a file is wanted and the section that describes it is missing; then it panics. -/
theorem starts_iff (c : Config) : construct c = none ↔ c.file ≠ "none" ∧ c.rotation = none := by
  unfold construct initLogger
  by_cases h1 : c.console = "none" <;> by_cases h2 : c.file = "none" <;> cases h3 : c.rotation <;> simp [h1, h2]

/-- Finding: without the section of the logger the agent does not take a default (the message of telemetry.go:48-50 says it does) but
panics at its start: an empty level counts as `info`, for the file too. -/
theorem missing_section_panics (sel : List String) : construct { selector := sel } = none := by
  rw [starts_iff]; simp

/-- C126: in the file the rotation is the configured one. -/
theorem rotation_kept {c : Config} {m : Manager} (h : construct c = some m) {x : Level × Rotation} (hx : m.zap.file = some x) :
    c.rotation = some x.2 := by
  unfold construct initLogger at h
  by_cases h1 : c.console = "none" <;> by_cases h2 : c.file = "none" <;> cases h3 : c.rotation <;>
    simp only [h1, h2, h3, ne_eq, not_true, not_false_iff, and_true, and_self, and_false, if_true, if_false,
      Option.map_some, Option.map_none, Option.some.injEq, reduceCtorEq] at h
  all_goals
    subst h
    simp only [Option.some.injEq, reduceCtorEq] at hx
    try (subst hx; rfl)

/-- C126: a panic of a component panics whatever the levels are, and is written to every sink there is; with both levels `none` to
the console. -/
theorem panic_always {c : Config} {m : Manager} (h : construct c = some m) (name : String) :
    ((getTools m name).call .panic).panics = true ∧
    (((getTools m name).call .panic).console = true ↔ c.console ≠ "none" ∨ c.file = "none") ∧
    (((getTools m name).call .panic).file = true ↔ c.file ≠ "none") := by
  have hb : ∀ s, (toLogLevel s).num ≤ Level.panic.num := by
    intro s; unfold toLogLevel; repeat' split
    all_goals decide
  have hd : Level.dpanic.num ≤ Level.panic.num := by decide
  refine ⟨by simp [Logger.call, Zap.write], ?_⟩
  unfold construct initLogger at h
  by_cases h1 : c.console = "none" <;> by_cases h2 : c.file = "none" <;> cases h3 : c.rotation <;>
    simp only [h1, h2, h3, ne_eq, not_true, not_false_iff, and_true, and_self, and_false, if_true, if_false,
      Option.map_some, Option.map_none, Option.some.injEq, reduceCtorEq] at h
  all_goals
    subst h
    simp [Logger.call, Zap.write, getTools, h1, h2, hb, hd]

/-- Finding: with both levels `none` errors are written nowhere. -/
theorem both_none_silent {c : Config} {m : Manager} (h : construct c = some m) (h1 : c.console = "none") (h2 : c.file = "none")
    (name : String) {l : Level} (hl : Plain l) : (getTools m name).call (callOf l) = .nothing := by
  obtain ⟨a, b, d⟩ := line_written_iff h name hl
  rw [takes_iff _ _ hl, h1] at a
  rw [takes_iff _ _ hl, h2] at b
  simp only [ne_eq, not_true, false_and, iff_false, Bool.not_eq_true] at a b
  generalize (getTools m name).call (callOf l) = o at a b d
  cases o
  simp only at a b d
  simp [Out.nothing, a, b, d]

/-- C126: the components of the agent have different names, so that one can be selected and the others are not. -/
theorem selects_one {c : Config} {m : Manager} (h : construct c = some m) {a b : String} (hs : c.selector = [a])
    (ht : Takes c.console .debug) :
    components.Nodup ∧ (((getTools m b).call .debug).console = true ↔ b = a) := by
  refine ⟨by decide, ?_⟩
  have := (line_written_iff h b (l := .debug) ⟨"debug", by decide⟩).1
  simp only [callOf] at this
  rw [this]
  simp [ht, Wanted, hs]

/-- C126: with a selector that names none of the components (a name with its section, say) no component logs debug messages; nothing
checks the names. -/
theorem wrong_name_silences {c : Config} {m : Manager} (h : construct c = some m) (hs : c.selector ≠ []) (hn : ∀ s ∈ c.selector, s ∉ components)
    {name : String} (hc : name ∈ components) : (getTools m name).call .debug = .nothing := by
  have ho : selectorOption m name = false := by
    cases he : selectorOption m name with
    | false => rfl
    | true =>
      rw [option_iff, (sinks h).1] at he
      rcases he with e | e
      · exact absurd e hs
      · exact absurd hc (hn _ e)
  simp [Logger.call, getTools, ho]

/-- Finding: a message behind `Check` is lost for a component that is not selected, whatever its level; the same message by a direct call
is written if the sinks take it.  Only the analyzer that does nothing checks for another level than debug. -/
theorem check_hides {c : Config} {m : Manager} (h : construct c = some m) (name : String) (hs : c.selector ≠ [])
    (hn : name ∉ c.selector) (l : Level) :
    (getTools m name).call (.check l) = .nothing ∧
    (l ≠ .debug → Plain l → (((getTools m name).call (callOf l)).console = true ↔ Takes c.console l)) := by
  have ho : selectorOption m name = false := by
    cases he : selectorOption m name with
    | false => rfl
    | true =>
      rw [option_iff, (sinks h).1] at he
      rcases he with e | e
      · exact absurd e hs
      · exact absurd e hn
  refine ⟨by simp [Logger.call, getTools, ho], fun hd hl => ?_⟩
  rw [(line_written_iff h name hl).1]
  constructor
  · exact fun x => x.1
  · exact fun x => ⟨x, fun e => absurd e hd⟩

/-- C126: for debug messages the two ways of logging agree. -/
theorem check_debug (t : Logger) : t.call (.check .debug) = t.call .debug := rfl

/-- C126: the tools of the agent itself (starting and stopping analyzers, the controller) do not ask the selector. -/
theorem global_ignores_selector {c : Config} {m : Manager} (h : construct c = some m) {l : Level} (hl : Plain l) :
    (((globalTools m).call (callOf l)).console = true ↔ Takes c.console l) ∧
    (((globalTools m).call (callOf l)).file = true ↔ Takes c.file l) := by
  obtain ⟨hs, hc, hf⟩ := sinks h
  rw [takes_iff _ _ hl, takes_iff _ _ hl, ← hc l hl, ← hf l]
  obtain ⟨t, ht⟩ := hl
  simp only [names, List.mem_cons, Prod.mk.injEq, List.not_mem_nil, or_false] at ht
  rcases ht with ⟨-, rfl⟩ | ⟨-, rfl⟩ | ⟨-, rfl⟩ | ⟨-, rfl⟩ <;> simp [callOf, Logger.call, globalTools, Zap.write]

/-! ### The metrics of the agent itself -/

/-- observability/config.go:5-24: the sections that are there. -/
structure SelfConfig where
  kind : String
  prom : Option (String × List String)
  otlp : Option (Int × String)
  stdout : Option Int

/-- What the environment answers: `CLUSTER_ID` and the exporters and servers of the library. -/
structure Env where
  cluster : Option String
  host : Option String
  promOk : Bool
  exporterOk : Bool
  controllerOk : Bool

/-- The meter provider of the agent.  A pull provider has a port and the extra metrics registered, a push one an endpoint (for otlp) and a
period. -/
inductive Provider
  | noop
  | pull (port : String) (resource : Nat)
  | push (otlp : Option String) (period : Int)
deriving DecidableEq, Repr

inductive Made
  | panic
  | error
  | ok (p : Provider)
deriving DecidableEq, Repr

/-- `RegisterExtraMetrics` (telemetry.go:62-69) with the `Once` of 71-93: how often the metrics of the process are registered. -/
def extra : List String → Nat → Nat
  | [], n => n
  | s :: r, n => if s = "resource" then extra r (if n = 0 then 1 else n) else extra r n

/-- observability/telemetry.go:95-205.  A nil section is dereferenced.  The server of Prometheus starts in a goroutine of its own. -/
def initTelemetry (e : Env) (c : SelfConfig) : Made :=
  if c.kind = "prometheus" then
    if e.promOk = false then .error
    else match c.prom with
      | none => .panic
      | some (port, ms) => .ok (.pull port (extra ms 0))
  else if c.kind = "stdout" then
    match c.stdout with
    | none => .panic
    | some period => if e.exporterOk = false then .error else if e.controllerOk = false then .error else .ok (.push none period)
  else if c.kind = "otlp" then
    match c.otlp with
    | none => .panic
    | some (period, endpoint) => if e.exporterOk = false then .error else if e.controllerOk = false then .error else .ok (.push (some endpoint) period)
  else .error

/-- component/telemetry.go:55-72: with an error the provider stays the one that does nothing (30-36); `none` is a panic. -/
def initProvider (e : Env) (c : SelfConfig) : Option Provider :=
  match initTelemetry e c with
  | .panic => none
  | .error => some .noop
  | .ok p => some p

/-- The name of the service and of the instance (telemetry.go:97-115). -/
def resource (e : Env) : String × String := ("kindling-" ++ e.cluster.getD "noclusteridset", e.host.getD "unknown")

/-- Spec: what the section of the kind asks for, if the library can do it. -/
inductive Asks (c : SelfConfig) : Provider → Prop
  | prom (port : String) (ms : List String) (h : c.kind = "prometheus") (hs : c.prom = some (port, ms)) :
      Asks c (.pull port (if "resource" ∈ ms then 1 else 0))
  | stdout (period : Int) (h : c.kind = "stdout") (hs : c.stdout = some period) : Asks c (.push none period)
  | otlp (period : Int) (endpoint : String) (h : c.kind = "otlp") (hs : c.otlp = some (period, endpoint)) : Asks c (.push (some endpoint) period)

theorem extra_eq (l : List String) (n : Nat) : extra l n = if "resource" ∈ l ∧ n = 0 then 1 else n := by
  induction l generalizing n with
  | nil => simp [extra]
  | cons a r ih =>
    rw [extra]
    by_cases h : a = "resource"
    · subst h
      rw [if_pos rfl, ih]
      by_cases hn : n = 0 <;> simp [hn]
    · rw [if_neg h, ih]
      simp [List.mem_cons, Ne.symm h]

/-- C126: where the library can do it, the metrics of the agent go where the configured kind and its section say; a kind that is not
one of the three leaves the agent without them, and a kind without its section is a panic. -/
theorem provider_iff (e : Env) (c : SelfConfig) (h1 : e.promOk = true) (h2 : e.exporterOk = true) (h3 : e.controllerOk = true) :
    (∀ p, p ≠ .noop → (initProvider e c = some p ↔ Asks c p)) ∧
    (initProvider e c = some .noop ↔ c.kind ∉ ["prometheus", "stdout", "otlp"]) ∧
    (initProvider e c = none ↔
      (c.kind = "prometheus" ∧ c.prom = none) ∨ (c.kind = "stdout" ∧ c.stdout = none) ∨ (c.kind = "otlp" ∧ c.otlp = none)) := by
  have ha : ∀ p, p ≠ .noop → (Asks c p ↔
      (∃ port ms, c.kind = "prometheus" ∧ c.prom = some (port, ms) ∧ p = .pull port (if "resource" ∈ ms then 1 else 0)) ∨
      (∃ period, c.kind = "stdout" ∧ c.stdout = some period ∧ p = .push none period) ∨
      (∃ period endpoint, c.kind = "otlp" ∧ c.otlp = some (period, endpoint) ∧ p = .push (some endpoint) period)) := by
    intro p _
    constructor
    · rintro (⟨port, ms, h, hs⟩ | ⟨period, h, hs⟩ | ⟨period, endpoint, h, hs⟩)
      · exact Or.inl ⟨port, ms, h, hs, rfl⟩
      · exact Or.inr (Or.inl ⟨period, h, hs, rfl⟩)
      · exact Or.inr (Or.inr ⟨period, endpoint, h, hs, rfl⟩)
    · rintro (⟨port, ms, h, hs, rfl⟩ | ⟨period, h, hs, rfl⟩ | ⟨period, endpoint, h, hs, rfl⟩)
      · exact .prom port ms h hs
      · exact .stdout period h hs
      · exact .otlp period endpoint h hs
  obtain ⟨kind, prom, otlp, stdout⟩ := c
  simp only at ha ⊢
  by_cases k1 : kind = "prometheus"
  · subst k1
    cases prom with
    | none => simp +contextual [initProvider, initTelemetry, h1, ha]
    | some x =>
      obtain ⟨port, ms⟩ := x
      refine ⟨fun p hp => ?_, by simp [initProvider, initTelemetry, h1], by simp [initProvider, initTelemetry, h1]⟩
      rw [ha p hp]
      simp only [initProvider, initTelemetry, h1, extra_eq, if_true, reduceCtorEq, if_false, and_true, Option.some.injEq]
      constructor
      · exact fun h => Or.inl ⟨port, ms, trivial, rfl, h.symm⟩
      · rintro (⟨_, _, _, h, rfl⟩ | ⟨_, h, _⟩ | ⟨_, _, h, _⟩)
        · cases h; rfl
        · exact absurd h (by decide)
        · exact absurd h (by decide)
  by_cases k2 : kind = "stdout"
  · subst k2
    cases stdout with
    | none => simp +contextual [initProvider, initTelemetry, ha]
    | some period => simp +contextual [initProvider, initTelemetry, h2, h3, ha, eq_comm]
  by_cases k3 : kind = "otlp"
  · subst k3
    cases otlp with
    | none => simp +contextual [initProvider, initTelemetry, ha]
    | some x =>
      obtain ⟨period, endpoint⟩ := x
      refine ⟨fun p hp => ?_, by simp [initProvider, initTelemetry, h2, h3], by simp [initProvider, initTelemetry, h2, h3]⟩
      rw [ha p hp]
      simp only [initProvider, initTelemetry, h2, h3, k1, k2, if_true, reduceCtorEq, if_false, Option.some.injEq]
      constructor
      · exact fun h => Or.inr (Or.inr ⟨period, endpoint, trivial, rfl, h.symm⟩)
      · rintro (⟨_, _, h, _⟩ | ⟨_, h, _⟩ | ⟨_, _, _, h, rfl⟩)
        · exact h.elim
        · exact h.elim
        · cases h; rfl
  · simp +contextual [initProvider, initTelemetry, k1, k2, k3, ha, eq_comm]

/-- C126: if the library cannot, the agent runs on without its own metrics (or panicked for a missing section), never with others. -/
theorem provider_only_asked (e : Env) (c : SelfConfig) {p : Provider} (h : initProvider e c = some p) : p = .noop ∨ Asks c p := by
  unfold initProvider initTelemetry at h
  by_cases k1 : c.kind = "prometheus"
  · rw [if_pos k1] at h
    cases ho : e.promOk with
    | false => simp [ho] at h; exact Or.inl h.symm
    | true =>
      cases hp : c.prom with
      | none => simp [hp, ho] at h
      | some x =>
        obtain ⟨port, ms⟩ := x
        simp [hp, ho, extra_eq] at h
        subst h
        exact Or.inr (.prom port ms k1 hp)
  rw [if_neg k1] at h
  by_cases k2 : c.kind = "stdout"
  · rw [if_pos k2] at h
    cases hp : c.stdout with
    | none => simp [hp] at h
    | some x =>
      cases he : e.exporterOk <;> cases hk : e.controllerOk <;> simp [hp, he, hk] at h <;> subst h
      case true.true => exact Or.inr (.stdout x k2 hp)
      all_goals exact Or.inl rfl
  rw [if_neg k2] at h
  by_cases k3 : c.kind = "otlp"
  · rw [if_pos k3] at h
    cases hp : c.otlp with
    | none => simp [hp] at h
    | some x =>
      obtain ⟨period, endpoint⟩ := x
      cases he : e.exporterOk <;> cases hk : e.controllerOk <;> simp [hp, he, hk] at h <;> subst h
      case true.true => exact Or.inr (.otlp period endpoint k3 hp)
      all_goals exact Or.inl rfl
  · rw [if_neg k3] at h
    simp at h
    exact Or.inl h.symm

/-- C126: agents of different clusters report under different names; those without the variable share one. -/
theorem clusters_apart (e f : Env) (a b : String) (ha : e.cluster = some a) (hb : f.cluster = some b) :
    ((resource e).1 = (resource f).1 ↔ a = b) ∧ (∀ g h : Env, g.cluster = none → h.cluster = none → (resource g).1 = (resource h).1) := by
  refine ⟨?_, fun g h hg hh => by simp [resource, hg, hh]⟩
  simp only [resource, ha, hb, Option.getD_some]
  constructor
  · intro h
    have := congrArg String.toList h
    simp only [String.toList_append, List.append_cancel_left_eq] at this
    exact String.toList_inj.1 this
  · exact fun h => by rw [h]

/-! ### Cases -/

def shipped : Config := ⟨"info", "info", [], some ⟨"agent.log", 512, 5, 30⟩⟩

/-- The configuration that is shipped: warnings in both sinks, no debug messages. -/
example : construct shipped = some ⟨⟨some .info, some (.info, ⟨"agent.log", 512, 5, 30⟩)⟩, []⟩ := by decide
example : Takes shipped.console .warn ∧ ¬ Takes shipped.console .debug := by
  rw [takes_iff _ _ ⟨"warn", by decide⟩, takes_iff _ _ ⟨"debug", by decide⟩]; decide

/-- Debug on the console for one component. -/
def one : Config := { shipped with console := "debug", selector := ["cgoreceiver"] }
def oneM : Manager := ⟨⟨some .debug, some (.info, ⟨"agent.log", 512, 5, 30⟩)⟩, ["cgoreceiver"]⟩
example : construct one = some oneM := by decide
example : (getTools oneM "cgoreceiver").call .debug = ⟨true, false, false⟩ ∧ (getTools oneM "cpuanalyzer").call .debug = .nothing := by
  decide
/-- `check_hides`: a warning behind `Check`. -/
example : (getTools oneM "cpuanalyzer").call (.check .warn) = .nothing ∧ (getTools oneM "cpuanalyzer").call .warn = ⟨true, true, false⟩ := by
  decide
example : "cpuanalyzer" ∉ one.selector ∧ one.selector ≠ [] := by decide
/-- `selects_one`. -/
example : ((getTools oneM "cgoreceiver").call .debug).console = true ↔ "cgoreceiver" = "cgoreceiver" :=
  (selects_one (c := one) (by decide) rfl ((takes_iff _ _ ⟨"debug", by decide⟩).2 (by decide))).2
/-- `wrong_name_silences`. -/
example : construct { one with selector := ["receiver.cgoreceiver"] } = some { oneM with selector := ["receiver.cgoreceiver"] } ∧
    ∀ s ∈ ["receiver.cgoreceiver"], s ∉ components := by decide
/-- `both_none_silent`, `panic_always`. -/
def silent : Config := ⟨"none", "none", [], none⟩
example : construct silent = some ⟨⟨some .dpanic, none⟩, []⟩ := by decide
example : (getTools ⟨⟨some .dpanic, none⟩, []⟩ "cgoreceiver").call .panic = ⟨true, false, true⟩ := by decide

/-- The shipped configuration of the metrics, and Prometheus with the metrics of the process listed twice. -/
example : initProvider ⟨none, none, true, true, true⟩ ⟨"stdout", none, none, some 15⟩ = some (.push none 15) := by decide
example : initProvider ⟨none, none, true, true, true⟩ ⟨"prometheus", some (":9501", ["resource", "resource"]), none, some 15⟩ =
    some (.pull ":9501" 1) := by decide

end Kindling.Ctl.Logs
