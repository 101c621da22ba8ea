import Verif.Ctl.Module
/-
The control interface: component/controller/controller.go, http_controller.go and the requests of profile_module.go; the module itself
is `Ctl/Module.lean`.

Outside the model: the JSON decoder (its result is given), `time.ParseDuration` (its result is given), the probe behind
`startAttachAgent`, `stopAttachAgent`, `startDebug`, `stopDebug` (its answer is given), and the HTTP server, which calls the handler of
a path with the body and turns a panic of a handler into a closed connection.
-/
namespace Kindling.Ctl.Api
open Kindling Kindling.Ctl

/-- profile_module.go:72-85: the JSON value of `Duration`. -/
inductive Dur
  /-- a number, cut to an integer (a number outside of 64 bits is outside the model) -/
  | number (n : Int)
  /-- a text, as `time.ParseDuration` reads it: nanoseconds, or an error -/
  | text (ns : Option Int)
  /-- absent, or of another type -/
  | other
deriving DecidableEq, Repr

/-- The options of a request as the JSON decoder returns them (profile_module.go:64-70): `none` if it fails. -/
abbrev RawOptions := Option (Bool × Dur)

/-- profile_module.go:63-86 `UnmarshalJSON`, whose error is ignored at 213: the duration in nanoseconds, and whether a file is to be
watched. -/
def readOptions : RawOptions → Int × Bool
  | none => (0, false)
  | some (w, .number n) => (n, w)
  | some (w, .text (some n)) => (n, w)
  | some (w, .text none) => (0, w)
  | some (w, .other) => (0, w)

/-- profile_module.go:207-221 `GetOptions`, 223-226 `fileSizeWatch`: the timers to start. -/
def getOptions : Option RawOptions → Res (List Int)
  | none => .ok []
  | some raw =>
    let (d, w) := readOptions raw
    if w then .panic else .ok (if d > 0 then [d] else [])

/-- controller.go:27-36. -/
structure Request where
  operation : Bytes
  pid : Nat
  tid : Nat
  options : Option RawOptions

/-- The text of an answer; the texts of the errors of submodules and of the probe are not looked into. -/
inductive Text
  | lit (s : Bytes)
  | errors
deriving DecidableEq, Repr

/-- controller.go:38-41; the codes are 22-27 of profile_module.go. -/
structure Answer where
  code : Nat
  msg : Text
deriving DecidableEq, Repr

/-- What a request does to the probe. -/
inductive Probe
  | startAttach (pid : Nat)
  | stopAttach (pid : Nat)
  | startDebug (pid tid : Nat)
  | stopDebug
deriving DecidableEq, Repr

/-- profile_module.go:122-205 `HandRequest`; `probeOk`: the probe answers without an error text. -/
def handle (subs bad : List Nat) (probeOk : Bool) (s : Module.St) (r : Request) : Res (Module.St × Answer × List Probe) :=
  if r.operation = bs "start" then
    (getOptions r.options).bind fun opts => match Module.start subs opts.length bad s with
      | (s', .refused) => .ok (s', ⟨2, .lit (bs "module is running now")⟩, [])
      | (s', .done true) => .ok (s', ⟨2, .errors⟩, [])
      | (s', .done false) => .ok (s', ⟨1, .lit (bs "start success")⟩, [])
  else if r.operation = bs "stop" then
    (Module.stop subs bad s).bind fun x => match x with
      | (s', .refused) => .ok (s', ⟨3, .lit (bs "module is stopped now")⟩, [])
      | (s', .done true) => .ok (s', ⟨3, .errors⟩, [])
      | (s', .done false) => .ok (s', ⟨1, .lit (bs "stop success")⟩, [])
  else if r.operation = bs "start_attach_agent" then
    .ok (s, if probeOk then ⟨1, .lit (bs "start success")⟩ else ⟨2, .errors⟩, [.startAttach r.pid])
  else if r.operation = bs "stop_attach_agent" then
    .ok (s, if probeOk then ⟨1, .lit (bs "stop success")⟩ else ⟨3, .errors⟩, [.stopAttach r.pid])
  else if r.operation = bs "status" then
    .ok (s, ⟨1, .lit (if s.running then bs "running" else bs "stopped")⟩, [])
  else if r.operation = bs "start_debug" then
    .ok (s, ⟨1, .lit (bs "start debug success")⟩, [.startDebug r.pid r.tid])
  else if r.operation = bs "stop_debug" then
    .ok (s, ⟨1, .lit (bs "stop debug success")⟩, [.stopDebug])
  else .ok (s, ⟨4, .lit (bs "unexpected operation:" ++ r.operation)⟩, [])

/-! ## Set-up -/

/-- controller.go:47-50 with http_controller.go:22-25: the configuration (`enable` is read and never used). -/
structure Config where
  /-- the section `http`: the flag and the port, `none` if absent -/
  http : Option (Bool × Bytes)
  modules : List Bytes

/-- controller.go:52-74 `ConstructConfig` with http_controller.go:46-48 `RegistController`: the paths served.  `HandleFunc` panics on a path
that is already served (net/http). -/
def paths : List Bytes → List Bytes → Res (List Bytes)
  | [], ps => .ok ps
  | m :: r, ps =>
    if m = bs "profile" then
      if bs "/profile" ∈ ps then .panic else paths r (ps ++ [bs "/profile"])
    else paths r ps

/-- controller.go:52-74: `none`: `Controller` stays nil. -/
def construct (c : Config) : Res (Option (List Bytes)) := match c.http with
  | none => .ok none
  | some _ => (paths c.modules []).bind fun ps => .ok (some ps)

/-- controller.go:76-78 `RegistModule` with http_controller.go:40-44, called for "profile" at application.go:147-150: whether the submodules
are registered.  A call on the nil interface panics. -/
def register : Option (List Bytes) → Res Bool
  | none => .panic
  | some ps => .ok (decide (bs "/profile" ∈ ps))

/-- application.go:93-107, 109-156, the part of the controller: the paths served and whether the module has its submodules. -/
def setUp (c : Config) : Res (List Bytes × Bool) :=
  (construct c).bind fun o => (register o).bind fun b => .ok (o.getD [], b)

/-- http_controller.go:46-76: the answer to a body posted to the path of the module: `none` for a body that is not JSON; status 500 or 200. -/
def serve (subs bad : List Nat) (probeOk : Bool) (s : Module.St) : Option Request → Res (Module.St × Nat × Option Answer)
  | none => .ok (s, 500, none)
  | some r => (handle subs bad probeOk s r).bind fun x => .ok (x.1, 200, some x.2.1)

/-! ## C93 -/

/-- The documented operations. -/
def operations : List Bytes := ["start", "stop", "start_attach_agent", "stop_attach_agent", "status", "start_debug", "stop_debug"].map bs

/-- C93: whatever has happened before, the status is answered as it is and stays as it is. -/
theorem status_answer (subs bad : List Nat) (p : Bool) (s : Module.St) (r : Request) (h : r.operation = bs "status") :
    handle subs bad p s r = .ok (s, ⟨1, .lit (if s.running then bs "running" else bs "stopped")⟩, []) := by
  rw [handle, h, if_neg (by decide +kernel), if_neg (by decide +kernel), if_neg (by decide +kernel), if_neg (by decide +kernel), if_pos rfl]

/-- C93: an operation that is not documented is refused with code 4 and has no effect. -/
theorem unknown_operation (subs bad : List Nat) (p : Bool) (s : Module.St) (r : Request) (h : r.operation ∉ operations) :
    handle subs bad p s r = .ok (s, ⟨4, .lit (bs "unexpected operation:" ++ r.operation)⟩, []) := by
  simp only [operations, List.map_cons, List.map_nil, List.mem_cons, List.not_mem_nil, or_false, not_or] at h
  obtain ⟨h1, h2, h3, h4, h5, h6, h7⟩ := h
  rw [handle, if_neg h1, if_neg h2, if_neg h3, if_neg h4, if_neg h5, if_neg h6, if_neg h7]

/-- C93: a start without a file to watch: it succeeds (code 1) iff the module was stopped and every submodule starts without error,
otherwise the code is 2; afterwards the module is running, the refused request having changed nothing; and the
number of timers of the new run is one iff a positive duration was given. -/
theorem start_answer_partial (subs bad : List Nat) (p : Bool) (s : Module.St) (r : Request) (h : r.operation = bs "start") (opts : List Int)
    (ho : getOptions r.options = .ok opts) :
    ∃ s' a, handle subs bad p s r = .ok (s', a, []) ∧ s'.running = true ∧ (s.running = true → s' = s) ∧
      (a.code = 1 ↔ s.running = false ∧ ∀ x ∈ subs, x ∉ bad) ∧ (a.code = 1 ∨ a.code = 2) ∧
      (s.running = true → a.msg = .lit (bs "module is running now")) ∧
      (s.running = false → s'.gs = s.gs ++ List.replicate opts.length ⟨s.made, .spawned⟩) := by
  rw [handle, if_pos h, ho]; simp only [Res.bind]
  by_cases hr : s.running = true
  · refine ⟨s, ⟨2, .lit (bs "module is running now")⟩, by simp [Module.start, hr], hr, fun _ => rfl, ?_, ?_, ?_, ?_⟩ <;> simp [hr]
  · have hr' : s.running = false := by simpa using hr
    by_cases hb : subs.any (fun x => bad.contains x) = true
    · refine ⟨_, ⟨2, .errors⟩, by simp only [Module.start, hr', Bool.false_eq_true, ↓reduceIte, hb]; rfl, rfl, fun e => absurd e hr, ?_, ?_, fun e => absurd e hr, fun _ => rfl⟩
      · simp only [List.any_eq_true, List.contains_iff_mem] at hb
        obtain ⟨x, h1, h2⟩ := hb
        simp only [hr', true_and]
        exact ⟨fun e => absurd e (by decide), fun e => absurd h2 (e x h1)⟩
      · simp
    · have hb' : subs.any (fun x => bad.contains x) = false := by simpa using hb
      refine ⟨_, ⟨1, .lit (bs "start success")⟩, by simp only [Module.start, hr', Bool.false_eq_true, ↓reduceIte, hb']; rfl, rfl, fun e => absurd e hr, ?_, ?_, fun e => absurd e hr, fun _ => rfl⟩
      · simp only [hr', true_and]
        refine ⟨fun _ x hx hx' => hb (List.any_eq_true.2 ⟨x, hx, by simpa using hx'⟩), fun _ => trivial⟩
      · simp

/-- C93: a stop, after any history of the module: it succeeds (code 1) iff the module was running and every submodule stops without error,
otherwise the code is 3; afterwards the module is stopped. -/
theorem stop_answer (subs bad : List Nat) (hn : subs.Nodup) (p : Bool) (ops : List Module.Op) (s : Module.St)
    (hs : Module.run subs (Module.new false) ops = .ok s) (r : Request) (h : r.operation = bs "stop") :
    ∃ s' a, handle subs bad p s r = .ok (s', a, []) ∧ s'.running = false ∧ (s.running = false → s' = s) ∧
      (a.code = 1 ↔ s.running = true ∧ ∀ x ∈ subs, x ∉ bad) ∧ (a.code = 1 ∨ a.code = 3) ∧
      (s.running = false → a.msg = .lit (bs "module is stopped now")) := by
  rw [handle, h, if_neg (by decide +kernel), if_pos rfl]
  obtain ⟨-, -, -, s', o, e, e1, e2, e3⟩ := Module.request_outcome subs hn ops s hs 0 bad
  rw [e]; simp only [Res.bind]
  by_cases hr : s.running = true
  · have ho : o = .done (subs.any (fun x => bad.contains x)) := by
      simp only [Module.stop, hr, ↓reduceIte] at e
      cases hg : s.sig <;> rw [hg] at e <;> simp only [Res.ok.injEq, Prod.mk.injEq, reduceCtorEq] at e
      exact e.2.symm
    subst ho
    cases hb : subs.any (fun x => bad.contains x) with
    | true =>
      refine ⟨s', ⟨3, .errors⟩, rfl, e3, fun q => absurd hr (by simp [q]), ?_, by simp, fun q => absurd hr (by simp [q])⟩
      simp only [List.any_eq_true, List.contains_iff_mem] at hb
      obtain ⟨x, h1, h2⟩ := hb
      simp only [hr, true_and]
      exact ⟨fun e => absurd e (by decide), fun e => absurd h2 (e x h1)⟩
    | false =>
      refine ⟨s', ⟨1, .lit (bs "stop success")⟩, rfl, e3, fun q => absurd hr (by simp [q]), ?_, by simp, fun q => absurd hr (by simp [q])⟩
      simp only [hr, true_and]
      refine ⟨fun _ x hx hx' => ?_, fun _ => trivial⟩
      have : subs.any (fun x => bad.contains x) = true := List.any_eq_true.2 ⟨x, hx, by simpa using hx'⟩
      rw [hb] at this
      exact absurd this (by simp)
  · have hr' : s.running = false := by simpa using hr
    have ho := e1.2 hr'
    subst ho
    refine ⟨s', ⟨3, .lit (bs "module is stopped now")⟩, rfl, e3, fun _ => e2 rfl, ?_, by simp, fun _ => rfl⟩
    simp [hr']

/-- C93: the probe is asked exactly for the operations of this name and with the numbers of the request, and the module is left alone. -/
theorem probe_operations (subs bad : List Nat) (p : Bool) (s : Module.St) (r : Request) :
    (r.operation = bs "start_attach_agent" → ∃ a, handle subs bad p s r = .ok (s, a, [.startAttach r.pid]) ∧ (a.code = 1 ↔ p = true)) ∧
    (r.operation = bs "stop_attach_agent" → ∃ a, handle subs bad p s r = .ok (s, a, [.stopAttach r.pid]) ∧ (a.code = 1 ↔ p = true)) ∧
    (r.operation = bs "start_debug" → ∃ a, handle subs bad p s r = .ok (s, a, [.startDebug r.pid r.tid]) ∧ a.code = 1) ∧
    (r.operation = bs "stop_debug" → ∃ a, handle subs bad p s r = .ok (s, a, [.stopDebug]) ∧ a.code = 1) := by
  refine ⟨fun h => ?_, fun h => ?_, fun h => ?_, fun h => ?_⟩
  · refine ⟨_, by rw [handle, h, if_neg (by decide +kernel), if_neg (by decide +kernel), if_pos rfl], ?_⟩
    cases p <;> simp
  · refine ⟨_, by rw [handle, h, if_neg (by decide +kernel), if_neg (by decide +kernel), if_neg (by decide +kernel), if_pos rfl], ?_⟩
    cases p <;> simp
  · exact ⟨_, by rw [handle, h, if_neg (by decide +kernel), if_neg (by decide +kernel), if_neg (by decide +kernel), if_neg (by decide +kernel), if_neg (by decide +kernel), if_pos rfl], rfl⟩
  · exact ⟨_, by rw [handle, h, if_neg (by decide +kernel), if_neg (by decide +kernel), if_neg (by decide +kernel), if_neg (by decide +kernel), if_neg (by decide +kernel), if_neg (by decide +kernel), if_pos rfl], rfl⟩

/-- C93: the timers asked for: one of the given length iff a duration that can be read is positive. -/
theorem timers_asked (w : Bool) (d : Dur) (h : w = false) : getOptions (some (some (w, d))) = .ok (match d with
    | .number n => if n > 0 then [n] else []
    | .text (some n) => if n > 0 then [n] else []
    | _ => []) := by
  subst h
  cases d with
  | number n => rfl
  | text o => cases o <;> rfl
  | other => rfl

/-- C93, disagreement: the duration is documented in seconds, but a plain number counts nanoseconds: a run asked to last `n` seconds gets
a timer of `n` nanoseconds. -/
theorem plain_number_is_nanoseconds (n : Int) (h : 0 < n) : getOptions (some (some (false, .number n))) = .ok [n] := by
  have := timers_asked false (.number n) rfl
  rw [this]
  simp only
  rw [if_pos h]

/-- C93, disagreement: a start whose options cannot be read is answered with success, and the run has no end. -/
theorem unreadable_options_ignored (subs : List Nat) (p : Bool) (s : Module.St) (r : Request) (h : r.operation = bs "start")
    (ho : r.options = some none ∨ r.options = some (some (false, .text none)) ∨ r.options = some (some (false, .other))) (hs : s.running = false) :
    ∃ s', handle subs [] p s r = .ok (s', ⟨1, .lit (bs "start success")⟩, []) ∧ s'.running = true ∧ s'.gs = s.gs := by
  have hg : getOptions r.options = .ok [] := by rcases ho with e | e | e <;> rw [e] <;> rfl
  rw [handle, if_pos h, hg]; simp only [Res.bind]
  have hb : subs.any (fun x => ([] : List Nat).contains x) = false := by simp
  refine ⟨{ running := true, sig := some s.made, made := s.made + 1, calls := s.calls ++ subs.map (fun x => (x, true)), gs := s.gs ++ [] }, ?_, rfl, by simp⟩
  simp only [Module.start, hs, Bool.false_eq_true, ↓reduceIte, hb]
  rfl

/-- C93, disagreement: a request to watch a file panics in the handler; the module is not started. -/
theorem file_watch_panics (subs bad : List Nat) (p : Bool) (s : Module.St) (r : Request) (d : Dur) (h : r.operation = bs "start")
    (ho : r.options = some (some (true, d))) : handle subs bad p s r = .panic := by
  rw [handle, if_pos h, ho]
  cases d with
  | number n => rfl
  | text o => cases o <;> rfl
  | other => rfl

theorem paths_other (ms : List Bytes) : ∀ ps, bs "profile" ∉ ms → paths ms ps = .ok ps := by
  induction ms with
  | nil => exact fun ps _ => rfl
  | cons m r ih =>
    intro ps h
    simp only [List.mem_cons, not_or] at h
    rw [paths, if_neg (Ne.symm h.1), ih ps h.2]

theorem paths_count (ms : List Bytes) : paths ms [bs "/profile"] = if bs "profile" ∈ ms then .panic else .ok [bs "/profile"] := by
  induction ms with
  | nil => rfl
  | cons m r ih =>
    rw [paths]
    by_cases h : m = bs "profile"
    · rw [if_pos h, if_pos (by simp), if_pos (by simp [h])]
    · rw [if_neg h, ih]
      simp [Ne.symm h]

/-- C93: with an `http` section and the module listed once, its path is served and its submodules are registered; with the module
not listed, nothing is served. -/
theorem set_up (f : Bool) (port : Bytes) (l r : List Bytes) (hl : bs "profile" ∉ l) (hr : bs "profile" ∉ r) :
    setUp ⟨some (f, port), l ++ bs "profile" :: r⟩ = .ok ([bs "/profile"], true) ∧ setUp ⟨some (f, port), l ++ r⟩ = .ok ([], false) := by
  have happ : ∀ a b ps, bs "profile" ∉ a → paths (a ++ b) ps = paths b ps := by
    intro a
    induction a with
    | nil => exact fun b ps _ => rfl
    | cons m a ih =>
      intro b ps h
      simp only [List.mem_cons, not_or] at h
      rw [List.cons_append, paths, if_neg (Ne.symm h.1), ih b ps h.2]
  constructor
  · simp only [setUp, construct, happ l _ _ hl]
    rw [paths, if_pos rfl, if_neg (by simp), List.nil_append, paths_count, if_neg hr]
    simp [register, Res.bind]
  · simp only [setUp, construct]
    rw [happ l _ _ hl, paths_other r [] hr]
    simp [register, Res.bind]

/-- C93, disagreement: without an `http` section the program panics while it starts up. -/
theorem no_http_section_panics (ms : List Bytes) : setUp ⟨none, ms⟩ = .panic := rfl

/-- C93, disagreement: the flag `enable` does not matter. -/
theorem enable_ignored (f f' : Bool) (port : Bytes) (ms : List Bytes) : setUp ⟨some (f, port), ms⟩ = setUp ⟨some (f', port), ms⟩ := rfl

/-- C93, disagreement: a module listed twice panics while the program starts up. -/
theorem module_twice_panics (f : Bool) (port : Bytes) (a b c : List Bytes) (ha : bs "profile" ∉ a) :
    setUp ⟨some (f, port), a ++ bs "profile" :: (b ++ bs "profile" :: c)⟩ = .panic := by
  have happ : ∀ a b ps, bs "profile" ∉ a → paths (a ++ b) ps = paths b ps := by
    intro a
    induction a with
    | nil => exact fun b ps _ => rfl
    | cons m a ih =>
      intro b ps h
      simp only [List.mem_cons, not_or] at h
      rw [List.cons_append, paths, if_neg (Ne.symm h.1), ih b ps h.2]
  simp only [setUp, construct, happ a _ _ ha]
  rw [paths, if_pos rfl, if_neg (by simp), List.nil_append, paths_count, if_pos (by simp)]
  rfl

/-- C93: a body that is not JSON is answered 500 and changes nothing; any other body is answered 200. -/
theorem body_status (subs bad : List Nat) (p : Bool) (s : Module.St) (b : Option Request) (s' : Module.St) (n : Nat) (a : Option Answer)
    (h : serve subs bad p s b = .ok (s', n, a)) : (b = none ∧ n = 500 ∧ s' = s ∧ a = none) ∨ (∃ r, b = some r ∧ n = 200 ∧ a.isSome) := by
  cases b with
  | none => simp only [serve, Res.ok.injEq, Prod.mk.injEq] at h; exact .inl ⟨rfl, h.2.1.symm, h.1.symm, h.2.2.symm⟩
  | some r =>
    simp only [serve] at h
    cases hh : handle subs bad p s r with
    | ok x => rw [hh] at h; simp only [Res.bind, Res.ok.injEq, Prod.mk.injEq] at h; exact .inr ⟨r, rfl, h.2.1.symm, by rw [← h.2.2]; rfl⟩
    | err => rw [hh] at h; simp [Res.bind] at h
    | panic => rw [hh] at h; simp [Res.bind] at h

/-! A module that was started for ten seconds, and its status. -/

def startTen : Request := ⟨bs "start", 0, 0, some (some (false, .text (some 10000000000)))⟩

example : getOptions startTen.options = .ok [10000000000] := rfl
example : ∃ s a, handle [1, 2] [] true (Module.new false) startTen = .ok (s, a, []) ∧ a.code = 1 ∧ s.gs.length = 1 :=
  ⟨_, _, rfl, rfl, rfl⟩
example : bs "status" ∈ operations ∧ bs "Start" ∉ operations := by decide +kernel

end Kindling.Ctl.Api
