import Verif.Basic
/-
C106: the metrics endpoint of the OpenTelemetry exporter across restarts.

Model of otelexporter/prometheus.go:18-44 `StartServer`, otelexporter.go:156-166 (the first start), 316-353 `NewMeter` and
355-369 (the schedule that calls it), with the parts of `net/http.Server` they use: `ListenAndServe` checks whether the server
was shut down, binds the port and then registers the listener, unless the server was shut down in the meantime; `Shutdown` marks
the server, closes the registered listeners and waits until no request is under way.

Every numbered step below is one step of a goroutine; goroutines interleave in any order.  Simplifications: the creation of an
exporter and the stop of the old controller succeed (otelexporter.go:333-341); a request reaches a server only once its listener is
registered; the port is free when the collector starts and nobody else binds it.
-/
namespace Kindling.Export.Server
open Kindling

/-- `http.Server` (prometheus.go:32-35): the exporter that its handler asks, whether `Shutdown` was called, whether it has a
registered listener, and the number of requests under way. -/
structure Srv where
  exporter : Nat
  closing : Bool
  listening : Bool
  active : Nat
deriving DecidableEq, Repr

/-- Where a goroutine is. -/
inductive Pc where
  /-- otelexporter.go:347: about to read `e.exp`. -/
  | eval
  /-- prometheus.go:19: about to lock `mu`. -/
  | want (x : Nat)
  /-- prometheus.go:23: in `Shutdown` of server `s`, with `mu` held. -/
  | waiting (x s : Nat)
  /-- prometheus.go:29-43: about to replace `srv`, with `mu` held. -/
  | create (x : Nat)
  /-- prometheus.go:39: about to read the variable `srv`. -/
  | serve
  /-- `ListenAndServe`: about to look whether the server was shut down. -/
  | check (s : Nat)
  /-- `ListenAndServe`: about to bind the port. -/
  | bind (s : Nat)
  /-- `Serve`: about to register the listener. -/
  | track (s : Nat)
  /-- `Serve`: accepting. -/
  | accept (s : Nat)
  | done
deriving DecidableEq, Repr

/-- `exp` is `e.exp` (the exporters are numbered), `mu` and `srv` are the variables of prometheus.go:13-16, `port` is the server
whose listener has the port. -/
structure Conf where
  exp : Nat
  mu : Bool
  srv : Option Nat
  servers : List Srv
  port : Option Nat
  ths : List Pc
  /-- Requests: the exporter that answered and the exporter of that time. -/
  answers : List (Nat × Nat)
deriving DecidableEq, Repr

/-- otelexporter.go:156-162: the first exporter has number 0; its `StartServer` runs in a goroutine. -/
def begin : Conf := ⟨0, false, none, [], none, [.want 0], []⟩

def Conf.upd (c : Conf) (s : Nat) (f : Srv → Srv) : Conf := { c with servers := c.servers.modify s f }

def Conf.goto (c : Conf) (i : Nat) (p : Pc) : Conf := { c with ths := c.ths.set i p }

/-- `Shutdown`, first part: mark the server and close its registered listener. -/
def Conf.shut (c : Conf) (s : Nat) : Conf :=
  let c' := c.upd s fun v => { v with closing := true, listening := false }
  if (c.servers[s]?.map (·.listening)) = some true then { c' with port := none } else c'

/-- One step of goroutine `i`. -/
def run (c : Conf) (i : Nat) : Conf :=
  match c.ths[i]? with
  | none => c
  | some p => match p with
    | .eval => c.goto i (.want c.exp)
    | .want x =>
      if c.mu then c
      else match c.srv with
        | none => { c with mu := true }.goto i (.create x)
        | some s => ({ c with mu := true }.shut s).goto i (.waiting x s)
    | .waiting x s => if (c.servers[s]?.map (·.active)) = some 0 then c.goto i (.create x) else c
    | .create x =>
      { c with mu := false, srv := some c.servers.length, servers := c.servers ++ [⟨x, false, false, 0⟩],
               ths := c.ths.set i .done ++ [.serve] }
    | .serve => match c.srv with
      | none => c.goto i .done
      | some s => c.goto i (.check s)
    | .check s => if (c.servers[s]?.map (·.closing)) = some false then c.goto i (.bind s) else c.goto i .done
    | .bind s => if c.port.isSome then c.goto i .done else { c with port := some s }.goto i (.track s)
    | .track s =>
      if (c.servers[s]?.map (·.closing)) = some false then (c.upd s fun v => { v with listening := true }).goto i (.accept s)
      else { c with port := none }.goto i .done
    | .accept s => if (c.servers[s]?.map (·.listening)) = some true then c else c.goto i .done
    | .done => c

inductive Ev where
  /-- A step of a goroutine. -/
  | run (i : Nat)
  /-- otelexporter.go:316-353 `NewMeter`: a new exporter, and a goroutine that starts the server again. -/
  | restart
  /-- A request to the port. -/
  | request
  /-- A request of server `s` ends. -/
  | finish (s : Nat)
deriving DecidableEq, Repr

/-- The server that answers requests to the port. -/
def Conf.serving (c : Conf) : Option (Nat × Srv) :=
  match c.port with
  | none => none
  | some s => match c.servers[s]? with
    | none => none
    | some v => if v.listening then some (s, v) else none

def step (c : Conf) : Ev → Conf
  | .run i => run c i
  | .restart => { c with exp := c.exp + 1, ths := c.ths ++ [.eval] }
  | .request => match c.serving with
    | none => c
    | some (s, v) => { c.upd s (fun v => { v with active := v.active + 1 }) with answers := c.answers ++ [(v.exporter, c.exp)] }
  | .finish s => c.upd s fun v => { v with active := v.active - 1 }

def exec (c : Conf) (es : List Ev) : Conf := es.foldl step c

/-- The goroutine still has to do something about starting a server. -/
def busy : Pc → Bool
  | .accept _ => false
  | .done => false
  | _ => true

def Conf.atRest (c : Conf) : Prop := c.ths.filter busy = []

instance (c : Conf) : Decidable c.atRest := by unfold Conf.atRest; infer_instance

/-- Restarts come when the previous one is through. -/
def Spaced : Conf → List Ev → Prop
  | _, [] => True
  | c, e :: es => (e = .restart → c.atRest) ∧ Spaced (step c e) es

/-! ### At most one server answers -/

/-- The goroutine holds `mu`. -/
def inside : Pc → Bool
  | .waiting _ _ => true
  | .create _ => true
  | _ => false

def exporterOf : Pc → Option Nat
  | .want x => some x
  | .waiting x _ => some x
  | .create x => some x
  | _ => none

structure Safe (c : Conf) : Prop where
  /-- All servers but the last one have been shut down, and all while `mu` is held. -/
  old : ∀ (s : Nat) (v : Srv), c.servers[s]? = some v → c.srv ≠ some s ∨ c.mu = true → v.closing = true
  /-- A server that was shut down has no listener. -/
  shut : ∀ v ∈ c.servers, v.closing = true → v.listening = false
  holders : c.ths.countP inside = c.mu.toNat
  exps : ∀ v ∈ c.servers, v.exporter ≤ c.exp
  wants : ∀ p ∈ c.ths, ∀ x, exporterOf p = some x → x ≤ c.exp
  answered : ∀ a ∈ c.answers, a.1 ≤ a.2

theorem countP_set (f : Pc → Bool) : ∀ (l : List Pc) (i : Nat) (a b : Pc), l[i]? = some a →
    (l.set i b).countP f + (f a).toNat = l.countP f + (f b).toNat
  | [], _, _, _, h => by simp at h
  | x :: l, 0, a, b, h => by
    simp only [List.getElem?_cons_zero, Option.some.injEq] at h
    subst h
    simp only [List.set_cons_zero, List.countP_cons]
    cases f x <;> cases f b <;> simp
  | x :: l, i + 1, a, b, h => by
    simp only [List.getElem?_cons_succ] at h
    have := countP_set f l i a b h
    simp only [List.set_cons_succ, List.countP_cons]
    omega

theorem mem_modify {α : Type} {l : List α} {i : Nat} {f : α → α} {a : α} (h : a ∈ l.modify i f) :
    a ∈ l ∨ ∃ b, l[i]? = some b ∧ a = f b := by
  obtain ⟨j, hj⟩ := List.mem_iff_getElem?.1 h
  rw [List.getElem?_modify] at hj
  cases hl : l[j]? with
  | none => simp [hl] at hj
  | some b =>
    rw [hl] at hj
    by_cases hij : i = j
    · subst hij
      simp at hj
      exact .inr ⟨b, hl, hj.symm⟩
    · simp [hij] at hj
      subst hj
      exact .inl (List.mem_of_getElem? hl)

/-- Steps that only move a goroutine. -/
theorem safe_goto {c : Conf} (h : Safe c) {i : Nat} {p : Pc} (q : Pc) (hp : c.ths[i]? = some p) (hin : inside q = inside p)
    (hx : ∀ x, exporterOf q = some x → x ≤ c.exp) (port : Option Nat) : Safe ({ c with port := port }.goto i q) := by
  refine ⟨h.old, h.shut, ?_, h.exps, ?_, h.answered⟩
  · have := countP_set inside c.ths i p q hp
    have h2 := h.holders
    simp only [Conf.goto] at this ⊢
    rw [hin] at this
    omega
  · intro r hr x hxr
    rcases List.mem_or_eq_of_mem_set hr with hr | rfl
    · exact h.wants r hr x hxr
    · exact hx x hxr

theorem safe_run {c : Conf} (h : Safe c) (i : Nat) : Safe (run c i) := by
  unfold run
  cases hp : c.ths[i]? with
  | none => exact h
  | some p =>
  have hpm : p ∈ c.ths := List.mem_of_getElem? hp
  have hstay : ∀ q, inside q = inside p → exporterOf q = none → Safe (c.goto i q) := fun q h1 h2 =>
    safe_goto h q hp h1 (by intro x hx; rw [h2] at hx; cases hx) c.port
  dsimp only
  cases p with
  | eval => exact safe_goto h (.want c.exp) hp rfl (by intro x hx; cases hx; exact Nat.le_refl _) c.port
  | want x =>
    dsimp only
    have hx : x ≤ c.exp := h.wants _ hpm x rfl
    cases hmu : c.mu with
    | true => simpa using h
    | false =>
      have hcount : ∀ q, inside q = true → (c.ths.set i q).countP inside = 1 := by
        intro q hq
        have h1 := countP_set inside c.ths i _ q hp
        have h2 := h.holders
        rw [hmu] at h2
        rw [hq] at h1
        simp only [inside, Bool.toNat_false, Bool.toNat_true] at h1 h2
        omega
      have hwants : ∀ q, exporterOf q = some x → ∀ r ∈ c.ths.set i q, ∀ y, exporterOf r = some y → y ≤ c.exp := by
        intro q hq r hr y hy
        rcases List.mem_or_eq_of_mem_set hr with hr | rfl
        · exact h.wants r hr y hy
        · rw [hq] at hy; cases hy; exact hx
      simp only [Bool.false_eq_true, if_false]
      split
      · rename_i hs
        refine ⟨?_, h.shut, ?_, h.exps, hwants _ rfl, h.answered⟩
        · intro s v hv _
          exact h.old s v hv (.inl (by rw [hs]; simp))
        · simp [Conf.goto, hcount (.create x) rfl]
      · rename_i s hs
        have e : (({ c with mu := true } : Conf).shut s).ths = c.ths ∧
            (({ c with mu := true } : Conf).shut s).servers = c.servers.modify s (fun v => { v with closing := true, listening := false }) ∧
            (({ c with mu := true } : Conf).shut s).mu = true ∧ (({ c with mu := true } : Conf).shut s).srv = c.srv ∧
            (({ c with mu := true } : Conf).shut s).exp = c.exp ∧ (({ c with mu := true } : Conf).shut s).answers = c.answers := by
          simp only [Conf.shut, Conf.upd]
          split <;> exact ⟨rfl, rfl, rfl, rfl, rfl, rfl⟩
        obtain ⟨e1, e2, e3, e4, e5, e6⟩ := e
        generalize ({ c with mu := true } : Conf).shut s = c' at *
        have hmem : ∀ v ∈ c'.servers, v ∈ c.servers ∨ ∃ b, c.servers[s]? = some b ∧ v = { b with closing := true, listening := false } := by
          intro v hv
          rw [e2] at hv
          exact mem_modify hv
        refine ⟨?_, ?_, ?_, ?_, ?_, ?_⟩
        · intro s' v hv _
          simp only [Conf.goto] at hv
          rw [e2, List.getElem?_modify] at hv
          cases hl : c.servers[s']? with
          | none => simp [hl] at hv
          | some b =>
            rw [hl] at hv
            by_cases hss : s = s'
            · simp [hss] at hv; rw [← hv]
            · simp [hss] at hv
              subst hv
              exact h.old s' b hl (.inl (by rw [hs]; simpa using hss))
        · intro v hv hc
          rcases hmem v hv with hv | ⟨b, _, rfl⟩
          · exact h.shut v hv hc
          · rfl
        · simp [Conf.goto, e1, e3, hcount (.waiting x s) rfl]
        · intro v hv
          simp only [Conf.goto, e5]
          rcases hmem v hv with hv | ⟨b, hb, rfl⟩
          · exact h.exps v hv
          · exact h.exps b (List.mem_of_getElem? hb)
        · simp only [Conf.goto, e1, e5]
          exact hwants _ rfl
        · simp only [Conf.goto, e6]
          exact h.answered
  | waiting x s =>
    dsimp only
    split
    · exact safe_goto h (.create x) hp rfl (fun y hy => h.wants _ hpm y hy) c.port
    · exact h
  | create x =>
    dsimp only
    have hx : x ≤ c.exp := h.wants _ hpm x rfl
    have h1 := countP_set inside c.ths i _ .done hp
    have h2 := h.holders
    have hmu : c.mu = true := by
      cases hm : c.mu with
      | true => rfl
      | false =>
        rw [hm] at h2
        have : 0 < c.ths.countP inside := List.countP_pos_iff.2 ⟨_, hpm, rfl⟩
        rw [h2] at this
        cases this
    rw [hmu] at h2
    refine ⟨?_, ?_, ?_, ?_, ?_, h.answered⟩
    · intro s v hv ho
      dsimp only at hv ho
      rcases Nat.lt_or_ge s c.servers.length with hlt | hge
      · rw [List.getElem?_append_left hlt] at hv
        exact h.old s v hv (.inr hmu)
      · rw [List.getElem?_append_right hge] at hv
        have : s = c.servers.length := by
          have := (List.getElem?_eq_some_iff.1 hv).1
          simp at this; omega
        subst this
        simp at ho
    · intro v hv hc
      rcases List.mem_append.1 hv with hv | hv
      · exact h.shut v hv hc
      · rw [List.mem_singleton] at hv; subst hv; cases hc
    · simp only [List.countP_append, List.countP_cons, List.countP_nil, inside] at h1 h2 ⊢
      simp at h1 h2 ⊢
      intro a ha
      by_cases h3 : inside a = true
      · have : 0 < (c.ths.set i Pc.done).countP inside := List.countP_pos_iff.2 ⟨a, ha, h3⟩
        omega
      · simpa using h3
    · intro v hv
      rcases List.mem_append.1 hv with hv | hv
      · exact h.exps v hv
      · rw [List.mem_singleton] at hv; subst hv; exact hx
    · intro r hr y hy
      rcases List.mem_append.1 hr with hr | hr
      · rcases List.mem_or_eq_of_mem_set hr with hr | rfl
        · exact h.wants r hr y hy
        · cases hy
      · rw [List.mem_singleton] at hr; subst hr; cases hy
  | serve =>
    dsimp only
    split
    · exact hstay _ rfl rfl
    · exact hstay _ rfl rfl
  | check s =>
    dsimp only
    split
    · exact hstay _ rfl rfl
    · exact hstay _ rfl rfl
  | bind s =>
    dsimp only
    split
    · exact hstay _ rfl rfl
    · exact safe_goto h (.track s) hp rfl (by intro x hx; cases hx) (some s)
  | track s =>
    dsimp only
    split
    · rename_i hcl
      have hb := hstay (.accept s) rfl rfl
      refine ⟨?_, ?_, hb.holders, ?_, hb.wants, hb.answered⟩
      · intro s' v hv ho
        simp only [Conf.goto, Conf.upd] at hv ho
        rw [List.getElem?_modify] at hv
        cases hl : c.servers[s']? with
        | none => simp [hl] at hv
        | some b =>
          rw [hl] at hv
          have := h.old s' b hl ho
          by_cases hss : s = s'
          · simp [hss] at hv; rw [← hv]; exact this
          · simp [hss] at hv; rw [← hv]; exact this
      · intro v hv hc
        rcases mem_modify hv with hv | ⟨b, hb', rfl⟩
        · exact h.shut v hv hc
        · rw [hb'] at hcl
          simp at hcl
          simp [hcl] at hc
      · intro v hv
        rcases mem_modify hv with hv | ⟨b, hb', rfl⟩
        · exact h.exps v hv
        · exact h.exps b (List.mem_of_getElem? hb')
    · exact safe_goto h .done hp rfl (by intro x hx; cases hx) none
  | accept s =>
    dsimp only
    split
    · exact h
    · exact hstay _ rfl rfl
  | done => exact h

theorem safe_active {c : Conf} (h : Safe c) (s : Nat) (f : Srv → Srv) (hf : ∀ v, (f v).exporter = v.exporter ∧ (f v).closing = v.closing ∧
    (f v).listening = v.listening) : Safe (c.upd s f) := by
  refine ⟨?_, ?_, h.holders, ?_, h.wants, h.answered⟩
  · intro s' v hv ho
    simp only [Conf.upd] at hv ho
    rw [List.getElem?_modify] at hv
    cases hl : c.servers[s']? with
    | none => simp [hl] at hv
    | some b =>
      rw [hl] at hv
      have := h.old s' b hl ho
      by_cases hss : s = s'
      · simp [hss] at hv; rw [← hv, (hf b).2.1]; exact this
      · simp [hss] at hv; rw [← hv]; exact this
  · intro v hv hc
    rcases mem_modify hv with hv | ⟨b, hb', rfl⟩
    · exact h.shut v hv hc
    · rw [(hf b).2.1] at hc
      rw [(hf b).2.2]
      exact h.shut b (List.mem_of_getElem? hb') hc
  · intro v hv
    rcases mem_modify hv with hv | ⟨b, hb', rfl⟩
    · exact h.exps v hv
    · rw [(hf b).1]; exact h.exps b (List.mem_of_getElem? hb')

theorem serving_some {c : Conf} {s : Nat} {v : Srv} (h : c.serving = some (s, v)) :
    c.port = some s ∧ c.servers[s]? = some v ∧ v.listening = true := by
  unfold Conf.serving at h
  split at h
  · cases h
  · rename_i s' hs'
    split at h
    · cases h
    · rename_i v' hv'
      split at h
      · rename_i hl
        cases h
        exact ⟨hs', hv', hl⟩
      · cases h

theorem safe_step {c : Conf} (h : Safe c) (e : Ev) : Safe (step c e) := by
  cases e with
  | run i => exact safe_run h i
  | restart =>
    refine ⟨h.old, h.shut, ?_, fun v hv => Nat.le_succ_of_le (h.exps v hv), ?_, h.answered⟩
    · have := h.holders
      simp only [step, List.countP_append]
      simpa [inside] using this
    · intro p hp x hx
      rcases List.mem_append.1 hp with hp | hp
      · exact Nat.le_succ_of_le (h.wants p hp x hx)
      · rw [List.mem_singleton] at hp; subst hp; cases hx
  | request =>
    simp only [step]
    cases hs : c.serving with
    | none => exact h
    | some q =>
      obtain ⟨s, v⟩ := q
      obtain ⟨_, h2, _⟩ := serving_some hs
      have h' := safe_active h s (fun v => { v with active := v.active + 1 }) fun v => ⟨rfl, rfl, rfl⟩
      refine ⟨h'.old, h'.shut, h'.holders, h'.exps, h'.wants, ?_⟩
      intro a ha
      rcases List.mem_append.1 ha with ha | ha
      · exact h.answered a ha
      · rw [List.mem_singleton] at ha
        subst ha
        exact h.exps v (List.mem_of_getElem? h2)
  | finish s => exact safe_active h s _ fun v => ⟨rfl, rfl, rfl⟩

theorem safe_begin : Safe begin :=
  ⟨by intro s v hv; simp [begin] at hv, by intro v hv; simp [begin] at hv, rfl, by intro v hv; simp [begin] at hv,
    by intro p hp x hx; simp [begin] at hp; subst hp; cases hx; exact Nat.le_refl _, by intro a ha; simp [begin] at ha⟩

theorem safe_exec (es : List Ev) : Safe (exec begin es) := by
  have : ∀ (es : List Ev) (c : Conf), Safe c → Safe (exec c es) := by
    intro es
    induction es with
    | nil => exact fun c h => h
    | cons e es ih => exact fun c h => ih _ (safe_step h e)
  exact this es _ safe_begin

/-- C106.  Whatever the schedule of starts, restarts and requests: the server that answers on the port is the one started last, it was
not shut down, and nobody is about to replace it; all others were shut down and answer nothing. -/
theorem one_server (es : List Ev) {s : Nat} {v : Srv} (h : (exec begin es).serving = some (s, v)) :
    (exec begin es).srv = some s ∧ v.closing = false ∧ (exec begin es).mu = false ∧
      ∀ s' v', (exec begin es).servers[s']? = some v' → s' ≠ s → v'.listening = false := by
  have hs := safe_exec es
  generalize exec begin es = c at *
  obtain ⟨_, h2, h3⟩ := serving_some h
  have hc : v.closing = false := by
    cases hx : v.closing with
    | false => rfl
    | true => rw [hs.shut v (List.mem_of_getElem? h2) hx] at h3; cases h3
  have hsrv : c.srv = some s := by
    apply Decidable.byContradiction
    intro hne
    rw [hs.old s v h2 (.inl hne)] at hc
    cases hc
  refine ⟨hsrv, hc, ?_, ?_⟩
  · cases hm : c.mu with
    | false => rfl
    | true => rw [hs.old s v h2 (.inr hm)] at hc; cases hc
  · intro s' v' hv' hne
    exact hs.shut v' (List.mem_of_getElem? hv') (hs.old s' v' hv' (.inl (by rw [hsrv]; simpa using fun h => hne h.symm)))

/-- C106.  No request is answered by an exporter that does not exist yet. -/
theorem answers_not_newer (es : List Ev) : ∀ a ∈ (exec begin es).answers, a.1 ≤ a.2 := (safe_exec es).answered

/-! ### Restarts one at a time -/

def Serving (c : Conf) (e : Nat) : Prop :=
  ∃ s a, c.srv = some s ∧ c.port = some s ∧ c.servers[s]? = some ⟨e, false, true, a⟩

def Fresh (c : Conf) (s : Nat) : Prop := ∃ a, c.srv = some s ∧ c.servers[s]? = some ⟨c.exp, false, false, a⟩

def Phase (c : Conf) : Pc → Prop
  | .eval => c.mu = false ∧ 0 < c.exp ∧ Serving c (c.exp - 1)
  | .want x => c.mu = false ∧ x = c.exp ∧ ((c.exp = 0 ∧ c.srv = none ∧ c.port = none) ∨ (0 < c.exp ∧ Serving c (c.exp - 1)))
  | .waiting x s => c.mu = true ∧ x = c.exp ∧ c.port = none ∧ s < c.servers.length
  | .create x => c.mu = true ∧ x = c.exp ∧ c.port = none
  | .serve => c.mu = false ∧ c.port = none ∧ ∃ s, Fresh c s
  | .check s => c.mu = false ∧ c.port = none ∧ Fresh c s
  | .bind s => c.mu = false ∧ c.port = none ∧ Fresh c s
  | .track s => c.mu = false ∧ c.port = some s ∧ Fresh c s
  | _ => False

def Ok (c : Conf) : Prop :=
  (c.ths.filter busy = [] ∧ c.mu = false ∧ Serving c c.exp) ∨ ∃ p, c.ths.filter busy = [p] ∧ Phase c p

theorem set_split {l : List Pc} {i : Nat} {a : Pc} (h : l[i]? = some a) (b : Pc) :
    l = l.take i ++ a :: l.drop (i + 1) ∧ l.set i b = l.take i ++ b :: l.drop (i + 1) := by
  obtain ⟨hi, ha⟩ := List.getElem?_eq_some_iff.1 h
  refine ⟨?_, ?_⟩
  · rw [← ha, ← List.drop_eq_getElem_cons hi, List.take_append_drop]
  · rw [List.set_eq_take_append_cons_drop, if_pos hi]

theorem filter_set_idle {l : List Pc} {i : Nat} {a b : Pc} (h : l[i]? = some a) (ha : busy a = false) (hb : busy b = false) :
    (l.set i b).filter busy = l.filter busy := by
  obtain ⟨h1, h2⟩ := set_split h b
  rw [h2]
  conv => rhs; rw [h1]
  simp [ha, hb]

theorem filter_set_busy {l : List Pc} {i : Nat} {a b : Pc} (h : l[i]? = some a) (hf : l.filter busy = [a]) (ha : busy a = true) :
    (l.set i b).filter busy = if busy b then [b] else [] := by
  obtain ⟨h1, h2⟩ := set_split h b
  rw [h1, List.filter_append, List.filter_cons_of_pos ha] at hf
  have hl := congrArg List.length hf
  simp only [List.length_append, List.length_cons, List.length_nil] at hl
  have e1 : (l.take i).filter busy = [] := List.eq_nil_of_length_eq_zero (by omega)
  have e2 : (l.drop (i + 1)).filter busy = [] := List.eq_nil_of_length_eq_zero (by omega)
  rw [h2, List.filter_append, List.filter_cons, e1, e2]
  rfl

/-- Everything but the goroutines. -/
theorem phase_ths {c : Conf} {p : Pc} (h : Phase c p) (ths : List Pc) : Phase { c with ths := ths } p := by
  cases p <;> exact h

theorem upd_get {c : Conf} {s s' : Nat} {f : Srv → Srv} {e : Nat} {x y : Bool} {a : Nat}
    (hf : ∀ v, (f v).exporter = v.exporter ∧ (f v).closing = v.closing ∧ (f v).listening = v.listening)
    (h : c.servers[s]? = some ⟨e, x, y, a⟩) : ∃ a', (c.upd s' f).servers[s]? = some ⟨e, x, y, a'⟩ := by
  simp only [Conf.upd, List.getElem?_modify, h]
  by_cases hss : s' = s
  · refine ⟨(f ⟨e, x, y, a⟩).active, ?_⟩
    obtain ⟨h1, h2, h3⟩ := hf ⟨e, x, y, a⟩
    cases hv : f ⟨e, x, y, a⟩ with
    | mk e' x' y' a' =>
      rw [hv] at h1 h2 h3
      simp only at h1 h2 h3
      simp [hss, hv, h1, h2, h3]
  · exact ⟨a, by simp [hss]⟩

theorem ok_upd {c : Conf} (h : Ok c) (s : Nat) (f : Srv → Srv)
    (hf : ∀ v, (f v).exporter = v.exporter ∧ (f v).closing = v.closing ∧ (f v).listening = v.listening) : Ok (c.upd s f) := by
  have hS : ∀ e, Serving c e → Serving (c.upd s f) e := by
    rintro e ⟨t, a, h1, h2, h3⟩
    obtain ⟨a', ha'⟩ := upd_get hf h3 (s' := s)
    exact ⟨t, a', h1, h2, ha'⟩
  have hF : ∀ t, Fresh c t → Fresh (c.upd s f) t := by
    rintro t ⟨a, h1, h3⟩
    obtain ⟨a', ha'⟩ := upd_get hf h3 (s' := s)
    exact ⟨a', h1, ha'⟩
  rcases h with ⟨h1, h2, h3⟩ | ⟨p, h1, h2⟩
  · exact .inl ⟨h1, h2, hS _ h3⟩
  · refine .inr ⟨p, h1, ?_⟩
    cases p with
    | eval => exact ⟨h2.1, h2.2.1, hS _ h2.2.2⟩
    | want x =>
      refine ⟨h2.1, h2.2.1, ?_⟩
      rcases h2.2.2 with h | ⟨h, h'⟩
      · exact .inl h
      · exact .inr ⟨h, hS _ h'⟩
    | waiting x t => exact ⟨h2.1, h2.2.1, h2.2.2.1, by simp only [Conf.upd, List.length_modify]; exact h2.2.2.2⟩
    | create x => exact h2
    | serve =>
      obtain ⟨h3, h4, t, ht⟩ := h2
      exact ⟨h3, h4, t, hF t ht⟩
    | check t => exact ⟨h2.1, h2.2.1, hF t h2.2.2⟩
    | bind t => exact ⟨h2.1, h2.2.1, hF t h2.2.2⟩
    | track t => exact ⟨h2.1, h2.2.1, hF t h2.2.2⟩
    | accept t => exact h2
    | done => exact h2

/-- How far a goroutine is from its end. -/
def left : Pc → Nat
  | .eval => 8
  | .want _ => 7
  | .waiting _ _ => 6
  | .create _ => 5
  | .serve => 4
  | .check _ => 3
  | .bind _ => 2
  | .track _ => 1
  | _ => 0

def work (c : Conf) : Nat := ((c.ths.filter busy).map left).sum

theorem ok_run {c : Conf} (h : Ok c) (i : Nat) : Ok (run c i) ∧
    (∀ p, c.ths[i]? = some p → busy p = true → (∀ v ∈ c.servers, v.active = 0) →
      work (run c i) < work c ∧ ∀ v ∈ (run c i).servers, v.active = 0) := by
  unfold run
  cases hp : c.ths[i]? with
  | none => exact ⟨h, by simp⟩
  | some p =>
  cases hb : busy p with
  | false =>
    refine ⟨?_, by intro q hq hbq; cases hq; rw [hb] at hbq; cases hbq⟩
    have hmove : Ok (c.goto i .done) := by
      have e := filter_set_idle hp hb (b := .done) rfl
      rcases h with ⟨h1, h2, h3⟩ | ⟨q, h1, h2⟩
      · exact .inl ⟨by simp only [Conf.goto]; rw [e]; exact h1, h2, h3⟩
      · exact .inr ⟨q, by simp only [Conf.goto]; rw [e]; exact h1, phase_ths h2 _⟩
    cases p with
    | accept s =>
      dsimp only
      split
      · exact h
      · exact hmove
    | done => exact h
    | _ => cases hb
  | true =>
    have hin : p ∈ c.ths.filter busy := List.mem_filter.2 ⟨List.mem_of_getElem? hp, hb⟩
    rcases h with ⟨h1, h2, h3⟩ | ⟨q, h1, h2⟩
    · rw [h1] at hin; cases hin
    · rw [h1, List.mem_singleton] at hin
      subst hin
      have hw : work c = left p := by simp [work, h1]
      have hgo : ∀ (c' : Conf) (b : Pc), c'.ths = c.ths.set i b → busy b = true → Phase c' b → left b < left p →
          ((∀ v ∈ c.servers, v.active = 0) → ∀ v ∈ c'.servers, v.active = 0) → Ok c' ∧
            (∀ q, some p = some q → busy q = true → (∀ v ∈ c.servers, v.active = 0) →
              work c' < work c ∧ ∀ v ∈ c'.servers, v.active = 0) := by
        intro c' b e1 e2 e3 e4 e5
        have e := filter_set_busy hp h1 hb (b := b)
        rw [e2, ← e1] at e
        exact ⟨.inr ⟨b, e, e3⟩, fun _ _ _ hv => ⟨by rw [hw]; simp [work, e]; exact e4, e5 hv⟩⟩
      have hset : ∀ (s : Nat) (f : Srv → Srv), (∀ v, (f v).active = v.active) → (∀ v ∈ c.servers, v.active = 0) →
          ∀ v ∈ c.servers.modify s f, v.active = 0 := by
        intro s f hf h0 v hv
        rcases mem_modify hv with hv | ⟨b, hb, rfl⟩
        · exact h0 v hv
        · rw [hf]; exact h0 b (List.mem_of_getElem? hb)
      cases p with
      | eval => exact hgo _ (.want c.exp) rfl rfl ⟨h2.1, rfl, .inr h2.2⟩ (by simp [left]) id
      | want x =>
        obtain ⟨hm, rfl, hc⟩ := h2
        simp only [hm, Bool.false_eq_true, if_false]
        rcases hc with ⟨h0, hn, hpn⟩ | ⟨h0, s, a, hsrv, hport, hget⟩
        · simp only [hn]
          exact hgo _ (.create c.exp) rfl rfl ⟨rfl, rfl, hpn⟩ (by simp [left]) id
        · simp only [hsrv]
          have e : (({ c with mu := true, srv := some s } : Conf).shut s) =
              { ({ c with mu := true, srv := some s } : Conf).upd s (fun v => { v with closing := true, listening := false }) with port := none } := by
            simp [Conf.shut, hget]
          rw [e]
          refine hgo _ (.waiting c.exp s) rfl rfl ⟨rfl, rfl, rfl, ?_⟩ (by simp [left]) ?_
          · simp only [Conf.goto, Conf.upd, List.length_modify]
            exact (List.getElem?_eq_some_iff.1 hget).1
          · exact hset s _ fun v => rfl
      | waiting x s =>
        obtain ⟨hm, rfl, hpn, hlt⟩ := h2
        dsimp only
        split
        · exact hgo _ (.create c.exp) rfl rfl ⟨hm, rfl, hpn⟩ (by simp [left]) id
        · rename_i hne
          refine ⟨.inr ⟨_, h1, hm, rfl, hpn, hlt⟩, fun _ _ _ hv => absurd ?_ hne⟩
          rw [List.getElem?_eq_getElem hlt]
          simp [hv _ (List.getElem_mem hlt)]
      | create x =>
        obtain ⟨hm, rfl, hpn⟩ := h2
        have e := filter_set_busy hp h1 hb (b := .done)
        have e' : (c.ths.set i .done ++ [Pc.serve]).filter busy = [.serve] := by
          rw [List.filter_append, e]; rfl
        refine ⟨.inr ⟨.serve, e', rfl, hpn, c.servers.length, 0, rfl, by simp⟩, fun _ _ _ hv => ⟨?_, ?_⟩⟩
        · rw [hw]; simp [work, e', left]
        · intro v hv'
          rcases List.mem_append.1 hv' with hv' | hv'
          · exact hv v hv'
          · rw [List.mem_singleton] at hv'; rw [hv']
      | serve =>
        obtain ⟨hm, hpn, s, a, hsrv, hget⟩ := h2
        simp only [hsrv]
        exact hgo _ (.check s) rfl rfl ⟨hm, hpn, a, hsrv, hget⟩ (by simp [left]) id
      | check s =>
        obtain ⟨hm, hpn, a, hsrv, hget⟩ := h2
        simp only [hget, Option.map_some, if_true]
        exact hgo _ (.bind s) rfl rfl ⟨hm, hpn, a, hsrv, hget⟩ (by simp [left]) id
      | bind s =>
        obtain ⟨hm, hpn, a, hsrv, hget⟩ := h2
        simp only [hpn, Option.isSome_none, Bool.false_eq_true, if_false]
        exact hgo _ (.track s) rfl rfl ⟨hm, rfl, a, hsrv, hget⟩ (by simp [left]) id
      | track s =>
        obtain ⟨hm, hpn, a, hsrv, hget⟩ := h2
        simp only [hget, Option.map_some, if_true]
        have e := filter_set_busy hp h1 hb (b := .accept s)
        refine ⟨.inl ⟨e, hm, s, a, hsrv, hpn, ?_⟩, fun _ _ _ hv => ⟨?_, hset s _ (fun v => rfl) hv⟩⟩
        · simp [Conf.goto, Conf.upd, hget]
        · rw [hw]
          have e' : ((c.upd s fun v => { v with listening := true }).goto i (.accept s)).ths.filter busy = [] := e
          simp [work, e', left]
      | accept s => cases hb
      | done => cases hb

theorem ok_step {c : Conf} (h : Ok c) {e : Ev} (hs : e = .restart → c.atRest) : Ok (step c e) := by
  cases e with
  | run i => exact (ok_run h i).1
  | restart =>
    have hr := hs rfl
    rcases h with ⟨h1, h2, h3⟩ | ⟨p, h1, _⟩
    · refine .inr ⟨.eval, ?_, h2, Nat.succ_pos _, h3⟩
      simp only [step, List.filter_append, h1]
      rfl
    · rw [hr] at h1; cases h1
  | request =>
    simp only [step]
    cases hs : c.serving with
    | none => exact h
    | some q =>
      have h' := ok_upd h q.1 (fun v => { v with active := v.active + 1 }) fun v => ⟨rfl, rfl, rfl⟩
      rcases h' with h' | ⟨p, h1, h2⟩
      · exact .inl h'
      · exact .inr ⟨p, h1, by cases p <;> exact h2⟩
  | finish s => exact ok_upd h s _ fun v => ⟨rfl, rfl, rfl⟩

theorem ok_exec {es : List Ev} {c : Conf} (h : Ok c) (hs : Spaced c es) : Ok (exec c es) := by
  induction es generalizing c with
  | nil => exact h
  | cons e es ih => exact ih (ok_step h hs.1) hs.2

theorem ok_begin : Ok begin := .inr ⟨.want 0, rfl, rfl, rfl, .inl ⟨rfl, rfl, rfl⟩⟩

/-- C106.  When each restart comes only after the one before is through, then whenever nothing is being restarted the port is served, and
by the exporter of the last restart. -/
theorem spaced_restarts_served_partial (es : List Ev) (hs : Spaced begin es) (hr : (exec begin es).atRest) :
    ∃ s v, (exec begin es).serving = some (s, v) ∧ v.exporter = (exec begin es).exp := by
  rcases ok_exec ok_begin hs with ⟨_, _, s, a, h1, h2, h3⟩ | ⟨p, h1, _⟩
  · exact ⟨s, ⟨(exec begin es).exp, false, true, a⟩, by simp [Conf.serving, h2, h3], rfl⟩
  · rw [hr] at h1; cases h1

/-- Steps of the goroutines alone bring a single restart to its end when no request is running. -/
theorem settles {c : Conf} (h : Ok c) (h0 : ∀ v ∈ c.servers, v.active = 0) : ∃ is : List Nat, (exec c (is.map .run)).atRest := by
  generalize hn : work c = n
  induction n using Nat.strongRecOn generalizing c with
  | ind n ih =>
  by_cases hr : c.atRest
  · exact ⟨[], hr⟩
  · obtain ⟨p, hp⟩ := List.exists_mem_of_ne_nil _ hr
    obtain ⟨hmem, hb⟩ := List.mem_filter.1 hp
    obtain ⟨i, hi⟩ := List.mem_iff_getElem?.1 hmem
    obtain ⟨h1, h2⟩ := ok_run h i
    obtain ⟨h3, h4⟩ := h2 p hi hb h0
    obtain ⟨is, his⟩ := ih _ (by rw [← hn]; exact h3) h1 h4 rfl
    exact ⟨i :: is, his⟩

theorem exec_append (c : Conf) (es es' : List Ev) : exec c (es ++ es') = exec (exec c es) es' := List.foldl_append

theorem spaced_append {c : Conf} {es es' : List Ev} : Spaced c (es ++ es') ↔ Spaced c es ∧ Spaced (exec c es) es' := by
  induction es generalizing c with
  | nil => simp [Spaced, exec]
  | cons e es ih =>
    simp only [List.cons_append, Spaced, ih, and_assoc]
    rfl

theorem spaced_runs (c : Conf) (is : List Nat) : Spaced c (is.map .run) := by
  induction is generalizing c with
  | nil => trivial
  | cons i is ih => exact ⟨(by intro h; cases h), ih _⟩

/-- C106.  A restart can always be brought to its end, and the new exporter then serves, as long as no request to an old server is
running. -/
theorem restart_completes_partial (es : List Ev) (hs : Spaced begin es) (h0 : ∀ v ∈ (exec begin es).servers, v.active = 0) :
    ∃ is : List Nat, (exec begin (es ++ is.map .run)).atRest ∧
      ∃ s v, (exec begin (es ++ is.map .run)).serving = some (s, v) ∧ v.exporter = (exec begin (es ++ is.map .run)).exp := by
  obtain ⟨is, his⟩ := settles (ok_exec ok_begin hs) h0
  rw [← exec_append] at his
  exact ⟨is, his, spaced_restarts_served_partial _ (spaced_append.2 ⟨hs, spaced_runs _ _⟩) his⟩

/-! ### A request that does not end -/

def idleAt (s : Nat) : Pc → Prop
  | .eval => True
  | .want _ => True
  | .waiting _ s' => s' = s
  | .accept _ => True
  | .done => True
  | _ => False

structure Hung (c : Conf) (s : Nat) : Prop where
  held : c.mu = true
  unbound : c.port = none
  running : ∃ v, c.servers[s]? = some v ∧ 0 < v.active
  idle : ∀ p ∈ c.ths, idleAt s p

theorem hung_goto {c : Conf} {s : Nat} (h : Hung c s) (i : Nat) {q : Pc} (hq : idleAt s q) : Hung (c.goto i q) s :=
  ⟨h.held, h.unbound, h.running, fun p hp => by
    rcases List.mem_or_eq_of_mem_set hp with hp | rfl
    · exact h.idle p hp
    · exact hq⟩

theorem hung_step {c : Conf} {s : Nat} (h : Hung c s) {e : Ev} (he : e ≠ .finish s) :
    Hung (step c e) s ∧ (step c e).answers = c.answers := by
  cases e with
  | run i =>
    simp only [step, run]
    cases hp : c.ths[i]? with
    | none => exact ⟨h, rfl⟩
    | some p =>
    have hi := h.idle p (List.mem_of_getElem? hp)
    cases p with
    | eval => exact ⟨hung_goto h i (q := .want _) trivial, rfl⟩
    | want x => simp only [h.held, if_true]; exact ⟨h, trivial⟩
    | waiting x s' =>
      have hs : s' = s := hi
      subst hs
      obtain ⟨v, hv, hv0⟩ := h.running
      have : ¬ ((c.servers[s']?.map (·.active)) = some 0) := by simp [hv]; omega
      simp only [this, if_false]
      exact ⟨h, trivial⟩
    | accept s' =>
      dsimp only
      split
      · exact ⟨h, rfl⟩
      · exact ⟨hung_goto h i (q := .done) trivial, rfl⟩
    | done => exact ⟨h, rfl⟩
    | _ => cases hi
  | restart =>
    refine ⟨⟨h.held, h.unbound, h.running, fun p hp => ?_⟩, rfl⟩
    rcases List.mem_append.1 hp with hp | hp
    · exact h.idle p hp
    · rw [List.mem_singleton] at hp; subst hp; trivial
  | request =>
    have : c.serving = none := by simp [Conf.serving, h.unbound]
    simp only [step, this]
    exact ⟨h, trivial⟩
  | finish s' =>
    have hne : s' ≠ s := fun e => he (by rw [e])
    refine ⟨⟨h.held, h.unbound, ?_, h.idle⟩, rfl⟩
    obtain ⟨v, hv, hv0⟩ := h.running
    exact ⟨v, by simp [step, Conf.upd, hv, hne], hv0⟩

theorem hung_exec {s : Nat} (es : List Ev) : ∀ {c : Conf}, Hung c s → Ev.finish s ∉ es →
    Hung (exec c es) s ∧ (exec c es).answers = c.answers := by
  induction es with
  | nil => intro c h _; exact ⟨h, rfl⟩
  | cons e es ih =>
    intro c h he
    simp only [List.mem_cons, not_or] at he
    obtain ⟨h1, h2⟩ := hung_step h (fun h' => he.1 h'.symm)
    obtain ⟨h3, h4⟩ := ih h1 he.2
    exact ⟨h3, h4.trans h2⟩

/-- C106, violation.  `Shutdown(context.Background())` waits for the requests in progress without a limit, and does so with the port closed
and `mu` held.  A restart while one request is running: until that request ends nobody answers on the port and no request is
answered, whatever else happens, further restarts included. -/
theorem hung_request_closes_port (es : List Ev) (hr : (exec begin es).atRest) {s : Nat} {v : Srv}
    (hv : (exec begin es).serving = some (s, v)) (ha : 0 < v.active) (es' : List Ev) (hf : Ev.finish s ∉ es') :
    let i := (exec begin es).ths.length
    let c := exec begin (es ++ [.restart, .run i, .run i] ++ es')
    c.serving = none ∧ c.answers = (exec begin es).answers ∧ ¬ c.atRest := by
  intro i c
  have hone := one_server es hv
  obtain ⟨hp, hget, hl⟩ := serving_some hv
  have hc : c = exec (exec (exec begin es) [.restart, .run i, .run i]) es' := by
    simp only [c, exec_append]
  have hi : i = (exec begin es).ths.length := rfl
  have hsafe : Safe c := safe_exec _
  clear_value i c
  generalize exec begin es = c0 at *
  have hrun : exec c0 [.restart, .run i, .run i] =
      { c0 with exp := c0.exp + 1, mu := true, port := none,
                servers := c0.servers.modify s (fun v => { v with closing := true, listening := false }),
                ths := c0.ths ++ [.waiting (c0.exp + 1) s] } := by
    simp [exec, step, run, hi, Conf.goto, Conf.shut, Conf.upd, hone.1, hone.2.2.1, hget, hl]
  have hh : Hung (exec c0 [.restart, .run i, .run i]) s := by
    rw [hrun]
    refine ⟨rfl, rfl, ⟨{ v with closing := true, listening := false }, by simp [hget], ha⟩, ?_⟩
    intro p hp
    rcases List.mem_append.1 hp with hp | hp
    · have : busy p = false := by
        cases hb : busy p with
        | false => rfl
        | true =>
          have : p ∈ c0.ths.filter busy := List.mem_filter.2 ⟨hp, hb⟩
          rw [hr] at this; cases this
      cases p <;> first | trivial | cases this
    · rw [List.mem_singleton] at hp; subst hp; rfl
  obtain ⟨h1, h2⟩ := hung_exec es' hh hf
  rw [← hc] at h1 h2
  refine ⟨by simp [Conf.serving, h1.unbound], by rw [h2, hrun], ?_⟩
  intro hrest
  have hcnt := hsafe.holders
  rw [h1.held] at hcnt
  obtain ⟨p, hp, hpi⟩ := List.countP_pos_iff.1 (by rw [hcnt]; decide : 0 < c.ths.countP inside)
  have : p ∈ c.ths.filter busy := List.mem_filter.2 ⟨hp, by cases p <;> first | rfl | cases hpi⟩
  rw [hrest] at this
  cases this

/-! ### Restarts that overlap -/

/-- The first server is bound but not yet registered when the restart shuts it down: the port is not closed by `Shutdown`, the second
server finds it taken, and then the first one gives it up. -/
def lostPort : List Ev :=
  [.run 0, .run 0, .run 1, .run 1, .run 1, .restart, .run 2, .run 2, .run 2, .run 2, .run 3, .run 3, .run 3, .run 1]

/-- What serves the port at rest serves it until the next restart. -/
theorem rest_stays {c : Conf} (h : c.atRest) {es : List Ev} (he : Ev.restart ∉ es) :
    (exec c es).atRest ∧ (exec c es).exp = c.exp ∧ (exec c es).serving.map (·.2.exporter) = c.serving.map (·.2.exporter) ∧
      ∀ a ∈ (exec c es).answers, a ∈ c.answers ∨ (c.serving.map (·.2.exporter) = some a.1 ∧ a.2 = c.exp) := by
  induction es generalizing c with
  | nil => exact ⟨h, rfl, rfl, fun a ha => .inl ha⟩
  | cons e es ih =>
    simp only [List.mem_cons, not_or] at he
    have hact : ∀ (s : Nat) (f : Srv → Srv), (∀ v, (f v).exporter = v.exporter ∧ (f v).listening = v.listening) →
        (c.upd s f).serving.map (·.2.exporter) = c.serving.map (·.2.exporter) := by
      intro s f hf
      simp only [Conf.serving, Conf.upd]
      cases hp : c.port with
      | none => rfl
      | some t =>
        simp only [List.getElem?_modify]
        cases hg : c.servers[t]? with
        | none => rfl
        | some v =>
          by_cases hst : s = t
          · subst hst
            simp only [if_true, Option.map_some, (hf v).2, Option.map_eq_map]
            cases v.listening <;> simp [(hf v).1]
          · simp [hst]
    have h1 : (step c e).atRest ∧ (step c e).exp = c.exp ∧
        (step c e).serving.map (·.2.exporter) = c.serving.map (·.2.exporter) ∧
        ∀ a ∈ (step c e).answers, a ∈ c.answers ∨ (c.serving.map (·.2.exporter) = some a.1 ∧ a.2 = c.exp) := by
      cases e with
      | run i =>
        simp only [step, run]
        cases hp : c.ths[i]? with
        | none => exact ⟨h, rfl, rfl, fun a ha => .inl ha⟩
        | some p =>
        cases hb : busy p with
        | true =>
          have : p ∈ c.ths.filter busy := List.mem_filter.2 ⟨List.mem_of_getElem? hp, hb⟩
          rw [h] at this; cases this
        | false =>
          cases p with
          | accept s =>
            dsimp only
            split
            · exact ⟨h, rfl, rfl, fun a ha => .inl ha⟩
            · exact ⟨(filter_set_idle hp hb rfl).trans h, rfl, rfl, fun a ha => .inl ha⟩
          | done => exact ⟨h, rfl, rfl, fun a ha => .inl ha⟩
          | _ => cases hb
      | restart => exact absurd rfl he.1
      | request =>
        simp only [step]
        cases hs : c.serving with
        | none => exact ⟨h, rfl, by rw [hs], fun a ha => .inl ha⟩
        | some q =>
          refine ⟨h, rfl, ?_, ?_⟩
          · have := hact q.1 (fun v => { v with active := v.active + 1 }) fun v => ⟨rfl, rfl⟩
            rw [hs] at this
            exact this
          · intro a ha
            rcases List.mem_append.1 ha with ha | ha
            · exact .inl ha
            · rw [List.mem_singleton] at ha
              subst ha
              exact .inr ⟨rfl, rfl⟩
      | finish s => exact ⟨h, rfl, hact s _ fun v => ⟨rfl, rfl⟩, fun a ha => .inl ha⟩
    obtain ⟨a1, a2, a3, a4⟩ := h1
    obtain ⟨b1, b2, b3, b4⟩ := ih a1 he.2
    refine ⟨b1, b2.trans a2, b3.trans a3, fun a ha => ?_⟩
    rcases b4 a ha with h | ⟨h, h'⟩
    · exact a4 a h
    · exact .inr ⟨a3 ▸ h, h'.trans a2⟩

/-- C106, violation.  A restart that comes while the server is starting can leave a process that serves nothing: at rest, no goroutine of a
server is left, and no request is answered until the next restart. -/
theorem restart_loses_port : (exec begin lostPort).atRest ∧
    ∀ es, Ev.restart ∉ es → (exec begin (lostPort ++ es)).serving = none ∧ (exec begin (lostPort ++ es)).answers = [] := by
  have hr : (exec begin lostPort).atRest := by decide +kernel
  refine ⟨hr, fun es he => ?_⟩
  obtain ⟨_, _, h3, h4⟩ := rest_stays hr he
  have h0 : (exec begin lostPort).serving = none := by decide +kernel
  have h1 : (exec begin lostPort).answers = [] := by decide +kernel
  rw [exec_append]
  rw [h0] at h3 h4
  rw [h1] at h4
  refine ⟨Option.map_eq_none_iff.1 h3, List.eq_nil_iff_forall_not_mem.2 fun a ha => ?_⟩
  rcases h4 a ha with h | ⟨h, _⟩ <;> cases h

/-- Two restarts; the goroutine of the second takes `mu` first. -/
def swapped : List Ev :=
  [.run 0, .run 0, .run 1, .run 1, .run 1, .run 1, .restart, .run 2, .restart, .run 3, .run 3, .run 3, .run 3,
   .run 4, .run 4, .run 4, .run 4, .run 2, .run 2, .run 2, .run 5, .run 5, .run 5, .run 5]

/-- C106, violation.  Two restarts whose goroutines take `mu` in the other order: until the next restart all requests are answered by
the exporter of the first restart, which no meter writes to any more. -/
theorem restarts_swap : (exec begin swapped).atRest ∧ (exec begin swapped).exp = 2 ∧
    ∀ es, Ev.restart ∉ es → (exec begin (swapped ++ es)).serving.map (·.2.exporter) = some 1 ∧
      ∀ a ∈ (exec begin (swapped ++ es)).answers, a = (1, 2) := by
  have hr : (exec begin swapped).atRest := by decide +kernel
  refine ⟨hr, by decide +kernel, fun es he => ?_⟩
  obtain ⟨_, _, h3, h4⟩ := rest_stays hr he
  have h0 : (exec begin swapped).serving.map (·.2.exporter) = some 1 := by decide +kernel
  have h1 : (exec begin swapped).answers = [] := by decide +kernel
  have h2 : (exec begin swapped).exp = 2 := by decide +kernel
  rw [exec_append]
  rw [h0] at h3 h4
  rw [h1, h2] at h4
  refine ⟨h3, fun a ha => ?_⟩
  rcases h4 a ha with h | ⟨h, h'⟩
  · cases h
  · obtain ⟨x, y⟩ := a
    simp only [Option.some.injEq] at h
    simp only at h'
    rw [← h, h']

/-! ### Cases -/

/-- A start, a request that ends, a restart, a request. -/
def smooth : List Ev :=
  [.run 0, .run 0, .run 1, .run 1, .run 1, .run 1, .request, .finish 0, .restart, .run 2, .run 2, .run 2, .run 2,
   .run 3, .run 3, .run 3, .run 3, .request]

def spacedB : Conf → List Ev → Bool
  | _, [] => true
  | c, e :: es => (e != .restart || decide c.atRest) && spacedB (step c e) es

theorem spaced_of (c : Conf) (es : List Ev) (h : spacedB c es = true) : Spaced c es := by
  induction es generalizing c with
  | nil => trivial
  | cons e es ih =>
    simp only [spacedB, Bool.and_eq_true, Bool.or_eq_true, bne_iff_ne, decide_eq_true_eq] at h
    exact ⟨fun he => h.1.resolve_left fun hn => hn he, ih _ h.2⟩

example : Spaced begin smooth ∧ (exec begin smooth).atRest ∧ (exec begin smooth).answers = [(0, 0), (1, 1)] :=
  ⟨spaced_of _ _ (by decide +kernel), by decide +kernel, by decide +kernel⟩

example : ∃ is : List Nat, (exec begin (smooth.take 9 ++ is.map .run)).atRest ∧ ∃ s v,
    (exec begin (smooth.take 9 ++ is.map .run)).serving = some (s, v) ∧ v.exporter = (exec begin (smooth.take 9 ++ is.map .run)).exp :=
  restart_completes_partial _ (spaced_of _ _ (by decide +kernel)) (by decide +kernel)

/-- A request is running, and a restart: ten more restarts and requests change nothing. -/
example : (exec begin (smooth.take 7 ++ [.restart, .run 2, .run 2] ++ (List.replicate 10 [Ev.restart, .run 2, .request]).flatten)).serving = none :=
  (hung_request_closes_port (smooth.take 7) (by decide +kernel) (s := 0) (v := ⟨0, false, true, 1⟩)
    (by decide +kernel) (by decide) _ (by decide +kernel)).1

example : (exec begin (smooth.take 6)).serving = some (0, ⟨0, false, true, 0⟩) := by decide +kernel

end Kindling.Export.Server
