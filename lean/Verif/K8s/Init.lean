import Verif.Cpu.Java
import Verif.K8s.Pods
/-
How the agent and the metadata provider connect to Kubernetes: metadata/kubernetes/initk8s.go:20-110, 132-214, config.go,
processor/k8sprocessor/kubernetes_processor.go:33-79, helper.go, config.go, metaprovider/service/service.go:60-122.

Given: loading a file of credentials, the credentials of the pod and the making of a client from them (client-go).  A goroutine that was
started is an entry of a list; what the watchers do is modelled in Nodes, ReplicaSets, Services, Pods and Provider.
-/
namespace Kindling.K8s.Init
open Kindling

/-- `rest.Config` (the fields set here); `noProxy` is `WrapTransport` (initk8s.go:204-211). -/
structure Rest where
  host : Bytes
  insecure : Bool
  noProxy : Bool
deriving DecidableEq

/-- What the process finds: the environment, the credentials at a path, those of its pod, whether a client can be made. -/
structure Env where
  var : Bytes → Option Bytes
  load : Bytes → Option Rest
  cluster : Option Rest
  client : Rest → Bool

/-- `os.Getenv`. -/
def Env.get (e : Env) (k : Bytes) : Bytes := (e.var k).getD []

/-- `MetaDataProviderConfig` (config.go:31-38). -/
structure Mp where
  enable : Bool
  trace : Bool
  endpoint : Bytes
deriving DecidableEq

/-- `config` (config.go:10-29); of the functions only whether they are there. -/
structure Cfg where
  auth : Bytes
  dir : Bytes
  grace : Int
  rs : Bool
  mp : Option Mp
  list : Bool
  podH : Bool
  rsH : Bool
  nodeH : Bool
  serviceH : Bool
deriving DecidableEq

def noneT : Bytes := bs "none"
def saT : Bytes := bs "serviceAccount"
def kcT : Bytes := bs "kubeConfig"
/-- `DefaultKubeConfigPath`, `DefaultGraceDeletePeriod` (initk8s.go:29-31). -/
def defaultPath : Bytes := bs "~/.kube/config"
def defaultGrace : Int := 60000000000

/-- `time.Duration(interval) * time.Second` (config.go:60): 64-bit arithmetic. -/
def seconds (i : Int) : Int := (i * 1000000000).bmod (2 ^ 64)

/-- The options (config.go:44-101). -/
inductive Opt
  | auth (a : Bytes)
  | dir (d : Bytes)
  | grace (i : Int)
  | rs (b : Bool)
  | mp (m : Option Mp)
  | podH
  | serviceH
  | nodeH
  | rsH
deriving DecidableEq

def Opt.set (c : Cfg) : Opt → Cfg
  | .auth a => { c with auth := a }
  | .dir d => { c with dir := d }
  | .grace i => { c with grace := seconds i }
  | .rs b => { c with rs := b }
  | .mp m => { c with mp := m, list := true }
  | .podH => { c with podH := true }
  | .serviceH => { c with serviceH := true }
  | .nodeH => { c with nodeH := true }
  | .rsH => { c with rsH := true }

/-- The configuration that the options start from (initk8s.go:70-75). -/
def dflt : Cfg := ⟨kcT, defaultPath, defaultGrace, false, none, false, false, false, false, false⟩
def configOf (l : List Opt) : Cfg := l.foldl Opt.set dflt

/-- `net.JoinHostPort`: brackets around a host with a colon or a percent sign. -/
def bracket (h : Bytes) : Bytes := if 58 ∈ h ∨ 37 ∈ h then 91 :: (h ++ [93]) else h
def join (h p : Bytes) : Bytes := bracket h ++ 58 :: p

/-- `Validate` (initk8s.go:51-57) with `authTypes` (34-38). -/
def valid (auth : Bytes) : Bool := decide (auth = noneT ∨ auth = saT ∨ auth = kcT)

/-- `createRestConfig` (initk8s.go:162-214).  `panic`: `authConf` is nil at 204. -/
def restConfig (e : Env) (auth path : Bytes) : Res Rest :=
  let host := e.get (bs "KUBERNETES_SERVICE_HOST")
  let port := e.get (bs "KUBERNETES_SERVICE_PORT")
  if auth ≠ kcT ∧ (host = [] ∨ port = []) then .err
  else
    let conf : Res (Option Rest) :=
      if auth = kcT then (match e.load (if path = [] then defaultPath else path) with | some r => .ok (some r) | none => .err)
      else if auth = noneT then .ok (some ⟨bs "https://" ++ join host port, true, false⟩)
      else if auth = saT then (match e.cluster with | some r => .ok (some r) | none => .err)
      else .ok none
    match conf with
    | .ok (some r) => .ok { r with noProxy := true }
    | .ok none => .panic
    | .err => .err
    | .panic => .panic

/-- `makeClient` (initk8s.go:143-159): the configuration of the client. -/
def makeClient (e : Env) (auth path : Bytes) : Res Rest :=
  if !valid auth then .err
  else match restConfig e auth path with
    | .ok r => if e.client r then .ok r else .err
    | .err => .err
    | .panic => .panic

/-- The goroutines; a watcher has its own handler or that of the configuration.  `pods` starts a loop of delayed deletions itself
(pod_watch.go:186); `provider true` has a function to call. -/
inductive Job
  | nodes (own : Bool)
  | replicaSets (own : Bool)
  | services (own : Bool)
  | pods (grace : Int) (own : Bool)
  | deletes (grace : Int)
  | provider (f : Bool)
deriving DecidableEq

/-- `once`, `IsInitSuccess`, `MyNodeName` (initk8s.go:59-64) and what was started. -/
structure St where
  done : Bool
  ok : Bool
  node : Bytes
  jobs : List Job
deriving DecidableEq

def fresh : St := ⟨false, false, [], []⟩

/-- `initWatcherFromAPIServer` (initk8s.go:89-110). -/
def fromApi (e : Env) (c : Cfg) (s : St) : St × Res Unit := match makeClient e c.auth c.dir with
  | .ok _ => ({ s with ok := true, jobs := s.jobs ++ [.nodes c.nodeH] ++ (if c.rs then [.replicaSets c.rsH] else []) ++ [.services c.serviceH] ++
      [.pods c.grace c.podH] }, .ok ())
  | .err => (s, .err)
  | .panic => (s, .panic)

/-- `initWatcherFromMetadataProvider` (initk8s.go:112-118). -/
def fromProvider (c : Cfg) (s : St) : St × Res Unit := ({ s with jobs := s.jobs ++ [.deletes c.grace, .provider c.list] }, .ok ())

/-- `InitK8sHandler` (initk8s.go:66-87). -/
def initHandler (e : Env) (l : List Opt) (s : St) : St × Res Unit :=
  if s.done then (s, .ok ())
  else
    let s := { s with done := true, node := e.get (bs "MY_NODE_NAME") }
    let c := configOf l
    match c.mp with
    | some m => if m.enable then fromProvider c s else fromApi e c s
    | none => fromApi e c s

/-- `Config` of the processor (k8sprocessor/config.go:7-30). -/
structure PCfg where
  auth : Bytes
  dir : Bytes
  grace : Int
  rs : Bool
  enable : Bool
  mp : Option Mp
deriving DecidableEq

/-- `K8sMetadataProcessor`: what it knows of its node. -/
structure Proc where
  ip : Bytes
  name : Bytes
deriving DecidableEq

/-- `getValueFromEnv` (helper.go:16-22). -/
def fromEnv (e : Env) (k : Bytes) : Bytes := (e.var k).getD (bs "unknown")

/-- The options of the processor (kubernetes_processor.go:47-57). -/
def procOpts (p : PCfg) : List Opt :=
  [.auth p.auth, .dir p.dir, .grace p.grace, .rs p.rs] ++ (match p.mp with
    | some m => if m.enable then [.mp (some m)] else []
    | none => [])

/-- `NewKubernetesProcessor` (kubernetes_processor.go:33-79) for a configuration of its type; an error becomes a panic. -/
def newProcessor (e : Env) (p : PCfg) (s : St) : St × Res Proc :=
  if !p.enable then (s, .ok ⟨[], []⟩)
  else match initHandler e (procOpts p) s with
    | (s', .ok ()) => (s', .ok ⟨fromEnv e (bs "MY_NODE_IP"), fromEnv e (bs "MY_NODE_NAME")⟩)
    | (s', _) => (s', .panic)

/-- The options of the metadata provider (service.go:91-122). -/
def serverOpts (auth dir : Bytes) (rs : Bool) : List Opt :=
  [.auth auth, .dir dir, .grace 0, .rs rs, .podH, .rsH, .nodeH, .serviceH]

/-! ### Specification -/

/-- The API server can be used: credentials of the chosen kind are there, and a client can be made from them. -/
def Usable (e : Env) (auth path : Bytes) : Prop :=
  (auth = kcT ∧ ∃ r, e.load (if path = [] then defaultPath else path) = some r ∧ e.client { r with noProxy := true } = true) ∨
  (∃ h p, e.var (bs "KUBERNETES_SERVICE_HOST") = some h ∧ e.var (bs "KUBERNETES_SERVICE_PORT") = some p ∧ h ≠ [] ∧ p ≠ [] ∧
    ((auth = noneT ∧ e.client ⟨bs "https://" ++ join h p, true, true⟩ = true) ∨
     (auth = saT ∧ ∃ r, e.cluster = some r ∧ e.client { r with noProxy := true } = true)))

/-- The provider is to be asked. -/
def Asks (p : PCfg) : Prop := ∃ m, p.mp = some m ∧ m.enable = true

/-- The watchers of the API server, in the order in which they start. -/
def watchers (grace : Int) (rs own : Bool) : List Job :=
  .nodes own :: (if rs then [.replicaSets own] else []) ++ [.services own, .pods grace own]

/-! ### Options -/

def authOf : Opt → Option Bytes | .auth a => some a | _ => none
def dirOf : Opt → Option Bytes | .dir a => some a | _ => none
def graceOf : Opt → Option Int | .grace a => some (seconds a) | _ => none
def rsOf : Opt → Option Bool | .rs a => some a | _ => none
def mpOf : Opt → Option (Option Mp) | .mp a => some a | _ => none

theorem fold_field {α : Type} (f : Cfg → α) (g : Opt → Option α) (h : ∀ c o, f (o.set c) = (g o).getD (f c)) (l : List Opt) :
    f (configOf l) = ((l.filterMap g).getLast?).getD (f dflt) := by
  unfold configOf
  induction l using snoc_ind with
  | nil => rfl
  | snoc l o ih =>
    rw [List.foldl_append, List.foldl_cons, List.foldl_nil, h, List.filterMap_append]
    cases hg : g o with
    | none => simp [hg, ih]
    | some v => simp [hg]

/-- The last option of a kind counts; without one the default. -/
theorem last_option_counts (l : List Opt) :
    (configOf l).auth = ((l.filterMap authOf).getLast?).getD kcT ∧ (configOf l).dir = ((l.filterMap dirOf).getLast?).getD defaultPath ∧
    (configOf l).grace = ((l.filterMap graceOf).getLast?).getD defaultGrace ∧ (configOf l).rs = ((l.filterMap rsOf).getLast?).getD false ∧
    (configOf l).mp = ((l.filterMap mpOf).getLast?).getD none :=
  ⟨fold_field _ authOf (fun c o => by cases o <;> rfl) l, fold_field _ dirOf (fun c o => by cases o <;> rfl) l,
   fold_field _ graceOf (fun c o => by cases o <;> rfl) l, fold_field _ rsOf (fun c o => by cases o <;> rfl) l,
   fold_field _ mpOf (fun c o => by cases o <;> rfl) l⟩

/-! ### The client -/

theorem types_differ : kcT ≠ noneT ∧ kcT ≠ saT ∧ noneT ≠ saT := by decide +kernel

theorem get_ne (e : Env) (k : Bytes) : e.get k ≠ [] ↔ ∃ v, e.var k = some v ∧ v ≠ [] := by
  unfold Env.get
  cases e.var k <;> simp

/-- A client is made exactly if the API server can be used; otherwise there is an error.  There is no third case: the nil configuration of
an unknown kind of credentials is not reached. -/
theorem client_iff (e : Env) (auth path : Bytes) :
    (Usable e auth path → ∃ r, makeClient e auth path = .ok r ∧ r.noProxy = true) ∧ (¬ Usable e auth path → makeClient e auth path = .err) := by
  obtain ⟨d1, d2, d3⟩ := types_differ
  by_cases hk : auth = kcT
  · have hv : valid kcT = true := by unfold valid; simp
    have hu : Usable e auth path ↔ ∃ r, e.load (if path = [] then defaultPath else path) = some r ∧ e.client { r with noProxy := true } = true := by
      unfold Usable
      constructor
      · rintro (⟨_, h⟩ | ⟨_, _, _, _, _, _, h | h⟩)
        · exact h
        · exact absurd (hk.symm.trans h.1) d1
        · exact absurd (hk.symm.trans h.1) d2
      · exact fun h => Or.inl ⟨hk, h⟩
    rw [hu]
    unfold makeClient restConfig
    simp only [hv, hk, Bool.not_true, Bool.false_eq_true, if_false, if_true, ne_eq, not_true, false_and]
    cases e.load (if path = [] then defaultPath else path) with
    | none => simp
    | some r =>
      simp only [Option.some.injEq, exists_eq_left']
      cases e.client { r with noProxy := true } <;> simp
  · by_cases hh : e.get (bs "KUBERNETES_SERVICE_HOST") = [] ∨ e.get (bs "KUBERNETES_SERVICE_PORT") = []
    · have hu : ¬ Usable e auth path := by
        rintro (⟨h, _⟩ | ⟨h, p, hh1, hp1, hh2, hp2, _⟩)
        · exact hk h
        · rcases hh with hh | hh
          · exact (get_ne e _).2 ⟨h, hh1, hh2⟩ hh
          · exact (get_ne e _).2 ⟨p, hp1, hp2⟩ hh
      refine ⟨fun h => absurd h hu, fun _ => ?_⟩
      unfold makeClient restConfig
      split
      · rfl
      · simp only [ne_eq, hk, not_false_iff, hh, and_self, if_true]
    · have hh' := not_or.1 hh
      obtain ⟨h, hv1, hn1⟩ := (get_ne e _).1 hh'.1
      obtain ⟨p, hv2, hn2⟩ := (get_ne e _).1 hh'.2
      have g1 : e.get (bs "KUBERNETES_SERVICE_HOST") = h := by unfold Env.get; rw [hv1]; rfl
      have g2 : e.get (bs "KUBERNETES_SERVICE_PORT") = p := by unfold Env.get; rw [hv2]; rfl
      have hu : Usable e auth path ↔ (auth = noneT ∧ e.client ⟨bs "https://" ++ join h p, true, true⟩ = true) ∨
          (auth = saT ∧ ∃ r, e.cluster = some r ∧ e.client { r with noProxy := true } = true) := by
        unfold Usable
        constructor
        · rintro (⟨h, _⟩ | ⟨h', p', e1, e2, _, _, hr⟩)
          · exact absurd h hk
          · cases e1.symm.trans hv1
            cases e2.symm.trans hv2
            exact hr
        · exact fun hr => Or.inr ⟨h, p, hv1, hv2, hn1, hn2, hr⟩
      rw [hu]
      by_cases hn : auth = noneT
      · subst hn
        have hv : valid noneT = true := by unfold valid; simp
        unfold makeClient restConfig
        simp only [hv, hk, g1, g2, hn1, hn2, Bool.not_true, Bool.false_eq_true, if_false, if_true, or_self, and_false, true_and]
        cases e.client ⟨bs "https://" ++ join h p, true, true⟩ with
        | true => simp
        | false => simp [d3]
      · by_cases hs : auth = saT
        · subst hs
          have hv : valid saT = true := by unfold valid; simp
          unfold makeClient restConfig
          simp only [hv, hk, hn, g1, g2, hn1, hn2, Bool.not_true, Bool.false_eq_true, if_false, if_true, or_self, and_false, true_and,
            false_and, false_or]
          cases e.cluster with
          | none => simp
          | some r =>
            simp only [Option.some.injEq, exists_eq_left']
            cases e.client { r with noProxy := true } <;> simp
        · have hv : valid auth = false := by unfold valid; simp [hk, hn, hs]
          unfold makeClient
          simp [hv, hn, hs]

/-- Finding (latent): without the check of `Validate` an unknown kind of credentials would be a nil dereference. -/
theorem unknown_kind_needs_check (e : Env) (auth path h p : Bytes) (hv : valid auth = false)
    (hh : e.var (bs "KUBERNETES_SERVICE_HOST") = some h) (hp : e.var (bs "KUBERNETES_SERVICE_PORT") = some p) (h0 : h ≠ []) (p0 : p ≠ []) :
    restConfig e auth path = .panic ∧ makeClient e auth path = .err := by
  have hv' : ¬ (auth = noneT ∨ auth = saT ∨ auth = kcT) := of_decide_eq_false hv
  have n1 : auth ≠ noneT := fun h => hv' (Or.inl h)
  have n2 : auth ≠ saT := fun h => hv' (Or.inr (Or.inl h))
  have n3 : auth ≠ kcT := fun h => hv' (Or.inr (Or.inr h))
  have g1 : e.get (bs "KUBERNETES_SERVICE_HOST") = h := by unfold Env.get; rw [hh]; rfl
  have g2 : e.get (bs "KUBERNETES_SERVICE_PORT") = p := by unfold Env.get; rw [hp]; rfl
  constructor
  · unfold restConfig
    simp only [n1, n2, n3, g1, g2, h0, p0, or_self, and_false, if_false]
  · unfold makeClient
    rw [hv]
    rfl

/-- The address says host and port: two pairs with the same address are equal (a port has no colon). -/
theorem join_inj {h p h' p' : Bytes} (hp : (58 : UInt8) ∉ p) (hp' : (58 : UInt8) ∉ p') (he : join h p = join h' p') : h = h' ∧ p = p' := by
  have split : ∀ (a a' b b' : Bytes), (58 : UInt8) ∉ b → (58 : UInt8) ∉ b' → a ++ 58 :: b = a' ++ 58 :: b' → a = a' ∧ b = b' := by
    intro a
    induction a with
    | nil =>
      intro a' b b' hb hb' h
      cases a' with
      | nil => exact ⟨rfl, (List.cons.inj h).2⟩
      | cons x a' =>
        have := (List.cons.inj h).2
        exact absurd (by rw [this]; simp) hb
    | cons x a ih =>
      intro a' b b' hb hb' h
      cases a' with
      | nil =>
        have := (List.cons.inj h).2
        exact absurd (by rw [← this]; simp) hb'
      | cons y a' =>
        obtain ⟨h1, h2⟩ := List.cons.inj h
        obtain ⟨h3, h4⟩ := ih a' b b' hb hb' h2
        exact ⟨by rw [h1, h3], h4⟩
  obtain ⟨hb, hpp⟩ := split _ _ _ _ hp hp' he
  refine ⟨?_, hpp⟩
  unfold bracket at hb
  split at hb
  · rename_i h1
    split at hb
    · exact List.append_cancel_right (List.cons.inj hb).2
    · rename_i h2
      exact absurd (by rw [← hb]; rcases h1 with h1 | h1 <;> simp [h1]) h2
  · rename_i h1
    split at hb
    · rename_i h2
      exact absurd (by rw [hb]; rcases h2 with h2 | h2 <;> simp [h2]) h1
    · exact hb

/-! ### The agent -/

theorem procOpts_config (p : PCfg) : configOf (procOpts p) =
    ⟨p.auth, p.dir, seconds p.grace, p.rs, (match p.mp with | some m => if m.enable then some m else none | none => none),
      (match p.mp with | some m => m.enable | none => false), false, false, false, false⟩ := by
  obtain ⟨a, d, g, r, en, mp⟩ := p
  cases mp with
  | none => rfl
  | some m =>
    obtain ⟨me, mt, mep⟩ := m
    cases me <;> rfl

/-- How an enabled processor starts.  With a provider: the loop of delayed deletions and the goroutine that asks the provider, whatever the
environment.  Without: the watchers of nodes, of replica sets if wanted, of services, then of pods, if the API server can be used; else the
agent panics, and nothing was started. -/
theorem processor_starts (e : Env) (p : PCfg) (s : St) (hs : s.done = false) (hp : p.enable = true) :
    (Asks p → (newProcessor e p s).1.jobs = s.jobs ++ [.deletes (seconds p.grace), .provider true] ∧ ∃ q, (newProcessor e p s).2 = .ok q) ∧
    (¬ Asks p → Usable e p.auth p.dir → (newProcessor e p s).1.jobs = s.jobs ++ watchers (seconds p.grace) p.rs false ∧
      ∃ q, (newProcessor e p s).2 = .ok q) ∧
    (¬ Asks p → ¬ Usable e p.auth p.dir → (newProcessor e p s).1.jobs = s.jobs ∧ (newProcessor e p s).2 = .panic) := by
  have hc := procOpts_config p
  refine ⟨?_, ?_, ?_⟩
  · rintro ⟨m, hm, hme⟩
    unfold newProcessor initHandler
    simp only [hp, hs, hc, hm, hme, Bool.not_true, Bool.false_eq_true, if_false, if_true, fromProvider]
    exact ⟨trivial, _, rfl⟩
  · intro ha hu
    obtain ⟨r, hr, _⟩ := (client_iff e p.auth p.dir).1 hu
    have hmp : (match p.mp with | some m => if m.enable then some m else none | none => none) = none := by
      cases h : p.mp with
      | none => rfl
      | some m =>
        have : m.enable = false := by
          cases hm : m.enable with
          | false => rfl
          | true => exact absurd ⟨m, h, hm⟩ ha
        simp [this]
    unfold newProcessor initHandler
    simp only [hp, hs, hc, hmp, Bool.not_true, Bool.false_eq_true, if_false, fromApi, hr]
    refine ⟨?_, _, rfl⟩
    unfold watchers
    simp
  · intro ha hu
    have hr := (client_iff e p.auth p.dir).2 hu
    have hmp : (match p.mp with | some m => if m.enable then some m else none | none => none) = none := by
      cases h : p.mp with
      | none => rfl
      | some m =>
        have : m.enable = false := by
          cases hm : m.enable with
          | false => rfl
          | true => exact absurd ⟨m, h, hm⟩ ha
        simp [this]
    unfold newProcessor initHandler
    simp only [hp, hs, hc, hmp, Bool.not_true, Bool.false_eq_true, if_false, fromApi, hr]
    exact ⟨trivial, trivial⟩

/-- Whoever calls: the provider is asked exactly if the options end in an enabled one; nothing else is watched then. -/
theorem handler_asks_iff (e : Env) (l : List Opt) (s : St) (hs : s.done = false) :
    (∀ m, (configOf l).mp = some m → m.enable = true →
      (initHandler e l s).1.jobs = s.jobs ++ [.deletes (configOf l).grace, .provider (configOf l).list] ∧ (initHandler e l s).2 = .ok ()) ∧
    ((∀ m, (configOf l).mp = some m → m.enable = false) → ∀ j ∈ (initHandler e l s).1.jobs, j ∈ s.jobs ∨ ∀ f, j ≠ .provider f) := by
  constructor
  · intro m hm hme
    unfold initHandler
    simp only [hs, hm, hme, Bool.false_eq_true, if_false, if_true, fromProvider]
    exact ⟨trivial, trivial⟩
  · intro h j hj
    have ha : ∀ (c : Cfg) (t : St), j ∈ (fromApi e c t).1.jobs → j ∈ t.jobs ∨ ∀ f, j ≠ .provider f := by
      intro c t hj
      unfold fromApi at hj
      split at hj
      · simp only [List.mem_append, List.mem_singleton] at hj
        rcases hj with (((hj | hj) | hj) | hj) | hj
        · exact Or.inl hj
        · exact Or.inr (fun f hf => by rw [hj] at hf; cases hf)
        · refine Or.inr (fun f hf => ?_)
          split at hj
          · rw [List.mem_singleton] at hj
            rw [hj] at hf
            cases hf
          · cases hj
        · exact Or.inr (fun f hf => by rw [hj] at hf; cases hf)
        · exact Or.inr (fun f hf => by rw [hj] at hf; cases hf)
      · exact Or.inl hj
      · exact Or.inl hj
    unfold initHandler at hj
    simp only [hs, Bool.false_eq_true, if_false] at hj
    split at hj
    · rename_i m hm
      rw [h m hm, if_neg (by decide)] at hj
      exact ha _ { s with done := true, node := e.get (bs "MY_NODE_NAME") } hj
    · exact ha _ { s with done := true, node := e.get (bs "MY_NODE_NAME") } hj

/-- A disabled processor connects to nothing and cannot fail. -/
theorem disabled_connects_to_nothing (e : Env) (p : PCfg) (s : St) (hp : p.enable = false) : newProcessor e p s = (s, .ok ⟨[], []⟩) := by
  unfold newProcessor
  rw [hp]
  rfl

/-- Whatever is called how often, and whether it fails: the watchers are started at most once. -/
theorem started_once (l : List (Env × List Opt)) (e : Env) (o : List Opt) (s : St) :
    (l.foldl (fun s c => (initHandler c.1 c.2 s).1) (initHandler e o s).1) = (initHandler e o s).1 := by
  have hd : (initHandler e o s).1.done = true := by
    unfold initHandler
    cases h : s.done with
    | true => simpa using h
    | false =>
      have ha : ∀ (c : Cfg) (t : St), t.done = true → (fromApi e c t).1.done = true := by
        intro c t ht
        unfold fromApi
        split <;> exact ht
      simp only [Bool.false_eq_true, if_false]
      split
      · split
        · rfl
        · exact ha _ _ rfl
      · exact ha _ _ rfl
  generalize (initHandler e o s).1 = t at hd ⊢
  induction l with
  | nil => rfl
  | cons c r ih =>
    rw [List.foldl_cons, show (initHandler c.1 c.2 t).1 = t by unfold initHandler; rw [hd]; rfl]
    exact ih

/-- Finding: if the first call fails, a second one reports success though nothing runs (the agent has one processor, which panics
at the first). -/
theorem second_call_hides_failure (e e' : Env) (o o' : List Opt) (s : St) (hs : s.done = false) (hf : (initHandler e o s).2 ≠ .ok ()) :
    (initHandler e' o' (initHandler e o s).1).2 = .ok () ∧ (initHandler e' o' (initHandler e o s).1).1.jobs = s.jobs := by
  have ha : ∀ (c : Cfg) (t : St), (fromApi e c t).2 ≠ .ok () → (fromApi e c t).1 = t := by
    intro c t h
    unfold fromApi at h ⊢
    split
    · rename_i hr
      rw [hr] at h
      exact absurd rfl h
    · rfl
    · rfl
  have h1 : (initHandler e o s).1.done = true ∧ (initHandler e o s).1.jobs = s.jobs := by
    unfold initHandler at hf ⊢
    simp only [hs, Bool.false_eq_true, if_false] at hf ⊢
    split at hf
    · split at hf
      · exact absurd rfl hf
      · rename_i hm hme
        simp only [hme, Bool.false_eq_true, if_false]
        rw [ha _ _ hf]
        exact ⟨rfl, rfl⟩
    · rename_i hm
      rw [ha _ _ hf]
      exact ⟨rfl, rfl⟩
  have again : ∀ t : St, t.done = true → initHandler e' o' t = (t, .ok ()) := by
    intro t ht
    unfold initHandler
    rw [ht]
    rfl
  have h2 := again _ h1.1
  rw [h2]
  exact ⟨rfl, h1.2⟩

/-- A configured period within range is the period of the deletions; there is no lower limit (config.go:14 asks for 30 seconds). -/
theorem grace_exact (i : Int) (h : -9223372036 ≤ i) (h' : i ≤ 9223372036) : seconds i = i * 1000000000 := by
  unfold seconds
  rw [Int.bmod_def]
  have : i * 1000000000 % ((2 ^ 64 : Nat) : Int) = if 0 ≤ i then i * 1000000000 else i * 1000000000 + ((2 ^ 64 : Nat) : Int) := by
    split <;> omega
  rw [this]
  split <;> split <;> omega

/-- Finding: one second more than the range holds is a negative period, so that a deleted pod is forgotten at once. -/
theorem grace_wraps : seconds 9223372037 < 0 := by decide

/-- The processor and the watchers take the name of the node from the same variable; if it is not set, they know it by two names. -/
theorem node_names (e : Env) (p : PCfg) (s : St) (hs : s.done = false) (hp : p.enable = true) (q : Proc) (hq : (newProcessor e p s).2 = .ok q) :
    (∀ n, e.var (bs "MY_NODE_NAME") = some n → q.name = n ∧ (newProcessor e p s).1.node = n) ∧
    (e.var (bs "MY_NODE_NAME") = none → q.name = bs "unknown" ∧ (newProcessor e p s).1.node = []) := by
  have hnode : (initHandler e (procOpts p) s).1.node = e.get (bs "MY_NODE_NAME") := by
    have ha : ∀ (c : Cfg) (t : St), (fromApi e c t).1.node = t.node := by
      intro c t
      unfold fromApi
      split <;> rfl
    unfold initHandler
    simp only [hs, Bool.false_eq_true, if_false]
    split
    · split
      · rfl
      · exact ha _ _
    · exact ha _ _
  have hname : q.name = fromEnv e (bs "MY_NODE_NAME") ∧ (newProcessor e p s).1.node = e.get (bs "MY_NODE_NAME") := by
    unfold newProcessor at hq ⊢
    simp only [hp, Bool.not_true, Bool.false_eq_true, if_false] at hq ⊢
    rw [← hnode]
    revert hq
    rcases initHandler e (procOpts p) s with ⟨s', r⟩
    cases r with
    | ok u => intro hq; cases hq; exact ⟨rfl, rfl⟩
    | err => intro hq; cases hq
    | panic => intro hq; cases hq
  rw [hname.1, hname.2]
  unfold fromEnv Env.get
  constructor
  · intro n hn
    rw [hn]
    exact ⟨rfl, rfl⟩
  · intro hn
    rw [hn]
    exact ⟨rfl, rfl⟩

/-! ### The metadata provider -/

/-- The server side watches the API server with its own handlers, never another provider, and forgets deleted pods without delay. -/
theorem server_starts (e : Env) (auth dir : Bytes) (rs : Bool) :
    (Usable e auth dir → initHandler e (serverOpts auth dir rs) fresh =
      (⟨true, true, e.get (bs "MY_NODE_NAME"), watchers 0 rs true⟩, .ok ())) ∧
    (¬ Usable e auth dir → (initHandler e (serverOpts auth dir rs) fresh).2 = .err ∧ (initHandler e (serverOpts auth dir rs) fresh).1.jobs = []) := by
  have hc : configOf (serverOpts auth dir rs) = ⟨auth, dir, 0, rs, none, false, true, true, true, true⟩ := rfl
  constructor
  · intro hu
    obtain ⟨r, hr, _⟩ := (client_iff e auth dir).1 hu
    unfold initHandler
    simp only [fresh, hc, Bool.false_eq_true, if_false, fromApi, hr]
    unfold watchers
    simp
  · intro hu
    have hr := (client_iff e auth dir).2 hu
    unfold initHandler
    simp only [fresh, hc, Bool.false_eq_true, if_false, fromApi, hr]
    exact ⟨trivial, trivial⟩

/-! ### The mark -/

/-- `IsInitSuccess` says that the watchers of the API server run; with a provider it stays false. -/
theorem mark_iff (e : Env) (p : PCfg) (hp : p.enable = true) :
    (newProcessor e p fresh).1.ok = true ↔ ¬ Asks p ∧ Usable e p.auth p.dir := by
  have hc := procOpts_config p
  by_cases ha : Asks p
  · obtain ⟨m, hm, hme⟩ := ha
    unfold newProcessor initHandler
    simp only [fresh, hp, hc, hm, hme, Bool.not_true, Bool.false_eq_true, if_false, if_true, fromProvider]
    constructor
    · intro h; cases h
    · exact fun h => absurd ⟨m, hm, hme⟩ h.1
  · have hmp : (match p.mp with | some m => if m.enable then some m else none | none => none) = none := by
      cases h : p.mp with
      | none => rfl
      | some m =>
        have : m.enable = false := by
          cases hm : m.enable with
          | false => rfl
          | true => exact absurd ⟨m, h, hm⟩ ha
        simp [this]
    by_cases hu : Usable e p.auth p.dir
    · obtain ⟨r, hr, _⟩ := (client_iff e p.auth p.dir).1 hu
      unfold newProcessor initHandler
      simp only [fresh, hp, hc, hmp, Bool.not_true, Bool.false_eq_true, if_false, fromApi, hr]
      exact ⟨fun _ => ⟨ha, hu⟩, fun _ => trivial⟩
    · have hr := (client_iff e p.auth p.dir).2 hu
      unfold newProcessor initHandler
      simp only [fresh, hp, hc, hmp, Bool.not_true, Bool.false_eq_true, if_false, fromApi, hr]
      exact ⟨fun h => (by cases h), fun h => absurd h.2 hu⟩

/-- What the CPU analyzer finds in the cache (cpu_analyzer.go:153-158). -/
def findIn (c : Pods.St) (id : Bytes) : Option Cpu.Java.Names := (Pods.entry c (.cid id)).map (fun k => ⟨k.pod.wname, k.name, k.pod.name⟩)

/-- With the API server a slow transaction carries the workload, container and pod of its container as they are in the cache. -/
theorem slow_transaction_named (e : Env) (p : PCfg) (hp : p.enable = true) (ha : ¬ Asks p) (hu : Usable e p.auth p.dir) (c : Pods.St) (k : Cont)
    (en ex : Cpu.Events.TxEv) (hk : Pods.entry c (.cid ex.containerId) = some k) :
    let r := Cpu.Java.span (newProcessor e p fresh).1.ok (findIn c) en ex
    r.labels.get "dst_workload_name" = some (.str k.pod.wname) ∧ r.labels.get "dst_container" = some (.str k.name) ∧
    r.labels.get "dst_pod" = some (.str k.pod.name) := by
  intro r
  have hok : (newProcessor e p fresh).1.ok = true := (mark_iff e p hp).2 ⟨ha, hu⟩
  obtain ⟨h1, h2, h3⟩ := Cpu.Java.span_names (newProcessor e p fresh).1.ok (findIn c) en ex
  have hf : findIn c ex.containerId = some ⟨k.pod.wname, k.name, k.pod.name⟩ := by unfold findIn; rw [hk]; rfl
  rw [hok, if_pos rfl, hf] at h1 h2 h3
  rw [show r = Cpu.Java.span (newProcessor e p fresh).1.ok (findIn c) en ex from rfl, hok]
  exact ⟨h1, h2, h3⟩

/-- Finding: with a metadata provider it never does, though the cache knows the container. -/
theorem provider_hides_names (e : Env) (p : PCfg) (hp : p.enable = true) (ha : Asks p) (c : Pods.St) (en ex : Cpu.Events.TxEv) :
    let r := Cpu.Java.span (newProcessor e p fresh).1.ok (findIn c) en ex
    r.labels.get "dst_workload_name" = none ∧ r.labels.get "dst_container" = none ∧ r.labels.get "dst_pod" = none := by
  intro r
  have hok : (newProcessor e p fresh).1.ok = false := by
    cases h : (newProcessor e p fresh).1.ok with
    | false => rfl
    | true => exact absurd ha ((mark_iff e p hp).1 h).1
  obtain ⟨h1, h2, h3⟩ := Cpu.Java.span_names (newProcessor e p fresh).1.ok (findIn c) en ex
  rw [hok, if_neg (by decide)] at h1 h2 h3
  rw [show r = Cpu.Java.span (newProcessor e p fresh).1.ok (findIn c) en ex from rfl, hok]
  exact ⟨h1, h2, h3⟩

/-! ### Examples -/

/-- A pod with its service account; the default configuration, with and without a provider. -/
def exEnv : Env where
  var k := if k = bs "KUBERNETES_SERVICE_HOST" then some (bs "10.96.0.1") else if k = bs "KUBERNETES_SERVICE_PORT" then some (bs "443") else none
  load _ := none
  cluster := some ⟨bs "https://10.96.0.1:443", false, false⟩
  client _ := true
def exCfg : PCfg := ⟨saT, bs "/root/.kube/config", 60, false, true, some ⟨false, false, []⟩⟩
example : Usable exEnv exCfg.auth exCfg.dir ∧ ¬ Asks exCfg := by
  constructor
  · exact Or.inr ⟨bs "10.96.0.1", bs "443", by decide +kernel, by decide +kernel, by decide +kernel, by decide +kernel, Or.inr ⟨rfl, _, rfl, rfl⟩⟩
  · rintro ⟨m, h, hm⟩
    cases h
    cases hm
example : (newProcessor exEnv exCfg fresh).1.jobs = [.nodes false, .services false, .pods 60000000000 false] := by decide +kernel
example : ¬ Usable { exEnv with cluster := none } exCfg.auth exCfg.dir ∧ Asks { exCfg with mp := some ⟨true, false, bs "http://mp:9504"⟩ } := by
  refine ⟨fun h => ?_, ⟨_, rfl, rfl⟩⟩
  obtain ⟨r, hr, _⟩ := (client_iff _ _ _).1 h
  have : makeClient { exEnv with cluster := none } exCfg.auth exCfg.dir = .err := by decide +kernel
  rw [this] at hr
  cases hr
/-- An address of the sixth version. -/
example : join (bs "::1") (bs "443") = bs "[::1]:443" := by decide +kernel

end Kindling.K8s.Init
