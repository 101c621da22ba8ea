import Verif.Dec
/-
The lookup tables of pods and services: metadata/kubernetes/k8scache.go and hostport_map.go.

Simplified: pointers to pod infos are values here, so a cache entry carries the pod as it was when registered;
the service of a pod is modelled apart (Service.lean).  Ports are natural numbers.
-/
namespace Kindling.K8s

/-- `K8sPodInfo` (k8scache.go:18-35) without its service. -/
structure PodInfo where
  uid : Bytes
  ip : Bytes
  name : Bytes
  ns : Bytes
  ports : List Nat
  hostPorts : List Nat
  cids : List Bytes
  labels : AMap Bytes Bytes
  wkind : Bytes
  wname : Bytes
  node : Bytes
  nodeAddr : Bytes
  hostNetwork : Bool
deriving DecidableEq

/-- `K8sContainerInfo` (k8scache.go:11-16). -/
structure Cont where
  cid : Bytes
  name : Bytes
  hostPortMap : AMap Nat Nat
  pod : PodInfo
deriving DecidableEq

namespace Cache

/-- `AddContainerByIpPort` (k8scache.go:127-142), also `AddServiceByIpPort` (221-236). -/
def add2 {α : Type} (m : AMap Bytes (AMap Nat α)) (ip : Bytes) (port : Nat) (c : α) : AMap Bytes (AMap Nat α) :=
  match m.get ip with
  | some inner => m.set ip (inner.set port c)
  | none => m.set ip [(port, c)]

/-- `DeleteContainerByIpPort` (k8scache.go:194-207), also `DeleteServiceByIpPort` (252-265). -/
def del2 {α : Type} (m : AMap Bytes (AMap Nat α)) (ip : Bytes) (port : Nat) : AMap Bytes (AMap Nat α) :=
  match m.get ip with
  | none => m
  | some inner => if inner.del port = [] then m.del ip else m.set ip (inner.del port)

/-- `GetServiceByIpPort` (k8scache.go:238-250), and the first step of `GetContainerByIpPort`. -/
def get2 {α : Type} (m : AMap Bytes (AMap Nat α)) (ip : Bytes) (port : Nat) : Option α :=
  (m.get ip).bind (fun inner => inner.get port)

/-- `for _, info := range portContainerInfo { if !info.RefPodInfo.isHostNetwork { return info } }`
(k8scache.go:160-165, 187-191); Go visits the entries in any order, here in the order of the list. -/
def firstPod : AMap Nat Cont → Option Cont
  | [] => none
  | (_, c) :: r => if !c.pod.hostNetwork then some c else firstPod r

/-- `GetContainerByIpPort` (k8scache.go:144-174). -/
def getContainer (m : AMap Bytes (AMap Nat Cont)) (ip : Bytes) (port : Nat) : Option Cont :=
  match m.get ip with
  | none => none
  | some inner => match inner.get port with
    | some c => some c
    | none => match inner.get 0 with
      | none => firstPod inner
      | some c => if !c.pod.hostNetwork then some c else none

/-- `GetPodByIp` (k8scache.go:184-192). -/
def getPodByIp (m : AMap Bytes (AMap Nat Cont)) (ip : Bytes) : Option PodInfo :=
  match m.get ip with
  | none => none
  | some inner => (firstPod inner).map (·.pod)

/-- Key of the host port table (hostport_map.go:25, 32, 43). -/
def hostKey (ip : Bytes) (port : Nat) : Bytes := ip ++ 58 :: Dec.digits port

/-- `K8sMetaDataCache` (k8scache.go:55-78); the value of a service is abstract. -/
structure C (σ : Type) where
  cids : AMap Bytes Cont
  ips : AMap Bytes (AMap Nat Cont)
  svcs : AMap Bytes (AMap Nat σ)
  hosts : AMap Bytes Cont

/-- The operations of the cache. -/
inductive Op (σ : Type)
  | addCid (id : Bytes) (c : Cont) | delCid (id : Bytes)
  | addIp (ip : Bytes) (port : Nat) (c : Cont) | delIp (ip : Bytes) (port : Nat)
  | addHost (ip : Bytes) (port : Nat) (c : Cont) | delHost (ip : Bytes) (port : Nat)
  | addSvc (ip : Bytes) (port : Nat) (s : σ) | delSvc (ip : Bytes) (port : Nat)
  | clearAll

/-- k8scache.go:97-281. -/
def step {σ : Type} (c : C σ) : Op σ → C σ
  | .addCid id x => { c with cids := c.cids.set id x }
  | .delCid id => { c with cids := c.cids.del id }
  | .addIp ip p x => { c with ips := add2 c.ips ip p x }
  | .delIp ip p => { c with ips := del2 c.ips ip p }
  | .addHost ip p x => { c with hosts := c.hosts.set (hostKey ip p) x }
  | .delHost ip p => { c with hosts := c.hosts.del (hostKey ip p) }
  | .addSvc ip p s => { c with svcs := add2 c.svcs ip p s }
  | .delSvc ip p => { c with svcs := del2 c.svcs ip p }
  | .clearAll => { c with ips := [], svcs := [], cids := [] }

def run {σ : Type} (c : C σ) : List (Op σ) → C σ
  | [] => c
  | o :: r => run (step c o) r

def empty (σ : Type) : C σ := ⟨[], [], [], []⟩

/-! ### Specification: every key on its own -/

/-- What an operation does to the entry of one container id. -/
def cidSpec {σ : Type} (id : Bytes) (v : Option Cont) : Op σ → Option Cont
  | .addCid id' x => if id' = id then some x else v
  | .delCid id' => if id' = id then none else v
  | .clearAll => none
  | _ => v
/-- … to the entry registered for one address and port. -/
def ipSpec {σ : Type} (ip : Bytes) (p : Nat) (v : Option Cont) : Op σ → Option Cont
  | .addIp ip' p' x => if ip' = ip ∧ p' = p then some x else v
  | .delIp ip' p' => if ip' = ip ∧ p' = p then none else v
  | .clearAll => none
  | _ => v
/-- … to that of one host address and port. -/
def hostSpec {σ : Type} (ip : Bytes) (p : Nat) (v : Option Cont) : Op σ → Option Cont
  | .addHost ip' p' x => if ip' = ip ∧ p' = p then some x else v
  | .delHost ip' p' => if ip' = ip ∧ p' = p then none else v
  | _ => v
/-- … to that of one service address and port. -/
def svcSpec {σ : Type} (ip : Bytes) (p : Nat) (v : Option σ) : Op σ → Option σ
  | .addSvc ip' p' x => if ip' = ip ∧ p' = p then some x else v
  | .delSvc ip' p' => if ip' = ip ∧ p' = p then none else v
  | .clearAll => none
  | _ => v

/-! ### Proofs -/

theorem get2_add2 {α : Type} (m : AMap Bytes (AMap Nat α)) (ip : Bytes) (p : Nat) (c : α) (ip' : Bytes) (p' : Nat) :
    get2 (add2 m ip p c) ip' p' = if ip = ip' ∧ p = p' then some c else get2 m ip' p' := by
  unfold get2 add2
  cases hg : m.get ip with
  | none =>
    simp only
    rw [AMap.get_set]
    by_cases h : ip = ip'
    · subst h
      by_cases hp : p = p'
      · simp [hp, AMap.get]
      · simp [hp, AMap.get, hg]
    · simp [h]
  | some inner =>
    simp only
    rw [AMap.get_set]
    by_cases h : ip = ip'
    · subst h
      simp only [↓reduceIte, Option.bind_some, AMap.get_set, hg, true_and]
    · simp [h]

theorem get2_del2 {α : Type} (m : AMap Bytes (AMap Nat α)) (ip : Bytes) (p : Nat) (ip' : Bytes) (p' : Nat) :
    get2 (del2 m ip p) ip' p' = if ip = ip' ∧ p = p' then none else get2 m ip' p' := by
  unfold get2 del2
  cases hg : m.get ip with
  | none =>
    simp only
    by_cases h : ip = ip'
    · subst h; simp [hg]
    · simp [h]
  | some inner =>
    simp only
    split
    · rename_i he
      rw [AMap.get_del]
      by_cases h : ip = ip'
      · subst h
        simp only [↓reduceIte, Option.bind_none, true_and, hg, Option.bind_some]
        have := AMap.get_del inner p p'
        rw [he] at this
        simp only [AMap.get] at this
        rw [← this]
      · simp [h]
    · rw [AMap.get_set]
      by_cases h : ip = ip'
      · subst h
        simp only [↓reduceIte, Option.bind_some, AMap.get_del, hg, true_and]
      · simp [h]

theorem colon_not_digit (n : Nat) : (58 : UInt8) ∉ Dec.digits n := by
  intro h
  have := Dec.digits_all n 58 h
  simp at this

/-- Host port keys do not collide, whatever the address text (IPv6 included). -/
theorem hostKey_inj {a b : Bytes} {p q : Nat} (h : hostKey a p = hostKey b q) : a = b ∧ p = q := by
  unfold hostKey at h
  have key : ∀ (a b x y : Bytes), (58 : UInt8) ∉ x → (58 : UInt8) ∉ y → a ++ 58 :: x = b ++ 58 :: y → a = b ∧ x = y := by
    intro a
    induction a with
    | nil =>
      intro b x y hx hy he
      cases b with
      | nil => simpa using he
      | cons c t => simp only [List.nil_append, List.cons_append, List.cons.injEq] at he; exact absurd (by rw [he.2]; simp) hx
    | cons c t ih =>
      intro b x y hx hy he
      cases b with
      | nil => simp only [List.nil_append, List.cons_append, List.cons.injEq] at he; exact absurd (by rw [← he.2]; simp) hy
      | cons d s =>
        simp only [List.cons_append, List.cons.injEq] at he
        obtain ⟨h1, h2⟩ := ih s x y hx hy he.2
        exact ⟨by rw [he.1, h1], h2⟩
  obtain ⟨h1, h2⟩ := key _ _ _ _ (colon_not_digit p) (colon_not_digit q) h
  exact ⟨h1, Dec.digits_inj h2⟩

theorem step_spec {σ : Type} (c : C σ) (o : Op σ) (id ip : Bytes) (p : Nat) :
    (step c o).cids.get id = cidSpec id (c.cids.get id) o ∧
    get2 (step c o).ips ip p = ipSpec ip p (get2 c.ips ip p) o ∧
    (step c o).hosts.get (hostKey ip p) = hostSpec ip p (c.hosts.get (hostKey ip p)) o ∧
    get2 (step c o).svcs ip p = svcSpec ip p (get2 c.svcs ip p) o := by
  have hk : ∀ ip' p', hostKey ip' p' = hostKey ip p ↔ ip' = ip ∧ p' = p :=
    fun ip' p' => ⟨hostKey_inj, fun h => by rw [h.1, h.2]⟩
  cases o with
  | addCid id' x => exact ⟨AMap.get_set _ _ _ _, rfl, rfl, rfl⟩
  | delCid id' => exact ⟨AMap.get_del _ _ _, rfl, rfl, rfl⟩
  | addIp ip' p' x => exact ⟨rfl, get2_add2 _ _ _ _ _ _, rfl, rfl⟩
  | delIp ip' p' => exact ⟨rfl, get2_del2 _ _ _ _ _, rfl, rfl⟩
  | addHost ip' p' x =>
    refine ⟨rfl, rfl, ?_, rfl⟩
    simp only [step, hostSpec, AMap.get_set, hk]
  | delHost ip' p' =>
    refine ⟨rfl, rfl, ?_, rfl⟩
    simp only [step, hostSpec, AMap.get_del, hk]
  | addSvc ip' p' x => exact ⟨rfl, rfl, rfl, get2_add2 _ _ _ _ _ _⟩
  | delSvc ip' p' => exact ⟨rfl, rfl, rfl, get2_del2 _ _ _ _ _⟩
  | clearAll => exact ⟨rfl, rfl, rfl, rfl⟩

/-- C38.  After any sequence of operations each table answers for a key with what was registered last
under that very key and not deleted since. -/
theorem last_registered_partial {σ : Type} (l : List (Op σ)) (c : C σ) (id ip : Bytes) (p : Nat) :
    (run c l).cids.get id = l.foldl (cidSpec id) (c.cids.get id) ∧
    get2 (run c l).ips ip p = l.foldl (ipSpec ip p) (get2 c.ips ip p) ∧
    (run c l).hosts.get (hostKey ip p) = l.foldl (hostSpec ip p) (c.hosts.get (hostKey ip p)) ∧
    get2 (run c l).svcs ip p = l.foldl (svcSpec ip p) (get2 c.svcs ip p) := by
  induction l generalizing c with
  | nil => exact ⟨rfl, rfl, rfl, rfl⟩
  | cons o r ih =>
    obtain ⟨h1, h2, h3, h4⟩ := step_spec c o id ip p
    obtain ⟨g1, g2, g3, g4⟩ := ih (step c o)
    exact ⟨by rw [run, g1, h1]; rfl, by rw [run, g2, h2]; rfl, by rw [run, g3, h3]; rfl, by rw [run, g4, h4]; rfl⟩

theorem firstPod_spec (m : AMap Nat Cont) :
    (∀ c, firstPod m = some c → c.pod.hostNetwork = false ∧ ∃ p, (p, c) ∈ m) ∧
    (firstPod m = none ↔ ∀ p c, (p, c) ∈ m → c.pod.hostNetwork = true) := by
  induction m with
  | nil => simp [firstPod]
  | cons x r ih =>
    obtain ⟨q, d⟩ := x
    cases hd : d.pod.hostNetwork with
    | true =>
      simp only [firstPod, hd, Bool.not_true, Bool.false_eq_true, ↓reduceIte]
      refine ⟨fun c hc => ?_, ?_⟩
      · obtain ⟨h1, p, h2⟩ := ih.1 c hc
        exact ⟨h1, p, by simp [h2]⟩
      · rw [ih.2]
        constructor
        · intro h p c hm
          rcases List.mem_cons.1 hm with he | hm
          · cases he; exact hd
          · exact h p c hm
        · intro h p c hm
          exact h p c (by simp [hm])
    | false =>
      simp only [firstPod, hd, Bool.not_false, ↓reduceIte, Option.some.injEq]
      refine ⟨fun c hc => ?_, ?_⟩
      · subst hc; exact ⟨hd, q, by simp⟩
      · simp only [reduceCtorEq, false_iff]
        intro h
        have := h q d (by simp)
        rw [hd] at this; cases this

/-- Inner maps have distinct ports. -/
def InnerOk {α : Type} (m : AMap Bytes (AMap Nat α)) : Prop := ∀ ip inner, m.get ip = some inner → AMap.WF inner

theorem inner_add {α : Type} {m : AMap Bytes (AMap Nat α)} (h : InnerOk m) (ip : Bytes) (p : Nat) (c : α) : InnerOk (add2 m ip p c) := by
  intro ip' inner hg
  unfold add2 at hg
  cases hm : m.get ip with
  | none =>
    rw [hm] at hg
    simp only at hg
    rw [AMap.get_set] at hg
    split at hg
    · cases hg; simp [AMap.WF, AMap.keys]
    · exact h ip' inner hg
  | some i =>
    rw [hm] at hg
    simp only at hg
    rw [AMap.get_set] at hg
    split at hg
    · cases hg; exact (h ip i hm).set _ _
    · exact h ip' inner hg

theorem inner_del {α : Type} {m : AMap Bytes (AMap Nat α)} (h : InnerOk m) (ip : Bytes) (p : Nat) : InnerOk (del2 m ip p) := by
  intro ip' inner hg
  unfold del2 at hg
  cases hm : m.get ip with
  | none => rw [hm] at hg; exact h ip' inner hg
  | some i =>
    rw [hm] at hg
    simp only at hg
    split at hg
    · rw [AMap.get_del] at hg
      split at hg
      · cases hg
      · exact h ip' inner hg
    · rw [AMap.get_set] at hg
      split at hg
      · cases hg; exact (h ip i hm).del _
      · exact h ip' inner hg

theorem run_inner {σ : Type} (l : List (Op σ)) (c : C σ) (h : InnerOk c.ips) : InnerOk (run c l).ips := by
  induction l generalizing c with
  | nil => exact h
  | cons o r ih =>
    apply ih
    cases o with
    | addIp ip p x => exact inner_add h ip p x
    | delIp ip p => exact inner_del h ip p
    | clearAll => intro ip inner hg; simp [step] at hg
    | addCid _ _ => exact h
    | delCid _ => exact h
    | addHost _ _ _ => exact h
    | delHost _ _ => exact h
    | addSvc _ _ _ => exact h
    | delSvc _ _ => exact h

/-- C38, lookup by address and port: the entry of this very port; else the entry without a port, if it is not on
the host network; and only if neither exists, some container of this address that is not on the host
network. -/
theorem getContainer_spec {m : AMap Bytes (AMap Nat Cont)} (hi : InnerOk m) (ip : Bytes) (port : Nat) :
    (∀ c, get2 m ip port = some c → getContainer m ip port = some c) ∧
    (∀ c, get2 m ip port = none → get2 m ip 0 = some c →
      getContainer m ip port = if c.pod.hostNetwork then none else some c) ∧
    (get2 m ip port = none → get2 m ip 0 = none →
      (∀ c, getContainer m ip port = some c → c.pod.hostNetwork = false ∧ ∃ p, get2 m ip p = some c) ∧
      (getContainer m ip port = none ↔ ∀ p c, get2 m ip p = some c → c.pod.hostNetwork = true)) := by
  unfold getContainer get2
  cases hg : m.get ip with
  | none =>
    refine ⟨fun c h => (by cases h), fun c _ h => (by cases h), fun _ _ => ⟨fun c h => (by cases h), ?_⟩⟩
    simp
  | some inner =>
    simp only [Option.bind_some]
    refine ⟨fun c h => by simp [h], fun c h h0 => ?_, fun h h0 => ?_⟩
    · simp only [h, h0]
      cases c.pod.hostNetwork <;> rfl
    · simp only [h, h0]
      obtain ⟨f1, f2⟩ := firstPod_spec inner
      refine ⟨fun c hc => ?_, ?_⟩
      · obtain ⟨g1, p, g2⟩ := f1 c hc
        exact ⟨g1, p, AMap.get_of_mem (hi ip inner hg) g2⟩
      · rw [f2]
        exact ⟨fun h p c hc => h p c (AMap.mem_of_get hc), fun h p c hc => h p c (AMap.get_of_mem (hi ip inner hg) hc)⟩

/-- Clearing the cache leaves the host port table as it was: its entries outlive it. -/
theorem clear_keeps_host_ports {σ : Type} (c : C σ) (ip : Bytes) (p : Nat) :
    (step c .clearAll).hosts.get (hostKey ip p) = c.hosts.get (hostKey ip p) ∧
    (∀ id, (step c .clearAll).cids.get id = none) ∧ (∀ ip p, get2 (step c .clearAll).ips ip p = none) :=
  ⟨rfl, fun _ => rfl, fun _ _ => rfl⟩

/-! ### The same under concurrency

`AddContainerByIpPort` and `DeleteContainerByIpPort` read the map of an address under one lock and use it
under another; pods are added by the watch goroutine and deleted by the sweep. -/

/-- Maps by reference. -/
structure H where
  outer : AMap Bytes Nat
  heap : AMap Nat (AMap Nat Cont)
  fresh : Nat

/-- The first half of both functions (k8scache.go:128-130, 195-197). -/
def H.read (s : H) (ip : Bytes) : Option Nat := s.outer.get ip

/-- The second half of `AddContainerByIpPort` (k8scache.go:131-141). -/
def H.addWrite (s : H) (ip : Bytes) (port : Nat) (c : Cont) : Option Nat → H
  | some r => { s with heap := s.heap.set r (((s.heap.get r).getD []).set port c) }
  | none => { outer := s.outer.set ip s.fresh, heap := s.heap.set s.fresh [(port, c)], fresh := s.fresh + 1 }

/-- The second half of `DeleteContainerByIpPort` (k8scache.go:198-206). -/
def H.delWrite (s : H) (ip : Bytes) (port : Nat) : Option Nat → H
  | none => s
  | some r =>
    let inner := ((s.heap.get r).getD []).del port
    let s' := { s with heap := s.heap.set r inner }
    if inner = [] then { s' with outer := s'.outer.del ip } else s'

def H.lookup (s : H) (ip : Bytes) (port : Nat) : Option Cont :=
  (s.outer.get ip).bind (fun r => ((s.heap.get r).getD []).get port)

/-- A pod registered for an address while the last old port of this address is being swept is lost: it cannot
be found although nothing deleted it. -/
theorem add_lost_to_sweep (s : H) (ip : Bytes) (p q : Nat) (r : Nat) (old c : Cont)
    (hr : s.outer.get ip = some r) (hh : s.heap.get r = some [(p, old)]) :
    let added := s.read ip
    let swept := s.read ip
    ((s.delWrite ip p swept).addWrite ip q c added).lookup ip q = none := by
  simp only [H.read, hr, H.delWrite, hh, Option.getD_some, AMap.del, ↓reduceIte, H.addWrite, H.lookup]
  simp

/-- Without interleaving nothing is lost. -/
theorem add_kept_without_interleaving (s : H) (ip : Bytes) (q : Nat) (c : Cont) :
    (s.addWrite ip q c (s.read ip)).lookup ip q = some c := by
  unfold H.read
  cases hr : s.outer.get ip with
  | none => simp [H.addWrite, H.lookup, AMap.get_set, AMap.get]
  | some r => simp [H.addWrite, H.lookup, hr, AMap.get_set]

/-- No two addresses share a map, and the next reference is not in use. -/
def H.Ok (s : H) : Prop :=
  (∀ a b r, s.outer.get a = some r → s.outer.get b = some r → a = b) ∧ ∀ a r, s.outer.get a = some r → r < s.fresh

theorem addWrite_exact (s : H) (h : s.Ok) (ip : Bytes) (p : Nat) (c : Cont) (ip' : Bytes) (p' : Nat) :
    (s.addWrite ip p c (s.read ip)).lookup ip' p' = if ip = ip' ∧ p = p' then some c else s.lookup ip' p' := by
  obtain ⟨h1, h2⟩ := h
  unfold H.read
  cases hr : s.outer.get ip with
  | none =>
    simp only [H.addWrite, H.lookup, AMap.get_set]
    by_cases hi : ip = ip'
    · subst hi
      simp only [↓reduceIte, Option.bind_some, hr, Option.bind_none, true_and]
      simp [AMap.get]
    · simp only [hi, ↓reduceIte, false_and]
      cases hr' : s.outer.get ip' with
      | none => rfl
      | some r' =>
        have := h2 _ _ hr'
        simp only [Option.bind_some]
        rw [if_neg (by omega)]
  | some r =>
    simp only [H.addWrite, H.lookup, AMap.get_set]
    by_cases hi : ip = ip'
    · subst hi
      simp only [hr, Option.bind_some, ↓reduceIte, Option.getD_some, AMap.get_set, true_and]
    · simp only [hi, false_and, ↓reduceIte]
      cases hr' : s.outer.get ip' with
      | none => rfl
      | some r' =>
        have hne : r ≠ r' := fun e => hi (h1 _ _ _ hr (e ▸ hr'))
        simp only [Option.bind_some, hne, ↓reduceIte]

theorem delWrite_exact (s : H) (h : s.Ok) (ip : Bytes) (p : Nat) (ip' : Bytes) (p' : Nat) :
    (s.delWrite ip p (s.read ip)).lookup ip' p' = if ip = ip' ∧ p = p' then none else s.lookup ip' p' := by
  obtain ⟨h1, h2⟩ := h
  unfold H.read
  cases hr : s.outer.get ip with
  | none =>
    simp only [H.delWrite]
    split
    · rename_i e; rw [← e.1]; simp [H.lookup, hr]
    · rfl
  | some r =>
    simp only [H.delWrite]
    have hoth : ∀ m : AMap Bytes Nat, (∀ i, ip ≠ i → AMap.get m i = s.outer.get i) → ip ≠ ip' →
        ((AMap.get m ip').bind fun r' => ((AMap.get (s.heap.set r (((s.heap.get r).getD []).del p)) r').getD []).get p') = s.lookup ip' p' := by
      intro m hm hi
      rw [hm _ hi, H.lookup]
      cases hr' : s.outer.get ip' with
      | none => rfl
      | some r' =>
        have hne : r ≠ r' := fun e => hi (h1 _ _ _ hr (e ▸ hr'))
        simp only [Option.bind_some, AMap.get_set, hne, ↓reduceIte]
    by_cases he : ((s.heap.get r).getD []).del p = []
    · rw [if_pos he]
      by_cases hi : ip = ip'
      · subst hi
        simp only [H.lookup, AMap.get_del, ↓reduceIte, Option.bind_none, hr, Option.bind_some, true_and]
        have := AMap.get_del ((s.heap.get r).getD []) p p'
        rw [he] at this
        split
        · rfl
        · rename_i hp; rw [if_neg hp] at this; rw [← this]; rfl
      · rw [if_neg (fun e => hi e.1)]
        exact hoth _ (fun i hne => AMap.get_del_ne _ hne) hi
    · rw [if_neg he]
      by_cases hi : ip = ip'
      · subst hi
        simp only [H.lookup, hr, Option.bind_some, AMap.get_set, ↓reduceIte, Option.getD_some, AMap.get_del, true_and]
      · rw [if_neg (fun e => hi e.1)]
        exact hoth _ (fun _ _ => rfl) hi

theorem addWrite_ok (s : H) (h : s.Ok) (ip : Bytes) (p : Nat) (c : Cont) : (s.addWrite ip p c (s.read ip)).Ok := by
  unfold H.read
  cases hr : s.outer.get ip with
  | some r => exact h
  | none =>
    obtain ⟨h1, h2⟩ := h
    refine ⟨fun a b r ha hb => ?_, fun a r ha => ?_⟩
    · simp only [H.addWrite, AMap.get_set] at ha hb
      split at ha <;> split at hb <;> rename_i e1 e2
      · exact e1.symm.trans e2
      · have := h2 _ _ hb; simp at ha; omega
      · have := h2 _ _ ha; simp at hb; omega
      · exact h1 _ _ _ ha hb
    · simp only [H.addWrite, AMap.get_set] at ha ⊢
      split at ha
      · simp at ha; omega
      · have := h2 _ _ ha; omega

theorem delWrite_ok (s : H) (h : s.Ok) (ip : Bytes) (p : Nat) : (s.delWrite ip p (s.read ip)).Ok := by
  unfold H.read
  cases hr : s.outer.get ip with
  | none => exact h
  | some r =>
    simp only [H.delWrite]
    split
    · refine ⟨fun a b r ha hb => ?_, fun a r ha => ?_⟩
      · simp only [AMap.get_del] at ha hb
        split at ha
        · simp at ha
        · split at hb
          · simp at hb
          · exact h.1 _ _ _ ha hb
      · simp only [AMap.get_del] at ha ⊢
        split at ha
        · simp at ha
        · exact h.2 _ _ ha
    · exact h

/-- One call of either function without interruption: a container to add, or none to delete. -/
def H.call (s : H) (x : (Bytes × Nat) × Option Cont) : H := match x.2 with
  | some c => s.addWrite x.1.1 x.1.2 c (s.read x.1.1)
  | none => s.delWrite x.1.1 x.1.2 (s.read x.1.1)

/-- C38: as long as no call interrupts another, the container found under an address and port is the one of the last call for
it, if this was no deletion. -/
theorem uninterrupted_calls_exact (xs : List ((Bytes × Nat) × Option Cont)) (ip : Bytes) (p : Nat) :
    (xs.foldl H.call ⟨[], [], 0⟩).lookup ip p = ((xs.reverse.find? (fun x => x.1 = (ip, p))).bind (·.2)) := by
  have key : ∀ xs : List ((Bytes × Nat) × Option Cont), (xs.foldl H.call ⟨[], [], 0⟩).Ok ∧
      (xs.foldl H.call ⟨[], [], 0⟩).lookup ip p = ((xs.reverse.find? (fun x => x.1 = (ip, p))).bind (·.2)) := by
    intro xs
    induction xs using snoc_ind with
    | nil => exact ⟨⟨by simp, by simp⟩, rfl⟩
    | snoc xs x ih =>
      obtain ⟨i1, i2⟩ := ih
      obtain ⟨⟨i, q⟩, o⟩ := x
      rw [List.foldl_append, List.foldl_cons, List.foldl_nil]
      generalize xs.foldl H.call ⟨[], [], 0⟩ = s at *
      rw [List.reverse_concat, List.find?_cons]
      cases o with
      | some c =>
        refine ⟨addWrite_ok s i1 i q c, ?_⟩
        rw [H.call, addWrite_exact s i1]
        by_cases e : i = ip ∧ q = p
        · obtain ⟨rfl, rfl⟩ := e; simp
        · rw [if_neg e, i2]; simp [Prod.ext_iff, e]
      | none =>
        refine ⟨delWrite_ok s i1 i q, ?_⟩
        rw [H.call, delWrite_exact s i1]
        by_cases e : i = ip ∧ q = p
        · obtain ⟨rfl, rfl⟩ := e; simp
        · rw [if_neg e, i2]; simp [Prod.ext_iff, e]
  exact (key xs).2

def somePod : PodInfo := ⟨bs "u", bs "10.0.0.1", bs "p", bs "d", [], [], [], [], [], [], [], [], false⟩
example : ∃ s : H, s.outer.get (bs "10.0.0.1") = some 0 ∧ s.heap.get 0 = some [(80, ⟨[], [], [], somePod⟩)] :=
  ⟨⟨[(bs "10.0.0.1", 0)], [(0, [(80, ⟨[], [], [], somePod⟩)])], 1⟩, rfl, rfl⟩
example : InnerOk (run (empty Nat) [.addIp (bs "a") 0 ⟨[], [], [], somePod⟩]).ips :=
  run_inner _ _ (by intro ip inner h; simp [empty] at h)

end Cache
end Kindling.K8s
