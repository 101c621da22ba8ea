import Verif.K8s.Names
import Verif.K8s.Cache
/-
Pods: registration, update and delayed deletion.  metadata/kubernetes/pod_watch.go and pod_delete.go.

Simplified: the maps by namespace and name are one map with pairs as keys; workload kind and name of a pod
(getControllerKindName, see Names.lean) are part of the object; events and sweeps are atomic (see
Cache.add_lost_to_sweep for interleavings); ports are natural numbers.
-/
namespace Kindling.K8s.Pods

/-- The parts of a `corev1.Pod` that are read. -/
structure Pod where
  uid : Bytes
  name : Bytes
  ns : Bytes
  rv : Nat
  ip : Bytes
  hostIP : Bytes
  node : Bytes
  hostNetwork : Bool
  labels : AMap Bytes Bytes
  wkind : Bytes
  wname : Bytes
  /-- name and raw container id -/
  statuses : List (Bytes × Bytes)
  /-- name, and container port and host port (0: none) of each port -/
  containers : List (Bytes × List (Nat × Nat))
deriving DecidableEq

/-- Short container ids (pod_watch.go:236-241, 374-381, 450-456). -/
def cidsOf (p : Pod) : List Bytes := (p.statuses.map (fun s => truncate s.2)).filter (fun c => decide (c ≠ []))
/-- Ports of the containers, 0 for a container without (pod_watch.go:251-276, 387-394, 458-463). -/
def portsOf (p : Pod) : List Nat := p.containers.flatMap (fun c => if c.2 = [] then [0] else c.2.map (·.1))
/-- Host ports (pod_watch.go:395-398, 464-467). -/
def hostPortsOf (p : Pod) : List Nat := p.containers.flatMap (fun c => (c.2.map (·.2)).filter (fun h => decide (h ≠ 0)))

/-- The cached pod as it is once `AddPod` is through (pod_watch.go:217-232, 241, 266-273). -/
def infoOf (p : Pod) : PodInfo :=
  { uid := p.uid, ip := p.ip, name := p.name, ns := p.ns
    ports := if p.ip = [] then [] else portsOf p
    hostPorts := if p.ip = [] then [] else hostPortsOf p
    cids := cidsOf p, labels := p.labels, wkind := p.wkind, wname := p.wname
    node := p.node, nodeAddr := p.hostIP, hostNetwork := p.hostNetwork }

abbrev Op' := Cache.Op Unit

/-- Registrations by container id (pod_watch.go:235-248). -/
def cidOps (p : Pod) : List Op' :=
  p.statuses.flatMap (fun s => if truncate s.2 = [] then [] else [.addCid (truncate s.2) ⟨truncate s.2, s.1, [], infoOf p⟩])

/-- The host port map of a container (pod_watch.go:271). -/
def hostMap : List (Nat × Nat) → AMap Nat Nat → AMap Nat Nat
  | [], m => m
  | (c, h) :: r, m => hostMap r (if h ≠ 0 then m.set h c else m)

/-- Registrations of one container (pod_watch.go:252-277). -/
def contOps (p : Pod) (c : Bytes × List (Nat × Nat)) : List Op' :=
  if c.2 = [] then [.addIp p.ip 0 ⟨[], if p.containers.length > 1 then [] else c.1, [], infoOf p⟩]
  else c.2.flatMap (fun q =>
    (if q.2 ≠ 0 then [.addHost p.hostIP q.2 ⟨[], c.1, hostMap c.2 [], infoOf p⟩] else []) ++
    [.addIp p.ip q.1 ⟨[], c.1, hostMap c.2 [], infoOf p⟩])

/-- All registrations of `AddPod` in order. -/
def regOps (p : Pod) : List Op' := cidOps p ++ (if p.ip = [] then [] else p.containers.flatMap (contOps p))

/-- `deletedPodInfo` (pod_delete.go:23-32). -/
structure Req where
  uid : Bytes
  name : Bytes
  ns : Bytes
  cids : List Bytes
  ip : Bytes
  ports : List Nat
  hostIp : Bytes
  hostPorts : List Nat

/-- The caches: `MetaDataCache`, `GlobalPodInfo`, `localWorkloadMap`, `podDeleteQueue`. -/
structure St where
  cache : Cache.C Unit
  pods : AMap (Bytes × Bytes) PodInfo
  workloads : AMap (Bytes × Bytes) Bytes
  queue : List (Req × Nat)

/-- `AddPod` (pod_watch.go:193-290); `me` is the environment's node name. -/
def addPod (me : Bytes) (s : St) (p : Pod) : St :=
  { s with
    cache := Cache.run s.cache (regOps p)
    pods := s.pods.set (p.ns, p.name) (infoOf p)
    workloads := if p.node = me then s.workloads.set (p.ns, p.wname) p.wkind else s.workloads }

/-- The request of `UpdatePod` (pod_watch.go:357-423). -/
def updateReq (cached : PodInfo) (old new : Pod) : Req :=
  { uid := old.uid, name := if old.name ≠ new.name then old.name else [], ns := old.ns
    cids := removed cached.cids (cidsOf new)
    ip := old.ip
    ports := if old.ip ≠ new.ip then cached.ports else removed cached.ports (portsOf new)
    hostIp := old.hostIP
    hostPorts := if old.hostIP ≠ new.hostIP then cached.hostPorts else removed cached.hostPorts (hostPortsOf new) }

/-- `UpdatePod` (pod_watch.go:335-423). -/
def updatePod (me : Bytes) (now : Nat) (s : St) (old new : Pod) : St :=
  if old.rv = new.rv then s
  else match s.pods.get (old.ns, old.name) with
    | none => addPod me s new
    | some cached =>
      let s' := addPod me s new
      { s' with queue := s'.queue ++ [(updateReq cached old new, now)] }

/-- The request of `DeletePod` (pod_watch.go:437-470). -/
def deleteReq (p : Pod) : Req := ⟨p.uid, p.name, p.ns, cidsOf p, p.ip, portsOf p, p.hostIP, hostPortsOf p⟩

/-- `DeletePod` (pod_watch.go:425-478). -/
def deletePod (now : Nat) (s : St) (p : Pod) : St := { s with queue := s.queue ++ [(deleteReq p, now)] }

def delCids : List Bytes → Cache.C Unit → Cache.C Unit
  | [], c => c
  | i :: r, c => delCids r { c with cids := c.cids.del i }

/-- pod_delete.go:89-99. -/
def delPorts (uid ip : Bytes) : List Nat → Cache.C Unit → Cache.C Unit
  | [], c => c
  | p :: r, c => delPorts uid ip r (match Cache.getContainer c.ips ip p with
    | none => c
    | some x => if x.pod.uid = uid then { c with ips := Cache.del2 c.ips ip p } else c)

/-- pod_delete.go:101-112. -/
def delHosts (uid ip : Bytes) : List Nat → Cache.C Unit → Cache.C Unit
  | [], c => c
  | p :: r, c => delHosts uid ip r (match c.hosts.get (Cache.hostKey ip p) with
    | none => c
    | some x => if x.pod.uid = uid then { c with hosts := c.hosts.del (Cache.hostKey ip p) } else c)

/-- `deletePodInfo` (pod_delete.go:63-114). -/
def deleteInfo (s : St) (d : Req) : St :=
  let s1 := if d.name = [] then s else match s.pods.get (d.ns, d.name) with
    | none => s
    | some i => { s with pods := s.pods.del (d.ns, d.name), workloads := s.workloads.del (i.ns, i.wname) }
  let c1 := delCids d.cids s1.cache
  let c2 := if d.ip = [] then c1 else delPorts d.uid d.ip d.ports c1
  let c3 := if d.hostIp = [] then c2 else delHosts d.uid d.hostIp d.hostPorts c2
  { s1 with cache := c3 }

/-- How many requests at the head of the queue are due (pod_delete.go:45-50). -/
def cutoff (grace now : Nat) : List (Req × Nat) → Nat
  | [] => 0
  | d :: r => if now < d.2 + grace then 0 else cutoff grace now r + 1

/-- One round of `podDeleteLoop` (pod_delete.go:42-58). -/
def sweep (grace now : Nat) (s : St) : St :=
  let n := cutoff grace now s.queue
  ((s.queue.take n).map (·.1)).foldl deleteInfo { s with queue := s.queue.drop n }

/-- Events and sweeps, each with its time. -/
inductive Op
  | add (p : Pod) | update (old new : Pod) | delete (p : Pod) | sweep

def step (me : Bytes) (grace : Nat) (s : St) : Nat × Op → St
  | (_, .add p) => addPod me s p
  | (now, .update old new) => updatePod me now s old new
  | (now, .delete p) => deletePod now s p
  | (now, .sweep) => sweep grace now s

def run (me : Bytes) (grace : Nat) (s : St) : List (Nat × Op) → St
  | [] => s
  | o :: r => run me grace (step me grace s o) r

/-- The clock does not run backwards. -/
def Clock : Nat → List (Nat × Op) → Prop
  | _, [] => True
  | t, o :: r => t ≤ o.1 ∧ Clock o.1 r

/-! ### What a lookup key can see -/

/-- The three kinds of keys. -/
inductive Key
  | cid (id : Bytes)
  | port (ip : Bytes) (p : Nat)
  | host (ip : Bytes) (p : Nat)

/-- The entry registered under a key. -/
def entry (s : St) : Key → Option Cont
  | .cid id => s.cache.cids.get id
  | .port ip p => Cache.get2 s.cache.ips ip p
  | .host ip p => s.cache.hosts.get (Cache.hostKey ip p)

/-- A pod has the key: one of its containers has the id, or exposes the port at the address. -/
def has (pod : Pod) : Key → Prop
  | .cid id => id ≠ [] ∧ ∃ st ∈ pod.statuses, truncate st.2 = id
  | .port ip p => pod.ip = ip ∧ ip ≠ [] ∧ ∃ c ∈ pod.containers, (c.2 = [] ∧ p = 0) ∨ ∃ q ∈ c.2, q.1 = p
  | .host ip p => pod.hostIP = ip ∧ pod.ip ≠ [] ∧ p ≠ 0 ∧ ∃ c ∈ pod.containers, ∃ q ∈ c.2, q.2 = p

/-- A request is about the key. -/
def Req.about (r : Req) : Key → Prop
  | .cid id => id ∈ r.cids
  | .port ip p => r.ip = ip ∧ ip ≠ [] ∧ p ∈ r.ports
  | .host ip p => r.hostIp = ip ∧ ip ≠ [] ∧ p ∈ r.hostPorts

/-- A request removes the entry `c` of the key: container ids are not checked, addresses must still belong to the
pod of the request. -/
def Req.kills (r : Req) (k : Key) (c : Cont) : Prop :=
  r.about k ∧ match k with
    | .cid _ => True
    | _ => c.pod.uid = r.uid

/-! ### Registration -/

theorem mem_portsOf (p : Pod) (n : Nat) :
    n ∈ portsOf p ↔ ∃ c ∈ p.containers, (c.2 = [] ∧ n = 0) ∨ ∃ q ∈ c.2, q.1 = n := by
  unfold portsOf
  rw [List.mem_flatMap]
  constructor
  · rintro ⟨c, hc, hn⟩
    refine ⟨c, hc, ?_⟩
    split at hn
    · rename_i he; left; exact ⟨he, by simpa using hn⟩
    · right; simpa [List.mem_map] using hn
  · rintro ⟨c, hc, hn⟩
    refine ⟨c, hc, ?_⟩
    rcases hn with ⟨he, rfl⟩ | ⟨q, hq, rfl⟩
    · simp [he]
    · have : c.2 ≠ [] := fun h => by rw [h] at hq; simp at hq
      rw [if_neg this]
      exact List.mem_map.2 ⟨q, hq, rfl⟩

theorem mem_hostPortsOf (p : Pod) (n : Nat) :
    n ∈ hostPortsOf p ↔ n ≠ 0 ∧ ∃ c ∈ p.containers, ∃ q ∈ c.2, q.2 = n := by
  unfold hostPortsOf
  simp only [List.mem_flatMap, List.mem_filter, List.mem_map, decide_eq_true_eq]
  constructor
  · rintro ⟨c, hc, ⟨q, hq, rfl⟩, hn⟩
    exact ⟨hn, c, hc, q, hq, rfl⟩
  · rintro ⟨hn, c, hc, q, hq, rfl⟩
    exact ⟨c, hc, ⟨q, hq, rfl⟩, hn⟩

theorem mem_cidsOf (p : Pod) (id : Bytes) : id ∈ cidsOf p ↔ id ≠ [] ∧ ∃ st ∈ p.statuses, truncate st.2 = id := by
  unfold cidsOf
  simp only [List.mem_filter, List.mem_map, decide_eq_true_eq]
  constructor
  · rintro ⟨⟨s, hs, rfl⟩, hn⟩; exact ⟨hn, s, hs, rfl⟩
  · rintro ⟨hn, s, hs, rfl⟩; exact ⟨⟨s, hs, rfl⟩, hn⟩

/-- An operation that registers `c` under a key. -/
def regs (k : Key) (c : Cont) : Op' → Prop
  | .addCid id x => k = .cid id ∧ x = c
  | .addIp ip p x => k = .port ip p ∧ x = c
  | .addHost ip p x => k = .host ip p ∧ x = c
  | _ => False

/-- Operations that only register. -/
def Adds : Op' → Prop
  | .addCid _ _ => True
  | .addIp _ _ _ => True
  | .addHost _ _ _ => True
  | _ => False

def centry (c : Cache.C Unit) : Key → Option Cont
  | .cid id => c.cids.get id
  | .port ip p => Cache.get2 c.ips ip p
  | .host ip p => c.hosts.get (Cache.hostKey ip p)

/-- After registrations: an entry of these registrations if there is one for the key, else the old one. -/
theorem run_adds (l : List Op') (hl : ∀ o ∈ l, Adds o) (c : Cache.C Unit) (k : Key) :
    ((∃ o ∈ l, ∃ x, regs k x o) → ∃ x, centry (Cache.run c l) k = some x ∧ ∃ o ∈ l, regs k x o) ∧
    ((¬ ∃ o ∈ l, ∃ x, regs k x o) → centry (Cache.run c l) k = centry c k) := by
  induction l generalizing c with
  | nil => exact ⟨by rintro ⟨o, ho, _⟩; simp at ho, fun _ => rfl⟩
  | cons o r ih =>
    obtain ⟨i1, i2⟩ := ih (fun x hx => hl x (by simp [hx])) (Cache.step c o)
    have ho := hl o (by simp)
    have hstep : ((∃ x, regs k x o) → ∃ x, centry (Cache.step c o) k = some x ∧ regs k x o) ∧
        ((¬ ∃ x, regs k x o) → centry (Cache.step c o) k = centry c k) := by
      cases k with
      | cid id =>
        have := (Cache.step_spec c o id [] 0).1
        simp only [centry, this]
        cases o <;> simp [Adds, regs, Cache.cidSpec] at ho ⊢
        constructor
        · rintro rfl; simp
        · intro h1 h2; exact absurd h2.symm h1
      | port ip p =>
        have := (Cache.step_spec c o [] ip p).2.1
        simp only [centry, this]
        cases o <;> simp [Adds, regs, Cache.ipSpec] at ho ⊢
        constructor
        · rintro rfl rfl; simp
        · intro h1 h2 h3; exact absurd h3.symm (h1 h2.symm)
      | host ip p =>
        have := (Cache.step_spec c o [] ip p).2.2.1
        simp only [centry, this]
        cases o <;> simp [Adds, regs, Cache.hostSpec] at ho ⊢
        constructor
        · rintro rfl rfl; simp
        · intro h1 h2 h3; exact absurd h3.symm (h1 h2.symm)
    rw [Cache.run]
    constructor
    · intro _
      by_cases hr : ∃ o ∈ r, ∃ x, regs k x o
      · obtain ⟨x, e, o', ho', hreg⟩ := i1 hr
        exact ⟨x, e, o', by simp [ho'], hreg⟩
      · rw [i2 hr]
        rename_i hany
        obtain ⟨o', ho', x, hx⟩ := hany
        rcases List.mem_cons.1 ho' with rfl | h
        · obtain ⟨y, e, hy⟩ := hstep.1 ⟨x, hx⟩
          exact ⟨y, e, o', by simp, hy⟩
        · exact absurd ⟨o', h, x, hx⟩ hr
    · intro hn
      rw [i2 (fun ⟨o', ho', hx⟩ => hn ⟨o', by simp [ho'], hx⟩), hstep.2 (fun hx => hn ⟨o, by simp, hx⟩)]

theorem regOps_adds (p : Pod) : ∀ o ∈ regOps p, Adds o := by
  intro o ho
  unfold regOps at ho
  rcases List.mem_append.1 ho with h | h
  · unfold cidOps at h
    obtain ⟨s, _, h⟩ := List.mem_flatMap.1 h
    split at h
    · simp at h
    · simp only [List.mem_singleton] at h; subst h; trivial
  · split at h
    · simp at h
    · obtain ⟨c, _, h⟩ := List.mem_flatMap.1 h
      unfold contOps at h
      split at h
      · simp only [List.mem_singleton] at h; subst h; trivial
      · obtain ⟨q, _, h⟩ := List.mem_flatMap.1 h
        rcases List.mem_append.1 h with h | h
        · split at h
          · simp only [List.mem_singleton] at h; subst h; trivial
          · simp at h
        · simp only [List.mem_singleton] at h; subst h; trivial

theorem regOps_has (p : Pod) (k : Key) :
    ((∃ o ∈ regOps p, ∃ x, regs k x o) ↔ has p k) ∧ (∀ o ∈ regOps p, ∀ x, regs k x o → x.pod = infoOf p) := by
  have hmem : ∀ o, o ∈ regOps p ↔ (∃ s ∈ p.statuses, truncate s.2 ≠ [] ∧ o = .addCid (truncate s.2) ⟨truncate s.2, s.1, [], infoOf p⟩) ∨
      (p.ip ≠ [] ∧ ∃ c ∈ p.containers, (c.2 = [] ∧ o = .addIp p.ip 0 ⟨[], if p.containers.length > 1 then [] else c.1, [], infoOf p⟩) ∨
        (∃ q ∈ c.2, (q.2 ≠ 0 ∧ o = .addHost p.hostIP q.2 ⟨[], c.1, hostMap c.2 [], infoOf p⟩) ∨
          o = .addIp p.ip q.1 ⟨[], c.1, hostMap c.2 [], infoOf p⟩)) := by
    intro o
    unfold regOps
    rw [List.mem_append]
    apply or_congr
    · unfold cidOps
      rw [List.mem_flatMap]
      constructor
      · rintro ⟨s, hs, h⟩
        split at h
        · simp at h
        · exact ⟨s, hs, by assumption, by simpa using h⟩
      · rintro ⟨s, hs, h1, h2⟩
        exact ⟨s, hs, by rw [if_neg h1]; simpa using h2⟩
    · by_cases hip : p.ip = []
      · simp [hip]
      · rw [if_neg hip]
        simp only [ne_eq, hip, not_false_eq_true, true_and]
        rw [List.mem_flatMap]
        constructor
        · rintro ⟨c, hc, h⟩
          refine ⟨c, hc, ?_⟩
          unfold contOps at h
          split at h
          · left; exact ⟨by assumption, by simpa using h⟩
          · right
            obtain ⟨q, hq, h⟩ := List.mem_flatMap.1 h
            refine ⟨q, hq, ?_⟩
            rcases List.mem_append.1 h with h | h
            · split at h
              · left; exact ⟨by assumption, by simpa using h⟩
              · simp at h
            · right; simpa using h
        · rintro ⟨c, hc, h⟩
          refine ⟨c, hc, ?_⟩
          unfold contOps
          rcases h with ⟨h1, h2⟩ | ⟨q, hq, h⟩
          · rw [if_pos h1]; simpa using h2
          · have : c.2 ≠ [] := fun h => by rw [h] at hq; simp at hq
            rw [if_neg this, List.mem_flatMap]
            refine ⟨q, hq, ?_⟩
            rw [List.mem_append]
            rcases h with ⟨h1, h2⟩ | h
            · left; rw [if_pos h1]; simpa using h2
            · right; simpa using h
  constructor
  · constructor
    · rintro ⟨o, ho, x, hx⟩
      rcases (hmem o).1 ho with ⟨s, hs, h1, rfl⟩ | ⟨hip, c, hc, ⟨h1, rfl⟩ | ⟨q, hq, ⟨h1, rfl⟩ | rfl⟩⟩
      · obtain ⟨rfl, _⟩ := hx; exact ⟨h1, s, hs, rfl⟩
      · obtain ⟨rfl, _⟩ := hx; exact ⟨rfl, hip, c, hc, Or.inl ⟨h1, rfl⟩⟩
      · obtain ⟨rfl, _⟩ := hx; exact ⟨rfl, hip, h1, c, hc, q, hq, rfl⟩
      · obtain ⟨rfl, _⟩ := hx; exact ⟨rfl, hip, c, hc, Or.inr ⟨q, hq, rfl⟩⟩
    · intro h
      cases k with
      | cid id =>
        obtain ⟨hn, s, hs, rfl⟩ := h
        exact ⟨_, (hmem _).2 (Or.inl ⟨s, hs, hn, rfl⟩), _, rfl, rfl⟩
      | port ip n =>
        obtain ⟨rfl, hip, c, hc, ⟨h1, rfl⟩ | ⟨q, hq, rfl⟩⟩ := h
        · exact ⟨_, (hmem _).2 (Or.inr ⟨hip, c, hc, Or.inl ⟨h1, rfl⟩⟩), _, rfl, rfl⟩
        · exact ⟨_, (hmem _).2 (Or.inr ⟨hip, c, hc, Or.inr ⟨q, hq, Or.inr rfl⟩⟩), _, rfl, rfl⟩
      | host ip n =>
        obtain ⟨rfl, hip, hn, c, hc, q, hq, rfl⟩ := h
        exact ⟨_, (hmem _).2 (Or.inr ⟨hip, c, hc, Or.inr ⟨q, hq, Or.inl ⟨hn, rfl⟩⟩⟩), _, rfl, rfl⟩
  · intro o ho x hx
    rcases (hmem o).1 ho with ⟨s, hs, h1, rfl⟩ | ⟨hip, c, hc, ⟨h1, rfl⟩ | ⟨q, hq, ⟨h1, rfl⟩ | rfl⟩⟩ <;>
      (obtain ⟨_, rfl⟩ := hx; rfl)

/-- C39, registration: after a pod is added every key it has leads to this pod, all others are as before, and no
deletion is planned. -/
theorem add_registers (me : Bytes) (s : St) (p : Pod) (k : Key) :
    (has p k → ∃ c, entry (addPod me s p) k = some c ∧ c.pod = infoOf p) ∧
    (¬ has p k → entry (addPod me s p) k = entry s k) ∧ (addPod me s p).queue = s.queue := by
  obtain ⟨h1, h2⟩ := run_adds (regOps p) (regOps_adds p) s.cache k
  obtain ⟨r1, r2⟩ := regOps_has p k
  have he : ∀ s : St, entry s k = centry s.cache k := fun s => by cases k <;> rfl
  refine ⟨fun h => ?_, fun h => ?_, rfl⟩
  · obtain ⟨x, e, o, ho, hreg⟩ := h1 (r1.2 h)
    exact ⟨x, by rw [he]; exact e, r2 o ho x hreg⟩
  · rw [he, he]
    exact h2 (fun hx => h (r1.1 hx))

/-! ### Deletion -/

theorem filter_filter' {α} (o : Option α) (p q : α → Bool) : (o.filter p).filter q = o.filter (fun x => p x && q x) := by
  cases o with
  | none => rfl
  | some a => by_cases hp : p a = true <;> by_cases hq : q a = true <;> simp [Option.filter, hp, hq]

theorem filter_congr' {α} (o : Option α) (p q : α → Bool) (h : ∀ x, o = some x → p x = q x) : o.filter p = o.filter q := by
  cases o with
  | none => rfl
  | some a => simp [Option.filter, h a rfl]

theorem filter_true' {α} (o : Option α) (p : α → Bool) (h : ∀ x, o = some x → p x = true) : o.filter p = o := by
  cases o with
  | none => rfl
  | some a => simp [Option.filter, h a rfl]

/-- What the three loops of a deletion spare. -/
def cidKeep (l : List Bytes) : Key → Cont → Bool
  | .cid id, _ => !decide (id ∈ l)
  | _, _ => true
def portKeep (uid ip : Bytes) (l : List Nat) : Key → Cont → Bool
  | .port ip' p, x => !decide (ip' = ip ∧ p ∈ l ∧ x.pod.uid = uid)
  | _, _ => true
def hostKeep (uid ip : Bytes) (l : List Nat) : Key → Cont → Bool
  | .host ip' p, x => !decide (ip' = ip ∧ p ∈ l ∧ x.pod.uid = uid)
  | _, _ => true

theorem delCids_spec (l : List Bytes) (c : Cache.C Unit) (k : Key) :
    centry (delCids l c) k = (centry c k).filter (cidKeep l k) := by
  induction l generalizing c with
  | nil => rw [delCids, filter_true']; intro x _; cases k <;> simp [cidKeep]
  | cons i r ih =>
    rw [delCids, ih]
    cases k with
    | cid id =>
      simp only [centry, AMap.get_del]
      by_cases h2 : i = id
      · subst h2
        cases hx : c.cids.get i <;> simp [cidKeep, Option.filter]
      · rw [if_neg h2]
        apply filter_congr'
        intro x _
        simp [cidKeep, Ne.symm h2]
    | port _ _ => rfl
    | host _ _ => rfl

theorem delPorts_spec (uid ip : Bytes) (l : List Nat) (c : Cache.C Unit) (k : Key) :
    centry (delPorts uid ip l c) k = (centry c k).filter (portKeep uid ip l k) := by
  induction l generalizing c with
  | nil => rw [delPorts, filter_true']; intro x _; cases k <;> simp [portKeep]
  | cons n r ih =>
    rw [delPorts, ih]
    have hfirst : ∀ ip' p, Cache.get2 (match Cache.getContainer c.ips ip n with
        | none => c
        | some x => if x.pod.uid = uid then { c with ips := Cache.del2 c.ips ip n } else c).ips ip' p =
        (Cache.get2 c.ips ip' p).filter (fun x => !decide (ip' = ip ∧ p = n ∧ x.pod.uid = uid)) := by
      intro ip' p
      cases hg : Cache.get2 c.ips ip n with
      | some x =>
        have hc : Cache.getContainer c.ips ip n = some x := by
          unfold Cache.get2 at hg
          unfold Cache.getContainer
          cases hi : c.ips.get ip with
          | none => rw [hi] at hg; cases hg
          | some inner => rw [hi] at hg; simp only [Option.bind_some] at hg; simp [hg]
        rw [hc]
        simp only
        by_cases hu : x.pod.uid = uid
        · rw [if_pos hu, Cache.get2_del2]
          by_cases hk : ip = ip' ∧ n = p
          · obtain ⟨rfl, rfl⟩ := hk
            rw [if_pos ⟨rfl, rfl⟩, hg]
            simp [Option.filter, hu]
          · rw [if_neg hk, filter_true']
            intro y _
            simp only [Bool.not_eq_true', decide_eq_false_iff_not]
            exact fun h => hk ⟨h.1.symm, h.2.1.symm⟩
        · rw [if_neg hu, filter_true']
          intro y hy
          simp only [Bool.not_eq_true', decide_eq_false_iff_not]
          rintro ⟨rfl, rfl, hyu⟩
          rw [hg] at hy; cases hy; exact hu hyu
      | none =>
        rw [filter_true']
        · cases hc : Cache.getContainer c.ips ip n with
          | none => rfl
          | some x =>
            simp only
            by_cases hu : x.pod.uid = uid
            · rw [if_pos hu, Cache.get2_del2]
              by_cases hk : ip = ip' ∧ n = p
              · obtain ⟨rfl, rfl⟩ := hk
                rw [if_pos ⟨rfl, rfl⟩, hg]
              · rw [if_neg hk]
            · rw [if_neg hu]
        · intro y hy
          simp only [Bool.not_eq_true', decide_eq_false_iff_not]
          rintro ⟨rfl, rfl, hyu⟩
          rw [hg] at hy; cases hy
    cases k with
    | port ip' p =>
      simp only [centry, hfirst]
      rw [filter_filter']
      apply filter_congr'
      intro x _
      simp only [portKeep, List.mem_cons]
      by_cases h1 : ip' = ip <;> by_cases h2 : p = n <;> by_cases h3 : x.pod.uid = uid <;> simp [h1, h2, h3]
    | cid id =>
      simp only [centry]
      split
      · rfl
      · split <;> rfl
    | host ip' p =>
      simp only [centry]
      split
      · rfl
      · split <;> rfl

theorem delHosts_spec (uid ip : Bytes) (l : List Nat) (c : Cache.C Unit) (k : Key) :
    centry (delHosts uid ip l c) k = (centry c k).filter (hostKeep uid ip l k) := by
  induction l generalizing c with
  | nil => rw [delHosts, filter_true']; intro x _; cases k <;> simp [hostKeep]
  | cons n r ih =>
    rw [delHosts, ih]
    have hfirst : ∀ ip' p, (match c.hosts.get (Cache.hostKey ip n) with
        | none => c
        | some x => if x.pod.uid = uid then { c with hosts := c.hosts.del (Cache.hostKey ip n) } else c).hosts.get (Cache.hostKey ip' p) =
        (c.hosts.get (Cache.hostKey ip' p)).filter (fun x => !decide (ip' = ip ∧ p = n ∧ x.pod.uid = uid)) := by
      intro ip' p
      cases hg : c.hosts.get (Cache.hostKey ip n) with
      | none =>
        rw [filter_true']
        intro y hy
        simp only [Bool.not_eq_true', decide_eq_false_iff_not]
        rintro ⟨rfl, rfl, hyu⟩
        rw [hg] at hy; cases hy
      | some x =>
        simp only
        by_cases hu : x.pod.uid = uid
        · rw [if_pos hu]
          simp only [AMap.get_del]
          by_cases hk : Cache.hostKey ip n = Cache.hostKey ip' p
          · obtain ⟨rfl, rfl⟩ := Cache.hostKey_inj hk
            rw [if_pos rfl, hg]
            simp [Option.filter, hu]
          · rw [if_neg hk, filter_true']
            intro y _
            simp only [Bool.not_eq_true', decide_eq_false_iff_not]
            rintro ⟨rfl, rfl, _⟩; exact hk rfl
        · rw [if_neg hu, filter_true']
          intro y hy
          simp only [Bool.not_eq_true', decide_eq_false_iff_not]
          rintro ⟨rfl, rfl, hyu⟩
          rw [hg] at hy; cases hy; exact hu hyu
    cases k with
    | host ip' p =>
      simp only [centry, hfirst]
      rw [filter_filter']
      apply filter_congr'
      intro x _
      simp only [hostKeep, List.mem_cons]
      by_cases h1 : ip' = ip <;> by_cases h2 : p = n <;> by_cases h3 : x.pod.uid = uid <;> simp [h1, h2, h3]
    | cid id =>
      simp only [centry]
      split
      · rfl
      · split <;> rfl
    | port ip' p =>
      simp only [centry]
      split
      · rfl
      · split <;> rfl

/-- `kills` as a test. -/
def Req.killsB (d : Req) (k : Key) (c : Cont) : Bool :=
  !(cidKeep d.cids k c && (decide (d.ip = []) || portKeep d.uid d.ip d.ports k c) &&
    (decide (d.hostIp = []) || hostKeep d.uid d.hostIp d.hostPorts k c))

theorem killsB_iff (d : Req) (k : Key) (c : Cont) : d.killsB k c = true ↔ d.kills k c := by
  unfold Req.killsB Req.kills Req.about
  cases k with
  | cid id => simp [cidKeep, portKeep, hostKeep]
  | port ip p =>
    simp only [cidKeep, portKeep, hostKeep]
    by_cases h1 : d.ip = []
    · simp only [h1, decide_true, Bool.true_or, Bool.or_true, Bool.and_self, Bool.not_true, Bool.false_eq_true, false_iff]
      rintro ⟨⟨h, h', _⟩, _⟩
      exact h' h.symm
    · simp only [h1, decide_false, Bool.false_or, Bool.or_true, Bool.and_true, Bool.true_and, Bool.not_not, decide_eq_true_eq]
      constructor
      · rintro ⟨rfl, h2, h3⟩; exact ⟨⟨rfl, h1, h2⟩, h3⟩
      · rintro ⟨⟨rfl, _, h2⟩, h3⟩; exact ⟨rfl, h2, h3⟩
  | host ip p =>
    simp only [cidKeep, portKeep, hostKeep]
    by_cases h1 : d.hostIp = []
    · simp only [h1, decide_true, Bool.true_or, Bool.or_true, Bool.and_self, Bool.not_true, Bool.false_eq_true, false_iff]
      rintro ⟨⟨h, h', _⟩, _⟩
      exact h' h.symm
    · simp only [h1, decide_false, Bool.false_or, Bool.or_true, Bool.true_and, Bool.not_not, decide_eq_true_eq]
      constructor
      · rintro ⟨rfl, h2, h3⟩; exact ⟨⟨rfl, h1, h2⟩, h3⟩
      · rintro ⟨⟨rfl, _, h2⟩, h3⟩; exact ⟨rfl, h2, h3⟩

theorem entry_centry (s : St) (k : Key) : entry s k = centry s.cache k := by cases k <;> rfl

/-- One request removes exactly the entries it kills. -/
theorem deleteInfo_spec (s : St) (d : Req) (k : Key) :
    entry (deleteInfo s d) k = (entry s k).filter (fun c => !d.killsB k c) ∧ (deleteInfo s d).queue = s.queue := by
  have hs1 : ∀ s1 : St, s1 = (if d.name = [] then s else match s.pods.get (d.ns, d.name) with
      | none => s
      | some i => { s with pods := s.pods.del (d.ns, d.name), workloads := s.workloads.del (i.ns, i.wname) }) →
      s1.cache = s.cache ∧ s1.queue = s.queue := by
    rintro s1 rfl
    split
    · exact ⟨rfl, rfl⟩
    · split <;> exact ⟨rfl, rfl⟩
  obtain ⟨hc, hq⟩ := hs1 _ rfl
  refine ⟨?_, ?_⟩
  · rw [entry_centry, entry_centry]
    unfold deleteInfo
    simp only [hc]
    have hp : ∀ c : Cache.C Unit, centry (if d.ip = [] then c else delPorts d.uid d.ip d.ports c) k =
        (centry c k).filter (fun x => decide (d.ip = []) || portKeep d.uid d.ip d.ports k x) := by
      intro c
      by_cases h : d.ip = []
      · rw [if_pos h, filter_true']; intro x _; simp [h]
      · rw [if_neg h, delPorts_spec]; apply filter_congr'; intro x _; simp [h]
    have hh : ∀ c : Cache.C Unit, centry (if d.hostIp = [] then c else delHosts d.uid d.hostIp d.hostPorts c) k =
        (centry c k).filter (fun x => decide (d.hostIp = []) || hostKeep d.uid d.hostIp d.hostPorts k x) := by
      intro c
      by_cases h : d.hostIp = []
      · rw [if_pos h, filter_true']; intro x _; simp [h]
      · rw [if_neg h, delHosts_spec]; apply filter_congr'; intro x _; simp [h]
    rw [hh, hp, delCids_spec, filter_filter', filter_filter']
    apply filter_congr'
    intro x _
    simp [Req.killsB, Bool.and_assoc]
  · unfold deleteInfo
    exact hq

/-- The host ports of a container: every host port leads to a container port it was given for, and none is left out. -/
theorem hostMap_spec (l : List (Nat × Nat)) (h c : Nat) :
    ((hostMap l []).get h = some c → h ≠ 0 ∧ (c, h) ∈ l) ∧
    (h ≠ 0 → (c, h) ∈ l → (∀ c', (c', h) ∈ l → c' = c) → (hostMap l []).get h = some c) := by
  have gen : ∀ (l : List (Nat × Nat)) (m : AMap Nat Nat),
      ((hostMap l m).get h = some c → (h ≠ 0 ∧ (c, h) ∈ l) ∨ m.get h = some c) ∧
      (h ≠ 0 → ((c, h) ∈ l ∨ m.get h = some c) → (∀ c', (c', h) ∈ l → c' = c) → (hostMap l m).get h = some c) := by
    intro l
    induction l with
    | nil => intro m; exact ⟨Or.inr, fun _ h _ => h.resolve_left (by simp)⟩
    | cons x r ih =>
      intro m
      obtain ⟨c1, h1⟩ := x
      have ih := ih (if h1 ≠ 0 then m.set h1 c1 else m)
      rw [hostMap]
      constructor
      · intro hg
        rcases ih.1 hg with ⟨h2, h3⟩ | h2
        · exact Or.inl ⟨h2, by simp [h3]⟩
        · by_cases hz : h1 ≠ 0
          · rw [if_pos hz, AMap.get_set] at h2
            by_cases he : h1 = h
            · subst he
              simp only [if_true, Option.some.injEq] at h2
              exact Or.inl ⟨hz, by simp [h2]⟩
            · rw [if_neg he] at h2; exact Or.inr h2
          · rw [if_neg hz] at h2; exact Or.inr h2
      · intro hz hor hu
        apply ih.2 hz _ (fun c' hc' => hu c' (by simp [hc']))
        by_cases he : h1 = h
        · subst he
          have : c1 = c := hu c1 (by simp)
          right
          rw [if_pos hz, AMap.get_set_self, this]
        · rcases hor with hm | hm
          · rcases List.mem_cons.1 hm with hm | hm
            · simp only [Prod.mk.injEq] at hm; exact absurd hm.2.symm he
            · exact Or.inl hm
          · right
            by_cases hz1 : h1 ≠ 0
            · rw [if_pos hz1, AMap.get_set, if_neg he]; exact hm
            · rw [if_neg hz1]; exact hm
  refine ⟨fun hg => ((gen l []).1 hg).resolve_right (by simp [AMap.get]), fun hz hm hu => (gen l []).2 hz (Or.inl hm) hu⟩

example : (hostMap [(80, 8080), (81, 0)] []).get 8080 = some 80 := by decide

end Kindling.K8s.Pods
