import Verif.Lock.Model
/-
The mutexes of the metadata caches.  metadata/kubernetes/k8scache.go, hostport_map.go, pod_watch.go, pod_delete.go,
service_watch.go, replicaset_watch.go, node_watch.go, initk8s.go, metadata/metaprovider/service/service.go.
-/
namespace Kindling.K8s.Locks
open Kindling.Lock

/-- The mutexes: `rsUpdateMutex` (replicaset_watch.go:27), `serviceUpdatedMutex` (service_watch.go:33), `cMut`, `pMut`, `sMut`
(k8scache.go:41-76), the one of `HostPortMap` (hostport_map.go:15), of `NodeMap`, `podMap`, `ReplicaSetMap`,
`podDeleteQueueMut` (pod_delete.go:14), of `ServiceMap` and `workloadMap`. -/
inductive Lk where
  | rsUpd | svcUpd | c | p | s | host | node | pod | rs | del | svc | wl
deriving DecidableEq, Repr

/-- The shared variables: the maps `ContainerIdInfo`, `IpContainerInfo` and `IpServiceInfo` with the maps inside, `HostPortInfo`,
those of nodes, pods and replica sets, the queue of deletions, the maps of services (with the selectors of the services) and
workloads, the map `HostPortMap` of a container that other goroutines can reach, and the fields that are written of objects
other goroutines can reach: `ContainerIds`, `Ports` and `HostPorts` of a pod (`lists`), `ServiceInfo` of a pod (`podSvc`), the
fields of a service but its selector (`svcF`).  One variable stands for the fields of all pods or services. -/
inductive Var where
  | ids | ipC | ipS | host | nodes | pods | rss | queue | svcs | wls | ports | lists | podSvc | svcF
deriving DecidableEq, Repr

def Var.all : List Var :=
  [.ids, .ipC, .ipS, .host, .nodes, .pods, .rss, .queue, .svcs, .wls, .ports, .lists, .podSvc, .svcF]

/-- The variables without a mutex. -/
def Var.fields : List Var := [.ports, .lists, .podSvc, .svcF]

abbrev Tr := List (Act Lk Var)

/-! ### The functions -/

/-- `AddByContainerId`, `DeleteByContainerId` (k8scache.go:99-103, 125-129). -/
def idPut : Tr := lk .c .w [.put .ids]
/-- `GetByContainerId`, `GetPodByContainerId`, `GetCacheContainerIdInfoSize` (k8scache.go:93-97, 105-123). -/
def idGet : Tr := lk .c .r [.get .ids]
/-- `AddContainerByIpPort` (k8scache.go:131-146). -/
def ipAdd : Tr := lk .p .r [.get .ipC] ++ lk .p .w [.put .ipC]
/-- `GetContainerByIpPort`, `GetPodByIpPort`, `GetPodByIp` (k8scache.go:148-199). -/
def ipGet : Tr := lk .p .r [.get .ipC]
/-- `DeleteContainerByIpPort` (k8scache.go:201-214); `known` says whether the address is in the map. -/
def ipDel (known : Bool) : Tr := lk .p .r [.get .ipC] ++ (if known then lk .p .w [.put .ipC] else [])
/-- `HostPortMap.add`, `delete` (hostport_map.go:24-29, 42-47). -/
def hostPut : Tr := lk .host .w [.put .host]
/-- `HostPortMap.get` (hostport_map.go:31-40). -/
def hostGet : Tr := lk .host .r [.get .host]
/-- `AddServiceByIpPort` (k8scache.go:228-243). -/
def svcIpAdd : Tr := lk .s .r [.get .ipS] ++ lk .s .w [.put .ipS]
/-- `GetServiceByIpPort` (k8scache.go:245-257). -/
def svcIpGet : Tr := lk .s .r [.get .ipS]
/-- `DeleteServiceByIpPort` (k8scache.go:259-272). -/
def svcIpDel (known : Bool) : Tr := lk .s .r [.get .ipS] ++ (if known then lk .s .w [.put .ipS] else [])
/-- `NodeMap.add`, `delete` (node_watch.go:31-38, 60-64). -/
def nodePut : Tr := lk .node .w [.put .nodes]
/-- `getNodeName`, `getAllNodeAddresses` (node_watch.go:40-58). -/
def nodeGet : Tr := lk .node .r [.get .nodes]
/-- `podMap.add`, `delete` (pod_watch.go:87-112). -/
def podPut : Tr := lk .pod .w [.put .pods]
/-- `podMap.get`, `getPodsMatchSelectors` (pod_watch.go:134-168). -/
def podGet : Tr := lk .pod .r [.get .pods]
/-- `workloadMap.add`, `delete` (pod_watch.go:114-132). -/
def wlPut : Tr := lk .wl .w [.put .wls]
/-- `GetWorkloadDataGroup` (pod_watch.go:51-71). -/
def wlGet : Tr := lk .wl .r [.get .wls]
/-- `put`, `deleteOwnerReference` (replicaset_watch.go:48-52, 61-65). -/
def rsPut : Tr := lk .rs .w [.put .rss]
/-- `GetSize`, `GetOwnerReference` (replicaset_watch.go:42-46, 54-59). -/
def rsGet : Tr := lk .rs .r [.get .rss]
/-- `ServiceMap.add` (service_watch.go:63-72). -/
def svcPut : Tr := lk .svc .w [.put .svcs]
/-- `ServiceMap.delete` (service_watch.go:74-90, k8scache.go:47-55): the service stays in the map, its selector and its other
fields are emptied. -/
def svcDel (known : Bool) : Tr := lk .svc .w (.get .svcs :: if known then [.put .svcF, .put .svcs] else [])
/-- `GetServiceMatchLabels` (service_watch.go:44-61). -/
def svcGet : Tr := lk .svc .r [.get .svcs]
/-- The end of `UpdatePod` and `DeletePod` (pod_watch.go:422-427, 477-482). -/
def push : Tr := lk .del .w [.put .queue]

/-- What decides how `AddPod` goes: whether a replica set controls the pod, the number of services that select it, the number of
its container statuses with an ID, its containers (when it has an address), each with its ports, each with or without a host
port, and whether it is on this node. -/
structure PodShape where
  byRs : Bool
  svcs : Nat
  ids : Nat
  conts : List (List Bool)
  here : Bool

/-- The IDs (pod_watch.go:242-255): the pod is in the maps after the first. -/
def idsTr : Nat → Tr
  | 0 => []
  | n + 1 => idPut ++ (List.replicate n ()).flatMap (fun _ => .put .lists :: idPut)

/-- The ports of a container after the first: the container and its pod are in the maps already when the `HostPortMap` and the
lists are written (pod_watch.go:279-290). -/
def portTr (h : Bool) : Tr := .put .lists :: (if h then .put .ports :: .put .lists :: hostPut else []) ++ ipAdd

/-- One container (pod_watch.go:260-291); `sh` says whether the pod is in the maps already.  The `HostPortMap` written at the
first port is not shared yet. -/
def contTr (sh : Bool) : List Bool → Tr
  | [] => ipAdd ++ [.put .lists]
  | h :: ports => (if sh then [.put .lists] else []) ++ (if h then (if sh then [.put .lists] else []) ++ hostPut else []) ++ ipAdd ++
      ports.flatMap portTr

/-- The containers (pod_watch.go:258-292). -/
def contsTr (sh : Bool) : List (List Bool) → Tr
  | [] => []
  | c :: cs => contTr sh c ++ cs.flatMap (contTr true)

/-- `AddPod` (pod_watch.go:201-304): the services that select the pod get its workload after the mutex is given back. -/
def addPod (p : PodShape) : Tr :=
  lk .rsUpd .r (if p.byRs then rsGet else []) ++ svcGet ++ List.replicate p.svcs (.put .svcF) ++ idsTr p.ids ++
  contsTr (decide (0 < p.ids)) p.conts ++ podPut ++ (if p.here then wlPut else [])

/-- `UpdatePod` (pod_watch.go:345-428). -/
def updatePod (changed known : Bool) (p : PodShape) : Tr :=
  if changed then podGet ++ addPod p ++ (if known then push else []) else []

/-- A request to delete a pod: whether it has a name and the pod was known, the number of container IDs, and for every port
whether the entry is there, still of that pod, and its address in the map; for every host port the same. -/
structure Due where
  named : Bool
  known : Bool
  ids : Nat
  ports : List (Bool × Bool)
  hostPorts : List Bool

/-- `deletePodInfo` (pod_delete.go:63-114). -/
def deleteDue (d : Due) : Tr :=
  (if d.named then podPut ++ (if d.known then wlPut else []) else []) ++
  (List.replicate d.ids ()).flatMap (fun _ => idPut) ++
  d.ports.flatMap (fun x => ipGet ++ (if x.1 then ipDel x.2 else [])) ++
  d.hostPorts.flatMap (fun x => hostGet ++ (if x then hostPut else []))

/-- One round of `podDeleteLoop` (pod_delete.go:42-58). -/
def sweep (ds : List Due) : Tr := lk .del .w [.get .queue, .put .queue] ++ ds.flatMap deleteDue

/-- A service: whether it is in the map when it is deleted, whether it selects pods, for each pod its container IDs and ports,
each found in the maps or not, and for every port of the service whether and how many node addresses there are, with `known`
for the deletion. -/
structure SvcShape where
  known : Bool
  selects : Bool
  pods : List (List Bool × List Bool)
  ports : List (Bool × Option (List Bool))

/-- A pod found (service_watch.go:135-139, 143-147): the service, which is in the map of services, gets the workload, the pod the
service. -/
def tie (found : Bool) : Tr := if found then [.put .svcF, .put .podSvc] else []

/-- `AddService` (service_watch.go:119-159).  The lists of the pods of `GlobalPodInfo` are read here, but those are not written
any more. -/
def addService (s : SvcShape) : Tr :=
  svcPut ++ (if s.selects then podGet else []) ++
  s.pods.flatMap (fun x => x.1.flatMap (fun f => idGet ++ tie f) ++ x.2.flatMap (fun f => ipGet ++ tie f)) ++
  s.ports.flatMap (fun x => svcIpAdd ++ match x.2 with
    | some ns => nodeGet ++ ns.flatMap (fun _ => svcIpAdd)
    | none => [])

/-- `DeleteService` (service_watch.go:178-208). -/
def deleteService (s : SvcShape) : Tr :=
  svcDel s.known ++ s.ports.flatMap (fun x => svcIpDel x.1 ++ match x.2 with
    | some ns => nodeGet ++ ns.flatMap svcIpDel
    | none => [])

/-- `RLockMetadataCache`, the list of the provider, `RUnlockMetadataCache` (initk8s.go:216-236, service.go:159-167, 210-228): the
whole answer is written to the client between them. -/
def list : Tr :=
  [.acq .c .r, .acq .p .r, .acq .s .r, .acq .host .r, .acq .node .r, .acq .pod .r, .acq .rs .r, .acq .del .w,
   .get .ids, .get .lists, .get .podSvc, .get .svcF, .get .ipC, .get .ipS, .get .host, .get .ports, .get .nodes, .get .rss, .get .svcs, .send,
   .rel .del .w, .rel .rs .r, .rel .pod .r, .rel .node .r, .rel .host .r, .rel .s .r, .rel .p .r, .rel .c .r]

/-- `LockMetadataCache`, `SetupCache`, `UnlockMetadataCache` (initk8s.go:238-256, k8scache.go:300-346). -/
def setup : Tr :=
  [.acq .c .w, .acq .p .w, .acq .s .w, .acq .node .w, .acq .pod .w, .acq .rs .w, .acq .del .w,
   .put .pods, .put .wls, .put .ids, .put .host, .put .ipC, .put .ipS, .put .nodes, .put .svcs, .put .rss, .put .queue,
   .rel .del .w, .rel .rs .w, .rel .pod .w, .rel .node .w, .rel .s .w, .rel .p .w, .rel .c .w]

/-- What the goroutines of the program do with the caches. -/
inductive Op where
  | addPod (p : PodShape)
  | updatePod (changed known : Bool) (p : PodShape)
  | deletePod
  | sweep (ds : List Due)
  | addService (s : SvcShape)
  | updateService (old new : SvcShape)
  | deleteService (s : SvcShape)
  /-- `owned`: the replica set has a controller -/
  | addRs (owned : Bool)
  | updateRs (owned : Bool)
  | deleteRs
  | addNode
  | updateNode
  | deleteNode
  /-- queries of the processors and analyzers (kubernetes_processor.go:119-348, cpu_analyzer.go:153); `svc` is `none` if nothing
  is found or the service of the pod is not asked for, else whether the pod has one -/
  | byId (svc : Option Bool)
  | byIp (svc : Option Bool)
  | byService (found : Bool)
  | byHost (found : Bool)
  | nodeName
  | workloads
  /-- the status log of the provider (service.go:79-82) -/
  | sizes
  /-- `ClearAll` (k8scache.go:274-286), which nothing calls -/
  | clear
  | list
  | setup

/-- The service of a pod found is read after the mutex is given back (kubernetes_processor.go:220-222, 369-371). -/
def ask : Option Bool → Tr
  | none => []
  | some svc => .get .podSvc :: if svc then [.get .svcF] else []

def Op.tr : Op → Tr
  | .addPod p => Locks.addPod p
  | .updatePod a b p => Locks.updatePod a b p
  | .deletePod => push
  | .sweep ds => Locks.sweep ds
  | .addService s => Locks.addService s
  /- service_watch.go:165-176 -/
  | .updateService o n => lk .svcUpd .w (Locks.deleteService o ++ Locks.addService n)
  | .deleteService s => Locks.deleteService s
  /- replicaset_watch.go:96-108 -/
  | .addRs o => if o then rsPut else []
  /- replicaset_watch.go:110-121 -/
  | .updateRs o => lk .rsUpd .w (rsPut ++ if o then rsPut else [])
  | .deleteRs => rsPut
  | .addNode => nodePut
  | .updateNode => nodePut ++ nodePut
  | .deleteNode => nodePut
  | .byId svc => idGet ++ ask svc
  | .byIp svc => ipGet ++ ask svc
  /- kubernetes_processor.go:156-161, 307-312 -/
  | .byService f => svcIpGet ++ if f then [.get .svcF] else []
  /- kubernetes_processor.go:180-183, 335-339: the `HostPortMap` of the container is read after the mutex is given back -/
  | .byHost f => hostGet ++ if f then [.get .ports] else []
  | .nodeName => nodeGet
  | .workloads => wlGet
  | .sizes => idGet ++ rsGet
  | .clear => lk .p .w [.put .ipC] ++ lk .s .w [.put .ipS] ++ lk .c .w [.put .ids]
  | .list => Locks.list
  | .setup => Locks.setup

/-- The goroutines at the start, each with the operations it will do. -/
def begin (ps : List (List Op)) : List (Thread Lk Var) := start (ps.map fun os => os.flatMap Op.tr)

/-! ### The order of the mutexes and the mutex of each variable -/

def rank : Lk → Nat
  | .rsUpd => 0 | .svcUpd => 1 | .c => 2 | .p => 3 | .s => 4 | .host => 5 | .node => 6 | .pod => 7 | .rs => 8 | .del => 9
  | .svc => 10 | .wl => 11

def lockOf : Var → Option Lk
  | .ids => some .c | .ipC => some .p | .ipS => some .s | .host => some .host | .nodes => some .node | .pods => some .pod
  | .rss => some .rs | .queue => some .del | .svcs => some .svc | .wls => some .wl | .ports | .lists | .podSvc | .svcF => none

/-- The mutex of each variable, for those not in `ex`. -/
def guardEx (ex : List Var) (v : Var) : Option Lk := if v ∈ ex then none else lockOf v

variable {ex : List Var}

theorem guardEx_mem {v : Var} {l : Lk} (h : lockOf v = some l) : ∀ x ∈ guardEx ex v, x = l := by
  intro x hx
  unfold guardEx at hx
  split at hx
  · cases hx
  · rw [h] at hx
    cases hx
    rfl

theorem blk_get {l : Lk} {m : Md} {v : Var} (h : lockOf v = some l) : Block rank (guardEx ex) (rank l) (lk l m [.get v]) :=
  Block.get (Nat.le_refl _) (guardEx_mem h)

theorem blk_put {l : Lk} {v : Var} (h : lockOf v = some l) : Block rank (guardEx ex) (rank l) (lk l .w [.put v]) :=
  Block.put (Nat.le_refl _) (guardEx_mem h)

abbrev B (ex : List Var) (t : Tr) : Prop := Block rank (guardEx ex) 2 t

theorem b_get {l : Lk} {m : Md} {v : Var} (h : lockOf v = some l) (hl : 2 ≤ rank l) : B ex (lk l m [.get v]) := (blk_get h).mono hl
theorem b_put {l : Lk} {v : Var} (h : lockOf v = some l) (hl : 2 ≤ rank l) : B ex (lk l .w [.put v]) := (blk_put h).mono hl

theorem b_idPut : B ex idPut := b_put rfl (by decide)
theorem b_idGet : B ex idGet := b_get rfl (by decide)
theorem b_ipGet : B ex ipGet := b_get rfl (by decide)
theorem b_ipAdd : B ex ipAdd := (b_get rfl (by decide)).append (b_put rfl (by decide))
theorem b_ipDel (k : Bool) : B ex (ipDel k) := (b_get rfl (by decide)).append (.ite (b_put rfl (by decide)) (.nil _))
theorem b_hostPut : B ex hostPut := b_put rfl (by decide)
theorem b_hostGet : B ex hostGet := b_get rfl (by decide)
theorem b_svcIpAdd : B ex svcIpAdd := (b_get rfl (by decide)).append (b_put rfl (by decide))
theorem b_svcIpGet : B ex svcIpGet := b_get rfl (by decide)
theorem b_svcIpDel (k : Bool) : B ex (svcIpDel k) := (b_get rfl (by decide)).append (.ite (b_put rfl (by decide)) (.nil _))
theorem b_nodePut : B ex nodePut := b_put rfl (by decide)
theorem b_nodeGet : B ex nodeGet := b_get rfl (by decide)
theorem b_podPut : B ex podPut := b_put rfl (by decide)
theorem b_podGet : B ex podGet := b_get rfl (by decide)
theorem b_wlPut : B ex wlPut := b_put rfl (by decide)
theorem b_wlGet : B ex wlGet := b_get rfl (by decide)
theorem b_rsPut : B ex rsPut := b_put rfl (by decide)
theorem b_rsGet : B ex rsGet := b_get rfl (by decide)
theorem b_svcPut : B ex svcPut := b_put rfl (by decide)
theorem b_svcGet : B ex svcGet := b_get rfl (by decide)
theorem b_push : B ex push := b_put rfl (by decide)

theorem fields_free {v : Var} (h : v ∈ Var.fields) : guardEx ex v = none := by
  unfold guardEx
  split
  · rfl
  · simp only [Var.fields, List.mem_cons, List.mem_nil_iff, or_false] at h
    rcases h with rfl | rfl | rfl | rfl <;> rfl

theorem b_getF {v : Var} (h : v ∈ Var.fields) : B ex [.get v] := by
  intro H _
  simp [chk, fields_free h]

theorem b_putF {v : Var} (h : v ∈ Var.fields) : B ex [.put v] := by
  intro H _
  simp [chk, fields_free h]

theorem b_svcDel (k : Bool) : B ex (svcDel k) := by
  refine (Block.lk (n := 10) (by decide) ?_ : Block rank (guardEx ex) 10 _).mono (by decide)
  intro H _
  have : ∀ l ∈ guardEx ex .svcs, l = .svc := guardEx_mem rfl
  have hf : guardEx ex .svcF = none := fields_free (by decide)
  have h1 : ∀ l ∈ guardEx ex .svcs, (l, Md.r) ∈ (Lk.svc, Md.w) :: H ∨ (l, Md.w) ∈ (Lk.svc, Md.w) :: H := by
    intro l hl
    rw [this l hl]
    simp
  have h2 : ∀ l ∈ guardEx ex .svcs, (l, Md.w) ∈ (Lk.svc, Md.w) :: H := by
    intro l hl
    rw [this l hl]
    simp
  cases k
  · simp only [chk]
    rw [if_pos h1]
    rfl
  · simp only [chk, if_true]
    rw [if_pos h1, if_pos (by rw [hf]; simp), if_pos h2]

theorem b_tie (f : Bool) : B ex (tie f) :=
  .ite ((b_putF (v := .svcF) (by decide)).append (b_putF (v := .podSvc) (by decide))) (.nil _)

theorem b_ask (x : Option Bool) : B ex (ask x) := by
  match x with
  | none => exact .nil _
  | some f => exact (b_getF (v := .podSvc) (by decide)).append (.ite (b_getF (by decide)) (.nil _))

theorem b_idsTr (n : Nat) : B ex (idsTr n) := by
  cases n with
  | zero => exact .nil _
  | succ n => exact b_idPut.append (.flatMap fun _ _ => (b_putF (v := .lists) (by decide)).append b_idPut)

theorem b_portTr (h : Bool) : B ex (portTr h) :=
  Block.append ((b_putF (v := .lists) (by decide)).append
    (.ite ((b_putF (v := .ports) (by decide)).append ((b_putF (v := .lists) (by decide)).append b_hostPut)) (.nil _))) b_ipAdd

theorem b_contTr (sh : Bool) (l : List Bool) : B ex (contTr sh l) := by
  have hl : B ex [.put .lists] := b_putF (by decide)
  cases l with
  | nil => exact b_ipAdd.append hl
  | cons h ports =>
    exact (((Block.ite hl (.nil _)).append (.ite ((Block.ite hl (.nil _)).append b_hostPut) (.nil _))).append b_ipAdd).append
      (.flatMap fun x _ => b_portTr x)

theorem b_contsTr (sh : Bool) (l : List (List Bool)) : B ex (contsTr sh l) := by
  cases l with
  | nil => exact .nil _
  | cons c cs => exact (b_contTr sh c).append (.flatMap fun x _ => b_contTr true x)

theorem b_puts {v : Var} (h : v ∈ Var.fields) (n : Nat) : B ex (List.replicate n (.put v)) := by
  induction n with
  | zero => exact .nil _
  | succ n ih => exact (b_putF h).append ih

/-- Every operation, with `rsUpdateMutex` and `serviceUpdatedMutex` the outermost. -/
abbrev B0 (ex : List Var) (t : Tr) : Prop := Block rank (guardEx ex) 0 t

theorem B.b0 {t : Tr} (h : B ex t) : B0 ex t := Block.mono (by decide) h

theorem b_addPod (p : PodShape) : B0 ex (Locks.addPod p) := by
  have h1 : B0 ex (lk .rsUpd .r (if p.byRs then rsGet else [])) :=
    Block.lk_block (by decide) ((Block.ite b_rsGet (.nil _) : B ex _).mono (by decide))
  refine ((((((h1.append b_svcGet.b0).append ?_).append ?_).append ?_).append b_podPut.b0).append ?_)
  · exact (b_puts (by decide) _).b0
  · exact (b_idsTr _).b0
  · exact (b_contsTr _ _).b0
  · exact B.b0 (Block.ite b_wlPut (.nil _))

theorem b_deleteDue (d : Due) : B ex (deleteDue d) :=
  (((Block.ite (b_podPut.append (.ite b_wlPut (.nil _))) (.nil _)).append (.flatMap fun _ _ => b_idPut)).append
    (.flatMap fun _ _ => b_ipGet.append (.ite (b_ipDel _) (.nil _)))).append
    (.flatMap fun _ _ => b_hostGet.append (.ite b_hostPut (.nil _)))

theorem b_sweep (ds : List Due) : B ex (Locks.sweep ds) := by
  refine Block.append ?_ (.flatMap fun d _ => b_deleteDue d)
  refine (Block.lk (n := 9) (by decide) ?_ : Block rank (guardEx ex) 9 _).mono (by decide)
  intro H _
  have : ∀ l ∈ guardEx ex .queue, l = .del := guardEx_mem rfl
  simp only [chk]
  rw [if_pos, if_pos]
  · intro l hl
    rw [this l hl]
    simp
  · intro l hl
    rw [this l hl]
    simp

theorem b_addService (s : SvcShape) : B ex (Locks.addService s) := by
  refine ((b_svcPut.append (.ite b_podGet (.nil _))).append ?_).append ?_
  · exact .flatMap fun x _ => Block.append (.flatMap fun f _ => b_idGet.append (b_tie f)) (.flatMap fun f _ => b_ipGet.append (b_tie f))
  · refine .flatMap fun x _ => b_svcIpAdd.append ?_
    cases x.2 with
    | none => exact .nil _
    | some ns => exact b_nodeGet.append (.flatMap fun _ _ => b_svcIpAdd)

theorem b_deleteService (s : SvcShape) : B ex (Locks.deleteService s) := by
  refine (b_svcDel _).append (.flatMap fun x _ => (b_svcIpDel _).append ?_)
  cases x.2 with
  | none => exact .nil _
  | some ns => exact b_nodeGet.append (.flatMap fun y _ => b_svcIpDel y)

theorem rank_of_not {H : List (Lk × Md)} (h : ∀ x ∈ H, rank x.1 < 0) : H = [] := by
  cases H with
  | nil => rfl
  | cons a _ => exact absurd (h a (by simp)) (Nat.not_lt_zero _)

theorem b_list (he : .svcs ∈ ex) : B0 ex Locks.list := by
  intro H h
  cases rank_of_not h
  have hg : ∀ v : Var, ∀ l, l ∈ guardEx ex v → lockOf v = some l ∧ v ≠ .svcs := by
    intro v l hl
    unfold guardEx at hl
    split at hl
    · cases hl
    · next hn => exact ⟨hl, fun e => hn (e ▸ he)⟩
  simp only [Locks.list, chk]
  have e : ∀ (v : Var) (H : List (Lk × Md)), (∀ l, lockOf v = some l → v ≠ .svcs → (l, Md.r) ∈ H ∨ (l, Md.w) ∈ H) →
      ∀ l ∈ guardEx ex v, (l, Md.r) ∈ H ∨ (l, Md.w) ∈ H := fun v H hh l hl => hh l (hg v l hl).1 (hg v l hl).2
  rw [if_pos (by decide), if_pos (by decide), if_pos (by decide), if_pos (by decide), if_pos (by decide), if_pos (by decide),
    if_pos (by decide), if_pos (by decide)]
  rw [if_pos (e _ _ (by rintro _ ⟨⟩ _; decide)), if_pos (e _ _ (by rintro _ ⟨⟩ _)), if_pos (e _ _ (by rintro _ ⟨⟩ _)),
    if_pos (e _ _ (by rintro _ ⟨⟩ _)), if_pos (e _ _ (by rintro _ ⟨⟩ _; decide)), if_pos (e _ _ (by rintro _ ⟨⟩ _; decide)),
    if_pos (e _ _ (by rintro _ ⟨⟩ _; decide)), if_pos (e _ _ (by rintro _ ⟨⟩ _)), if_pos (e _ _ (by rintro _ ⟨⟩ _; decide)),
    if_pos (e _ _ (by rintro _ ⟨⟩ _; decide)), if_pos (e _ _ (by intro _ _ h; exact absurd rfl h))]
  decide

theorem b_setup (h1 : .host ∈ ex) (h2 : .wls ∈ ex) (h3 : .svcs ∈ ex) : B0 ex Locks.setup := by
  intro H h
  cases rank_of_not h
  simp only [Locks.setup, chk]
  have e : ∀ (v : Var) (H : List (Lk × Md)), (∀ l, lockOf v = some l → v ≠ .svcs → v ≠ .host → v ≠ .wls → (l, Md.w) ∈ H) →
      ∀ l ∈ guardEx ex v, (l, Md.w) ∈ H := by
    intro v H hh l hl
    unfold guardEx at hl
    split at hl
    · cases hl
    · next hn => exact hh l hl (fun e => hn (e ▸ h3)) (fun e => hn (e ▸ h1)) (fun e => hn (e ▸ h2))
  rw [if_pos (by decide), if_pos (by decide), if_pos (by decide), if_pos (by decide), if_pos (by decide), if_pos (by decide),
    if_pos (by decide)]
  rw [if_pos (e _ _ (by rintro _ ⟨⟩ _ _ _; decide)), if_pos (e _ _ (by intro _ _ _ _ h; exact absurd rfl h)),
    if_pos (e _ _ (by rintro _ ⟨⟩ _ _ _; decide)), if_pos (e _ _ (by intro _ _ _ h; exact absurd rfl h)),
    if_pos (e _ _ (by rintro _ ⟨⟩ _ _ _; decide)), if_pos (e _ _ (by rintro _ ⟨⟩ _ _ _; decide)),
    if_pos (e _ _ (by rintro _ ⟨⟩ _ _ _; decide)), if_pos (e _ _ (by intro _ _ h; exact absurd rfl h)),
    if_pos (e _ _ (by rintro _ ⟨⟩ _ _ _; decide)), if_pos (e _ _ (by rintro _ ⟨⟩ _ _ _; decide))]
  decide

/-- The variables an operation uses without their mutex. -/
def Op.bare : Op → List Var
  | .list => [.svcs]
  | .setup => [.host, .wls, .svcs]
  | _ => []

theorem b_op (o : Op) (h : ∀ v ∈ o.bare, v ∈ ex) : B0 ex o.tr := by
  cases o with
  | addPod p => exact b_addPod p
  | updatePod a b p =>
    cases a
    · exact .nil _
    · exact (b_podGet.b0.append (b_addPod p)).append (.ite b_push.b0 (.nil _))
  | deletePod => exact b_push.b0
  | sweep ds => exact (b_sweep ds).b0
  | addService s => exact (b_addService s).b0
  | updateService a b => exact Block.lk_block (by decide) ((b_deleteService a).append (b_addService b))
  | deleteService s => exact (b_deleteService s).b0
  | addRs b => exact B.b0 (Block.ite b_rsPut (.nil _))
  | updateRs b => exact Block.lk_block (by decide) ((b_rsPut.append (.ite b_rsPut (.nil _))).mono (by decide))
  | deleteRs => exact b_rsPut.b0
  | addNode => exact b_nodePut.b0
  | updateNode => exact B.b0 (b_nodePut.append b_nodePut)
  | deleteNode => exact b_nodePut.b0
  | byId x => exact B.b0 (b_idGet.append (b_ask x))
  | byIp x => exact B.b0 (b_ipGet.append (b_ask x))
  | byService f => exact B.b0 (b_svcIpGet.append (.ite (b_getF (by decide)) (.nil _)))
  | byHost f => exact B.b0 (b_hostGet.append (.ite (b_getF (by decide)) (.nil _)))
  | nodeName => exact b_nodeGet.b0
  | workloads => exact b_wlGet.b0
  | sizes => exact B.b0 (b_idGet.append b_rsGet)
  | clear =>
    exact B.b0 (((b_put (l := .p) rfl (by decide)).append (b_put (l := .s) rfl (by decide))).append (b_put (l := .c) rfl (by decide)))
  | list => exact b_list (h _ (by simp [Op.bare]))
  | setup => exact b_setup (h _ (by simp [Op.bare])) (h _ (by simp [Op.bare])) (h _ (by simp [Op.bare]))

theorem inv_begin (ps : List (List Op)) (h : ∀ os ∈ ps, ∀ o ∈ os, ∀ v ∈ o.bare, v ∈ ex) :
    Inv rank (guardEx ex) (begin ps) := by
  apply inv_start
  intro p hp
  obtain ⟨os, hos, rfl⟩ := List.mem_map.1 hp
  exact .flatMap fun o ho => b_op o (h os hos o ho)

/-! ### Theorems -/

/-- Whatever the goroutines do and however they are scheduled, as long as one has something to do one of them steps: no set of
them waits for each other, none waits for itself, and none gives back a mutex it does not hold. -/
theorem no_deadlock (ps : List (List Op)) (is : List Nat) (ts : List (Thread Lk Var)) (hr : Run (begin ps) is ts)
    (h : ∃ t ∈ ts, t.rest ≠ []) : ∃ i ts', Step ts i ts' :=
  progress (run_inv hr (inv_begin (ex := [.host, .wls, .svcs]) ps (by
    intro os _ o _ v hv
    cases o <;> simp [Op.bare] at hv <;> simp [hv]))) h

/-- Every state can be continued until all operations are done, and no execution takes more steps than twice the number
of actions. -/
theorem all_complete (ps : List (List Op)) (is : List Nat) (ts : List (Thread Lk Var)) (hr : Run (begin ps) is ts) :
    (∃ js ts', Run ts js ts' ∧ ∀ t ∈ ts', t.rest = []) ∧
    is.length ≤ 2 * (ps.map fun os => (os.flatMap Op.tr).length).sum := by
  refine ⟨finishes (run_inv hr (inv_begin (ex := [.host, .wls, .svcs]) ps (by
    intro os _ o _ v hv
    cases o <;> simp [Op.bare] at hv <;> simp [hv]))), ?_⟩
  have h := run_todo hr
  have e : todo (begin ps) = 2 * (ps.map fun os => (os.flatMap Op.tr).length).sum := by
    clear hr h
    induction ps with
    | nil => rfl
    | cons os ps ih =>
      simp only [todo, begin, start, List.map_cons, List.sum_cons, List.map_map] at ih ⊢
      rw [ih]
      simp [Thread.todo]
      omega
  omega

/-- A variable is never used by two goroutines at once with one of them writing, if only it has a mutex and no operation of
the program uses it without. -/
theorem guarded (ps : List (List Op)) (is : List Nat) (ts : List (Thread Lk Var)) (hr : Run (begin ps) is ts) (v : Var)
    (hv : v ∉ [.ports, .lists, .podSvc, .svcF]) (hb : ∀ os ∈ ps, ∀ o ∈ os, v ∉ o.bare) : ¬ Race ts v := by
  have hall : ∀ x : Var, x ∈ Var.all := by
    intro x
    cases x <;> decide
  let ex := Var.all.filter (· ≠ v)
  have hi : Inv rank (guardEx ex) ts := run_inv hr (inv_begin ps (by
    intro os hos o ho x hx
    refine List.mem_filter.2 ⟨hall x, ?_⟩
    have : x ≠ v := fun e => hb os hos o ho (e ▸ hx)
    simpa using this))
  have hn : v ∉ ex := by
    intro h
    have := (List.mem_filter.1 h).2
    simp at this
  obtain ⟨l, hl⟩ : ∃ l, lockOf v = some l := by
    cases v <;> first | exact ⟨_, rfl⟩ | exact absurd (by decide) hv
  exact no_race hi (l := l) (by unfold guardEx; rw [if_neg hn]; exact hl)

/-- The operations of a collector that watches the API server (initk8s.go:93-110), and of the provider (service.go:58-121) but
for the answers to its clients, use every map under its mutex. -/
theorem api_server_guarded (ps : List (List Op)) (h : ∀ os ∈ ps, ∀ o ∈ os, o ≠ .list ∧ o ≠ .setup) (is : List Nat)
    (ts : List (Thread Lk Var)) (hr : Run (begin ps) is ts) (v : Var) (hv : v ∉ [.ports, .lists, .podSvc, .svcF]) : ¬ Race ts v := by
  refine guarded ps is ts hr v hv ?_
  intro os hos o ho
  have := h os hos o ho
  cases o <;> simp [Op.bare] <;> simp at this

/-- Everything but the map of services, the `HostPortMap` of containers, the fields of pods and services, the host ports and the
workloads is always used under its mutex. -/
theorem caches_guarded_partial (ps : List (List Op)) (is : List Nat) (ts : List (Thread Lk Var)) (hr : Run (begin ps) is ts) (v : Var)
    (hv : v = .ids ∨ v = .ipC ∨ v = .ipS ∨ v = .nodes ∨ v = .pods ∨ v = .rss ∨ v = .queue) : ¬ Race ts v := by
  refine guarded ps is ts hr v ?_ ?_
  · rcases hv with rfl | rfl | rfl | rfl | rfl | rfl | rfl <;> decide
  · intro os _ o _
    cases o <;> simp [Op.bare]
    · rintro rfl
      simp at hv
    · rcases hv with rfl | rfl | rfl | rfl | rfl | rfl | rfl <;> decide

/-! ### What is not guarded -/

/-- Two goroutines, the first stepping through `a`, then the second through `b`. -/
theorem pair {p q a b k k' : Tr} {H H' : List (Lk × Md)} (hp : p = a ++ k) (hq : q = b ++ k')
    (ha : chk rank (fun _ => none) [] a = some H) (hb : chk rank (fun _ => none) [] b = some H')
    (hd : ∀ l m, .acq l m ∈ b → ∀ m', (l, m') ∉ H) :
    ∃ is, Run (start [p, q]) is [⟨H, k, false⟩, ⟨H', k', false⟩] := by
  subst hp hq
  obtain ⟨is, _, h1⟩ := solo rank (i := 0) a (start [a ++ k, b ++ k']) [] H k rfl ha (by
    intro j tj hj htj l m _
    match j, hj, htj with
    | 1, _, htj =>
      simp only [start, List.map_cons, List.getElem?_cons_succ, List.getElem?_cons_zero, Option.some.injEq] at htj
      subst htj
      exact ⟨fun m' => by simp, fun h => by cases h.1⟩
    | j + 2, _, htj => simp [start] at htj)
  obtain ⟨js, _, h2⟩ := solo rank (i := 1) b ((start [a ++ k, b ++ k']).set 0 ⟨H, k, false⟩) [] H' k' rfl hb (by
    intro j tj hj htj l m hm
    match j, hj, htj with
    | 0, _, htj =>
      simp only [start, List.map_cons, List.set_cons_zero, List.getElem?_cons_zero, Option.some.injEq] at htj
      subst htj
      exact ⟨hd l m hm, fun h => by cases h.1⟩
    | j + 2, _, htj => simp [start] at htj)
  exact ⟨is ++ js, h1.trans h2⟩

/-- Two goroutines are both at using the variable, the first writing. -/
theorem race_fst {H H' : List (Lk × Md)} {k k' : Tr} {v : Var} : Race [⟨H, .put v :: k, false⟩, ⟨H', .get v :: k', false⟩] v :=
  ⟨0, 1, _, _, k, k', by decide, rfl, rfl, rfl, .inr rfl⟩

theorem race_snd {H H' : List (Lk × Md)} {k k' : Tr} {v : Var} : Race [⟨H', .get v :: k', false⟩, ⟨H, .put v :: k, false⟩] v :=
  ⟨1, 0, _, _, k, k', by decide, rfl, rfl, rfl, .inr rfl⟩

/-- The provider lists the services while its informer adds one, whatever the service: the Go runtime aborts the process at the
iteration of a map that is being written. -/
theorem services_race (s : SvcShape) (os os' : List Op) : ∃ is ts, Run (begin [.list :: os', .addService s :: os]) is ts ∧ Race ts .svcs := by
  obtain ⟨is, h⟩ := pair (p := (Op.list :: os').flatMap Op.tr) (q := (Op.addService s :: os).flatMap Op.tr)
    (a := Locks.list.take 18) (k := Locks.list.drop 18 ++ os'.flatMap Op.tr) (b := [.acq .svc .w])
    (k' := .put .svcs :: .rel .svc .w :: ((if s.selects then podGet else []) ++
      s.pods.flatMap (fun x => x.1.flatMap (fun f => idGet ++ tie f) ++ x.2.flatMap (fun f => ipGet ++ tie f)) ++
      s.ports.flatMap (fun x => svcIpAdd ++ match x.2 with
        | some ns => nodeGet ++ ns.flatMap (fun _ => svcIpAdd)
        | none => []) ++ os.flatMap Op.tr))
    (H := [(.del, .w), (.rs, .r), (.pod, .r), (.node, .r), (.host, .r), (.s, .r), (.p, .r), (.c, .r)]) (H' := [(.svc, .w)])
    (by rfl) (by simp [Op.tr, Locks.addService, svcPut, lk]) (by decide) (by decide)
    (by intro l m hm m'; simp only [List.mem_singleton, Act.acq.injEq] at hm; obtain ⟨rfl, rfl⟩ := hm; simp)
  exact ⟨is, _, h, race_snd (k' := Locks.list.drop 19 ++ os'.flatMap Op.tr)⟩

/-- A collector that gets a new list from the provider while it reports the workloads. -/
theorem workloads_race (os os' : List Op) : ∃ is ts, Run (begin [.setup :: os, .workloads :: os']) is ts ∧ Race ts .wls := by
  obtain ⟨is, h⟩ := pair (p := (Op.setup :: os).flatMap Op.tr) (q := (Op.workloads :: os').flatMap Op.tr)
    (a := Locks.setup.take 8) (k := Locks.setup.drop 8 ++ os.flatMap Op.tr) (b := [.acq .wl .r])
    (k' := .get .wls :: .rel .wl .r :: os'.flatMap Op.tr)
    (H := [(.del, .w), (.rs, .w), (.pod, .w), (.node, .w), (.s, .w), (.p, .w), (.c, .w)]) (H' := [(.wl, .r)])
    (by rfl) (by rfl) (by decide) (by decide)
    (by intro l m hm m'; simp only [List.mem_singleton, Act.acq.injEq] at hm; obtain ⟨rfl, rfl⟩ := hm; simp)
  exact ⟨is, _, h, race_fst (k := Locks.setup.drop 9 ++ os.flatMap Op.tr)⟩

/-- A collector that gets a new list from the provider while it looks up a host port. -/
theorem host_ports_race (f : Bool) (os os' : List Op) : ∃ is ts, Run (begin [.setup :: os, .byHost f :: os']) is ts ∧ Race ts .host := by
  obtain ⟨is, h⟩ := pair (p := (Op.setup :: os).flatMap Op.tr) (q := (Op.byHost f :: os').flatMap Op.tr)
    (a := Locks.setup.take 10) (k := Locks.setup.drop 10 ++ os.flatMap Op.tr) (b := [.acq .host .r])
    (k' := .get .host :: .rel .host .r :: ((if f then [.get .ports] else []) ++ os'.flatMap Op.tr))
    (H := [(.del, .w), (.rs, .w), (.pod, .w), (.node, .w), (.s, .w), (.p, .w), (.c, .w)]) (H' := [(.host, .r)])
    (by rfl) (by cases f <;> rfl) (by decide) (by decide)
    (by intro l m hm m'; simp only [List.mem_singleton, Act.acq.injEq] at hm; obtain ⟨rfl, rfl⟩ := hm; simp)
  exact ⟨is, _, h, race_fst (k := Locks.setup.drop 11 ++ os.flatMap Op.tr)⟩

theorem chk_block {n : Nat} {a : Tr} (h : Block rank (guardEx Var.all) n a) (hn : ∀ v, guardEx Var.all v = none) :
    chk rank (fun _ => none) [] a = some [] := by
  have e : guardEx Var.all = fun _ => none := funext hn
  have := h [] (by simp)
  rwa [e] at this

/-- What `AddPod` does before the services that select the pod get its workload. -/
def beforeServices (p : PodShape) : Tr := lk .rsUpd .r (if p.byRs then rsGet else []) ++ svcGet

theorem b_beforeServices (p : PodShape) : B0 ex (beforeServices p) := by
  have h1 : B0 ex (lk .rsUpd .r (if p.byRs then rsGet else [])) :=
    Block.lk_block (by decide) ((Block.ite b_rsGet (.nil _) : B ex _).mono (by decide))
  exact h1.append b_svcGet.b0

/-- What `AddPod` does before the second port of the first container is written to its `HostPortMap`. -/
def beforeSecond (p : PodShape) : Tr :=
  beforeServices p ++ List.replicate p.svcs (.put .svcF) ++ idsTr p.ids ++ contTr (decide (0 < p.ids)) [true] ++ [.put .lists]

theorem b_beforeSecond (p : PodShape) : B0 ex (beforeSecond p) :=
  ((((b_beforeServices p).append (b_puts (by decide) _).b0).append (b_idsTr _).b0).append (b_contTr _ _).b0).append
    (B.b0 (b_putF (by decide)))

/-- A pod is added whose first container has two host ports, while a request to the first of them is labelled: the Go runtime
aborts the process at the read of a map that is being written. -/
theorem container_ports_race (p : PodShape) (ports : List Bool) (cs : List (List Bool)) (hp : p.conts = (true :: true :: ports) :: cs)
    (os os' : List Op) : ∃ is ts, Run (begin [.addPod p :: os, .byHost true :: os']) is ts ∧ Race ts .ports := by
  have hn : ∀ v, guardEx Var.all v = none := by intro v; cases v <;> rfl
  obtain ⟨is, h⟩ := pair (p := (Op.addPod p :: os).flatMap Op.tr) (q := (Op.byHost true :: os').flatMap Op.tr)
    (a := beforeSecond p) (k := .put .ports :: (.put .lists :: hostPut ++ ipAdd ++ ports.flatMap portTr ++ cs.flatMap (contTr true) ++ podPut ++
      (if p.here then wlPut else []) ++ os.flatMap Op.tr)) (b := hostGet)
    (k' := .get .ports :: os'.flatMap Op.tr) (H := []) (H' := [])
    (by simp [Op.tr, Locks.addPod, beforeSecond, beforeServices, hp, contsTr, contTr, portTr]) (by rfl)
    (chk_block (b_beforeSecond p) hn) (by decide) (by simp)
  exact ⟨is, _, h, race_fst⟩

/-- The same while the provider answers a client. -/
theorem container_ports_race_list (p : PodShape) (ports : List Bool) (cs : List (List Bool))
    (hp : p.conts = (true :: true :: ports) :: cs) (os os' : List Op) :
    ∃ is ts, Run (begin [.addPod p :: os, .list :: os']) is ts ∧ Race ts .ports := by
  have hn : ∀ v, guardEx Var.all v = none := by intro v; cases v <;> rfl
  obtain ⟨is, h⟩ := pair (p := (Op.addPod p :: os).flatMap Op.tr) (q := (Op.list :: os').flatMap Op.tr)
    (a := beforeSecond p) (k := .put .ports :: (.put .lists :: hostPut ++ ipAdd ++ ports.flatMap portTr ++ cs.flatMap (contTr true) ++ podPut ++
      (if p.here then wlPut else []) ++ os.flatMap Op.tr)) (b := Locks.list.take 15)
    (k' := Locks.list.drop 15 ++ os'.flatMap Op.tr) (H := [])
    (H' := [(.del, .w), (.rs, .r), (.pod, .r), (.node, .r), (.host, .r), (.s, .r), (.p, .r), (.c, .r)])
    (by simp [Op.tr, Locks.addPod, beforeSecond, beforeServices, hp, contsTr, contTr, portTr]) (by rfl)
    (chk_block (b_beforeSecond p) hn) (by decide) (by simp)
  exact ⟨is, _, h, race_fst (k' := Locks.list.drop 16 ++ os'.flatMap Op.tr)⟩

/-- A pod is added that a service selects, while a request to the service is labelled with its workload. -/
theorem service_workload_race (p : PodShape) (hp : p.svcs ≠ 0) (os os' : List Op) :
    ∃ is ts, Run (begin [.addPod p :: os, .byService true :: os']) is ts ∧ Race ts .svcF := by
  have hn : ∀ v, guardEx Var.all v = none := by intro v; cases v <;> rfl
  obtain ⟨n, hn'⟩ := Nat.exists_eq_succ_of_ne_zero hp
  obtain ⟨is, h⟩ := pair (p := (Op.addPod p :: os).flatMap Op.tr) (q := (Op.byService true :: os').flatMap Op.tr)
    (a := beforeServices p) (k := .put .svcF :: (List.replicate n (.put .svcF) ++ idsTr p.ids ++ contsTr (decide (0 < p.ids)) p.conts ++
      podPut ++ (if p.here then wlPut else []) ++ os.flatMap Op.tr)) (b := svcIpGet)
    (k' := .get .svcF :: os'.flatMap Op.tr) (H := []) (H' := [])
    (by simp [Op.tr, Locks.addPod, beforeServices, hn', List.replicate_succ]) (by rfl)
    (chk_block (b_beforeServices p) hn) (by decide) (by simp)
  exact ⟨is, _, h, race_fst⟩

/-- A service is deleted, its fields emptied, while a request to it is labelled with them: the mutex of the map of services does
not help, since the query does not take it. -/
theorem service_deleted_race (s : SvcShape) (hs : s.known = true) (os os' : List Op) :
    ∃ is ts, Run (begin [.deleteService s :: os, .byService true :: os']) is ts ∧ Race ts .svcF := by
  obtain ⟨is, h⟩ := pair (p := (Op.deleteService s :: os).flatMap Op.tr) (q := (Op.byService true :: os').flatMap Op.tr)
    (a := [.acq .svc .w, .get .svcs]) (k := .put .svcF :: .put .svcs :: .rel .svc .w :: (s.ports.flatMap (fun x => svcIpDel x.1 ++
      match x.2 with
      | some ns => nodeGet ++ ns.flatMap svcIpDel
      | none => []) ++ os.flatMap Op.tr)) (b := svcIpGet)
    (k' := .get .svcF :: os'.flatMap Op.tr) (H := [(.svc, .w)]) (H' := [])
    (by simp [Op.tr, Locks.deleteService, svcDel, hs, lk]) (by rfl) (by decide) (by decide)
    (by
      intro l m hm m'
      simp only [svcIpGet, lk, List.cons_append, List.nil_append, List.mem_cons, Act.acq.injEq, reduceCtorEq, List.mem_nil_iff,
        or_false] at hm
      obtain ⟨rfl, rfl⟩ := hm
      simp)
  exact ⟨is, _, h, race_fst⟩

/-- A service is added that selects a pod, while a request of that pod is labelled with its service. -/
theorem pod_service_race (s : SvcShape) (fs gs : List Bool) (ps : List (List Bool × List Bool)) (hs : s.pods = (true :: fs, gs) :: ps)
    (b : Bool) (os os' : List Op) :
    ∃ is ts, Run (begin [.addService s :: os, .byId (some b) :: os']) is ts ∧ Race ts .podSvc := by
  have hn : ∀ v, guardEx Var.all v = none := by intro v; cases v <;> rfl
  obtain ⟨is, h⟩ := pair (p := (Op.addService s :: os).flatMap Op.tr) (q := (Op.byId (some b) :: os').flatMap Op.tr)
    (a := svcPut ++ (if s.selects then podGet else []) ++ (idGet ++ [.put .svcF]))
    (k := .put .podSvc :: (fs.flatMap (fun f => idGet ++ tie f) ++ gs.flatMap (fun f => ipGet ++ tie f) ++
      ps.flatMap (fun x => x.1.flatMap (fun f => idGet ++ tie f) ++ x.2.flatMap (fun f => ipGet ++ tie f)) ++
      s.ports.flatMap (fun x => svcIpAdd ++ match x.2 with
        | some ns => nodeGet ++ ns.flatMap (fun _ => svcIpAdd)
        | none => []) ++ os.flatMap Op.tr)) (b := idGet)
    (k' := .get .podSvc :: ((if b then [.get .svcF] else []) ++ os'.flatMap Op.tr)) (H := []) (H' := [])
    (by simp [Op.tr, Locks.addService, hs, tie]) (by simp [Op.tr, ask])
    (chk_block ((b_svcPut.append (.ite b_podGet (.nil _))).append (b_idGet.append (b_putF (by decide)))) hn) (by decide) (by simp)
  exact ⟨is, _, h, race_fst⟩

/-- A pod of two containers is added, while the provider answers a client: the pod is in the map with its first ID. -/
theorem pod_lists_race (p : PodShape) (hp : 2 ≤ p.ids) (os os' : List Op) :
    ∃ is ts, Run (begin [.addPod p :: os, .list :: os']) is ts ∧ Race ts .lists := by
  have hn : ∀ v, guardEx Var.all v = none := by intro v; cases v <;> rfl
  obtain ⟨n, hn'⟩ : ∃ n, p.ids = n + 2 := ⟨p.ids - 2, by omega⟩
  obtain ⟨is, h⟩ := pair (p := (Op.addPod p :: os).flatMap Op.tr) (q := (Op.list :: os').flatMap Op.tr)
    (a := beforeServices p ++ List.replicate p.svcs (.put .svcF) ++ idPut)
    (k := .put .lists :: (idPut ++ (List.replicate n ()).flatMap (fun _ => .put .lists :: idPut) ++
      contsTr (decide (0 < p.ids)) p.conts ++ podPut ++ (if p.here then wlPut else []) ++ os.flatMap Op.tr))
    (b := Locks.list.take 9) (k' := Locks.list.drop 9 ++ os'.flatMap Op.tr) (H := [])
    (H' := [(.del, .w), (.rs, .r), (.pod, .r), (.node, .r), (.host, .r), (.s, .r), (.p, .r), (.c, .r)])
    (by simp [Op.tr, Locks.addPod, beforeServices, idsTr, hn', List.replicate_succ]) (by rfl)
    (chk_block (((b_beforeServices p).append (b_puts (by decide) _).b0).append b_idPut.b0) hn) (by decide) (by simp)
  exact ⟨is, _, h, race_fst (k' := Locks.list.drop 10 ++ os'.flatMap Op.tr)⟩

/-! ### A client that does not read -/

/-- The mutexes held while the list is written to a client. -/
def listHeld : List (Lk × Md) :=
  [(.c, .r), (.p, .r), (.s, .r), (.host, .r), (.node, .r), (.pod, .r), (.rs, .r), (.del, .w)]

def quiet (t : Tr) : Bool := t.all fun x => decide (x ≠ .send)

theorem quiet_append {a b : Tr} : quiet (a ++ b) = (quiet a && quiet b) := by simp [quiet]
theorem quiet_flatMap {α : Type} {l : List α} {f : α → Tr} (h : ∀ a, quiet (f a) = true) : quiet (l.flatMap f) = true := by
  induction l with
  | nil => rfl
  | cons a l ih => rw [List.flatMap_cons, quiet_append, h, ih]; rfl
theorem quiet_ite {b : Bool} {x y : Tr} (hx : quiet x = true) (hy : quiet y = true) : quiet (if b then x else y) = true := by
  cases b <;> assumption
theorem quiet_lk {l : Lk} {m : Md} {b : Tr} : quiet (lk l m b) = quiet b := by simp [quiet, lk]

theorem quiet_addPod (p : PodShape) : quiet (Locks.addPod p) = true := by
  have hc : ∀ sh l, quiet (contTr sh l) = true := by
    intro sh l
    cases l with
    | nil => rfl
    | cons h ports =>
      simp only [contTr, quiet_append, Bool.and_eq_true]
      exact ⟨⟨⟨quiet_ite (by decide) (by decide), by cases h <;> cases sh <;> decide⟩, by decide⟩,
        quiet_flatMap fun a => by cases a <;> decide⟩
  have hcs : ∀ sh l, quiet (contsTr sh l) = true := by
    intro sh l
    cases l with
    | nil => rfl
    | cons c cs => simp only [contsTr, quiet_append, hc, quiet_flatMap (hc true), Bool.and_self]
  have hi : ∀ n, quiet (idsTr n) = true := by
    intro n
    cases n with
    | zero => decide
    | succ n => simp only [idsTr, quiet_append, Bool.and_eq_true]; exact ⟨by decide, quiet_flatMap fun _ => by decide⟩
  have hs : ∀ n, quiet (List.replicate n (.put .svcF)) = true := by
    intro n
    induction n with
    | zero => decide
    | succ n ih => rw [List.replicate_succ]; exact ih
  simp only [Locks.addPod, quiet_append, Bool.and_eq_true, quiet_lk]
  exact ⟨⟨⟨⟨⟨⟨quiet_ite (by decide) (by decide), by decide⟩, hs _⟩, hi _⟩, hcs _ _⟩, by decide⟩, quiet_ite (by decide) (by decide)⟩

theorem quiet_addService (s : SvcShape) : quiet (Locks.addService s) = true := by
  simp only [Locks.addService, quiet_append, Bool.and_eq_true]
  refine ⟨⟨⟨by decide, quiet_ite (by decide) (by decide)⟩, quiet_flatMap fun _ => ?_⟩, quiet_flatMap fun x => ?_⟩
  · rw [quiet_append, quiet_flatMap fun b => by cases b <;> decide, quiet_flatMap fun b => by cases b <;> decide]
    rfl
  · rw [quiet_append]
    cases x.2 with
    | none => decide
    | some ns => rw [quiet_append, quiet_flatMap fun _ => by decide]; decide

theorem quiet_deleteService (s : SvcShape) : quiet (Locks.deleteService s) = true := by
  simp only [Locks.deleteService, quiet_append, Bool.and_eq_true]
  refine ⟨by cases s.known <;> decide, quiet_flatMap fun x => ?_⟩
  rw [quiet_append]
  cases x.2 with
  | none => cases x.1 <;> decide
  | some ns => rw [quiet_append, quiet_flatMap fun b => by cases b <;> decide]; cases x.1 <;> decide

theorem quiet_deleteDue (d : Due) : quiet (deleteDue d) = true := by
  simp only [deleteDue, quiet_append, Bool.and_eq_true]
  refine ⟨⟨⟨?_, quiet_flatMap fun _ => by decide⟩, quiet_flatMap fun x => ?_⟩, quiet_flatMap fun x => ?_⟩
  · cases d.named <;> cases d.known <;> decide
  · obtain ⟨a, b⟩ := x
    cases a <;> cases b <;> decide
  · cases x <;> decide

theorem quiet_op (o : Op) (h : o ≠ .list) : quiet o.tr = true := by
  cases o with
  | addPod p => exact quiet_addPod p
  | updatePod a b p =>
    cases a
    · rfl
    · simp only [Op.tr, Locks.updatePod, if_true, quiet_append, quiet_addPod]
      cases b <;> decide
  | sweep ds =>
    simp only [Op.tr, Locks.sweep, quiet_append]
    rw [quiet_flatMap quiet_deleteDue]
    decide
  | addService s => exact quiet_addService s
  | updateService a b => simp only [Op.tr, quiet_lk, quiet_append, quiet_addService, quiet_deleteService]; rfl
  | deleteService s => exact quiet_deleteService s
  | addRs b => cases b <;> decide
  | updateRs b => cases b <;> decide
  | byHost b => cases b <;> decide
  | list => exact absurd rfl h
  | deletePod => decide
  | deleteRs => decide
  | addNode => decide
  | updateNode => decide
  | deleteNode => decide
  | byId x => rcases x with _ | _ | _ <;> decide
  | byIp x => rcases x with _ | _ | _ <;> decide
  | byService f => cases f <;> decide
  | nodeName => decide
  | workloads => decide
  | sizes => decide
  | clear => decide
  | setup => decide

theorem atSend_begin (ps : List (List Op)) : ∀ t ∈ begin ps, atSend listHeld t.held t.rest = true := by
  have hop : ∀ o : Op, atSend listHeld [] o.tr = true := by
    intro o
    by_cases h : o = .list
    · subst h
      decide
    · refine atSend_of_none _ _ ?_ _
      have := quiet_op o h
      simpa [quiet] using this
  have hos : ∀ os : List Op, atSend listHeld [] (os.flatMap Op.tr) = true := by
    intro os
    induction os with
    | nil => rfl
    | cons o os ih =>
      rw [List.flatMap_cons]
      have hb : B0 Var.all o.tr := b_op o fun v _ => by cases v <;> decide
      exact atSend_append (rank := rank) (guard := guardEx Var.all) _ _ _ _ _ (hb [] (by simp)) (hop o) ih
  intro t ht
  simp only [begin, start, List.map_map, List.mem_map] at ht
  obtain ⟨os, _, rfl⟩ := ht
  exact hos os

/-- While the provider writes the list to a client that does not read, whatever else goes on: nobody gets one of these mutexes
for writing, so none of the informers changes the caches, and no other client gets its list. -/
theorem stalled_client_blocks (ps : List (List Op)) (is : List Nat) (ts : List (Thread Lk Var)) (hr : Run (begin ps) is ts)
    (i : Nat) (H : List (Lk × Md)) (k : Tr) (b : Bool) (hi : ts[i]? = some ⟨H, .send :: k, b⟩)
    (js : List Nat) (hjs : i ∉ js) (ts' : List (Thread Lk Var)) (hr' : Run ts js ts')
    (l : Lk) (hl : l ∈ [Lk.c, .p, .s, .host, .node, .pod, .rs, .del])
    (j : Nat) (tj : Thread Lk Var) (k' : Tr) (hj : ts[j]? = some tj) (hk : tj.rest = .acq l .w :: k') :
    ∃ b', ts'[j]? = some ⟨tj.held, .acq l .w :: k', b'⟩ := by
  have h := atSend_run hr (atSend_begin ps) _ (List.mem_of_getElem? hi)
  simp only [atSend, Bool.and_eq_true, List.all_eq_true, decide_eq_true_eq] at h
  have hm : ∃ m, (l, m) ∈ H := by
    have h1 := h.1
    simp only [listHeld, List.mem_cons, List.mem_nil_iff, or_false, forall_eq_or_imp, forall_eq] at h1
    simp only [List.mem_cons, List.mem_nil_iff, or_false] at hl
    rcases hl with rfl | rfl | rfl | rfl | rfl | rfl | rfl | rfl
    · exact ⟨_, h1.1⟩
    · exact ⟨_, h1.2.1⟩
    · exact ⟨_, h1.2.2.1⟩
    · exact ⟨_, h1.2.2.2.1⟩
    · exact ⟨_, h1.2.2.2.2.1⟩
    · exact ⟨_, h1.2.2.2.2.2.1⟩
    · exact ⟨_, h1.2.2.2.2.2.2.1⟩
    · exact ⟨_, h1.2.2.2.2.2.2.2⟩
  obtain ⟨m, hm⟩ := hm
  exact (stalled hr' hjs hi hm hj hk).2

/-- And once one of them waits for the mutex, nobody gets it for reading either. -/
theorem stalled_client_blocks_readers (ps : List (List Op)) (is : List Nat) (ts : List (Thread Lk Var)) (hr : Run (begin ps) is ts)
    (i : Nat) (H : List (Lk × Md)) (k : Tr) (b : Bool) (hi : ts[i]? = some ⟨H, .send :: k, b⟩)
    (js : List Nat) (hjs : i ∉ js) (ts' : List (Thread Lk Var)) (hr' : Run ts js ts')
    (l : Lk) (hl : l ∈ [Lk.c, .p, .s, .host, .node, .pod, .rs])
    (j : Nat) (Hj : List (Lk × Md)) (k' : Tr) (hj : ts[j]? = some ⟨Hj, .acq l .w :: k', true⟩)
    (q : Nat) (tq : Thread Lk Var) (kq : Tr) (hq : ts[q]? = some tq) (hkq : tq.rest = .acq l .r :: kq) : ts'[q]? = some tq := by
  have h := atSend_run hr (atSend_begin ps) _ (List.mem_of_getElem? hi)
  simp only [atSend, Bool.and_eq_true, List.all_eq_true, decide_eq_true_eq] at h
  have hm : (l, Md.r) ∈ H := by
    apply h.1
    simp only [List.mem_cons, List.mem_nil_iff, or_false] at hl
    rcases hl with rfl | rfl | rfl | rfl | rfl | rfl | rfl <;> decide
  exact stalled_readers hr' hjs hi hm hj hq hkq

/-- Such a state is reached: a client that stops reading, a pod to be added and a query. -/
example (os : List Op) : ∃ is ts, Run (begin [.list :: os, [.addNode]]) is ts ∧
    ∃ k, ts = [⟨listHeld.reverse, .send :: k, false⟩, ⟨[], nodePut, false⟩] := by
  obtain ⟨is, h⟩ := pair (p := (Op.list :: os).flatMap Op.tr) (q := nodePut) (a := Locks.list.take 19)
    (k := Locks.list.drop 19 ++ os.flatMap Op.tr) (b := []) (k' := nodePut) (H := listHeld.reverse) (H' := [])
    (by rfl) (by rfl) (by decide) (by decide) (by simp)
  exact ⟨is, _, h, Locks.list.drop 20 ++ os.flatMap Op.tr, rfl⟩

/-- A pod with two host ports on one container, a service of node ports, and queries. -/
example : ∃ is ts, Run (begin [[.addPod ⟨true, 1, 2, [[true, true]], true⟩, .deletePod], [.updateService ⟨true, true, [([true], [true, false])], []⟩ ⟨true, true, [], [(true, some [true])]⟩],
    [.byHost true, .byId (some true), .byService true, .nodeName], [.sweep [⟨true, true, 1, [(true, true)], [true]⟩]]]) is ts ∧ ∀ t ∈ ts, t.rest = [] :=
  (all_complete _ [] _ (.nil _)).1

/-- Deleting a pod changes the map of addresses exactly if one of its ports is there, of that pod, and its address still in the map. -/
theorem delete_writes (d : Due) : .put .ipC ∈ deleteDue d ↔ ∃ x ∈ d.ports, x.1 = true ∧ x.2 = true := by
  unfold deleteDue
  simp only [List.mem_append, List.mem_flatMap]
  constructor
  · rintro (((h | ⟨x, hx, h⟩) | ⟨x, hx, h⟩) | ⟨x, hx, h⟩)
    · exfalso; cases d.named <;> cases d.known <;> simp [podPut, wlPut, Lock.lk] at h
    · exfalso; simp [idPut, Lock.lk] at h
    · refine ⟨x, hx, ?_⟩
      obtain ⟨a, b⟩ := x
      cases a <;> cases b <;> simp [ipGet, ipDel, Lock.lk] at h ⊢
    · exfalso; cases x <;> simp [hostGet, hostPut, Lock.lk] at h
  · rintro ⟨x, hx, h1, h2⟩
    exact Or.inl (Or.inr ⟨x, hx, by simp [h1, h2, ipGet, ipDel, Lock.lk]⟩)

end Kindling.K8s.Locks
