import Verif.K8s.Cache
/-
Kubernetes labels of data groups.  component/consumer/processor/k8sprocessor/kubernetes_processor.go.

Simplified: a label has one type in all groups, so labels are three typed maps and the type assertions of
`UpdateAdd...Value` do not fail; label names are an enumeration (`SL.text` gives the strings, which are distinct).
The lookups are arbitrary functions (`Meta`); `metaOf` takes them from a cache.
-/
namespace Kindling.Proc.K8s
open Kindling.K8s

/-- String labels (constlabels/const.go). -/
inductive SL
  | containerId | srcIp | srcNode | srcNodeIp | srcNamespace | srcPod | srcWorkloadName | srcWorkloadKind | srcService | srcContainer | srcContainerId
  | dstIp | dstNode | dstNodeIp | dstNamespace | dstPod | dstWorkloadName | dstWorkloadKind | dstService | dstContainer | dstContainerId
  | dnatIp
deriving DecidableEq

/-- Integer labels. -/
inductive IL
  | srcPort | dstPort | dnatPort
deriving DecidableEq

def SL.text : SL → String
  | .containerId => "container_id" | .srcIp => "src_ip" | .srcNode => "src_node" | .srcNodeIp => "src_node_ip"
  | .srcNamespace => "src_namespace" | .srcPod => "src_pod" | .srcWorkloadName => "src_workload_name"
  | .srcWorkloadKind => "src_workload_kind" | .srcService => "src_service" | .srcContainer => "src_container"
  | .srcContainerId => "src_container_id" | .dstIp => "dst_ip" | .dstNode => "dst_node" | .dstNodeIp => "dst_node_ip"
  | .dstNamespace => "dst_namespace" | .dstPod => "dst_pod" | .dstWorkloadName => "dst_workload_name"
  | .dstWorkloadKind => "dst_workload_kind" | .dstService => "dst_service" | .dstContainer => "dst_container"
  | .dstContainerId => "dst_container_id" | .dnatIp => "dnat_ip"

theorem text_inj (a b : SL) (h : a.text = b.text) : a = b := by
  cases a <;> cases b <;> first | rfl | (exact absurd h (by decide))

structure Labels where
  str : SL → Option Bytes
  int : IL → Option Int
  isServer : Bool

/-- `GetStringValue`, `GetIntValue` (attribute_map.go:71-77, 93-99). -/
def Labels.gs (l : Labels) (k : SL) : Bytes := (l.str k).getD []
def Labels.gi (l : Labels) (k : IL) : Int := (l.int k).getD 0
/-- `AddStringValue`, `UpdateAddStringValue`, and those of integers (attribute_map.go:79-113). -/
def Labels.ss (l : Labels) (k : SL) (v : Bytes) : Labels := { l with str := fun x => if x = k then some v else l.str x }
def Labels.si (l : Labels) (k : IL) (v : Int) : Labels := { l with int := fun x => if x = k then some v else l.int x }
/-- `RemoveAttribute` (attribute_map.go:137-139). -/
def Labels.rs (l : Labels) (k : SL) : Labels := { l with str := fun x => if x = k then none else l.str x }
def Labels.ri (l : Labels) (k : IL) : Labels := { l with int := fun x => if x = k then none else l.int x }

structure SvcI where
  ns : Bytes
  name : Bytes
  wkind : Bytes
  wname : Bytes

/-- The lookups (k8scache.go) and the processor's own node. -/
structure Meta where
  byId : Bytes → Option Cont
  byIpPort : Bytes → Nat → Option Cont
  byHost : Bytes → Nat → Option Cont
  podByIp : Bytes → Option PodInfo
  svc : Bytes → Nat → Option SvcI
  node : Bytes → Option Bytes
  /-- name of the service a pod refers to -/
  svcOf : PodInfo → Option Bytes
  nodeIp : Bytes
  nodeName : Bytes

def metaOf (c : Cache.C SvcI) (nodes : AMap Bytes Bytes) (svcOf : PodInfo → Option Bytes) (ip name : Bytes) : Meta :=
  { byId := fun i => c.cids.get i
    byIpPort := Cache.getContainer c.ips
    byHost := fun a p => c.hosts.get (Cache.hostKey a p)
    podByIp := Cache.getPodByIp c.ips
    svc := fun a p => Cache.get2 c.svcs a p
    node := fun a => nodes.get a
    svcOf := svcOf, nodeIp := ip, nodeName := name }

def loopback : Bytes := bs "127.0.0.1"
def external : Bytes := bs "NOT_FOUND_EXTERNAL"
def internal : Bytes := bs "NOT_FOUND_INTERNAL"

/-- `uint32(port)`. -/
def u32 (n : Int) : Nat := (n % 4294967296).toNat

/-- `strconv.Itoa`. -/
def itoa (n : Int) : Bytes := if n < 0 then bs "-" ++ Dec.digits n.natAbs else Dec.digits n.natAbs

/-- `addPodMetaInfoLabelSRC` (362-373). -/
def podSrc (m : Meta) (p : PodInfo) (l : Labels) : Labels :=
  let l := ((((((l.ss .srcNode p.node).ss .srcNodeIp p.nodeAddr).ss .srcNamespace p.ns).ss .srcWorkloadKind p.wkind).ss
    .srcWorkloadName p.wname).ss .srcPod p.name).ss .srcIp p.ip
  match m.svcOf p with
  | none => l
  | some n => l.ss .srcService n

/-- `addContainerMetaInfoLabelSRC` (356-360). -/
def contSrc (m : Meta) (c : Cont) (l : Labels) : Labels :=
  podSrc m c.pod ((l.ss .srcContainer c.name).ss .srcContainerId c.cid)

/-- `addPodMetaInfoLabelDST` (381-391). -/
def podDst (p : PodInfo) (l : Labels) : Labels :=
  let l := (((((l.ss .dstNode p.node).ss .dstNodeIp p.nodeAddr).ss .dstNamespace p.ns).ss .dstWorkloadKind p.wkind).ss
    .dstWorkloadName p.wname).ss .dstPod p.name
  if l.gs .dstIp = [] then l.ss .dstIp p.ip else l

/-- `addContainerMetaInfoLabelDST` (375-379). -/
def contDst (c : Cont) (l : Labels) : Labels :=
  podDst c.pod ((l.ss .dstContainer c.name).ss .dstContainerId c.cid)

/-- The four labels of a service (160-163, 309-312). -/
def svcDst (s : SvcI) (l : Labels) : Labels :=
  (((l.ss .dstNamespace s.ns).ss .dstService s.name).ss .dstWorkloadKind s.wkind).ss .dstWorkloadName s.wname

/-- The labels of a host port (183-186, 335-338). -/
def hostDst (c : Cont) (ip : Bytes) (port : Int) (l : Labels) : Labels :=
  (((contDst c l).ss .dstIp c.pod.ip).si .dstPort (((c.hostPortMap.get (u32 port)).getD 0 : Nat) : Int)).ss .dstService
    (ip ++ bs ":" ++ itoa port)

/-- Source by address, for requests (129-148, 201-218). -/
def srcByIp (m : Meta) (l : Labels) : Labels :=
  let ip := l.gs .srcIp
  let l := if ip = loopback then (l.ss .srcNodeIp m.nodeIp).ss .srcNode m.nodeName else l
  match m.podByIp ip with
  | some p => podSrc m p l
  | none => match m.node ip with
    | some n => ((l.ss .srcNodeIp ip).ss .srcNode n).ss .srcNamespace internal
    | none => l.ss .srcNamespace external

/-- Source of a client's request (115-148). -/
def clientSrc (m : Meta) (l : Labels) : Labels :=
  let id := l.gs .containerId
  if id ≠ [] then
    let l := l.ss .srcContainerId id
    match m.byId id with
    | some c => contSrc m c l
    | none => ((l.ss .srcNodeIp m.nodeIp).ss .srcNode m.nodeName).ss .srcNamespace internal
  else srcByIp m l

/-- The container behind a service (164-179). -/
def natDst (m : Meta) (l : Labels) : Labels :=
  let ip := l.gs .dnatIp
  let port := l.gi .dnatPort
  if ip ≠ [] ∧ port ≠ -1 then
    match m.byIpPort ip (u32 port) with
    | some c => contDst c l
    | none => match m.node ip with
      | some n => (l.ss .dstNodeIp ip).ss .dstNode n
      | none => l
  else l

/-- Destination of a client's request (150-197). -/
def clientDst (m : Meta) (l : Labels) : Labels :=
  let ip0 := l.gs .dstIp
  let l1 := if ip0 = loopback then (l.ss .dstNodeIp m.nodeIp).ss .dstNode m.nodeName else l
  let ip := if ip0 = loopback then l1.gs .srcIp else ip0
  let port := l1.gi .dstPort
  match m.svc ip (u32 port) with
  | some s => natDst m (svcDst s l1)
  | none => match m.byIpPort ip (u32 port) with
    | some c => contDst c l1
    | none => match m.byHost ip (u32 port) with
      | some c => hostDst c ip port l1
      | none => match m.node ip with
        | some n => ((l1.ss .dstNodeIp ip).ss .dstNode n).ss .dstNamespace internal
        | none => l1.ss .dstNamespace external

/-- `addK8sMetaDataForClientLabel` (113-197). -/
def client (m : Meta) (l : Labels) : Labels := clientDst m (clientSrc m l)

/-- Destination of a server's request (219-233). -/
def serverDst (m : Meta) (l : Labels) : Labels :=
  let id := l.gs .containerId
  let l := l.ss .dstContainerId id
  match m.byId id with
  | some c => match m.svcOf c.pod with
    | some n => (contDst c l).ss .dstService n
    | none => contDst c l
  | none => ((l.ss .dstNodeIp m.nodeIp).ss .dstNode m.nodeName).ss .dstNamespace internal

/-- `addK8sMetaDataForServerLabel` (199-234). -/
def server (m : Meta) (l : Labels) : Labels := serverDst m (srcByIp m l)

/-- `addK8sMetaDataViaIpSRC` (283-303). -/
def ipSrc (m : Meta) (l : Labels) : Labels :=
  let ip := l.gs .srcIp
  match m.byIpPort ip (u32 (l.gi .srcPort)) with
  | some c => contSrc m c l
  | none => match m.podByIp ip with
    | some p => podSrc m p l
    | none => match m.node ip with
      | some _ => l.ss .srcNamespace internal
      | none => l.ss .srcNamespace external

/-- `addK8sMetaDataViaIpDST` (305-354).  After a host port is found the code goes on (335-341). -/
def ipDst (m : Meta) (l : Labels) : Labels :=
  let ip := l.gs .dstIp
  let port := l.gi .dstPort
  match m.svc ip (u32 port) with
  | some s =>
    let l := svcDst s l
    if l.gs .dnatIp ≠ [] ∧ l.gi .dnatPort ≠ -1 then
      match m.byIpPort (l.gs .dnatIp) (u32 (l.gi .dnatPort)) with
      | some c => contDst c l
      | none => l
    else l
  | none => match m.byIpPort ip (u32 port) with
    | some c => contDst c l
    | none =>
      let l := match m.byHost ip (u32 port) with
        | some c => hostDst c ip port l
        | none => l
      match m.podByIp ip with
      | some p => podDst p l
      | none => match m.node ip with
        | some _ => l.ss .dstNamespace internal
        | none => l.ss .dstNamespace external

/-- The translated address replaces the destination (248-256). -/
def unNat (l : Labels) : Labels :=
  let l := if l.gs .dnatIp ≠ [] then l.ss .dstIp (l.gs .dnatIp) else l
  let l := if l.gi .dnatPort > 0 then l.si .dstPort (l.gi .dnatPort) else l
  (l.rs .dnatIp).ri .dnatPort

/-- One port is removed (265-280). -/
def fold (l : Labels) : Labels :=
  let src := l.gi .srcPort
  let dst := l.gi .dstPort
  if src < 32768 ∧ dst < 32768 then
    if src > dst then l.ri .srcPort else l.ri .dstPort
  else
    let l := if src ≥ 32768 then l.ri .srcPort else l
    if dst ≥ 32768 then l.ri .dstPort else l

/-- `addK8sMetaDataViaIp` (236-281). -/
def viaIp (m : Meta) (l : Labels) : Labels := fold (unNat (ipDst m (ipSrc m l)))

/-- Groups by name (83-101): the three TCP groups are enriched by address, all others as requests. -/
def process (m : Meta) (tcp : Bool) (l : Labels) : Labels :=
  if tcp then viaIp m l else if l.isServer then server m l else client m l

/-! ### Which labels a step touches -/

@[simp] theorem ss_int (l : Labels) (k : SL) (v : Bytes) : (l.ss k v).int = l.int := rfl
@[simp] theorem ss_str (l : Labels) (k x : SL) (v : Bytes) : (l.ss k v).str x = if x = k then some v else l.str x := rfl
@[simp] theorem si_str (l : Labels) (k : IL) (v : Int) : (l.si k v).str = l.str := rfl
@[simp] theorem si_int (l : Labels) (k x : IL) (v : Int) : (l.si k v).int x = if x = k then some v else l.int x := rfl
@[simp] theorem rs_int (l : Labels) (k : SL) : (l.rs k).int = l.int := rfl
@[simp] theorem rs_str (l : Labels) (k x : SL) : (l.rs k).str x = if x = k then none else l.str x := rfl
@[simp] theorem ri_str (l : Labels) (k : IL) : (l.ri k).str = l.str := rfl
@[simp] theorem ri_int (l : Labels) (k x : IL) : (l.ri k).int x = if x = k then none else l.int x := rfl

/-- All labels of one side are those of this pod. -/
structure SrcIs (p : PodInfo) (l : Labels) : Prop where
  node : l.str .srcNode = some p.node
  nodeIp : l.str .srcNodeIp = some p.nodeAddr
  ns : l.str .srcNamespace = some p.ns
  kind : l.str .srcWorkloadKind = some p.wkind
  name : l.str .srcWorkloadName = some p.wname
  pod : l.str .srcPod = some p.name
  ip : l.str .srcIp = some p.ip

structure DstIs (p : PodInfo) (l : Labels) : Prop where
  node : l.str .dstNode = some p.node
  nodeIp : l.str .dstNodeIp = some p.nodeAddr
  ns : l.str .dstNamespace = some p.ns
  kind : l.str .dstWorkloadKind = some p.wkind
  name : l.str .dstWorkloadName = some p.wname
  pod : l.str .dstPod = some p.name

theorem podSrc_is (m : Meta) (p : PodInfo) (l : Labels) : SrcIs p (podSrc m p l) := by
  unfold podSrc
  simp only
  split <;> constructor <;> simp

theorem podDst_is (p : PodInfo) (l : Labels) : DstIs p (podDst p l) := by
  unfold podDst
  simp only
  split <;> constructor <;> simp

theorem contDst_is (c : Cont) (l : Labels) : DstIs c.pod (contDst c l) := podDst_is _ _

theorem hostDst_is (c : Cont) (ip : Bytes) (port : Int) (l : Labels) : DstIs c.pod (hostDst c ip port l) := by
  unfold hostDst
  have h := contDst_is c l
  constructor <;> simp [h.node, h.nodeIp, h.ns, h.kind, h.name, h.pod]

/-- Labels of the destination side. -/
def isDst : SL → Bool
  | .dstIp | .dstNode | .dstNodeIp | .dstNamespace | .dstPod | .dstWorkloadName | .dstWorkloadKind | .dstService | .dstContainer | .dstContainerId => true
  | _ => false

theorem podDst_other (p : PodInfo) (l : Labels) (k : SL) (h : isDst k = false) : (podDst p l).str k = l.str k := by
  unfold podDst
  simp only
  split <;> cases k <;> simp_all [isDst]

theorem podDst_int (p : PodInfo) (l : Labels) : (podDst p l).int = l.int := by
  unfold podDst
  simp only
  split <;> simp

theorem contDst_other (c : Cont) (l : Labels) (k : SL) (h : isDst k = false) : (contDst c l).str k = l.str k := by
  unfold contDst
  rw [podDst_other _ _ _ h]
  cases k <;> simp_all [isDst]

theorem contDst_int (c : Cont) (l : Labels) : (contDst c l).int = l.int := by
  unfold contDst; rw [podDst_int]; simp

theorem svcDst_other (s : SvcI) (l : Labels) (k : SL) (h : isDst k = false) : (svcDst s l).str k = l.str k := by
  unfold svcDst
  cases k <;> simp_all [isDst]

theorem ipDst_other (m : Meta) (l : Labels) (k : SL) (h : isDst k = false) : (ipDst m l).str k = l.str k := by
  have hns : k ≠ .dstNamespace := by rintro rfl; cases h
  have hip : k ≠ .dstIp := by rintro rfl; cases h
  have hsv : k ≠ .dstService := by rintro rfl; cases h
  unfold ipDst
  simp only
  split
  · split
    · split
      · rw [contDst_other _ _ _ h, svcDst_other _ _ _ h]
      · rw [svcDst_other _ _ _ h]
    · rw [svcDst_other _ _ _ h]
  · split
    · rw [contDst_other _ _ _ h]
    · have hh : ∀ c ip port, (hostDst c ip port l).str k = l.str k := by
        intro c ip port
        unfold hostDst
        simp [hip, hsv, contDst_other _ _ _ h]
      split
      · rw [podDst_other _ _ _ h]; split
        · exact hh _ _ _
        · rfl
      · split
        · simp only [ss_str, hns, if_false]; split
          · exact hh _ _ _
          · rfl
        · simp only [ss_str, hns, if_false]; split
          · exact hh _ _ _
          · rfl

theorem podSrc_int (m : Meta) (p : PodInfo) (l : Labels) : (podSrc m p l).int = l.int := by
  unfold podSrc; simp only; split <;> simp

theorem ipSrc_int (m : Meta) (l : Labels) : (ipSrc m l).int = l.int := by
  unfold ipSrc
  simp only
  split
  · unfold contSrc; rw [podSrc_int]; simp
  · split
    · rw [podSrc_int]
    · split <;> simp

theorem ipSrc_dnat (m : Meta) (l : Labels) (k : SL) (h : k = .dnatIp ∨ k = .dstIp) : (ipSrc m l).str k = l.str k := by
  have hp : ∀ p l, (podSrc m p l).str k = l.str k := by
    intro p l
    unfold podSrc
    simp only
    rcases h with rfl | rfl <;> (split <;> simp)
  unfold ipSrc
  simp only
  split
  · unfold contSrc; rw [hp]; rcases h with rfl | rfl <;> simp
  · split
    · rw [hp]
    · split <;> (rcases h with rfl | rfl <;> simp)

theorem ipDst_int_other (m : Meta) (l : Labels) (k : IL) (hk : k ≠ .dstPort) : (ipDst m l).int k = l.int k := by
  unfold ipDst
  simp only
  split
  · split
    · split
      · rw [contDst_int]; rfl
      · rfl
    · rfl
  · split
    · rw [contDst_int]
    · have hh : ∀ c ip port, (hostDst c ip port l).int k = l.int k := by
        intro c ip port
        unfold hostDst
        simp [hk, contDst_int]
      split
      · rw [podDst_int]; split
        · exact hh _ _ _
        · rfl
      · split
        · simp only [ss_int]; split
          · exact hh _ _ _
          · rfl
        · simp only [ss_int]; split
          · exact hh _ _ _
          · rfl

/-! ### C44 -/

/-- The destination port before folding: the translated one, or the container port of a host port, or the one
observed. -/
def dstPortOf (m : Meta) (l : Labels) : Int :=
  if l.gi .dnatPort > 0 then l.gi .dnatPort else (ipDst m (ipSrc m l)).gi .dstPort

/-- C44, ports.  Of the two ports at most one is left, never one in the ephemeral range; it is the smaller one, the
source port if they are equal, or the one that is not ephemeral. -/
theorem one_port_left (m : Meta) (l : Labels) :
    (∀ v, (viaIp m l).int .srcPort = some v → v < 32768 ∧ (viaIp m l).int .dstPort = none) ∧
    (∀ v, (viaIp m l).int .dstPort = some v → v < 32768 ∧ (viaIp m l).int .srcPort = none) ∧
    ((viaIp m l).int .srcPort =
      if l.gi .srcPort < 32768 ∧ (dstPortOf m l ≥ 32768 ∨ l.gi .srcPort ≤ dstPortOf m l) then l.int .srcPort else none) ∧
    (dstPortOf m l < 32768 ∧ (l.gi .srcPort ≥ 32768 ∨ l.gi .srcPort > dstPortOf m l) →
      (viaIp m l).gi .dstPort = dstPortOf m l) ∧
    (¬ (dstPortOf m l < 32768 ∧ (l.gi .srcPort ≥ 32768 ∨ l.gi .srcPort > dstPortOf m l)) →
      (viaIp m l).int .dstPort = none) := by
  have hsrc : ∀ x : Labels, (unNat x).int .srcPort = x.int .srcPort := by
    intro x; unfold unNat; simp only
    split <;> split <;> simp
  have hs : (unNat (ipDst m (ipSrc m l))).int .srcPort = l.int .srcPort := by
    rw [hsrc, ipDst_int_other _ _ _ (by decide), ipSrc_int]
  have hn : (ipDst m (ipSrc m l)).gi .dnatPort = l.gi .dnatPort := by
    unfold Labels.gi
    rw [ipDst_int_other _ _ _ (by decide), ipSrc_int]
  have hd : (unNat (ipDst m (ipSrc m l))).gi .dstPort = dstPortOf m l := by
    unfold dstPortOf
    rw [← hn]
    unfold unNat
    simp only
    generalize ipDst m (ipSrc m l) = x
    by_cases h1 : x.gs .dnatIp ≠ [] <;> by_cases h2 : x.gi .dnatPort > 0
    · rw [if_pos h1, if_pos (show (x.ss .dstIp (x.gs .dnatIp)).gi .dnatPort > 0 from h2), if_pos h2]; simp [Labels.gi]
    · rw [if_pos h1, if_neg (show ¬ (x.ss .dstIp (x.gs .dnatIp)).gi .dnatPort > 0 from h2), if_neg h2]; simp [Labels.gi]
    · rw [if_neg h1, if_pos h2, if_pos h2]; simp [Labels.gi]
    · rw [if_neg h1, if_neg h2, if_neg h2]; simp [Labels.gi]
  have hgs : (unNat (ipDst m (ipSrc m l))).gi .srcPort = l.gi .srcPort := by unfold Labels.gi; rw [hs]
  unfold viaIp fold
  simp only [hgs, hd]
  generalize dstPortOf m l = d at *
  generalize hS : l.gi .srcPort = s at *
  have hsv : ∀ v, l.int .srcPort = some v → v = s := by
    intro v hv; rw [← hS]; simp [Labels.gi, hv]
  have hdv : ∀ v, (unNat (ipDst m (ipSrc m l))).int .dstPort = some v → v = d := by
    intro v hv; rw [← hd]; simp [Labels.gi, hv]
  by_cases h1 : s < 32768 <;> by_cases h2 : d < 32768
  · rw [if_pos ⟨h1, h2⟩]
    by_cases h3 : s > d
    · rw [if_pos h3]
      refine ⟨fun v hv => by simp at hv, fun v hv => ?_, ?_, fun _ => ?_, fun h => absurd ⟨h2, Or.inr h3⟩ h⟩
      · simp at hv; exact ⟨by rw [hdv v hv]; exact h2, by simp⟩
      · rw [if_neg (by omega)]; simp
      · simpa [Labels.gi] using hd
    · rw [if_neg h3]
      refine ⟨fun v hv => ?_, fun v hv => by simp at hv, ?_, fun h => by omega, fun _ => by simp⟩
      · simp [hs] at hv; exact ⟨by rw [hsv v hv]; exact h1, by simp⟩
      · rw [if_pos (by omega)]; simp [hs]
  · rw [if_neg (fun h => h2 h.2), if_pos (by omega), if_neg (by omega)]
    refine ⟨fun v hv => ?_, fun v hv => by simp at hv, ?_, fun h => absurd h.1 h2, fun _ => by simp⟩
    · simp [hs] at hv; exact ⟨by rw [hsv v hv]; exact h1, by simp⟩
    · rw [if_pos (by omega)]; simp [hs]
  · rw [if_neg (fun h => h1 h.1), if_neg (by omega), if_pos (by omega)]
    refine ⟨fun v hv => by simp at hv, fun v hv => ?_, ?_, fun _ => ?_, fun h => absurd ⟨h2, Or.inl (by omega)⟩ h⟩
    · simp at hv; exact ⟨by rw [hdv v hv]; exact h2, by simp⟩
    · rw [if_neg (by omega)]; simp
    · simpa [Labels.gi] using hd
  · rw [if_neg (fun h => h1 h.1), if_pos (by omega), if_pos (by omega)]
    refine ⟨fun v hv => by simp at hv, fun v hv => by simp at hv, ?_, fun h => absurd h.1 h2, fun _ => by simp⟩
    rw [if_neg (by omega)]; simp

/-- C44, translation.  A translated address is the destination reported; the labels of the translation are gone. -/
theorem nat_replaces_destination (m : Meta) (l : Labels) :
    (viaIp m l).str .dnatIp = none ∧ (viaIp m l).int .dnatPort = none ∧
    (l.gs .dnatIp ≠ [] → (viaIp m l).str .dstIp = some (l.gs .dnatIp)) ∧
    (l.gi .dnatPort > 0 → dstPortOf m l = l.gi .dnatPort) := by
  have hf : ∀ x : Labels, (fold x).str = x.str ∧ (x.int .dnatPort = none → (fold x).int .dnatPort = none) := by
    intro x
    unfold fold
    simp only
    split
    · split <;> simp
    · split <;> split <;> simp
  have hip : (ipDst m (ipSrc m l)).gs .dnatIp = l.gs .dnatIp := by
    unfold Labels.gs
    rw [ipDst_other _ _ _ rfl, ipSrc_dnat _ _ _ (Or.inl rfl)]
  unfold viaIp
  refine ⟨?_, ?_, fun h => ?_, fun h => by unfold dstPortOf; rw [if_pos h]⟩
  · rw [(hf _).1]; simp [unNat]
  · apply (hf _).2; simp [unNat]
  · rw [(hf _).1]
    unfold unNat
    simp only
    rw [hip, if_pos h]
    split <;> simp

/-! ### C45 -/

theorem viaIp_dst (m : Meta) (l : Labels) (k : SL) (h : isDst k = true) (hk : k ≠ .dstIp) :
    (viaIp m l).str k = (ipDst m (ipSrc m l)).str k := by
  have hf : ∀ x : Labels, (fold x).str = x.str := by
    intro x
    unfold fold
    simp only
    split
    · split <;> simp
    · split <;> split <;> simp
  have hd : k ≠ .dnatIp := by rintro rfl; cases h
  unfold viaIp
  rw [hf]
  unfold unNat
  simp only
  split <;> split <;> simp [hk, hd]

/-- The destination address and port as the lookups see them. -/
def addr (l : Labels) : Bytes × Nat := (l.gs .dstIp, u32 (l.gi .dstPort))

/-- C45.  The destination of a TCP flow that is found as a service, as the container behind a service, as a container
or as a pod has exactly the labels of that object, in particular its namespace; otherwise the namespace says that
nothing was found.  Host ports are left out (see below). -/
theorem destination_labels_partial (m : Meta) (l : Labels) :
    (∀ s, m.svc (addr l).1 (addr l).2 = some s →
      (∀ c, l.gs .dnatIp ≠ [] → l.gi .dnatPort ≠ -1 → m.byIpPort (l.gs .dnatIp) (u32 (l.gi .dnatPort)) = some c →
        DstIs c.pod (viaIp m l) ∧ (viaIp m l).str .dstService = some s.name) ∧
      ((l.gs .dnatIp = [] ∨ l.gi .dnatPort = -1 ∨ m.byIpPort (l.gs .dnatIp) (u32 (l.gi .dnatPort)) = none) →
        (viaIp m l).str .dstNamespace = some s.ns ∧ (viaIp m l).str .dstService = some s.name ∧
        (viaIp m l).str .dstWorkloadKind = some s.wkind ∧ (viaIp m l).str .dstWorkloadName = some s.wname)) ∧
    (m.svc (addr l).1 (addr l).2 = none →
      (∀ c, m.byIpPort (addr l).1 (addr l).2 = some c → DstIs c.pod (viaIp m l)) ∧
      (m.byIpPort (addr l).1 (addr l).2 = none →
        (∀ p, m.podByIp (addr l).1 = some p → DstIs p (viaIp m l)) ∧
        (m.podByIp (addr l).1 = none →
          (viaIp m l).str .dstNamespace = some (if (m.node (addr l).1).isSome then internal else external)))) := by
  have hlift : ∀ p, DstIs p (ipDst m (ipSrc m l)) → DstIs p (viaIp m l) := by
    intro p h
    constructor
    · rw [viaIp_dst _ _ _ rfl (by decide)]; exact h.node
    · rw [viaIp_dst _ _ _ rfl (by decide)]; exact h.nodeIp
    · rw [viaIp_dst _ _ _ rfl (by decide)]; exact h.ns
    · rw [viaIp_dst _ _ _ rfl (by decide)]; exact h.kind
    · rw [viaIp_dst _ _ _ rfl (by decide)]; exact h.name
    · rw [viaIp_dst _ _ _ rfl (by decide)]; exact h.pod
  have e1 : (ipSrc m l).gs .dstIp = (addr l).1 := by unfold Labels.gs addr; rw [ipSrc_dnat _ _ _ (Or.inr rfl)]; rfl
  have e2 : u32 ((ipSrc m l).gi .dstPort) = (addr l).2 := by unfold Labels.gi addr; rw [ipSrc_int]; rfl
  have e3 : ∀ s, (svcDst s (ipSrc m l)).gs .dnatIp = l.gs .dnatIp := by
    intro s; unfold Labels.gs; rw [svcDst_other _ _ _ rfl, ipSrc_dnat _ _ _ (Or.inl rfl)]
  have e4 : ∀ s, (svcDst s (ipSrc m l)).gi .dnatPort = l.gi .dnatPort := by
    intro s; unfold Labels.gi svcDst; simp only [ss_int]; rw [ipSrc_int]
  have hdst := ipDst.eq_def m (ipSrc m l)
  simp only [e1, e2, e3, e4] at hdst
  have hsvc : ∀ (c : Cont) (x : Labels), (contDst c x).str .dstService = x.str .dstService := by
    intro c x; unfold contDst podDst; simp only; split <;> simp
  constructor
  · intro s hs
    rw [hs] at hdst
    simp only at hdst
    constructor
    · intro c h1 h2 h3
      rw [if_pos ⟨h1, h2⟩, h3] at hdst
      simp only at hdst
      refine ⟨hlift _ (by rw [hdst]; exact contDst_is _ _), ?_⟩
      rw [viaIp_dst _ _ _ rfl (by decide), hdst, hsvc]
      simp [svcDst]
    · intro h
      have : ipDst m (ipSrc m l) = svcDst s (ipSrc m l) := by
        rw [hdst]
        split
        · rename_i hc
          rcases h with h | h | h
          · exact absurd h hc.1
          · exact absurd h hc.2
          · rw [h]
        · rfl
      rw [viaIp_dst _ _ _ rfl (by decide), viaIp_dst _ _ _ rfl (by decide), viaIp_dst _ _ _ rfl (by decide), viaIp_dst _ _ _ rfl (by decide), this]
      simp [svcDst]
  · intro hs
    rw [hs] at hdst
    simp only at hdst
    constructor
    · intro c hc
      rw [hc] at hdst
      apply hlift
      rw [hdst]
      exact contDst_is _ _
    · intro hc
      rw [hc] at hdst
      simp only at hdst
      constructor
      · intro p hp
        rw [hp] at hdst
        apply hlift
        rw [hdst]
        exact podDst_is _ _
      · intro hp
        rw [hp] at hdst
        simp only at hdst
        rw [viaIp_dst _ _ _ rfl (by decide), hdst]
        cases m.node (addr l).1 <;> simp

/-- Finding (C45 fails for host ports).  A destination found as a host port gets the pod's name but not the pod's
namespace: the namespace is overwritten by "not found", for no pod is registered under a node's address. -/
theorem host_port_namespace_lost (m : Meta) (l : Labels) (c : Cont)
    (h1 : m.svc (addr l).1 (addr l).2 = none) (h2 : m.byIpPort (addr l).1 (addr l).2 = none)
    (h3 : m.byHost (addr l).1 (addr l).2 = some c) (h4 : m.podByIp (addr l).1 = none) :
    (viaIp m l).str .dstPod = some c.pod.name ∧
    (viaIp m l).str .dstNamespace = some (if (m.node (addr l).1).isSome then internal else external) := by
  refine ⟨?_, ((destination_labels_partial m l).2 h1).2 h2 |>.2 h4⟩
  have e1 : (ipSrc m l).gs .dstIp = (addr l).1 := by unfold Labels.gs addr; rw [ipSrc_dnat _ _ _ (Or.inr rfl)]; rfl
  have e2 : u32 ((ipSrc m l).gi .dstPort) = (addr l).2 := by unfold Labels.gi addr; rw [ipSrc_int]; rfl
  have hdst := ipDst.eq_def m (ipSrc m l)
  simp only [e1, e2, h1, h2, h3, h4] at hdst
  rw [viaIp_dst _ _ _ rfl (by decide), hdst]
  cases m.node (addr l).1 <;> simp [(hostDst_is _ _ _ _).pod]

/-! ### Requests -/

/-- Source of a request.  For a client: the container of the event if it is known, else the own node; without a
container, and for servers: the pod of the address, else the node of the address, else external. -/
theorem request_source (m : Meta) (l : Labels) :
    (l.gs .containerId ≠ [] → ∀ c, m.byId (l.gs .containerId) = some c → SrcIs c.pod (clientSrc m l)) ∧
    (l.gs .containerId ≠ [] → m.byId (l.gs .containerId) = none →
      (clientSrc m l).str .srcNode = some m.nodeName ∧ (clientSrc m l).str .srcNamespace = some internal) ∧
    (l.gs .containerId = [] → clientSrc m l = srcByIp m l) ∧
    (∀ p, m.podByIp (l.gs .srcIp) = some p → SrcIs p (srcByIp m l)) ∧
    (∀ n, m.podByIp (l.gs .srcIp) = none → m.node (l.gs .srcIp) = some n →
      (srcByIp m l).str .srcNode = some n ∧ (srcByIp m l).str .srcNamespace = some internal) ∧
    (m.podByIp (l.gs .srcIp) = none → m.node (l.gs .srcIp) = none → (srcByIp m l).str .srcNamespace = some external) := by
  refine ⟨fun h c hc => ?_, fun h hc => ?_, fun h => ?_, fun p hp => ?_, fun n hp hn => ?_, fun hp hn => ?_⟩
  · unfold clientSrc
    simp only [ne_eq, h, not_false_eq_true, if_true, hc]
    exact podSrc_is _ _ _
  · unfold clientSrc
    simp only [ne_eq, h, not_false_eq_true, if_true, hc]
    simp
  · unfold clientSrc; simp [h]
  · unfold srcByIp; simp only [hp]; exact podSrc_is _ _ _
  · unfold srcByIp; simp only [hp, hn]; simp
  · unfold srcByIp; simp only [hp, hn]; simp

/-- The address a client's destination is looked up with: a loopback destination is on the source's address. -/
def reqAddr (l : Labels) : Bytes := if l.gs .dstIp = loopback then l.gs .srcIp else l.gs .dstIp

/-- Destination of a client's request, by the first lookup that succeeds: service, container, host port, node. -/
theorem request_destination (m : Meta) (l : Labels) :
    let ip := reqAddr l; let port := u32 (l.gi .dstPort)
    (∀ s, m.svc ip port = some s → (clientDst m l).str .dstService = some s.name ∧
      ((clientDst m l).str .dstNamespace = some s.ns ∨ ∃ c, m.byIpPort (l.gs .dnatIp) (u32 (l.gi .dnatPort)) = some c ∧ DstIs c.pod (clientDst m l))) ∧
    (∀ c, m.svc ip port = none → m.byIpPort ip port = some c → DstIs c.pod (clientDst m l)) ∧
    (∀ c, m.svc ip port = none → m.byIpPort ip port = none → m.byHost ip port = some c →
      DstIs c.pod (clientDst m l) ∧ (clientDst m l).str .dstIp = some c.pod.ip ∧
      (clientDst m l).str .dstService = some (ip ++ bs ":" ++ itoa (l.gi .dstPort)) ∧
      ∀ p : Nat, c.hostPortMap.get port = some p → (clientDst m l).int .dstPort = some (p : Int)) ∧
    (m.svc ip port = none → m.byIpPort ip port = none → m.byHost ip port = none →
      (clientDst m l).str .dstNamespace = some (if (m.node ip).isSome then internal else external)) := by
  have hl1 : ∀ x : Labels, x = (if l.gs .dstIp = loopback then (l.ss .dstNodeIp m.nodeIp).ss .dstNode m.nodeName else l) →
      x.gs .srcIp = l.gs .srcIp ∧ x.gi .dstPort = l.gi .dstPort ∧ x.gs .dnatIp = l.gs .dnatIp ∧ x.gi .dnatPort = l.gi .dnatPort := by
    rintro x rfl
    split <;> exact ⟨rfl, rfl, rfl, rfl⟩
  obtain ⟨a1, a2, a3, a4⟩ := hl1 _ rfl
  have hdst := clientDst.eq_def m l
  simp only [a1, a2] at hdst
  have hsvc : ∀ (c : Cont) (x : Labels), (contDst c x).str .dstService = x.str .dstService := by
    intro c x; unfold contDst podDst; simp only; split <;> simp
  intro ip port
  have hip : (if l.gs .dstIp = loopback then l.gs .srcIp else l.gs .dstIp) = ip := rfl
  rw [hip] at hdst
  refine ⟨fun s hs => ?_, fun c hs hc => ?_, fun c hs hc hh => ?_, fun hs hc hh => ?_⟩
  · have hs' : m.svc ip (u32 (l.gi .dstPort)) = some s := hs
    rw [hs'] at hdst
    simp only at hdst
    rw [hdst]
    unfold natDst
    have b1 : ∀ x : Labels, (svcDst s x).gs .dnatIp = x.gs .dnatIp := fun x => by unfold Labels.gs; rw [svcDst_other _ _ _ rfl]
    have b2 : ∀ x : Labels, (svcDst s x).gi .dnatPort = x.gi .dnatPort := fun x => rfl
    simp only [b1, b2, a3, a4]
    split
    · split
      · rename_i c hcc
        exact ⟨by rw [hsvc]; simp [svcDst], Or.inr ⟨c, hcc, contDst_is _ _⟩⟩
      · split
        · exact ⟨by simp [svcDst], Or.inl (by simp [svcDst])⟩
        · exact ⟨by simp [svcDst], Or.inl (by simp [svcDst])⟩
    · exact ⟨by simp [svcDst], Or.inl (by simp [svcDst])⟩
  · have hs' : m.svc ip (u32 (l.gi .dstPort)) = none := hs
    have hc' : m.byIpPort ip (u32 (l.gi .dstPort)) = some c := hc
    rw [hs', hc'] at hdst
    simp only at hdst
    rw [hdst]
    exact contDst_is _ _
  · have hs' : m.svc ip (u32 (l.gi .dstPort)) = none := hs
    have hc' : m.byIpPort ip (u32 (l.gi .dstPort)) = none := hc
    have hh' : m.byHost ip (u32 (l.gi .dstPort)) = some c := hh
    rw [hs', hc', hh'] at hdst
    simp only at hdst
    rw [hdst]
    refine ⟨hostDst_is _ _ _ _, ?_, ?_, ?_⟩
    · unfold hostDst; simp
    · unfold hostDst; simp
    · intro p hp
      have hp' : c.hostPortMap.get (u32 (l.gi .dstPort)) = some p := hp
      unfold hostDst
      simp [hp']
  · have hs' : m.svc ip (u32 (l.gi .dstPort)) = none := hs
    have hc' : m.byIpPort ip (u32 (l.gi .dstPort)) = none := hc
    have hh' : m.byHost ip (u32 (l.gi .dstPort)) = none := hh
    rw [hs', hc', hh'] at hdst
    simp only at hdst
    rw [hdst]
    cases m.node ip <;> simp

/-- A request of a container to itself through the loopback address is found under the address of its pod. -/
theorem loopback_to_own_pod (m : Meta) (l : Labels) (c : Cont) (hid : l.gs .containerId ≠ []) (hc : m.byId (l.gs .containerId) = some c)
    (hlo : l.gs .dstIp = loopback) : reqAddr (clientSrc m l) = c.pod.ip := by
  have h := (request_source m l).1 hid c hc
  have hd : (clientSrc m l).gs .dstIp = loopback := by
    rw [← hlo]
    unfold clientSrc contSrc podSrc Labels.gs
    simp only [ne_eq]
    have hid' : ¬ (l.str SL.containerId).getD [] = [] := hid
    simp only [hid', not_false_eq_true, if_true]
    have hc' : m.byId ((l.str SL.containerId).getD []) = some c := hc
    simp only [hc']
    split <;> simp
  unfold reqAddr
  rw [if_pos hd]
  unfold Labels.gs
  rw [h.ip]
  rfl

/-- Destination of a server's request: the container of the event, or the own node. -/
theorem server_destination (m : Meta) (l : Labels) :
    (∀ c, m.byId (l.gs .containerId) = some c → DstIs c.pod (serverDst m l) ∧
      ∀ n, m.svcOf c.pod = some n → (serverDst m l).str .dstService = some n) ∧
    (m.byId (l.gs .containerId) = none → (serverDst m l).str .dstNode = some m.nodeName ∧
      (serverDst m l).str .dstNamespace = some internal) := by
  constructor
  · intro c hc
    unfold serverDst
    simp only [hc]
    have h := contDst_is c (l.ss .dstContainerId (l.gs .containerId))
    cases hs : m.svcOf c.pod with
    | none => exact ⟨h, fun n hn => by cases hn⟩
    | some n =>
      refine ⟨⟨?_, ?_, ?_, ?_, ?_, ?_⟩, fun n' hn => by cases hn; simp⟩ <;>
        simp [h.node, h.nodeIp, h.ns, h.kind, h.name, h.pod]
  · intro hc
    unfold serverDst
    simp only [hc]
    simp

/-! ### The hypotheses can be met -/

def pod0 : PodInfo := ⟨bs "u", bs "10.0.0.1", bs "web-0", bs "shop", [80], [8080], [bs "abc"], [], bs "statefulset", bs "web", bs "n1", bs "192.168.0.1", false⟩
def cont0 : Cont := ⟨bs "abc", bs "c", [(8080, 80)], pod0⟩
def meta0 : Meta := metaOf ⟨[(bs "abc", cont0)], [(bs "10.0.0.1", [(80, cont0)])], [], [(Cache.hostKey (bs "192.168.0.1") 8080, cont0)]⟩
  [(bs "192.168.0.1", bs "n1")] (fun _ => none) (bs "192.168.0.1") (bs "n1")
def lab0 : Labels := ⟨fun k => match k with | .dstIp => some (bs "192.168.0.1") | .srcIp => some (bs "10.0.0.7") | _ => none,
  fun k => match k with | .dstPort => some 8080 | .srcPort => some 40000 | _ => none, false⟩

theorem meta0_hyps : meta0.svc (addr lab0).1 (addr lab0).2 = none ∧ meta0.byIpPort (addr lab0).1 (addr lab0).2 = none ∧
    meta0.byHost (addr lab0).1 (addr lab0).2 = some cont0 ∧ meta0.podByIp (addr lab0).1 = none :=
  ⟨by decide, by decide, by
    show AMap.get [(Cache.hostKey (bs "192.168.0.1") 8080, cont0)] (Cache.hostKey (bs "192.168.0.1") 8080) = some cont0
    simp [AMap.get], by decide⟩
example : (viaIp meta0 lab0).str .dstPod = some (bs "web-0") ∧ (viaIp meta0 lab0).str .dstNamespace = some internal := by
  have h := host_port_namespace_lost meta0 lab0 cont0 meta0_hyps.1 meta0_hyps.2.1 meta0_hyps.2.2.1 meta0_hyps.2.2.2
  exact ⟨h.1, h.2.trans (by decide)⟩

end Kindling.Proc.K8s
