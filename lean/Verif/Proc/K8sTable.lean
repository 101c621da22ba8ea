import Verif.Proc.K8s
/-
All Kubernetes labels of a data group as a table: who the source and the destination are, and the value of
every label.  kubernetes_processor.go, model in K8s.lean.
-/
set_option linter.unusedSimpArgs false

namespace Kindling.Proc.K8s.Table
open Kindling Kindling.K8s Kindling.Proc.K8s

/-! ## Specification -/

/-- A string label, empty if missing. -/
def str (l : Labels) (k : SL) : Bytes := match l.str k with | some v => v | none => []
/-- An integer label, 0 if missing. -/
def int (l : Labels) (k : IL) : Int := match l.int k with | some v => v | none => 0
/-- A port as an unsigned 32-bit number. -/
def port (n : Int) : Nat := (n % 2 ^ 32).toNat

/-- One end of a request or connection. -/
inductive Who where
  /-- a container and its pod -/
  | container (c : Cont)
  | pod (p : PodInfo)
  /-- a node of the cluster and its name -/
  | node (n : Bytes)
  /-- something on the own node -/
  | own
  | outside

/-- Source of a request: clients are known by the container of the event, servers know the client's address. -/
def source (m : Meta) (l : Labels) : Who :=
  if l.isServer = false ∧ str l .containerId ≠ [] then
    match m.byId (str l .containerId) with
    | some c => .container c
    | none => .own
  else match m.podByIp (str l .srcIp), m.node (str l .srcIp) with
    | some p, _ => .pod p
    | none, some n => .node n
    | none, none => .outside

/-- The pod of an end, if known. -/
def Who.podOf : Who → Option PodInfo
  | .container c => some c.pod
  | .pod p => some p
  | _ => none

/-- Where a request says it came from: the loopback address is on the own node. -/
def srcHere (l : Labels) : Bool := (l.isServer || str l .containerId = []) && str l .srcIp = bs "127.0.0.1"

/-- The labels of the source of a request; `l` are the labels before. -/
def sourceLabel (m : Meta) (l : Labels) : SL → Option Bytes
  | .srcIp => match (source m l).podOf with | some p => some p.ip | none => l.str .srcIp
  | .srcPod => match (source m l).podOf with | some p => some p.name | none => l.str .srcPod
  | .srcWorkloadName => match (source m l).podOf with | some p => some p.wname | none => l.str .srcWorkloadName
  | .srcWorkloadKind => match (source m l).podOf with | some p => some p.wkind | none => l.str .srcWorkloadKind
  | .srcService => match (source m l).podOf.bind m.svcOf with | some s => some s | none => l.str .srcService
  | .srcContainer => match source m l with | .container c => some c.name | _ => l.str .srcContainer
  | .srcContainerId => match source m l with
    | .container c => some c.cid
    | .own => some (str l .containerId)
    | _ => l.str .srcContainerId
  | .srcNamespace => match source m l with
    | .container c => some c.pod.ns
    | .pod p => some p.ns
    | .node _ => some (bs "NOT_FOUND_INTERNAL")
    | .own => some (bs "NOT_FOUND_INTERNAL")
    | .outside => some (bs "NOT_FOUND_EXTERNAL")
  | .srcNode => match source m l with
    | .container c => some c.pod.node
    | .pod p => some p.node
    | .node n => some n
    | .own => some m.nodeName
    | .outside => if srcHere l then some m.nodeName else l.str .srcNode
  | .srcNodeIp => match source m l with
    | .container c => some c.pod.nodeAddr
    | .pod p => some p.nodeAddr
    | .node _ => some (str l .srcIp)
    | .own => some m.nodeIp
    | .outside => if srcHere l then some m.nodeIp else l.str .srcNodeIp
  | k => l.str k

/-- Destination of a request: what answers to the address, and the service it was sent to. -/
inductive Dst where
  /-- a service; behind it the container, the node, or nothing known -/
  | service (s : SvcI) (behind : Who)
  | host (c : Cont)
  | plain (w : Who)

/-- The address a client's destination is looked up with. -/
def dstAddr (m : Meta) (l : Labels) : Bytes :=
  if str l .dstIp = bs "127.0.0.1" then (match sourceLabel m l .srcIp with | some ip => ip | none => []) else str l .dstIp

/-- What is behind a service: the translated address, if there is one. -/
def behind (m : Meta) (l : Labels) : Who :=
  if str l .dnatIp ≠ [] ∧ int l .dnatPort ≠ -1 then
    match m.byIpPort (str l .dnatIp) (port (int l .dnatPort)), m.node (str l .dnatIp) with
    | some c, _ => .container c
    | none, some n => .node n
    | none, none => .outside
  else .outside

def destination (m : Meta) (l : Labels) : Dst :=
  if l.isServer then
    match m.byId (str l .containerId) with
    | some c => .plain (.container c)
    | none => .plain .own
  else
    match m.svc (dstAddr m l) (port (int l .dstPort)), m.byIpPort (dstAddr m l) (port (int l .dstPort)),
      m.byHost (dstAddr m l) (port (int l .dstPort)), m.node (dstAddr m l) with
    | some s, _, _, _ => .service s (behind m l)
    | none, some c, _, _ => .plain (.container c)
    | none, none, some c, _ => .host c
    | none, none, none, some n => .plain (.node n)
    | none, none, none, none => .plain .outside

/-- The container of a destination, if known. -/
def Dst.cont : Dst → Option Cont
  | .service _ (.container c) => some c
  | .host c => some c
  | .plain (.container c) => some c
  | _ => none

/-- A request to the loopback address stays on the own node. -/
def dstHere (l : Labels) : Bool := !l.isServer && str l .dstIp = bs "127.0.0.1"

/-- The labels of the destination of a request. -/
def destinationLabel (m : Meta) (l : Labels) : SL → Option Bytes
  | .dstPod => match (destination m l).cont with | some c => some c.pod.name | none => l.str .dstPod
  | .dstContainer => match (destination m l).cont with | some c => some c.name | none => l.str .dstContainer
  | .dstContainerId => match (destination m l).cont with
    | some c => some c.cid
    | none => if l.isServer then some (str l .containerId) else l.str .dstContainerId
  | .dstIp => match destination m l with
    | .host c => some c.pod.ip
    | d => match d.cont with
      | some c => if str l .dstIp = [] then some c.pod.ip else l.str .dstIp
      | none => l.str .dstIp
  | .dstWorkloadName => match (destination m l).cont, destination m l with
    | some c, _ => some c.pod.wname
    | none, .service s _ => some s.wname
    | none, _ => l.str .dstWorkloadName
  | .dstWorkloadKind => match (destination m l).cont, destination m l with
    | some c, _ => some c.pod.wkind
    | none, .service s _ => some s.wkind
    | none, _ => l.str .dstWorkloadKind
  | .dstService => match destination m l with
    | .service s _ => some s.name
    | .host _ => some (dstAddr m l ++ bs ":" ++ Dec.formatInt (int l .dstPort))
    | .plain (.container c) => if l.isServer then (match m.svcOf c.pod with | some n => some n | none => l.str .dstService) else l.str .dstService
    | .plain _ => l.str .dstService
  | .dstNamespace => match (destination m l).cont, destination m l with
    | some c, _ => some c.pod.ns
    | none, .service s _ => some s.ns
    | none, .plain .outside => some (bs "NOT_FOUND_EXTERNAL")
    | none, _ => some (bs "NOT_FOUND_INTERNAL")
  | .dstNode => match (destination m l).cont, destination m l with
    | some c, _ => some c.pod.node
    | none, .service _ (.node n) => some n
    | none, .plain (.node n) => some n
    | none, .plain .own => some m.nodeName
    | none, _ => if dstHere l then some m.nodeName else l.str .dstNode
  | .dstNodeIp => match (destination m l).cont, destination m l with
    | some c, _ => some c.pod.nodeAddr
    | none, .service _ (.node _) => some (str l .dnatIp)
    | none, .plain (.node _) => some (dstAddr m l)
    | none, .plain .own => some m.nodeIp
    | none, _ => if dstHere l then some m.nodeIp else l.str .dstNodeIp
  | k => l.str k

/-- The port a client's request is for; behind a host port it is the port of the container. -/
def portLabel (m : Meta) (l : Labels) : IL → Option Int
  | .dstPort => match destination m l with
    | .host c => match c.hostPortMap.get (port (int l .dstPort)) with
      | some p => some p
      | none => some 0
    | _ => l.int .dstPort
  | k => l.int k

/-! ## Proofs -/

theorem gs_eq (l : Labels) (k : SL) : l.gs k = str l k := by unfold Labels.gs str; cases l.str k <;> rfl
theorem gi_eq (l : Labels) (k : IL) : l.gi k = int l k := by unfold Labels.gi int; cases l.int k <;> rfl
theorem u32_eq (n : Int) : u32 n = port n := rfl
theorem itoa_eq (n : Int) : itoa n = Dec.formatInt n := by
  have h : bs "-" = [45] := by decide +kernel
  unfold itoa Dec.formatInt
  rw [h]; rfl

theorem ip_source (m : Meta) (l : Labels) (h : ¬ (l.isServer = false ∧ str l .containerId ≠ [])) (k : SL) :
    (srcByIp m l).str k = sourceLabel m l k := by
  have hsrc : source m l = match m.podByIp (str l .srcIp), m.node (str l .srcIp) with
    | some p, _ => .pod p
    | none, some n => .node n
    | none, none => .outside := by unfold source; rw [if_neg h]
  have hh : (l.isServer || decide (str l .containerId = [])) = true := by
    cases hs : l.isServer <;> simp_all
  unfold srcByIp
  simp only [gs_eq, loopback, internal, external]
  unfold sourceLabel srcHere
  rw [hsrc, hh]
  by_cases hlo : str l .srcIp = bs "127.0.0.1"
  all_goals
    cases hp : m.podByIp (str l .srcIp) with
    | some p =>
      cases hsv : m.svcOf p <;> cases k <;> simp [podSrc, hsv, hlo, Who.podOf]
    | none =>
      cases hn : m.node (str l .srcIp) <;> cases k <;> simp [hlo, Who.podOf]

theorem request_source (m : Meta) (l : Labels) (k : SL) :
    (if l.isServer then srcByIp m l else clientSrc m l).str k = sourceLabel m l k := by
  by_cases h : l.isServer = false ∧ str l .containerId ≠ []
  · have hsrc : source m l = match m.byId (str l .containerId) with
      | some c => .container c
      | none => .own := by unfold source; rw [if_pos h]
    rw [h.1]
    simp only [Bool.false_eq_true, if_false]
    unfold clientSrc
    simp only [gs_eq, internal]
    rw [if_pos h.2]
    unfold sourceLabel
    rw [hsrc]
    cases hc : m.byId (str l .containerId) with
    | some c => cases hsv : m.svcOf c.pod <;> cases k <;> simp [contSrc, podSrc, hsv, Who.podOf]
    | none => cases k <;> simp [Who.podOf]
  · rw [← ip_source m l h k]
    cases hs : l.isServer with
    | true => rfl
    | false =>
      have h' : str l .containerId = [] := by
        refine Decidable.by_contra fun h' => h ⟨hs, h'⟩
      unfold clientSrc
      simp [gs_eq, h']

/-- Labels of the source. -/
def isSource : SL → Bool
  | .srcIp | .srcNode | .srcNodeIp | .srcNamespace | .srcPod | .srcWorkloadName | .srcWorkloadKind | .srcService
  | .srcContainer | .srcContainerId => true
  | _ => false

theorem sourceLabel_other (m : Meta) (l : Labels) (k : SL) (h : isSource k = false) : sourceLabel m l k = l.str k := by
  cases k <;> first | rfl | cases h

theorem source_int (m : Meta) (l : Labels) : (if l.isServer then srcByIp m l else clientSrc m l).int = l.int := by
  have h : (srcByIp m l).int = l.int := by
    unfold srcByIp
    simp only
    split
    · rw [podSrc_int]; split <;> rfl
    · split <;> split <;> rfl
  cases l.isServer with
  | true => exact h
  | false =>
    simp only [Bool.false_eq_true, if_false]
    unfold clientSrc
    simp only
    split
    · split
      · unfold contSrc; rw [podSrc_int]; rfl
      · rfl
    · exact h

/-- What a container adds to the destination. -/
def contLabel (c : Cont) (x : Labels) : SL → Option Bytes
  | .dstNode => some c.pod.node
  | .dstNodeIp => some c.pod.nodeAddr
  | .dstNamespace => some c.pod.ns
  | .dstWorkloadKind => some c.pod.wkind
  | .dstWorkloadName => some c.pod.wname
  | .dstPod => some c.pod.name
  | .dstContainer => some c.name
  | .dstContainerId => some c.cid
  | .dstIp => if str x .dstIp = [] then some c.pod.ip else x.str .dstIp
  | k => x.str k

theorem contDst_str (c : Cont) (x : Labels) (k : SL) : (contDst c x).str k = contLabel c x k := by
  unfold contDst podDst
  simp only [gs_eq]
  have h : str (((((((((x.ss .dstContainer c.name).ss .dstContainerId c.cid).ss .dstNode c.pod.node).ss .dstNodeIp c.pod.nodeAddr).ss
    .dstNamespace c.pod.ns).ss .dstWorkloadKind c.pod.wkind).ss .dstWorkloadName c.pod.wname).ss .dstPod c.pod.name)) .dstIp = str x .dstIp := by
    simp [str]
  rw [h]
  split
  · rename_i he; cases k <;> simp [contLabel, he]
  · rename_i he; cases k <;> simp [contLabel, he]

/-- C77: every label of a request: those of the source as the table of the source says, those of the destination
as the table of the destination says, the others are not touched. -/
theorem request_labels (m : Meta) (l : Labels) (k : SL) :
    (process m false l).str k = if isSource k then sourceLabel m l k else destinationLabel m l k := by
  have hsrc := request_source m l
  have hint := source_int m l
  have hproc : process m false l = if l.isServer then serverDst m (if l.isServer then srcByIp m l else clientSrc m l)
      else clientDst m (if l.isServer then srcByIp m l else clientSrc m l) := by
    unfold process server client
    cases l.isServer <;> rfl
  rw [hproc]
  generalize (if l.isServer then srcByIp m l else clientSrc m l) = l' at hsrc hint
  have hstr : ∀ k, isSource k = false → l'.str k = l.str k := fun k h => by rw [hsrc, sourceLabel_other m l k h]
  have hs : ∀ k, isSource k = false → str l' k = str l k := fun k h => by unfold str; rw [hstr k h]
  have hi : ∀ k, int l' k = int l k := fun k => by unfold int; rw [hint]
  cases hsv : l.isServer with
  | true =>
    simp only [if_true]
    unfold serverDst
    simp only [gs_eq, internal, hs .containerId rfl]
    have hd : destination m l = match m.byId (str l .containerId) with
      | some c => .plain (.container c)
      | none => .plain .own := by unfold destination; rw [if_pos hsv]
    cases hc : m.byId (str l .containerId) with
    | some c =>
      rw [hc] at hd
      simp only at hd
      have hip : str (l'.ss .dstContainerId (str l .containerId)) .dstIp = str l .dstIp := by
        rw [← hs .dstIp rfl]; simp [str]
      cases hn : m.svcOf c.pod <;> cases k <;>
        simp [contDst_str, contLabel, isSource, hsrc, destinationLabel, hd, Dst.cont, hn, hsv, hip]
      all_goals first | rw [hsrc] | exact sourceLabel_other m l _ rfl | skip
      all_goals rw [sourceLabel_other m l _ rfl]
    | none =>
      rw [hc] at hd
      simp only at hd
      cases k <;> simp [isSource, hsrc, destinationLabel, hd, Dst.cont, hsv]
      all_goals rw [sourceLabel_other m l _ rfl]
  | false =>
    simp only [Bool.false_eq_true, if_false]
    have haddr : (if str l' .dstIp = loopback then str l' .srcIp else str l' .dstIp) = dstAddr m l := by
      unfold dstAddr
      rw [hs .dstIp rfl]
      unfold loopback
      split
      · unfold str; rw [hsrc]
      · rfl
    have hd : destination m l = match m.svc (dstAddr m l) (port (int l .dstPort)), m.byIpPort (dstAddr m l) (port (int l .dstPort)),
      m.byHost (dstAddr m l) (port (int l .dstPort)), m.node (dstAddr m l) with
    | some s, _, _, _ => .service s (behind m l)
    | none, some c, _, _ => .plain (.container c)
    | none, none, some c, _ => .host c
    | none, none, none, some n => .plain (.node n)
    | none, none, none, none => .plain .outside := by unfold destination; rw [if_neg (by simp [hsv])]
    have hh : dstHere l = decide (str l .dstIp = bs "127.0.0.1") := by unfold dstHere; rw [hsv]; rfl
    have h1 : ∀ l1 : Labels, l1 = (if str l' .dstIp = loopback then (l'.ss .dstNodeIp m.nodeIp).ss .dstNode m.nodeName else l') →
        l1.int = l.int ∧ (∀ k, isSource k = true → l1.str k = sourceLabel m l k) ∧
        (∀ k, isSource k = false → k ≠ .dstNode → k ≠ .dstNodeIp → l1.str k = l.str k) ∧
        l1.str .dstNode = (if dstHere l then some m.nodeName else l.str .dstNode) ∧
        l1.str .dstNodeIp = (if dstHere l then some m.nodeIp else l.str .dstNodeIp) := by
      rintro l1 rfl
      rw [hh, hs .dstIp rfl]
      unfold loopback
      by_cases hlo : str l .dstIp = bs "127.0.0.1"
      · simp only [hlo, if_true, decide_true]
        refine ⟨hint, ?_, ?_, by simp, by simp⟩
        · intro k hk; rw [← hsrc k]; cases k <;> first | rfl | cases hk
        · intro k hk hn hni
          rw [← hstr k hk]; simp [hn, hni]
      · simp only [hlo, if_false, decide_false]
        refine ⟨hint, fun k _ => hsrc k, fun k hk _ _ => hstr k hk, ?_, ?_⟩
        · simpa using hstr .dstNode rfl
        · simpa using hstr .dstNodeIp rfl
    unfold clientDst
    simp only [gs_eq, gi_eq, u32_eq]
    obtain ⟨hi1, hsrc1, hoth, hnode, hnodeIp⟩ := h1 _ rfl
    have ha1 : (if str l' .dstIp = loopback then str (if str l' .dstIp = loopback then (l'.ss .dstNodeIp m.nodeIp).ss .dstNode m.nodeName else l') .srcIp
        else str l' .dstIp) = dstAddr m l := by
      rw [← haddr]
      split
      · simp [str]
      · rfl
    rw [ha1]
    generalize (if str l' .dstIp = loopback then (l'.ss .dstNodeIp m.nodeIp).ss .dstNode m.nodeName else l') = l1 at hi1 hsrc1 hoth hnode hnodeIp
    have hi2 : ∀ k, int l1 k = int l k := fun k => by unfold int; rw [hi1]
    have hs2 : ∀ k, isSource k = false → k ≠ .dstNode → k ≠ .dstNodeIp → str l1 k = str l k :=
      fun k h h' h'' => by unfold str; rw [hoth k h h' h'']
    rw [hi2]
    have e1 := hoth .containerId rfl (by decide) (by decide)
    have e2 := hoth .dstIp rfl (by decide) (by decide)
    have e3 := hoth .dstNamespace rfl (by decide) (by decide)
    have e4 := hoth .dstPod rfl (by decide) (by decide)
    have e5 := hoth .dstWorkloadName rfl (by decide) (by decide)
    have e6 := hoth .dstWorkloadKind rfl (by decide) (by decide)
    have e7 := hoth .dstService rfl (by decide) (by decide)
    have e8 := hoth .dstContainer rfl (by decide) (by decide)
    have e9 := hoth .dstContainerId rfl (by decide) (by decide)
    have e10 := hoth .dnatIp rfl (by decide) (by decide)
    have s0 := hsrc1 .srcIp rfl
    have s1 := hsrc1 .srcNode rfl
    have s2 := hsrc1 .srcNodeIp rfl
    have s3 := hsrc1 .srcNamespace rfl
    have s4 := hsrc1 .srcPod rfl
    have s5 := hsrc1 .srcWorkloadName rfl
    have s6 := hsrc1 .srcWorkloadKind rfl
    have s7 := hsrc1 .srcService rfl
    have s8 := hsrc1 .srcContainer rfl
    have s9 := hsrc1 .srcContainerId rfl
    have e11 := hs2 .dstIp rfl (by decide) (by decide)
    have e12 := hs2 .dnatIp rfl (by decide) (by decide)
    cases hsvc : m.svc (dstAddr m l) (port (int l .dstPort)) with
    | some s =>
      rw [hsvc] at hd
      simp only at hd
      have f1 : str (svcDst s l1) .dnatIp = str l .dnatIp := by rw [← e12]; unfold svcDst; simp [str]
      have f2 : int (svcDst s l1) .dnatPort = int l .dnatPort := by rw [← hi2]; rfl
      have f3 : str (svcDst s l1) .dstIp = str l .dstIp := by rw [← e11]; unfold svcDst; simp [str]
      unfold natDst
      simp only [gs_eq, gi_eq, u32_eq, f1, f2]
      have hb := behind.eq_def m l
      by_cases hc : str l .dnatIp ≠ [] ∧ int l .dnatPort ≠ -1
      · rw [if_pos hc] at hb ⊢
        cases hcc : m.byIpPort (str l .dnatIp) (port (int l .dnatPort)) with
        | some c =>
          rw [hcc] at hb
          simp only at hb
          rw [hb] at hd
          unfold svcDst at f3 ⊢
          cases k <;> simp [contDst_str, contLabel, f3, isSource, destinationLabel, hd, Dst.cont, hsv, e1, e2, e3, e4, e5, e6, e7, e8, e9, e10, e11, e12, s0, s1, s2, s3, s4, s5, s6, s7, s8, s9, hnode, hnodeIp, hi2]
        | none =>
          rw [hcc] at hb
          cases hn : m.node (str l .dnatIp) with
          | some n =>
            rw [hn] at hb
            simp only at hb
            rw [hb] at hd
            cases k <;> simp [svcDst, isSource, destinationLabel, hd, Dst.cont, hsv, e1, e2, e3, e4, e5, e6, e7, e8, e9, e10, e11, e12, s0, s1, s2, s3, s4, s5, s6, s7, s8, s9, hnode, hnodeIp, hi2]
          | none =>
            rw [hn] at hb
            simp only at hb
            rw [hb] at hd
            cases k <;> simp [svcDst, isSource, destinationLabel, hd, Dst.cont, hsv, e1, e2, e3, e4, e5, e6, e7, e8, e9, e10, e11, e12, s0, s1, s2, s3, s4, s5, s6, s7, s8, s9, hnode, hnodeIp, hi2]
      · rw [if_neg hc] at hb ⊢
        rw [hb] at hd
        cases k <;> simp [svcDst, isSource, destinationLabel, hd, Dst.cont, hsv, e1, e2, e3, e4, e5, e6, e7, e8, e9, e10, e11, e12, s0, s1, s2, s3, s4, s5, s6, s7, s8, s9, hnode, hnodeIp, hi2]
    | none =>
      rw [hsvc] at hd
      cases hct : m.byIpPort (dstAddr m l) (port (int l .dstPort)) with
      | some c =>
        rw [hct] at hd
        simp only at hd
        cases k <;> simp [contDst_str, contLabel, isSource, destinationLabel, hd, Dst.cont, hsv, e1, e2, e3, e4, e5, e6, e7, e8, e9, e10, e11, e12, s0, s1, s2, s3, s4, s5, s6, s7, s8, s9, hnode, hnodeIp, hi2]
      | none =>
        rw [hct] at hd
        cases hho : m.byHost (dstAddr m l) (port (int l .dstPort)) with
        | some c =>
          rw [hho] at hd
          simp only at hd
          cases k <;> simp [hostDst, contDst_str, contLabel, isSource, destinationLabel, hd, Dst.cont, hsv, itoa_eq, gs_eq, u32_eq, e1, e2, e3, e4, e5, e6, e7, e8, e9, e10, e11, e12, s0, s1, s2, s3, s4, s5, s6, s7, s8, s9, hnode, hnodeIp, hi2]
        | none =>
          rw [hho] at hd
          cases hn : m.node (dstAddr m l) with
          | some n =>
            rw [hn] at hd
            simp only at hd
            cases k <;> simp [internal, isSource, destinationLabel, hd, Dst.cont, hsv, e1, e2, e3, e4, e5, e6, e7, e8, e9, e10, e11, e12, s0, s1, s2, s3, s4, s5, s6, s7, s8, s9, hnode, hnodeIp, hi2]
          | none =>
            rw [hn] at hd
            simp only at hd
            cases k <;> simp [external, isSource, destinationLabel, hd, Dst.cont, hsv, e1, e2, e3, e4, e5, e6, e7, e8, e9, e10, e11, e12, s0, s1, s2, s3, s4, s5, s6, s7, s8, s9, hnode, hnodeIp, hi2]

/-- C77: and the ports of a request. -/
theorem request_ports (m : Meta) (l : Labels) (k : IL) : (process m false l).int k = portLabel m l k := by
  have hsrc := request_source m l
  have hint := source_int m l
  have hproc : process m false l = if l.isServer then serverDst m (if l.isServer then srcByIp m l else clientSrc m l)
      else clientDst m (if l.isServer then srcByIp m l else clientSrc m l) := by
    unfold process server client
    cases l.isServer <;> rfl
  rw [hproc]
  generalize (if l.isServer then srcByIp m l else clientSrc m l) = l' at hsrc hint
  have hs : str l' .dstIp = str l .dstIp := by unfold str; rw [hsrc]; rfl
  have hi : ∀ k, int l' k = int l k := fun k => by unfold int; rw [hint]
  cases hsv : l.isServer with
  | true =>
    simp only [if_true]
    have hd : portLabel m l k = l.int k := by
      unfold portLabel destination
      rw [if_pos hsv]
      cases k
      · rfl
      · cases m.byId (str l .containerId) <;> rfl
      · rfl
    rw [hd]
    unfold serverDst
    simp only
    split
    · split
      · simp only [ss_int, contDst_int]; rw [hint]
      · rw [contDst_int]; simp only [ss_int]; rw [hint]
    · simp only [ss_int]; rw [hint]
  | false =>
    simp only [Bool.false_eq_true, if_false]
    have hd : destination m l = match m.svc (dstAddr m l) (port (int l .dstPort)), m.byIpPort (dstAddr m l) (port (int l .dstPort)),
      m.byHost (dstAddr m l) (port (int l .dstPort)), m.node (dstAddr m l) with
    | some s, _, _, _ => .service s (behind m l)
    | none, some c, _, _ => .plain (.container c)
    | none, none, some c, _ => .host c
    | none, none, none, some n => .plain (.node n)
    | none, none, none, none => .plain .outside := by unfold destination; rw [if_neg (by simp [hsv])]
    unfold clientDst
    simp only [gs_eq, gi_eq, u32_eq]
    have ha1 : (if str l' .dstIp = loopback then str (if str l' .dstIp = loopback then (l'.ss .dstNodeIp m.nodeIp).ss .dstNode m.nodeName else l') .srcIp
        else str l' .dstIp) = dstAddr m l := by
      unfold dstAddr
      rw [hs]
      unfold loopback
      split
      · simp only [str, ss_str]; rw [hsrc]; rfl
      · rfl
    rw [ha1]
    have hi1 : (if str l' .dstIp = loopback then (l'.ss .dstNodeIp m.nodeIp).ss .dstNode m.nodeName else l').int = l.int := by
      split <;> exact hint
    generalize (if str l' .dstIp = loopback then (l'.ss .dstNodeIp m.nodeIp).ss .dstNode m.nodeName else l') = l1 at hi1
    have hi2 : ∀ k, int l1 k = int l k := fun k => by unfold int; rw [hi1]
    rw [hi2]
    cases hsvc : m.svc (dstAddr m l) (port (int l .dstPort)) with
    | some s =>
      rw [hsvc] at hd
      simp only at hd
      have : (natDst m (svcDst s l1)).int = l.int := by
        have h0 : (svcDst s l1).int = l.int := hi1
        unfold natDst
        simp only
        split
        · split
          · rw [contDst_int]; exact h0
          · split <;> exact h0
        · exact h0
      rw [this]
      cases k <;> simp [portLabel, hd]
    | none =>
      rw [hsvc] at hd
      cases hct : m.byIpPort (dstAddr m l) (port (int l .dstPort)) with
      | some c =>
        rw [hct] at hd
        simp only at hd
        simp only [contDst_int, hi1]
        cases k <;> simp [portLabel, hd]
      | none =>
        rw [hct] at hd
        cases hho : m.byHost (dstAddr m l) (port (int l .dstPort)) with
        | some c =>
          rw [hho] at hd
          simp only at hd
          cases hp : c.hostPortMap.get (port (int l .dstPort)) <;>
            cases k <;> simp [hostDst, contDst_int, portLabel, hd, hi1, u32_eq, hp]
        | none =>
          rw [hho] at hd
          cases hn : m.node (dstAddr m l) with
          | some n =>
            rw [hn] at hd
            simp only at hd
            cases k <;> simp [portLabel, hd, hi1]
          | none =>
            rw [hn] at hd
            simp only at hd
            cases k <;> simp [portLabel, hd, hi1]

/-- The table for a client in a known container that talks to a host port. -/
example : (process meta0 false (lab0.ss .containerId (bs "abc"))).str .srcPod = some (bs "web-0") ∧
    (process meta0 false (lab0.ss .containerId (bs "abc"))).str .dstService = some (bs "192.168.0.1:8080") := by
  rw [request_labels, request_labels]
  decide +kernel

/-! ## Connections

The groups of TCP metrics are enriched by addresses only (236-354). -/

/-- Source of a connection, by address and port, then by address. -/
def tcpSource (m : Meta) (l : Labels) : Who :=
  match m.byIpPort (str l .srcIp) (port (int l .srcPort)), m.podByIp (str l .srcIp), m.node (str l .srcIp) with
  | some c, _, _ => .container c
  | none, some p, _ => .pod p
  | none, none, some n => .node n
  | none, none, none => .outside

def tcpSourceLabel (m : Meta) (l : Labels) : SL → Option Bytes
  | .srcIp => match (tcpSource m l).podOf with | some p => some p.ip | none => l.str .srcIp
  | .srcPod => match (tcpSource m l).podOf with | some p => some p.name | none => l.str .srcPod
  | .srcWorkloadName => match (tcpSource m l).podOf with | some p => some p.wname | none => l.str .srcWorkloadName
  | .srcWorkloadKind => match (tcpSource m l).podOf with | some p => some p.wkind | none => l.str .srcWorkloadKind
  | .srcService => match (tcpSource m l).podOf.bind m.svcOf with | some s => some s | none => l.str .srcService
  | .srcNode => match (tcpSource m l).podOf with | some p => some p.node | none => l.str .srcNode
  | .srcNodeIp => match (tcpSource m l).podOf with | some p => some p.nodeAddr | none => l.str .srcNodeIp
  | .srcContainer => match tcpSource m l with | .container c => some c.name | _ => l.str .srcContainer
  | .srcContainerId => match tcpSource m l with | .container c => some c.cid | _ => l.str .srcContainerId
  | .srcNamespace => match tcpSource m l with
    | .container c => some c.pod.ns
    | .pod p => some p.ns
    | .outside => some (bs "NOT_FOUND_EXTERNAL")
    | _ => some (bs "NOT_FOUND_INTERNAL")
  | k => l.str k

/-- The service a connection was opened to. -/
def tcpService (m : Meta) (l : Labels) : Option SvcI := m.svc (str l .dstIp) (port (int l .dstPort))

/-- The container at the other end: behind the service, or under the address. -/
def tcpContainer (m : Meta) (l : Labels) : Option Cont :=
  match tcpService m l with
  | some _ => if str l .dnatIp ≠ [] ∧ int l .dnatPort ≠ -1 then m.byIpPort (str l .dnatIp) (port (int l .dnatPort)) else none
  | none => m.byIpPort (str l .dstIp) (port (int l .dstPort))

/-- The container behind a host port, if neither a service nor a container has the address. -/
def tcpHost (m : Meta) (l : Labels) : Option Cont :=
  match tcpService m l, tcpContainer m l with
  | none, none => m.byHost (str l .dstIp) (port (int l .dstPort))
  | _, _ => none

/-- The pod at the other end. -/
def tcpPod (m : Meta) (l : Labels) : Option PodInfo :=
  match tcpContainer m l, tcpService m l, m.podByIp (str l .dstIp), tcpHost m l with
  | some c, _, _, _ => some c.pod
  | none, some _, _, _ => none
  | none, none, some p, _ => some p
  | none, none, none, some c => some c.pod
  | none, none, none, none => none

/-- The destination address after the lookups. -/
def tcpAddress (m : Meta) (l : Labels) : Option Bytes :=
  match tcpHost m l, tcpPod m l with
  | some c, some p => if c.pod.ip = [] then some p.ip else some c.pod.ip
  | some c, none => some c.pod.ip
  | none, some p => if str l .dstIp = [] then some p.ip else l.str .dstIp
  | none, none => l.str .dstIp

def tcpDestinationLabel (m : Meta) (l : Labels) : SL → Option Bytes
  | .dstPod => match tcpPod m l with | some p => some p.name | none => l.str .dstPod
  | .dstNode => match tcpPod m l with | some p => some p.node | none => l.str .dstNode
  | .dstNodeIp => match tcpPod m l with | some p => some p.nodeAddr | none => l.str .dstNodeIp
  | .dstWorkloadName => match tcpPod m l, tcpService m l with
    | some p, _ => some p.wname
    | none, some s => some s.wname
    | none, none => l.str .dstWorkloadName
  | .dstWorkloadKind => match tcpPod m l, tcpService m l with
    | some p, _ => some p.wkind
    | none, some s => some s.wkind
    | none, none => l.str .dstWorkloadKind
  | .dstContainer => match tcpContainer m l, tcpHost m l with
    | some c, _ => some c.name
    | none, some c => some c.name
    | none, none => l.str .dstContainer
  | .dstContainerId => match tcpContainer m l, tcpHost m l with
    | some c, _ => some c.cid
    | none, some c => some c.cid
    | none, none => l.str .dstContainerId
  | .dstService => match tcpService m l, tcpHost m l with
    | some s, _ => some s.name
    | none, some _ => some (str l .dstIp ++ bs ":" ++ Dec.formatInt (int l .dstPort))
    | none, none => l.str .dstService
  | .dstNamespace => match tcpContainer m l, tcpService m l, m.podByIp (str l .dstIp), m.node (str l .dstIp) with
    | some c, _, _, _ => some c.pod.ns
    | none, some s, _, _ => some s.ns
    | none, none, some p, _ => some p.ns
    | none, none, none, some _ => some (bs "NOT_FOUND_INTERNAL")
    | none, none, none, none => some (bs "NOT_FOUND_EXTERNAL")
  | .dstIp => if str l .dnatIp ≠ [] then some (str l .dnatIp) else tcpAddress m l
  | .dnatIp => none
  | k => l.str k

theorem ipSrc_str (m : Meta) (l : Labels) (k : SL) : (ipSrc m l).str k = tcpSourceLabel m l k := by
  unfold ipSrc
  simp only [gs_eq, gi_eq, u32_eq, internal, external]
  unfold tcpSourceLabel tcpSource
  cases hc : m.byIpPort (str l .srcIp) (port (int l .srcPort)) with
  | some c => cases hsv : m.svcOf c.pod <;> cases k <;> simp [contSrc, podSrc, hsv, Who.podOf]
  | none =>
    cases hp : m.podByIp (str l .srcIp) with
    | some p => cases hsv : m.svcOf p <;> cases k <;> simp [podSrc, hsv, Who.podOf]
    | none => cases hn : m.node (str l .srcIp) <;> cases k <;> simp [Who.podOf]

theorem tcpSourceLabel_other (m : Meta) (l : Labels) (k : SL) (h : isSource k = false) : tcpSourceLabel m l k = l.str k := by
  cases k <;> first | rfl | cases h

/-- What a pod adds to the destination. -/
def podLabel (p : PodInfo) (x : Labels) : SL → Option Bytes
  | .dstNode => some p.node
  | .dstNodeIp => some p.nodeAddr
  | .dstNamespace => some p.ns
  | .dstWorkloadKind => some p.wkind
  | .dstWorkloadName => some p.wname
  | .dstPod => some p.name
  | .dstIp => if str x .dstIp = [] then some p.ip else x.str .dstIp
  | k => x.str k

theorem podDst_str (p : PodInfo) (x : Labels) (k : SL) : (podDst p x).str k = podLabel p x k := by
  unfold podDst
  simp only [gs_eq]
  have h : str ((((((x.ss .dstNode p.node).ss .dstNodeIp p.nodeAddr).ss
    .dstNamespace p.ns).ss .dstWorkloadKind p.wkind).ss .dstWorkloadName p.wname).ss .dstPod p.name) .dstIp = str x .dstIp := by
    simp [str]
  rw [h]
  split
  · rename_i he; cases k <;> simp [podLabel, he]
  · rename_i he; cases k <;> simp [podLabel, he]

theorem viaIp_str (m : Meta) (l : Labels) (k : SL) : (viaIp m l).str k =
    match k with
    | .dnatIp => none
    | .dstIp => if str l .dnatIp ≠ [] then some (str l .dnatIp) else (ipDst m (ipSrc m l)).str .dstIp
    | k => (ipDst m (ipSrc m l)).str k := by
  have hf : ∀ x : Labels, (fold x).str = x.str := by
    intro x
    unfold fold
    simp only
    split
    · split <;> simp
    · split <;> split <;> simp
  have hip : (ipDst m (ipSrc m l)).gs .dnatIp = str l .dnatIp := by
    rw [← gs_eq]
    unfold Labels.gs
    rw [ipDst_other _ _ _ rfl, ipSrc_dnat _ _ _ (Or.inl rfl)]
  unfold viaIp
  rw [hf]
  unfold unNat
  simp only
  rw [hip]
  by_cases h : str l .dnatIp ≠ []
  · simp only [if_pos h]
    cases k <;> simp <;> split <;> simp
  · simp only [if_neg h]
    cases k <;> simp <;> split <;> simp

/-- C45, C77: every label of a TCP metric. -/
theorem connection_labels (m : Meta) (l : Labels) (k : SL) :
    (process m true l).str k = if isSource k then tcpSourceLabel m l k else tcpDestinationLabel m l k := by
  have hsrc := ipSrc_str m l
  have hint := ipSrc_int m l
  have hproc : process m true l = viaIp m l := rfl
  rw [hproc, viaIp_str]
  have hdst : ∀ k, (ipDst m (ipSrc m l)).str k = if isSource k then tcpSourceLabel m l k else
      (match k with
      | .dnatIp => l.str .dnatIp
      | .dstIp => tcpAddress m l
      | k => tcpDestinationLabel m l k) := by
    generalize ipSrc m l = l' at hsrc hint
    have hstr : ∀ k, isSource k = false → l'.str k = l.str k := fun k h => by rw [hsrc, tcpSourceLabel_other m l k h]
    have hs : ∀ k, isSource k = false → str l' k = str l k := fun k h => by unfold str; rw [hstr k h]
    have hi : ∀ k, int l' k = int l k := fun k => by unfold int; rw [hint]
    have e1 := hstr .containerId rfl
    have e2 := hstr .dstIp rfl
    have e3 := hstr .dstNamespace rfl
    have e4 := hstr .dstPod rfl
    have e5 := hstr .dstWorkloadName rfl
    have e6 := hstr .dstWorkloadKind rfl
    have e7 := hstr .dstService rfl
    have e8 := hstr .dstContainer rfl
    have e9 := hstr .dstContainerId rfl
    have e10 := hstr .dnatIp rfl
    have e11 := hs .dstIp rfl
    have e12 := hs .dnatIp rfl
    have e13 := hstr .dstNode rfl
    have e14 := hstr .dstNodeIp rfl
    have s0 := hsrc .srcIp
    have s1 := hsrc .srcNode
    have s2 := hsrc .srcNodeIp
    have s3 := hsrc .srcNamespace
    have s4 := hsrc .srcPod
    have s5 := hsrc .srcWorkloadName
    have s6 := hsrc .srcWorkloadKind
    have s7 := hsrc .srcService
    have s8 := hsrc .srcContainer
    have s9 := hsrc .srcContainerId
    intro k
    unfold ipDst
    simp only [gs_eq, gi_eq, u32_eq, internal, external, hs .dstIp rfl, hi]
    cases hsvc : m.svc (str l .dstIp) (port (int l .dstPort)) with
    | some s =>
      have t1 : tcpService m l = some s := hsvc
      have f1 : str (svcDst s l') .dnatIp = str l .dnatIp := by rw [← e12]; unfold svcDst; simp [str]
      have f2 : int (svcDst s l') .dnatPort = int l .dnatPort := by rw [← hi]; rfl
      have f3 : str (svcDst s l') .dstIp = str l .dstIp := by rw [← e11]; unfold svcDst; simp [str]
      simp only [f1, f2]
      by_cases hc : str l .dnatIp ≠ [] ∧ int l .dnatPort ≠ -1
      · rw [if_pos hc]
        cases hcc : m.byIpPort (str l .dnatIp) (port (int l .dnatPort)) with
        | some c =>
          have t2 : tcpContainer m l = some c := by unfold tcpContainer; rw [t1]; simp only; rw [if_pos hc, hcc]
          have t3 : tcpHost m l = none := by unfold tcpHost; rw [t1, t2]
          have t4 : tcpPod m l = some c.pod := by unfold tcpPod; rw [t2]
          unfold svcDst at f3 ⊢
          cases k <;> simp [contDst_str, contLabel, f3, isSource, tcpDestinationLabel, tcpAddress, t1, t2, t3, t4, e1, e2, e3, e4, e5, e6, e7, e8, e9, e10, e11, e12, e13, e14, s0, s1, s2, s3, s4, s5, s6, s7, s8, s9]
        | none =>
          have t2 : tcpContainer m l = none := by unfold tcpContainer; rw [t1]; simp only; rw [if_pos hc, hcc]
          have t3 : tcpHost m l = none := by unfold tcpHost; rw [t1, t2]
          have t4 : tcpPod m l = none := by unfold tcpPod; rw [t2, t1]
          cases k <;> simp [svcDst, isSource, tcpDestinationLabel, tcpAddress, t1, t2, t3, t4, e1, e2, e3, e4, e5, e6, e7, e8, e9, e10, e11, e12, e13, e14, s0, s1, s2, s3, s4, s5, s6, s7, s8, s9]
      · rw [if_neg hc]
        have t2 : tcpContainer m l = none := by unfold tcpContainer; rw [t1]; simp only; rw [if_neg hc]
        have t3 : tcpHost m l = none := by unfold tcpHost; rw [t1, t2]
        have t4 : tcpPod m l = none := by unfold tcpPod; rw [t2, t1]
        cases k <;> simp [svcDst, isSource, tcpDestinationLabel, tcpAddress, t1, t2, t3, t4, e1, e2, e3, e4, e5, e6, e7, e8, e9, e10, e11, e12, e13, e14, s0, s1, s2, s3, s4, s5, s6, s7, s8, s9]
    | none =>
      have t1 : tcpService m l = none := hsvc
      cases hct : m.byIpPort (str l .dstIp) (port (int l .dstPort)) with
      | some c =>
        have t2 : tcpContainer m l = some c := by unfold tcpContainer; rw [t1]; exact hct
        have t3 : tcpHost m l = none := by unfold tcpHost; rw [t1, t2]
        have t4 : tcpPod m l = some c.pod := by unfold tcpPod; rw [t2]
        cases k <;> simp [contDst_str, contLabel, isSource, tcpDestinationLabel, tcpAddress, t1, t2, t3, t4, e1, e2, e3, e4, e5, e6, e7, e8, e9, e10, e11, e12, e13, e14, s0, s1, s2, s3, s4, s5, s6, s7, s8, s9]
      | none =>
        have t2 : tcpContainer m l = none := by unfold tcpContainer; rw [t1]; exact hct
        cases hho : m.byHost (str l .dstIp) (port (int l .dstPort)) with
        | some c =>
          have t3 : tcpHost m l = some c := by unfold tcpHost; rw [t1, t2]; exact hho
          cases hp : m.podByIp (str l .dstIp) with
          | some p =>
            have t4 : tcpPod m l = some p := by unfold tcpPod; rw [t2, t1, hp]
            cases k <;> simp [hostDst, podDst_str, podLabel, contDst_str, contLabel, itoa_eq, isSource, tcpDestinationLabel, tcpAddress, t1, t2, t3, t4, hp, e1, e2, e3, e4, e5, e6, e7, e8, e9, e10, e11, e12, e13, e14, s0, s1, s2, s3, s4, s5, s6, s7, s8, s9]
            simp [str]
          | none =>
            have t4 : tcpPod m l = some c.pod := by unfold tcpPod; rw [t2, t1, hp, t3]
            cases hn : m.node (str l .dstIp) <;> cases k <;> simp [hostDst, contDst_str, contLabel, itoa_eq, isSource, tcpDestinationLabel, tcpAddress, t1, t2, t3, t4, hp, hn, e1, e2, e3, e4, e5, e6, e7, e8, e9, e10, e11, e12, e13, e14, s0, s1, s2, s3, s4, s5, s6, s7, s8, s9]
        | none =>
          have t3 : tcpHost m l = none := by unfold tcpHost; rw [t1, t2]; exact hho
          cases hp : m.podByIp (str l .dstIp) with
          | some p =>
            have t4 : tcpPod m l = some p := by unfold tcpPod; rw [t2, t1, hp]
            cases k <;> simp [podDst_str, podLabel, isSource, tcpDestinationLabel, tcpAddress, t1, t2, t3, t4, hp, e1, e2, e3, e4, e5, e6, e7, e8, e9, e10, e11, e12, e13, e14, s0, s1, s2, s3, s4, s5, s6, s7, s8, s9]
          | none =>
            have t4 : tcpPod m l = none := by unfold tcpPod; rw [t2, t1, hp, t3]
            cases hn : m.node (str l .dstIp) <;> cases k <;> simp [isSource, tcpDestinationLabel, tcpAddress, t1, t2, t3, t4, hp, hn, e1, e2, e3, e4, e5, e6, e7, e8, e9, e10, e11, e12, e13, e14, s0, s1, s2, s3, s4, s5, s6, s7, s8, s9]
  cases k <;> simp only [hdst] <;> simp [isSource, tcpDestinationLabel]

example : (process meta0 true lab0).str .dstPod = some (bs "web-0") ∧ (process meta0 true lab0).str .dstNamespace = some (bs "NOT_FOUND_INTERNAL") := by
  rw [connection_labels, connection_labels]
  decide +kernel

end Kindling.Proc.K8s.Table
