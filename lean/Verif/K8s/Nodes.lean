import Verif.K8s.Names
/-
Nodes and replica sets.  metadata/kubernetes/node_watch.go and replicaset_watch.go.
-/
namespace Kindling.K8s.Nodes

/-! ### Nodes -/

/-- The parts of a `corev1.Node` that are read: name and addresses with their types. -/
structure Node where
  name : Bytes
  addrs : List (Bytes × Bytes)
deriving DecidableEq

/-- The loop over the addresses in `AddNode` (node_watch.go:103-107). -/
def internalIp : List (Bytes × Bytes) → Bytes → Bytes
  | [], ip => ip
  | (ty, a) :: r, ip => internalIp r (if ty = bs "InternalIP" then a else ip)

/-- `NodeMap.Info`: names by address. -/
abbrev NodeMap := AMap Bytes Bytes

/-- `AddNode` (node_watch.go:95-109). -/
def addNode (m : NodeMap) (n : Node) : NodeMap := m.set (internalIp n.addrs []) n.name
/-- `DeleteNode` (node_watch.go:116-131): the name is used as the key. -/
def deleteNode (m : NodeMap) (n : Node) : NodeMap := m.del n.name

inductive NOp
  | add (n : Node) | update (old new : Node) | delete (n : Node)

/-- `UpdateNode` (node_watch.go:111-114). -/
def nstep (m : NodeMap) : NOp → NodeMap
  | .add n => addNode m n
  | .update old new => addNode (deleteNode m old) new
  | .delete n => deleteNode m n

def nrun (m : NodeMap) : List NOp → NodeMap
  | [] => m
  | o :: r => nrun (nstep m o) r

/-- The node an event brings. -/
def brings : NOp → Option Node
  | .add n => some n
  | .update _ n => some n
  | .delete _ => none

/-- The name of the node that an event removes or replaces. -/
def takes : NOp → Option Bytes
  | .add _ => none
  | .update n _ => some n.name
  | .delete n => some n.name

/-- The last node that came with the address. -/
def lastWith (ip : Bytes) : List NOp → Option Bytes → Option Bytes
  | [], r => r
  | o :: t, r => lastWith ip t (match brings o with
    | some n => if internalIp n.addrs [] = ip then some n.name else r
    | none => r)

/-- `getNodeName` after any history in which no node is named like the address: the last node that came with the
address, deleted or not. -/
theorem node_of_address (ip : Bytes) (l : List NOp) (h : ∀ o ∈ l, takes o ≠ some ip) (m : NodeMap) :
    (nrun m l).get ip = lastWith ip l (m.get ip) := by
  induction l generalizing m with
  | nil => rfl
  | cons o r ih =>
    have hr : ∀ o ∈ r, takes o ≠ some ip := fun x hx => h x (by simp [hx])
    have ho := h o (by simp)
    rw [nrun, ih hr, lastWith]
    congr 1
    cases o with
    | add n => simp only [nstep, addNode, brings, AMap.get_set]
    | update old new =>
      have hne : old.name ≠ ip := fun h => ho (by rw [← h]; rfl)
      simp only [nstep, addNode, deleteNode, brings, AMap.get_set]
      split
      · rfl
      · rw [AMap.get_del_ne _ hne]
    | delete n =>
      have hne : n.name ≠ ip := fun h => ho (by rw [← h]; rfl)
      simp only [nstep, deleteNode, brings]
      rw [AMap.get_del_ne _ hne]

/-- Finding (C41 fails for nodes).  A deleted node is found for ever: its entry is under the address, the deletion
looks for the name. -/
theorem deleted_node_found (m : NodeMap) (n : Node) (hn : n.name ≠ internalIp n.addrs []) :
    (deleteNode (addNode m n) n).get (internalIp n.addrs []) = some n.name := by
  unfold deleteNode addNode
  rw [AMap.get_del_ne _ hn, AMap.get_set_self]

/-- Finding.  So does the old address of a node whose address changes. -/
theorem old_address_found (m : NodeMap) (old new : Node) (h1 : old.name ≠ internalIp old.addrs [])
    (h2 : internalIp new.addrs [] ≠ internalIp old.addrs []) :
    (nstep (addNode m old) (.update old new)).get (internalIp old.addrs []) = some old.name := by
  simp only [nstep]
  rw [addNode, AMap.get_set_ne _ _ h2]
  exact deleted_node_found m old h1

/-- The last internal address counts. -/
theorem internalIp_spec (pre post : List (Bytes × Bytes)) (a : Bytes) (ip : Bytes)
    (hpost : ∀ x ∈ post, x.1 ≠ bs "InternalIP") : internalIp (pre ++ (bs "InternalIP", a) :: post) ip = a := by
  induction pre generalizing ip with
  | nil =>
    simp only [List.nil_append, internalIp, if_true]
    clear ip
    induction post with
    | nil => rfl
    | cons x t ih =>
      obtain ⟨ty, b⟩ := x
      rw [internalIp, if_neg (hpost (ty, b) (by simp))]
      exact ih (fun x hx => hpost x (by simp [hx]))
  | cons x t ih =>
    obtain ⟨ty, b⟩ := x
    rw [List.cons_append, internalIp]
    exact ih _

/-! ### Replica sets -/

/-- The parts of an `appv1.ReplicaSet` that are read. -/
structure Rs where
  ns : Bytes
  name : Bytes
  rv : Nat
  owners : List Owner

/-- `metav1.GetControllerOfNoCopy`: the first owner that is a controller. -/
def controllerOf : List Owner → Option Owner
  | [] => none
  | o :: r => if o.controller then some o else controllerOf r

/-- `ReplicaSetMap.Info` -/
abbrev RsMap := AMap Bytes Owner

/-- `AddReplicaSet` (replicaset_watch.go:100-112). -/
def addRs (m : RsMap) (r : Rs) : RsMap :=
  match controllerOf r.owners with
  | none => m
  | some o => m.set (mapKey r.ns r.name) o

/-- `DeleteReplicaSet` (replicaset_watch.go:127-142). -/
def deleteRs (m : RsMap) (r : Rs) : RsMap := m.del (mapKey r.ns r.name)

inductive ROp
  | add (r : Rs) | update (old new : Rs) | delete (r : Rs)

/-- `UpdateReplicaSet` (replicaset_watch.go:114-125). -/
def rstep (m : RsMap) : ROp → RsMap
  | .add r => addRs m r
  | .update old new => if new.rv = old.rv then m else addRs (deleteRs m old) new
  | .delete r => deleteRs m r

def rrun (m : RsMap) : List ROp → RsMap
  | [] => m
  | o :: r => rrun (rstep m o) r

/-- The owner of the replica set with namespace and name `k` in the cluster, after an event. -/
def rcur (k : Bytes × Bytes) (c : Option Owner) : ROp → Option Owner
  | .add r => if (r.ns, r.name) = k then controllerOf r.owners else c
  | .update old new => if new.rv = old.rv then c else if (new.ns, new.name) = k then controllerOf new.owners else c
  | .delete r => if (r.ns, r.name) = k then none else c

def rcurs (k : Bytes × Bytes) (c : Option Owner) : List ROp → Option Owner
  | [] => c
  | o :: r => rcurs k (rcur k c o) r

def nsOf : ROp → Bytes
  | .add r => r.ns
  | .update old _ => old.ns
  | .delete r => r.ns

/-- Events as the API server sends them: namespaces have no slash, an update keeps namespace and name, an added
replica set was not there before. -/
def RProper (k : Bytes × Bytes) (c : Option Owner) : ROp → Prop
  | .add r => (47 : UInt8) ∉ r.ns ∧ ((r.ns, r.name) = k → c = none)
  | .update old new => (47 : UInt8) ∉ old.ns ∧ (old.ns, old.name) = (new.ns, new.name)
  | .delete r => (47 : UInt8) ∉ r.ns

def RPropers (k : Bytes × Bytes) (c : Option Owner) : List ROp → Prop
  | [] => True
  | o :: r => RProper k c o ∧ RPropers k (rcur k c o) r

/-- C41, replica sets.  After every history the lookup gives the controller of the replica set as it is in the
cluster, nothing if it was deleted or has no controller; events of others do not matter. -/
theorem replica_set_lookup_partial (ns name : Bytes) (hns : (47 : UInt8) ∉ ns) (l : List ROp) (m : RsMap)
    (hp : RPropers (ns, name) (m.get (mapKey ns name)) l) :
    (rrun m l).get (mapKey ns name) = rcurs (ns, name) (m.get (mapKey ns name)) l := by
  induction l generalizing m with
  | nil => rfl
  | cons o r ih =>
    have key : ∀ x : Rs, (47 : UInt8) ∉ x.ns → (mapKey x.ns x.name = mapKey ns name ↔ (x.ns, x.name) = (ns, name)) := by
      intro x hx
      constructor
      · intro h; obtain ⟨h1, h2⟩ := mapKey_inj hx hns h; rw [h1, h2]
      · intro h; cases h; rfl
    have hset : ∀ (m : RsMap) (x : Rs), (47 : UInt8) ∉ x.ns → ((x.ns, x.name) = (ns, name) → m.get (mapKey ns name) = none) →
        (addRs m x).get (mapKey ns name) = if (x.ns, x.name) = (ns, name) then controllerOf x.owners else m.get (mapKey ns name) := by
      intro m x hx hn
      unfold addRs
      by_cases hk : (x.ns, x.name) = (ns, name)
      · rw [if_pos hk]
        cases hc : controllerOf x.owners with
        | none => exact hn hk
        | some o => simp only; rw [(key x hx).2 hk, AMap.get_set_self]
      · rw [if_neg hk]
        cases hc : controllerOf x.owners with
        | none => rfl
        | some o => exact AMap.get_set_ne _ _ (fun h => hk ((key x hx).1 h))
    have hdel : ∀ (m : RsMap) (x : Rs), (47 : UInt8) ∉ x.ns →
        (deleteRs m x).get (mapKey ns name) = if (x.ns, x.name) = (ns, name) then none else m.get (mapKey ns name) := by
      intro m x hx
      unfold deleteRs
      by_cases hk : (x.ns, x.name) = (ns, name)
      · rw [if_pos hk, (key x hx).2 hk, AMap.get_del_self]
      · rw [if_neg hk]; exact AMap.get_del_ne _ (fun h => hk ((key x hx).1 h))
    have hone : (rstep m o).get (mapKey ns name) = rcur (ns, name) (m.get (mapKey ns name)) o := by
      cases o with
      | add x => exact hset m x hp.1.1 hp.1.2
      | delete x => exact hdel m x hp.1
      | update old new =>
        simp only [rstep, rcur]
        by_cases hrv : new.rv = old.rv
        · rw [if_pos hrv, if_pos hrv]
        · rw [if_neg hrv, if_neg hrv]
          have hsame := hp.1.2
          have hn : (47 : UInt8) ∉ new.ns := by
            have : old.ns = new.ns := congrArg Prod.fst hsame
            rw [← this]; exact hp.1.1
          rw [hset _ new hn (fun hk => by rw [hdel m old hp.1.1, if_pos (by rw [hsame]; exact hk)]), hdel m old hp.1.1]
          by_cases hk : (new.ns, new.name) = (ns, name)
          · rw [if_pos hk, if_pos hk]
          · rw [if_neg hk, if_neg hk, if_neg (by rw [hsame]; exact hk)]
    rw [rrun, rcurs, ← hone]
    apply ih
    rw [hone]
    exact hp.2

/-- So a pod owned by a replica set shows what controls the replica set in the cluster. -/
theorem pod_workload (builtIn : Bytes → Bool) (ns : Bytes) (hns : (47 : UInt8) ∉ ns) (l : List ROp) (o w : Owner) (pre post : List Owner)
    (hpre : ∀ x ∈ pre, x.controller = false) (ho : o.controller = true) (hk : o.kind = bs "ReplicaSet")
    (hp : RPropers (ns, o.name) none l) (hw : rcurs (ns, o.name) none l = some w) :
    controllerKindName builtIn (fun k => (rrun [] l).get k) ns (pre ++ o :: post) = (completeGVK builtIn w.api (lower w.kind), w.name) :=
  (workload_of_pod builtIn _ ns pre post o hpre ho).2.1 hk w ((replica_set_lookup_partial ns o.name hns l [] hp).trans hw)

/-! ### The hypotheses can be met -/

def node1 : Node := ⟨bs "node-1", [(bs "Hostname", bs "node-1"), (bs "InternalIP", bs "192.168.0.1")]⟩
def node1' : Node := ⟨bs "node-1", [(bs "InternalIP", bs "192.168.0.9")]⟩
example : internalIp node1.addrs [] = bs "192.168.0.1" ∧ node1.name ≠ internalIp node1.addrs [] ∧
    internalIp node1'.addrs [] ≠ internalIp node1.addrs [] := by decide
example : ∀ o ∈ [NOp.add node1, .update node1 node1', .delete node1'], takes o ≠ some (bs "192.168.0.1") := by
  intro o ho
  simp only [List.mem_cons, List.not_mem_nil, or_false] at ho
  rcases ho with rfl | rfl | rfl <;> simp [takes, node1, node1', bs] <;> decide

def dep : Owner := ⟨true, bs "Deployment", bs "web", bs "apps/v1"⟩
def rs1 : Rs := ⟨bs "ns", bs "web-5d", 1, [dep]⟩
example : RPropers (bs "ns", bs "web-5d") none [.add rs1, .update rs1 { rs1 with rv := 2 }, .delete { rs1 with name := bs "other" }] ∧
    rcurs (bs "ns", bs "web-5d") none [.add rs1, .update rs1 { rs1 with rv := 2 }, .delete { rs1 with name := bs "other" }] = some dep :=
  ⟨⟨⟨by decide, fun _ => rfl⟩, ⟨by decide, rfl⟩, (by show (47 : UInt8) ∉ bs "ns"; decide), trivial⟩, rfl⟩

/-- C41: the owner that counts is the first that is marked as controller, and there is none if none is marked. -/
theorem controller_first (l : List Owner) :
    (∀ o, controllerOf l = some o ↔ ∃ a b, l = a ++ o :: b ∧ o.controller = true ∧ ∀ x ∈ a, x.controller = false) ∧
    (controllerOf l = none ↔ ∀ x ∈ l, x.controller = false) := by
  induction l with
  | nil => simp [controllerOf]
  | cons p r ih =>
    obtain ⟨ih1, ih2⟩ := ih
    cases hp : p.controller with
    | true =>
      simp only [controllerOf, hp, if_true, Option.some.injEq, List.mem_cons, forall_eq_or_imp, Bool.true_eq_false, false_and]
      refine ⟨fun o => ⟨?_, ?_⟩, by simp⟩
      · rintro rfl; exact ⟨[], r, rfl, hp, by simp⟩
      · rintro ⟨a, b, h, ho, ha⟩
        cases a with
        | nil => simp only [List.nil_append, List.cons.injEq] at h; exact h.1
        | cons q a =>
          simp only [List.cons_append, List.cons.injEq] at h
          rw [← h.1] at ha
          have := ha p (by simp)
          rw [hp] at this; cases this
    | false =>
      simp only [controllerOf, hp, Bool.false_eq_true, if_false, List.mem_cons, forall_eq_or_imp, true_and]
      refine ⟨fun o => ?_, ih2⟩
      rw [ih1]
      constructor
      · rintro ⟨a, b, rfl, ho, ha⟩
        exact ⟨p :: a, b, rfl, ho, by simpa [hp] using ha⟩
      · rintro ⟨a, b, h, ho, ha⟩
        cases a with
        | nil =>
          simp only [List.nil_append, List.cons.injEq] at h
          rw [← h.1, hp] at ho; cases ho
        | cons q a =>
          simp only [List.cons_append, List.cons.injEq] at h
          exact ⟨a, b, h.2, ho, fun x hx => ha x (by simp [hx])⟩

end Kindling.K8s.Nodes
