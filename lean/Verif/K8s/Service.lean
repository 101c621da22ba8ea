import Verif.K8s.Names
import Verif.K8s.Cache
/-
Services and the pods they select.  metadata/kubernetes/service_watch.go, pod_watch.go:148-168, 199-221.

`K8sServiceInfo` objects are shared by pointers: they are in a heap here, a pointer is an index.  Simplified: the
maps by namespace and name have pairs as keys; a pod is its labels and its service pointer, and `AddService` reaches
a selected pod directly rather than through its container ids and ports (service_watch.go:131-145); the workload
fields of a service are left out; nodes are a list of addresses.
-/
namespace Kindling.K8s.Service

/-- `K8sServiceInfo` (k8scache.go:36-45). -/
structure Info where
  ip : Bytes
  name : Bytes
  ns : Bytes
  nodePort : Bool
  selector : AMap Bytes Bytes
deriving DecidableEq

/-- `emptySelf` (k8scache.go:47-55). -/
def emptied : Info := ⟨[], [], [], false, []⟩

/-- The parts of a `corev1.Service` that are read. -/
structure Svc where
  ns : Bytes
  name : Bytes
  rv : Nat
  ip : Bytes
  nodePort : Bool
  selector : AMap Bytes Bytes
  /-- port and node port -/
  ports : List (Nat × Nat)
deriving DecidableEq

def Svc.key (o : Svc) : Bytes × Bytes := (o.ns, o.name)

def infoOf (o : Svc) : Info := ⟨o.ip, o.name, o.ns, o.nodePort, o.selector⟩

structure PodE where
  labels : AMap Bytes Bytes
  svc : Option Nat
deriving DecidableEq

structure S where
  heap : List Info
  names : AMap (Bytes × Bytes) Nat
  svcs : AMap Bytes (AMap Nat Nat)
  pods : AMap (Bytes × Bytes) PodE
  nodes : List Bytes

def empty : S := ⟨[], [], [], [], []⟩

/-- The test of one service (service_watch.go:50-57). -/
def selects (i : Info) (labels : AMap Bytes Bytes) : Bool :=
  if i.selector = [] then false else selectorsMatch i.selector labels

/-- `GetServiceMatchLabels` (service_watch.go:42-60). -/
def matchServices (s : S) (ns : Bytes) (labels : AMap Bytes Bytes) : List Nat :=
  s.names.filterMap (fun e => if e.1.1 = ns then
    (match s.heap[e.2]? with
      | some i => if selects i labels then some e.2 else none
      | none => none) else none)

/-- `getPodsMatchSelectors` (pod_watch.go:148-168): the keys of the pods. -/
def matchPods (pods : AMap (Bytes × Bytes) PodE) (ns : Bytes) (sel : AMap Bytes Bytes) : List (Bytes × Bytes) :=
  if sel = [] then [] else (pods.filter (fun e => decide (e.1.1 = ns) && selectorsMatch sel e.2.labels)).map (·.1)

/-- `podInfo.ServiceInfo = sI` for each of the pods (service_watch.go:130-146). -/
def link (p : Nat) : List (Bytes × Bytes) → AMap (Bytes × Bytes) PodE → AMap (Bytes × Bytes) PodE
  | [], pods => pods
  | k :: r, pods => link p r (match pods.get k with
    | none => pods
    | some e => pods.set k { e with svc := some p })

def noIp (ip : Bytes) : Bool := decide (ip = [] ∨ ip = bs "None")

def addNodes (p np : Nat) : List Bytes → AMap Bytes (AMap Nat Nat) → AMap Bytes (AMap Nat Nat)
  | [], m => m
  | a :: r, m => addNodes p np r (Cache.add2 m a np p)

/-- service_watch.go:151-159. -/
def regPorts (o : Svc) (nodes : List Bytes) (p : Nat) : List (Nat × Nat) → AMap Bytes (AMap Nat Nat) → AMap Bytes (AMap Nat Nat)
  | [], m => m
  | q :: r, m =>
    let m1 := Cache.add2 m o.ip q.1 p
    regPorts o nodes p r (if o.nodePort then addNodes p q.2 nodes m1 else m1)

def delNodes (np : Nat) : List Bytes → AMap Bytes (AMap Nat Nat) → AMap Bytes (AMap Nat Nat)
  | [], m => m
  | a :: r, m => delNodes np r (Cache.del2 m a np)

/-- service_watch.go:200-208. -/
def unregPorts (o : Svc) (nodes : List Bytes) : List (Nat × Nat) → AMap Bytes (AMap Nat Nat) → AMap Bytes (AMap Nat Nat)
  | [], m => m
  | q :: r, m =>
    let m1 := Cache.del2 m o.ip q.1
    unregPorts o nodes r (if o.nodePort then delNodes q.2 nodes m1 else m1)

/-- `AddService` (service_watch.go:119-160). -/
def addService (s : S) (o : Svc) : S :=
  let p := s.heap.length
  { s with
    heap := s.heap ++ [infoOf o]
    names := s.names.set o.key p
    pods := link p (matchPods s.pods o.ns o.selector) s.pods
    svcs := if noIp o.ip then s.svcs else regPorts o s.nodes p o.ports s.svcs }

/-- `DeleteService` (service_watch.go:177-209). -/
def deleteService (s : S) (o : Svc) : S :=
  { s with
    heap := (match s.names.get o.key with
      | none => s.heap
      | some p => s.heap.set p emptied)
    svcs := if noIp o.ip then s.svcs else unregPorts o s.nodes o.ports s.svcs }

/-- `UpdateService` (service_watch.go:163-175). -/
def updateService (s : S) (old new : Svc) : S :=
  if old.rv = new.rv then s else addService (deleteService s old) new

/-- The service part of `AddPod` (pod_watch.go:202-221, 230, 284). -/
def addPod (s : S) (ns name : Bytes) (labels : AMap Bytes Bytes) : S :=
  { s with pods := s.pods.set (ns, name) ⟨labels, (matchServices s ns labels).head?⟩ }

inductive Op
  | add (o : Svc) | update (old new : Svc) | delete (o : Svc)
  | pod (ns name : Bytes) (labels : AMap Bytes Bytes) | node (a : Bytes)

def step (s : S) : Op → S
  | .add o => addService s o
  | .update old new => updateService s old new
  | .delete o => deleteService s o
  | .pod ns name labels => addPod s ns name labels
  | .node a => { s with nodes := s.nodes ++ [a] }

def run (s : S) : List Op → S
  | [] => s
  | o :: r => run (step s o) r

/-! ### What should hold -/

abbrev Cluster := Bytes × Bytes → Option Svc

/-- The services of the cluster after an event. -/
def cur (c : Cluster) : Op → Cluster
  | .add o => fun k => if k = o.key then some o else c k
  | .update old new => if old.rv = new.rv then c else fun k => if k = new.key then some new else c k
  | .delete o => fun k => if k = o.key then none else c k
  | _ => c

def curs (c : Cluster) : List Op → Cluster
  | [] => c
  | o :: r => curs (cur c o) r

/-- Events as the API server sends them: only new services are added, an update keeps namespace and name, selectors
have no key twice. -/
def Proper (c : Cluster) : Op → Prop
  | .add o => c o.key = none ∧ AMap.WF o.selector
  | .update old new => old.key = new.key ∧ AMap.WF new.selector
  | _ => True

def Propers (c : Cluster) : List Op → Prop
  | [] => True
  | o :: r => Proper c o ∧ Propers (cur c o) r

/-- All selectors of the service occur in the labels, and there are some. -/
def Selects (o : Svc) (labels : AMap Bytes Bytes) : Prop :=
  o.selector ≠ [] ∧ ∀ k v, o.selector.get k = some v → labels.get k = some v

structure Inv (c : Cluster) (s : S) : Prop where
  wf : AMap.WF s.names
  bound : ∀ k p, s.names.get k = some p → p < s.heap.length
  inj : ∀ k k' p, s.names.get k = some p → s.names.get k' = some p → k = k'
  live : ∀ k o, c k = some o → o.key = k ∧ AMap.WF o.selector ∧ ∃ p, s.names.get k = some p ∧ s.heap[p]? = some (infoOf o)
  dead : ∀ k p, c k = none → s.names.get k = some p → s.heap[p]? = some emptied
  named : ∀ p i, s.heap[p]? = some i → i = emptied ∨ ∃ k, s.names.get k = some p
  pods : ∀ k e p, s.pods.get k = some e → e.svc = some p →
    ∃ i, s.heap[p]? = some i ∧ (i = emptied ∨ (i.ns = k.1 ∧ selects i e.labels = true))

theorem inv_empty : Inv (fun _ => none) empty := by
  constructor <;> simp [empty]

theorem link_get (p : Nat) (l : List (Bytes × Bytes)) (pods : AMap (Bytes × Bytes) PodE) (k : Bytes × Bytes) :
    (link p l pods).get k = (pods.get k).map (fun e => if k ∈ l then { e with svc := some p } else e) := by
  induction l generalizing pods with
  | nil => rw [link]; cases pods.get k <;> simp
  | cons a r ih =>
    rw [link, ih]
    by_cases hk : a = k
    · subst hk
      cases hg : pods.get a with
      | none => simp [hg]
      | some e => simp only [AMap.get_set_self, Option.map_some, List.mem_cons, true_or, if_true]; split <;> rfl
    · have hne : k ≠ a := fun h => hk h.symm
      cases hg : pods.get a with
      | none => simp [hne]
      | some e => simp only [AMap.get_set_ne _ _ hk, List.mem_cons, hne, false_or]

theorem mem_matchPods (pods : AMap (Bytes × Bytes) PodE) (ns : Bytes) (sel : AMap Bytes Bytes) (k : Bytes × Bytes) :
    k ∈ matchPods pods ns sel ↔ sel ≠ [] ∧ k.1 = ns ∧ ∃ e, (k, e) ∈ pods ∧ selectorsMatch sel e.labels = true := by
  unfold matchPods
  by_cases hs : sel = []
  · simp [hs]
  · rw [if_neg hs]
    simp only [List.mem_map, List.mem_filter, Bool.and_eq_true, decide_eq_true_eq]
    constructor
    · rintro ⟨⟨k', e⟩, ⟨h1, h2, h3⟩, rfl⟩
      exact ⟨hs, h2, e, h1, h3⟩
    · rintro ⟨_, h2, e, h1, h3⟩
      exact ⟨(k, e), ⟨h1, h2, h3⟩, rfl⟩

theorem mem_matchServices (s : S) (hw : AMap.WF s.names) (ns : Bytes) (labels : AMap Bytes Bytes) (p : Nat) :
    p ∈ matchServices s ns labels ↔
      ∃ name i, s.names.get (ns, name) = some p ∧ s.heap[p]? = some i ∧ selects i labels = true := by
  unfold matchServices
  rw [List.mem_filterMap]
  constructor
  · rintro ⟨⟨⟨n1, n2⟩, q⟩, hm, h⟩
    simp only at h
    split at h
    · rename_i hn
      subst hn
      cases hh : s.heap[q]? with
      | none => rw [hh] at h; cases h
      | some i =>
        rw [hh] at h
        simp only at h
        split at h
        · rename_i hsel
          cases h
          exact ⟨n2, i, AMap.get_of_mem hw hm, hh, hsel⟩
        · cases h
    · cases h
  · rintro ⟨name, i, hg, hh, hsel⟩
    exact ⟨((ns, name), p), AMap.mem_of_get hg, by simp [hh, hsel]⟩

theorem inv_add (c : Cluster) (s : S) (h : Inv c s) (hp : AMap.WF s.pods) (o : Svc)
    (hsel : AMap.WF o.selector)
    (hd : ∀ p, s.names.get o.key = some p → s.heap[p]? = some emptied) :
    Inv (cur c (.add o)) (addService s o) := by
  have hlt : ∀ k p, s.names.get k = some p → p < s.heap.length := h.bound
  have hold : ∀ (p : Nat) i, s.heap[p]? = some i → (s.heap ++ [infoOf o])[p]? = some i := by
    intro p i hi
    have hl : p < s.heap.length := by
      by_cases hl : p < s.heap.length
      · exact hl
      · rw [List.getElem?_eq_none (by omega)] at hi; cases hi
    rw [List.getElem?_append_left hl]; exact hi
  have hnew : (s.heap ++ [infoOf o])[s.heap.length]? = some (infoOf o) := by simp
  refine ⟨h.wf.set _ _, ?_, ?_, ?_, ?_, ?_, ?_⟩
  · intro k p hk
    simp only [addService, AMap.get_set, List.length_append, List.length_singleton] at hk ⊢
    split at hk
    · cases hk; omega
    · have := hlt k p hk; omega
  · intro k k' p hk hk'
    simp only [addService, AMap.get_set] at hk hk'
    split at hk <;> split at hk'
    · rename_i h1 h2; rw [← h1, ← h2]
    · cases hk; have := hlt _ _ hk'; omega
    · cases hk'; have := hlt _ _ hk; omega
    · exact h.inj k k' p hk hk'
  · intro k o' hk
    simp only [cur] at hk
    simp only [addService]
    by_cases he : k = o.key
    · subst he
      rw [if_pos rfl] at hk
      cases hk
      exact ⟨rfl, hsel, s.heap.length, AMap.get_set_self _ _ _, hnew⟩
    · rw [if_neg he] at hk
      obtain ⟨e1, e2, p, e3, e4⟩ := h.live k o' hk
      exact ⟨e1, e2, p, by rw [AMap.get_set_ne _ _ (fun h => he h.symm)]; exact e3, hold p _ e4⟩
  · intro k p hk hg
    simp only [cur] at hk
    simp only [addService] at hg ⊢
    by_cases he : k = o.key
    · rw [if_pos he] at hk; cases hk
    · rw [if_neg he] at hk
      rw [AMap.get_set_ne _ _ (fun h => he h.symm)] at hg
      exact hold p _ (h.dead k p hk hg)
  · intro p i hi
    simp only [addService] at hi ⊢
    by_cases hl : p < s.heap.length
    · rw [List.getElem?_append_left hl] at hi
      rcases h.named p i hi with h1 | ⟨k, hk⟩
      · exact Or.inl h1
      · by_cases he : k = o.key
        · subst he
          have := hd p hk
          rw [hi] at this; cases this
          exact Or.inl rfl
        · exact Or.inr ⟨k, by rw [AMap.get_set_ne _ _ (fun h => he h.symm)]; exact hk⟩
    · have hlen : p = s.heap.length := by
        have : p < (s.heap ++ [infoOf o]).length := by
          by_cases hq : p < (s.heap ++ [infoOf o]).length
          · exact hq
          · rw [List.getElem?_eq_none (by omega)] at hi; cases hi
        simp at this; omega
      subst hlen
      exact Or.inr ⟨o.key, AMap.get_set_self _ _ _⟩
  · intro k e p hk he
    simp only [addService] at hk ⊢
    rw [link_get] at hk
    cases hg : s.pods.get k with
    | none => rw [hg] at hk; cases hk
    | some e0 =>
      rw [hg] at hk
      simp only [Option.map_some, Option.some.injEq] at hk
      by_cases hm : k ∈ matchPods s.pods o.ns o.selector
      · rw [if_pos hm] at hk
        subst hk
        cases he
        obtain ⟨h1, h2, e1, h3, h4⟩ := (mem_matchPods _ _ _ _).1 hm
        have : e1 = e0 := by
          have := AMap.get_of_mem hp h3
          rw [hg] at this; cases this; rfl
        subst this
        refine ⟨infoOf o, hnew, Or.inr ⟨h2.symm, ?_⟩⟩
        exact (if_neg h1).trans h4
      · rw [if_neg hm] at hk
        subst hk
        obtain ⟨i, h1, h2⟩ := h.pods k e0 p hg he
        exact ⟨i, hold p i h1, h2⟩

theorem inv_delete (c : Cluster) (s : S) (h : Inv c s) (o : Svc) :
    Inv (cur c (.delete o)) (deleteService s o) ∧
    (∀ p, (deleteService s o).names.get o.key = some p → (deleteService s o).heap[p]? = some emptied) := by
  have hheap : ∀ p i, (deleteService s o).heap[p]? = some i → i = emptied ∨ (s.heap[p]? = some i ∧ s.names.get o.key ≠ some p) := by
    intro p i hi
    simp only [deleteService] at hi
    cases hg : s.names.get o.key with
    | none => rw [hg] at hi; exact Or.inr ⟨hi, by simp⟩
    | some q =>
      rw [hg] at hi
      simp only [List.getElem?_set] at hi
      split at hi
      · split at hi
        · cases hi; exact Or.inl rfl
        · cases hi
      · rename_i hne; exact Or.inr ⟨hi, by simpa using hne⟩
  have hkeep : ∀ p i, s.heap[p]? = some i → s.names.get o.key ≠ some p → (deleteService s o).heap[p]? = some i := by
    intro p i hi hne
    simp only [deleteService]
    cases hg : s.names.get o.key with
    | none => exact hi
    | some q =>
      simp only
      rw [List.getElem?_set_ne (by rw [hg] at hne; simpa using hne)]
      exact hi
  have hempt : ∀ p, s.names.get o.key = some p → (deleteService s o).heap[p]? = some emptied := by
    intro p hg
    simp only [deleteService, hg]
    rw [List.getElem?_set_self (h.bound _ _ hg)]
  have hlen : (deleteService s o).heap.length = s.heap.length := by
    simp only [deleteService]
    split <;> simp
  refine ⟨⟨h.wf, fun k p hk => by rw [hlen]; exact h.bound k p hk, h.inj, ?_, ?_, ?_, ?_⟩, hempt⟩
  · intro k o' hk
    simp only [cur] at hk
    by_cases he : k = o.key
    · rw [if_pos he] at hk; cases hk
    · rw [if_neg he] at hk
      obtain ⟨e1, e2, p, e3, e4⟩ := h.live k o' hk
      refine ⟨e1, e2, p, e3, hkeep p _ e4 (fun hx => he (h.inj _ _ _ e3 hx))⟩
  · intro k p hk hg
    simp only [cur] at hk
    by_cases he : k = o.key
    · subst he; exact hempt p hg
    · rw [if_neg he] at hk
      exact hkeep p _ (h.dead k p hk hg) (fun hx => he (h.inj _ _ _ hg hx))
  · intro p i hi
    rcases hheap p i hi with h1 | ⟨h1, _⟩
    · exact Or.inl h1
    · exact h.named p i h1
  · intro k e p hk he
    obtain ⟨i, h1, h2⟩ := h.pods k e p hk he
    by_cases hx : s.names.get o.key = some p
    · exact ⟨emptied, hempt p hx, Or.inl rfl⟩
    · exact ⟨i, hkeep p i h1 hx, h2⟩

theorem link_wf (p : Nat) (l : List (Bytes × Bytes)) (pods : AMap (Bytes × Bytes) PodE) (h : AMap.WF pods) : AMap.WF (link p l pods) := by
  induction l generalizing pods with
  | nil => exact h
  | cons a r ih =>
    rw [link]
    apply ih
    split
    · exact h
    · exact h.set _ _

theorem inv_step (c : Cluster) (s : S) (h : Inv c s) (hp : AMap.WF s.pods) (op : Op) (hpr : Proper c op) :
    Inv (cur c op) (step s op) ∧ AMap.WF (step s op).pods := by
  cases op with
  | add o => exact ⟨inv_add c s h hp o hpr.2 (fun p hg => h.dead _ p hpr.1 hg), link_wf _ _ _ hp⟩
  | delete o => exact ⟨(inv_delete c s h o).1, hp⟩
  | update old new =>
    simp only [step, cur, updateService]
    by_cases hrv : old.rv = new.rv
    · rw [if_pos hrv, if_pos hrv]; exact ⟨h, hp⟩
    · rw [if_neg hrv, if_neg hrv]
      obtain ⟨h1, h2⟩ := inv_delete c s h old
      have := inv_add (cur c (.delete old)) _ h1 hp new hpr.2 (by rw [← hpr.1]; exact h2)
      refine ⟨?_, link_wf _ _ _ hp⟩
      have e : cur (cur c (.delete old)) (.add new) = fun k => if k = new.key then some new else c k := by
        funext k
        simp only [cur]
        by_cases hk : k = new.key
        · simp [hk]
        · rw [if_neg hk, if_neg hk, if_neg (by rw [hpr.1]; exact hk)]
      rw [e] at this
      exact this
  | pod ns name labels =>
    refine ⟨⟨h.wf, h.bound, h.inj, h.live, h.dead, h.named, ?_⟩, hp.set _ _⟩
    intro k e p hk he
    simp only [step, addPod, AMap.get_set] at hk ⊢
    split at hk
    · rename_i hke
      cases hk
      simp only at he
      have hm : p ∈ matchServices s ns labels := by
        rw [List.head?_eq_some_iff] at he
        obtain ⟨t, ht⟩ := he
        rw [ht]; simp
      obtain ⟨nm, i, g1, g2, g3⟩ := (mem_matchServices s h.wf ns labels p).1 hm
      refine ⟨i, g2, Or.inr ⟨?_, g3⟩⟩
      have hne : i ≠ emptied := by
        intro hi; rw [hi] at g3; simp [selects, emptied] at g3
      cases hcur : c (ns, nm) with
      | none => have := h.dead _ p hcur g1; rw [g2] at this; cases this; exact absurd rfl hne
      | some o =>
        obtain ⟨e1, _, q, e3, e4⟩ := h.live _ o hcur
        rw [g1] at e3; cases e3
        rw [g2] at e4; cases e4
        rw [← hke]
        have : o.ns = ns := congrArg Prod.fst e1
        exact this
    · exact h.pods k e p hk he
  | node a => exact ⟨⟨h.wf, h.bound, h.inj, h.live, h.dead, h.named, h.pods⟩, hp⟩

theorem inv_run (c : Cluster) (s : S) (h : Inv c s) (hp : AMap.WF s.pods) (l : List Op) (hpr : Propers c l) :
    Inv (curs c l) (run s l) := by
  induction l generalizing c s with
  | nil => exact h
  | cons o r ih =>
    obtain ⟨h1, h2⟩ := inv_step c s h hp o hpr.1
    exact ih _ _ h1 h2 hpr.2

/-- The services of the cluster after a history. -/
def clusterOf (l : List Op) : Cluster := curs (fun _ => none) l

theorem selects_iff (o : Svc) (hw : AMap.WF o.selector) (labels : AMap Bytes Bytes) :
    selects (infoOf o) labels = true ↔ Selects o labels := by
  unfold selects Selects
  by_cases h : o.selector = []
  · simp [infoOf, h]
  · simp only [infoOf, h, if_false, ne_eq, not_false_eq_true, true_and]
    exact selectorsMatch_iff _ _ hw

/-- C40, services for labels.  After every history the services reported for a namespace and labels are exactly the
services that exist in that namespace, have selectors, and have only selectors that occur in the labels. -/
theorem reported_iff (l : List Op) (hp : Propers (fun _ => none) l) (ns : Bytes) (labels : AMap Bytes Bytes) (i : Info) :
    (∃ p ∈ matchServices (run empty l) ns labels, (run empty l).heap[p]? = some i) ↔
    ∃ name o, clusterOf l (ns, name) = some o ∧ i = infoOf o ∧ Selects o labels := by
  have h := inv_run _ _ inv_empty AMap.wf_nil l hp
  constructor
  · rintro ⟨p, hm, hi⟩
    obtain ⟨nm, i', g1, g2, g3⟩ := (mem_matchServices _ h.wf ns labels p).1 hm
    rw [hi] at g2; cases g2
    cases hcur : clusterOf l (ns, nm) with
    | none => have := h.dead _ p hcur g1; rw [hi] at this; cases this; simp [selects, emptied] at g3
    | some o =>
      obtain ⟨e1, e2, q, e3, e4⟩ := h.live _ o hcur
      rw [g1] at e3; cases e3
      rw [hi] at e4; cases e4
      exact ⟨nm, o, hcur, rfl, (selects_iff o e2 labels).1 g3⟩
  · rintro ⟨nm, o, hcur, rfl, hsel⟩
    obtain ⟨e1, e2, q, e3, e4⟩ := h.live _ o hcur
    exact ⟨q, (mem_matchServices _ h.wf ns labels q).2 ⟨nm, _, e3, e4, (selects_iff o e2 labels).2 hsel⟩, e4⟩

/-- C40, pods for a selector: exactly the pods of the namespace whose labels have all selectors; none if there are no
selectors. -/
theorem selected_pods_iff (pods : AMap (Bytes × Bytes) PodE) (hw : AMap.WF pods) (ns : Bytes) (sel : AMap Bytes Bytes)
    (hs : AMap.WF sel) (k : Bytes × Bytes) :
    k ∈ matchPods pods ns sel ↔ sel ≠ [] ∧ k.1 = ns ∧ ∃ e, pods.get k = some e ∧ ∀ a v, sel.get a = some v → e.labels.get a = some v := by
  rw [mem_matchPods]
  constructor
  · rintro ⟨h1, h2, e, h3, h4⟩
    exact ⟨h1, h2, e, AMap.get_of_mem hw h3, (selectorsMatch_iff _ _ hs).1 h4⟩
  · rintro ⟨h1, h2, e, h3, h4⟩
    exact ⟨h1, h2, e, AMap.mem_of_get h3, (selectorsMatch_iff _ _ hs).2 h4⟩

/-- C40, the service of a pod.  After every history the service a pod refers to is empty, or it is a service that
exists in the pod's namespace and selects the pod: a deleted or changed service is never seen through a pod. -/
theorem pod_service_current (l : List Op) (hp : Propers (fun _ => none) l) (k : Bytes × Bytes) (e : PodE) (p : Nat)
    (hk : (run empty l).pods.get k = some e) (he : e.svc = some p) :
    (run empty l).heap[p]? = some emptied ∨
    ∃ o, clusterOf l o.key = some o ∧ (run empty l).heap[p]? = some (infoOf o) ∧ o.ns = k.1 ∧ Selects o e.labels := by
  have h := inv_run _ _ inv_empty AMap.wf_nil l hp
  obtain ⟨i, h1, h2⟩ := h.pods k e p hk he
  rcases h2 with rfl | ⟨h2, h3⟩
  · exact Or.inl h1
  · right
    rcases h.named p i h1 with rfl | ⟨k', hk'⟩
    · simp [selects, emptied] at h3
    · cases hcur : clusterOf l k' with
      | none => have := h.dead _ p hcur hk'; rw [h1] at this; cases this; simp [selects, emptied] at h3
      | some o =>
        obtain ⟨e1, e2, q, e3, e4⟩ := h.live _ o hcur
        rw [hk'] at e3; cases e3
        rw [h1] at e4; cases e4
        exact ⟨o, by rw [e1]; exact hcur, h1, h2, (selects_iff o e2 _).1 h3⟩

/-! ### What goes wrong -/

/-- Finding.  A pod selected by two services refers to the one added last; when that one is deleted the pod has no
service, although the other still exists and selects it. -/
theorem orphaned_pod (ns name : Bytes) (labels : AMap Bytes Bytes) (a b : Svc) (hna : a.ns = ns) (hnb : b.ns = ns)
    (hne : a.name ≠ b.name) (ha : AMap.WF a.selector) (hb : AMap.WF b.selector) (hsa : Selects a labels) (hsb : Selects b labels) :
    (run empty [.pod ns name labels, .add a, .add b, .delete b]).pods.get (ns, name) = some ⟨labels, some 1⟩ ∧
    (run empty [.pod ns name labels, .add a, .add b, .delete b]).heap[1]? = some emptied ∧
    clusterOf [.pod ns name labels, .add a, .add b, .delete b] a.key = some a := by
  have hkey : a.key ≠ b.key := fun h => hne (congrArg Prod.snd h)
  have hma : (ns, name) ∈ matchPods (AMap.set ([] : AMap (Bytes × Bytes) PodE) (ns, name) ⟨labels, none⟩) a.ns a.selector := by
    rw [selected_pods_iff _ (AMap.wf_nil.set _ _) _ _ ha]
    exact ⟨hsa.1, hna.symm, _, AMap.get_set_self _ _ _, hsa.2⟩
  refine ⟨?_, ?_, ?_⟩
  · simp only [run, step, deleteService, addService, addPod, matchServices, empty, List.filterMap_nil, List.head?_nil, List.length_nil]
    rw [link_get, link_get, AMap.get_set_self]
    simp only [Option.map_some, if_pos hma]
    have hmb : (ns, name) ∈ matchPods (link 0 (matchPods (AMap.set ([] : AMap (Bytes × Bytes) PodE) (ns, name) ⟨labels, none⟩) a.ns a.selector)
        (AMap.set ([] : AMap (Bytes × Bytes) PodE) (ns, name) ⟨labels, none⟩)) b.ns b.selector := by
      rw [selected_pods_iff _ (link_wf _ _ _ (AMap.wf_nil.set _ _)) _ _ hb]
      refine ⟨hsb.1, hnb.symm, ⟨labels, some 0⟩, ?_, hsb.2⟩
      rw [link_get, AMap.get_set_self]
      simp only [Option.map_some, if_pos hma]
    rw [if_pos hmb]
    rfl
  · simp only [run, step, deleteService, addService, addPod, empty, AMap.get_set_self]
    rfl
  · simp only [clusterOf, curs, cur]
    rw [if_neg hkey, if_neg hkey]; simp

theorem addNodes_other (p np : Nat) (nodes : List Bytes) (m : AMap Bytes (AMap Nat Nat)) (ip : Bytes) (hn : ip ∉ nodes) (q : Nat) :
    Cache.get2 (addNodes p np nodes m) ip q = Cache.get2 m ip q := by
  induction nodes generalizing m with
  | nil => rfl
  | cons a r ih =>
    simp only [List.mem_cons, not_or] at hn
    rw [addNodes, ih _ hn.2, Cache.get2_add2, if_neg (fun h => hn.1 h.1.symm)]

theorem addNodes_in (p np : Nat) (nodes : List Bytes) (m : AMap Bytes (AMap Nat Nat)) (ip : Bytes)
    (hn : ip ∈ nodes ∨ Cache.get2 m ip np = some p) : Cache.get2 (addNodes p np nodes m) ip np = some p := by
  induction nodes generalizing m with
  | nil => simpa [addNodes] using hn
  | cons a r ih =>
    rw [addNodes]
    apply ih
    rw [Cache.get2_add2]
    by_cases ha : a = ip
    · right; simp [ha]
    · rcases hn with hn | hn
      · left
        rcases List.mem_cons.1 hn with h | h
        · exact absurd h.symm ha
        · exact h
      · right; simp [ha, hn]

theorem regPorts_other (o : Svc) (nodes : List Bytes) (p : Nat) (l : List (Nat × Nat)) (m : AMap Bytes (AMap Nat Nat)) (ip : Bytes)
    (hip : ip ≠ o.ip) (hn : ip ∉ nodes) (q : Nat) : Cache.get2 (regPorts o nodes p l m) ip q = Cache.get2 m ip q := by
  induction l generalizing m with
  | nil => rfl
  | cons x r ih =>
    rw [regPorts, ih]
    split
    · rw [addNodes_other _ _ _ _ _ hn, Cache.get2_add2, if_neg (fun h => hip h.1.symm)]
    · rw [Cache.get2_add2, if_neg (fun h => hip h.1.symm)]

/-- A node port service of one port is found under the service address and under all nodes known. -/
theorem service_address (s : S) (o : Svc) (port np : Nat) (hp : o.ports = [(port, np)]) (hip : noIp o.ip = false) (hn : o.nodePort = true)
    (ip : Bytes) (q : Nat) (h : (ip = o.ip ∧ q = port ∧ ip ∉ s.nodes) ∨ (ip ∈ s.nodes ∧ q = np)) :
    Cache.get2 (addService s o).svcs ip q = some s.heap.length := by
  simp only [addService, hip, hp, regPorts, hn, if_true, Bool.false_eq_true, if_false]
  rcases h with ⟨rfl, rfl, h⟩ | ⟨h, rfl⟩
  · rw [addNodes_other _ _ _ _ _ h, Cache.get2_add2, if_pos ⟨rfl, rfl⟩]
  · exact addNodes_in _ _ _ _ _ (Or.inl h)

/-- Finding.  A node that joins after a node port service was added is not registered for it: the service is not found
under that node's address. -/
theorem late_node_not_registered (o : Svc) (a : Bytes) (ha : a ≠ o.ip) (q : Nat) :
    Cache.get2 (run empty [.add o, .node a]).svcs a q = none := by
  simp only [run, step, addService, empty]
  split
  · rfl
  · rw [regPorts_other _ _ _ _ _ _ ha (by simp)]
    rfl

/-! ### The hypotheses can be met -/

def svcA : Svc := ⟨bs "ns", bs "a", 1, bs "10.96.0.1", true, [(bs "app", bs "web")], [(80, 30080)]⟩
def svcB : Svc := ⟨bs "ns", bs "b", 2, bs "10.96.0.2", false, [(bs "tier", bs "front")], [(81, 0)]⟩
def labels0 : AMap Bytes Bytes := [(bs "tier", bs "front"), (bs "app", bs "web")]

theorem wf_single (a v : Bytes) : AMap.WF ([(a, v)] : AMap Bytes Bytes) := by simp [AMap.WF, AMap.keys]
example : AMap.WF svcA.selector ∧ svcA.name ≠ svcB.name ∧ noIp svcA.ip = false := ⟨wf_single _ _, by decide, by decide⟩
example : Selects svcA labels0 := (selects_iff svcA (wf_single _ _) labels0).1 (by decide)
example : Selects svcB labels0 := (selects_iff svcB (wf_single _ _) labels0).1 (by decide)
example : Propers (fun _ => none) [.pod (bs "ns") (bs "p") labels0, .add svcA, .add svcB, .update svcA { svcA with rv := 3, selector := [] }, .delete svcB] := by
  refine ⟨trivial, ⟨rfl, wf_single _ _⟩, ⟨by decide, wf_single _ _⟩, ⟨rfl, AMap.wf_nil⟩, trivial, trivial⟩

/-! ### Addresses of services with any number of ports -/

/-- The address and port belong to one of the ports of the service: its own address, or for node ports a node's. -/
def Owns (o : Svc) (nodes : List Bytes) (l : List (Nat × Nat)) (ip : Bytes) (q : Nat) : Prop :=
  ∃ x ∈ l, (ip = o.ip ∧ q = x.1) ∨ (o.nodePort = true ∧ ip ∈ nodes ∧ q = x.2)

theorem addNodes_get (p np : Nat) (nodes : List Bytes) (m : AMap Bytes (AMap Nat Nat)) (ip : Bytes) (q : Nat) :
    (ip ∈ nodes ∧ q = np → Cache.get2 (addNodes p np nodes m) ip q = some p) ∧
    (¬ (ip ∈ nodes ∧ q = np) → Cache.get2 (addNodes p np nodes m) ip q = Cache.get2 m ip q) := by
  refine ⟨fun ⟨h1, h2⟩ => by subst h2; exact addNodes_in _ _ _ _ _ (Or.inl h1), fun h => ?_⟩
  induction nodes generalizing m with
  | nil => rfl
  | cons a r ih =>
    rw [addNodes, ih _ (fun hc => h ⟨by simp [hc.1], hc.2⟩), Cache.get2_add2, if_neg]
    rintro ⟨rfl, rfl⟩
    exact h ⟨by simp, rfl⟩

theorem delNodes_get (np : Nat) (nodes : List Bytes) (m : AMap Bytes (AMap Nat Nat)) (ip : Bytes) (q : Nat) :
    ((ip ∈ nodes ∧ q = np) ∨ Cache.get2 m ip q = none → Cache.get2 (delNodes np nodes m) ip q = none) ∧
    (¬ (ip ∈ nodes ∧ q = np) → Cache.get2 (delNodes np nodes m) ip q = Cache.get2 m ip q) := by
  induction nodes generalizing m with
  | nil =>
    refine ⟨fun h => ?_, fun _ => rfl⟩
    rcases h with ⟨h, _⟩ | h
    · cases h
    · exact h
  | cons a r ih =>
    obtain ⟨ih1, ih2⟩ := ih (Cache.del2 m a np)
    constructor
    · intro h
      rw [delNodes]
      apply ih1
      rw [Cache.get2_del2]
      by_cases ha : a = ip ∧ np = q
      · right; rw [if_pos ha]
      · rw [if_neg ha]
        rcases h with ⟨h1, h2⟩ | h
        · left
          rcases List.mem_cons.1 h1 with h | h
          · exact absurd ⟨h.symm, h2.symm⟩ ha
          · exact ⟨h, h2⟩
        · exact Or.inr h
    · intro h
      rw [delNodes, ih2 (fun hc => h ⟨by simp [hc.1], hc.2⟩), Cache.get2_del2, if_neg]
      rintro ⟨rfl, rfl⟩
      exact h ⟨by simp, rfl⟩

theorem regPorts_get (o : Svc) (nodes : List Bytes) (p : Nat) (l : List (Nat × Nat)) (m : AMap Bytes (AMap Nat Nat)) (ip : Bytes) (q : Nat) :
    (Owns o nodes l ip q ∨ Cache.get2 m ip q = some p → Cache.get2 (regPorts o nodes p l m) ip q = some p) ∧
    (¬ Owns o nodes l ip q → Cache.get2 (regPorts o nodes p l m) ip q = Cache.get2 m ip q) := by
  induction l generalizing m with
  | nil =>
    refine ⟨fun h => ?_, fun _ => rfl⟩
    rcases h with ⟨_, h, _⟩ | h
    · cases h
    · exact h
  | cons x r ih =>
    have hstep : ∀ m, (((ip = o.ip ∧ q = x.1) ∨ (o.nodePort = true ∧ ip ∈ nodes ∧ q = x.2)) ∨ Cache.get2 m ip q = some p →
        Cache.get2 (if o.nodePort then addNodes p x.2 nodes (Cache.add2 m o.ip x.1 p) else Cache.add2 m o.ip x.1 p) ip q = some p) ∧
        (¬ ((ip = o.ip ∧ q = x.1) ∨ (o.nodePort = true ∧ ip ∈ nodes ∧ q = x.2)) →
        Cache.get2 (if o.nodePort then addNodes p x.2 nodes (Cache.add2 m o.ip x.1 p) else Cache.add2 m o.ip x.1 p) ip q = Cache.get2 m ip q) := by
      intro m
      have hg := Cache.get2_add2 m o.ip x.1 p ip q
      have hadd : ((ip = o.ip ∧ q = x.1) ∨ Cache.get2 m ip q = some p) → Cache.get2 (Cache.add2 m o.ip x.1 p) ip q = some p := by
        rintro (⟨rfl, rfl⟩ | h)
        · rw [hg, if_pos ⟨rfl, rfl⟩]
        · rw [hg]; split
          · rfl
          · exact h
      have hno : ¬ (ip = o.ip ∧ q = x.1) → Cache.get2 (Cache.add2 m o.ip x.1 p) ip q = Cache.get2 m ip q := by
        intro h; rw [hg, if_neg (fun hc => h ⟨hc.1.symm, hc.2.symm⟩)]
      cases hn : o.nodePort with
      | false =>
        simp only [Bool.false_eq_true, false_and, or_false, if_false]
        exact ⟨hadd, hno⟩
      | true =>
        simp only [true_and, if_true]
        obtain ⟨h1, h2⟩ := addNodes_get p x.2 nodes (Cache.add2 m o.ip x.1 p) ip q
        constructor
        · intro h
          by_cases hin : ip ∈ nodes ∧ q = x.2
          · exact h1 hin
          · rw [h2 hin]
            apply hadd
            rcases h with (h | h) | h
            · exact Or.inl h
            · exact absurd h hin
            · exact Or.inr h
        · intro h
          rw [h2 (fun hc => h (Or.inr hc)), hno (fun hc => h (Or.inl hc))]
    rw [regPorts]
    constructor
    · intro h
      apply (ih _).1
      rcases h with ⟨y, hy, hyy⟩ | h
      · rcases List.mem_cons.1 hy with rfl | hy
        · exact Or.inr ((hstep m).1 (Or.inl hyy))
        · exact Or.inl ⟨y, hy, hyy⟩
      · exact Or.inr ((hstep m).1 (Or.inr h))
    · intro h
      rw [(ih _).2 (fun ⟨y, hy, hyy⟩ => h ⟨y, by simp [hy], hyy⟩), (hstep m).2 (fun hc => h ⟨x, by simp, hc⟩)]

theorem unregPorts_get (o : Svc) (nodes : List Bytes) (l : List (Nat × Nat)) (m : AMap Bytes (AMap Nat Nat)) (ip : Bytes) (q : Nat) :
    (Owns o nodes l ip q ∨ Cache.get2 m ip q = none → Cache.get2 (unregPorts o nodes l m) ip q = none) ∧
    (¬ Owns o nodes l ip q → Cache.get2 (unregPorts o nodes l m) ip q = Cache.get2 m ip q) := by
  induction l generalizing m with
  | nil =>
    refine ⟨fun h => ?_, fun _ => rfl⟩
    rcases h with ⟨_, h, _⟩ | h
    · cases h
    · exact h
  | cons x r ih =>
    have hstep : ∀ m, (((ip = o.ip ∧ q = x.1) ∨ (o.nodePort = true ∧ ip ∈ nodes ∧ q = x.2)) ∨ Cache.get2 m ip q = none →
        Cache.get2 (if o.nodePort then delNodes x.2 nodes (Cache.del2 m o.ip x.1) else Cache.del2 m o.ip x.1) ip q = none) ∧
        (¬ ((ip = o.ip ∧ q = x.1) ∨ (o.nodePort = true ∧ ip ∈ nodes ∧ q = x.2)) →
        Cache.get2 (if o.nodePort then delNodes x.2 nodes (Cache.del2 m o.ip x.1) else Cache.del2 m o.ip x.1) ip q = Cache.get2 m ip q) := by
      intro m
      have hg := Cache.get2_del2 m o.ip x.1 ip q
      have hdel : ((ip = o.ip ∧ q = x.1) ∨ Cache.get2 m ip q = none) → Cache.get2 (Cache.del2 m o.ip x.1) ip q = none := by
        rintro (⟨rfl, rfl⟩ | h)
        · rw [hg, if_pos ⟨rfl, rfl⟩]
        · rw [hg]; split
          · rfl
          · exact h
      have hno : ¬ (ip = o.ip ∧ q = x.1) → Cache.get2 (Cache.del2 m o.ip x.1) ip q = Cache.get2 m ip q := by
        intro h; rw [hg, if_neg (fun hc => h ⟨hc.1.symm, hc.2.symm⟩)]
      cases hn : o.nodePort with
      | false =>
        simp only [Bool.false_eq_true, false_and, or_false, if_false]
        exact ⟨hdel, hno⟩
      | true =>
        simp only [true_and, if_true]
        obtain ⟨h1, h2⟩ := delNodes_get x.2 nodes (Cache.del2 m o.ip x.1) ip q
        constructor
        · intro h
          apply h1
          rcases h with (h | h) | h
          · exact Or.inr (hdel (Or.inl h))
          · exact Or.inl h
          · exact Or.inr (hdel (Or.inr h))
        · intro h
          rw [h2 (fun hc => h (Or.inr hc)), hno (fun hc => h (Or.inl hc))]
    rw [unregPorts]
    constructor
    · intro h
      apply (ih _).1
      rcases h with ⟨y, hy, hyy⟩ | h
      · rcases List.mem_cons.1 hy with rfl | hy
        · exact Or.inr ((hstep m).1 (Or.inl hyy))
        · exact Or.inl ⟨y, hy, hyy⟩
      · exact Or.inr ((hstep m).1 (Or.inr h))
    · intro h
      rw [(ih _).2 (fun ⟨y, hy, hyy⟩ => h ⟨y, by simp [hy], hyy⟩), (hstep m).2 (fun hc => h ⟨x, by simp, hc⟩)]

theorem noIp_iff (ip : Bytes) : noIp ip = true ↔ ip = [] ∨ ip = bs "None" := by simp [noIp]

/-- A service with an address is found under exactly the addresses and ports it has; one without changes nothing. -/
theorem added_service_found (s : S) (o : Svc) (ip : Bytes) (q : Nat) :
    (o.ip ≠ [] → o.ip ≠ bs "None" → Owns o s.nodes o.ports ip q → Cache.get2 (addService s o).svcs ip q = some s.heap.length) ∧
    ((o.ip = [] ∨ o.ip = bs "None") ∨ ¬ Owns o s.nodes o.ports ip q → Cache.get2 (addService s o).svcs ip q = Cache.get2 s.svcs ip q) := by
  constructor
  · intro h1 h2 h
    have : noIp o.ip = false := by rw [Bool.eq_false_iff, ne_eq, noIp_iff]; exact fun hc => hc.elim h1 h2
    simp only [addService, this, Bool.false_eq_true, if_false]
    exact (regPorts_get o s.nodes _ o.ports s.svcs ip q).1 (Or.inl h)
  · intro h
    simp only [addService]
    by_cases hn : noIp o.ip = true
    · rw [if_pos hn]
    · rw [if_neg hn]
      exact (regPorts_get o s.nodes _ o.ports s.svcs ip q).2 (h.resolve_left (fun hc => hn ((noIp_iff _).2 hc)))

/-- A deleted service is not found under any of its addresses; all others stay. -/
theorem deleted_service_gone (s : S) (o : Svc) (ip : Bytes) (q : Nat) :
    (o.ip ≠ [] → o.ip ≠ bs "None" → Owns o s.nodes o.ports ip q → Cache.get2 (deleteService s o).svcs ip q = none) ∧
    ((o.ip = [] ∨ o.ip = bs "None") ∨ ¬ Owns o s.nodes o.ports ip q → Cache.get2 (deleteService s o).svcs ip q = Cache.get2 s.svcs ip q) := by
  constructor
  · intro h1 h2 h
    have : noIp o.ip = false := by rw [Bool.eq_false_iff, ne_eq, noIp_iff]; exact fun hc => hc.elim h1 h2
    simp only [deleteService, this, Bool.false_eq_true, if_false]
    exact (unregPorts_get o s.nodes o.ports s.svcs ip q).1 (Or.inl h)
  · intro h
    simp only [deleteService]
    by_cases hn : noIp o.ip = true
    · rw [if_pos hn]
    · rw [if_neg hn]
      exact (unregPorts_get o s.nodes o.ports s.svcs ip q).2 (h.resolve_left (fun hc => hn ((noIp_iff _).2 hc)))

/-- A node known before the service is registered for its node ports. -/
theorem early_node_registered (s : S) (o : Svc) (h1 : o.ip ≠ []) (h2 : o.ip ≠ bs "None") (hn : o.nodePort = true) (a : Bytes) (x : Nat × Nat)
    (hx : x ∈ o.ports) : Cache.get2 (run s [.node a, .add o]).svcs a x.2 = some s.heap.length := by
  have := (added_service_found { s with nodes := s.nodes ++ [a] } o a x.2).1 h1 h2 ⟨x, hx, Or.inr ⟨hn, by simp, rfl⟩⟩
  exact this

example : Owns svcA [bs "192.168.0.1"] svcA.ports (bs "192.168.0.1") 30080 := ⟨(80, 30080), by simp [svcA], Or.inr ⟨rfl, by simp, rfl⟩⟩

end Kindling.K8s.Service
