import Verif.K8s.PodLife
import Verif.K8s.Service
/-
The caches that a client of the metadata provider builds from the provider's list.  metaprovider/service/service.go
`ListAndWatch` sends the caches as JSON, metadata/kubernetes/k8scache.go `SetupCache` installs what was decoded.

Two things do not survive JSON: fields whose names begin with a small letter, and the sharing of objects by pointers.
Both are modelled here; that the other fields come back unchanged is trusted (encoding/json).
-/
namespace Kindling.K8s.Setup

open Cache (C get2 getContainer getPodByIp firstPod)
open Pods (St Pod Req Op Key entry)

/-! ### What is sent -/

/-- A pod after the way through JSON: `isHostNetwork` (k8scache.go:32) is not exported. -/
def sentPod (p : PodInfo) : PodInfo := { p with hostNetwork := false }
/-- A container after it (k8scache.go:11-16). -/
def sentCont (c : Cont) : Cont := { c with pod := sentPod c.pod }
/-- The tables after it (k8scache.go:58-78).  Services are modelled apart, below. -/
def sent {σ : Type} (c : C σ) : C σ :=
  { cids := c.cids.map (fun e => (e.1, sentCont e.2))
    ips := c.ips.map (fun e => (e.1, e.2.map (fun f => (f.1, sentCont f.2))))
    svcs := c.svcs
    hosts := c.hosts.map (fun e => (e.1, sentCont e.2)) }

/-- `tmpGlobalPodInfo`: the pods of the containers that have an id, the last one of a name wins (k8scache.go:308-312).
Go visits the containers in any order, here in the order of the list. -/
def podsOf (cs : AMap Bytes Cont) (m : AMap (Bytes × Bytes) PodInfo) : AMap (Bytes × Bytes) PodInfo :=
  cs.foldl (fun m e => m.set (e.2.pod.ns, e.2.pod.name) e.2.pod) m

/-- `tmpLocalWorkloadMap` (k8scache.go:313-320). -/
def workloadsOf (me : Bytes) (cs : AMap Bytes Cont) (m : AMap (Bytes × Bytes) Bytes) : AMap (Bytes × Bytes) Bytes :=
  cs.foldl (fun m e => if e.2.pod.node = me then m.set (e.2.pod.ns, e.2.pod.wname) e.2.pod.wkind else m) m

/-- `SetupCache` (k8scache.go:300-344) with the list of a provider in state `s`; the delete queue begins anew (343). -/
def setup (me : Bytes) (s : St) : St :=
  { cache := sent s.cache
    pods := podsOf (sent s.cache).cids []
    workloads := workloadsOf me (sent s.cache).cids []
    queue := [] }

/-! ### Lookups -/

theorem get2_sent {σ : Type} (c : C σ) (ip : Bytes) (p : Nat) : get2 (sent c).ips ip p = (get2 c.ips ip p).map sentCont := by
  unfold get2 sent
  simp only
  rw [get_mapv c.ips (fun m => m.map (fun f => (f.1, sentCont f.2))) ip]
  cases c.ips.get ip with
  | none => rfl
  | some inner => simp only [Option.map_some, Option.bind_some]; exact get_mapv inner sentCont p

/-- C102.  Under a container id, an address with its very port, and a host port the client finds what the provider
has, but for the mark of the host network. -/
theorem entries_same (me : Bytes) (s : St) (k : Key) : entry (setup me s) k = (entry s k).map sentCont := by
  cases k with
  | cid id => exact get_mapv s.cache.cids sentCont id
  | port ip p => exact get2_sent s.cache ip p
  | host ip p => exact get_mapv s.cache.hosts sentCont _

theorem firstPod_sent (m : AMap Nat Cont) : firstPod (m.map (fun f => (f.1, sentCont f.2))) = (m.head?).map (fun f => sentCont f.2) := by
  cases m with
  | nil => rfl
  | cons e r => rfl

theorem sentCont_id (c : Cont) (h : c.pod.hostNetwork = false) : sentCont c = c := by
  obtain ⟨a, b, m, p⟩ := c
  obtain ⟨p1, p2, p3, p4, p5, p6, p7, p8, p9, p10, p11, p12, p13⟩ := p
  simp only at h
  subst h
  rfl

theorem map_sent_id {κ : Type} (m : AMap κ Cont) (h : ∀ k c, (k, c) ∈ m → c.pod.hostNetwork = false) :
    m.map (fun f => (f.1, sentCont f.2)) = m := by
  induction m with
  | nil => rfl
  | cons e r ih =>
    rw [List.map_cons, ih (fun k c hc => h k c (by simp [hc])), sentCont_id e.2 (h e.1 e.2 (by simp))]

/-- C102.  At an address without pods on the host network the client's answers are the provider's, whatever the
port. -/
theorem lookups_same {σ : Type} (c : C σ) (ip : Bytes) (port : Nat)
    (h : ∀ inner p x, c.ips.get ip = some inner → (p, x) ∈ inner → x.pod.hostNetwork = false) :
    getContainer (sent c).ips ip port = getContainer c.ips ip port ∧ getPodByIp (sent c).ips ip = getPodByIp c.ips ip := by
  have e : AMap.get (sent c).ips ip = c.ips.get ip := by
    unfold sent
    rw [get_mapv c.ips (fun m => m.map (fun f => (f.1, sentCont f.2))) ip]
    cases hg : c.ips.get ip with
    | none => rfl
    | some inner => rw [Option.map_some, map_sent_id inner (fun p x hx => h inner p x hg hx)]
  unfold getContainer getPodByIp
  rw [e]
  exact ⟨rfl, rfl⟩

theorem ips_sent {σ : Type} (c : C σ) (ip : Bytes) :
    AMap.get (sent c).ips ip = (c.ips.get ip).map (fun m : AMap Nat Cont => m.map (fun f => (f.1, sentCont f.2))) :=
  get_mapv c.ips (fun m : AMap Nat Cont => m.map (fun f : Nat × Cont => (f.1, sentCont f.2))) ip

/-- C102, the answers of a client in general: nothing only where nothing at all is registered for the address. -/
theorem client_answers {σ : Type} (c : C σ) (ip : Bytes) (port : Nat) :
    (getContainer (sent c).ips ip port = none ↔ c.ips.get ip = none ∨ c.ips.get ip = some []) ∧
    (getPodByIp (sent c).ips ip = none ↔ c.ips.get ip = none ∨ c.ips.get ip = some []) := by
  have e := ips_sent c ip
  unfold getContainer getPodByIp
  rw [e]
  cases c.ips.get ip with
  | none => simp
  | some inner =>
    simp only [Option.map_some, reduceCtorEq, Option.some.injEq, false_or, firstPod_sent]
    cases inner with
    | nil => simp
    | cons a r =>
      refine ⟨?_, by simp⟩
      simp only [reduceCtorEq, iff_false]
      split
      · simp
      · split
        · simp
        · rename_i x hx
          have hx' := get_mapv (a :: r) sentCont 0
          rw [hx'] at hx
          cases h0 : AMap.get (a :: r) 0 with
          | none => rw [h0] at hx; cases hx
          | some y => rw [h0] at hx; cases hx; simp [sentCont, sentPod]

/-- Finding.  An address where all pods are on the host network, the address of a node for example: for a port
that none of them has registered the provider answers nothing, the client names one of these pods.  The same for
the lookup by address only. -/
theorem host_network_exposed {σ : Type} (c : C σ) (hi : Cache.InnerOk c.ips) (ip : Bytes) (port : Nat)
    (hsome : ∃ q x, get2 c.ips ip q = some x) (hall : ∀ q x, get2 c.ips ip q = some x → x.pod.hostNetwork = true)
    (hno : get2 c.ips ip port = none) :
    getContainer c.ips ip port = none ∧ getPodByIp c.ips ip = none ∧
    (∃ q x, get2 c.ips ip q = some x ∧ getContainer (sent c).ips ip port = some (sentCont x)) ∧
    (∃ q x, get2 c.ips ip q = some x ∧ getPodByIp (sent c).ips ip = some (sentPod x.pod)) := by
  obtain ⟨q0, x0, h0⟩ := hsome
  cases hg : c.ips.get ip with
  | none => unfold get2 at h0; rw [hg] at h0; cases h0
  | some inner =>
    have hwf := hi ip inner hg
    have hin : ∀ q x, get2 c.ips ip q = some x ↔ (q, x) ∈ inner := by
      intro q x; unfold get2; rw [hg]; exact (AMap.mem_iff_get hwf).symm
    have hfirst : firstPod inner = none := (Cache.firstPod_spec inner).2.2 (fun p x hx => hall p x ((hin p x).2 hx))
    have e : AMap.get (sent c).ips ip = some (inner.map (fun f => (f.1, sentCont f.2))) :=
      (ips_sent c ip).trans (by rw [hg]; rfl)
    have hnop : AMap.get inner port = none := by
      have := hno
      unfold get2 at this; rw [hg] at this; exact this
    have hne : inner ≠ [] := by
      intro h
      have := (hin q0 x0).1 h0
      rw [h] at this; simp at this
    refine ⟨?_, ?_, ?_, ?_⟩
    · unfold getContainer
      rw [hg]
      simp only [hnop, hfirst]
      cases hz : AMap.get inner 0 with
      | none => rfl
      | some y =>
        have := hall 0 y (by unfold get2; rw [hg]; exact hz)
        simp [this]
    · unfold getPodByIp
      rw [hg]
      simp [hfirst]
    · unfold getContainer
      rw [e]
      simp only [get_mapv inner sentCont, hnop, Option.map_none, firstPod_sent]
      cases hz : AMap.get inner 0 with
      | none =>
        cases inner with
        | nil => exact absurd rfl hne
        | cons a r => exact ⟨a.1, a.2, (hin _ _).2 (by simp), rfl⟩
      | some y => exact ⟨0, y, (hin _ _).2 (AMap.mem_of_get hz), rfl⟩
    · unfold getPodByIp
      rw [e]
      simp only [firstPod_sent]
      cases inner with
      | nil => exact absurd rfl hne
      | cons a r => exact ⟨a.1, a.2, (hin _ _).2 (by simp), rfl⟩

/-! ### Pods by name -/

theorem podsOf_get (cs : AMap Bytes Cont) (m : AMap (Bytes × Bytes) PodInfo) (k : Bytes × Bytes) :
    (∀ i, (podsOf cs m).get k = some i → (∃ id c, (id, c) ∈ cs ∧ c.pod = i ∧ (i.ns, i.name) = k) ∨
      (m.get k = some i ∧ ∀ id c, (id, c) ∈ cs → (c.pod.ns, c.pod.name) ≠ k)) ∧
    ((podsOf cs m).get k = none ↔ m.get k = none ∧ ∀ id c, (id, c) ∈ cs → (c.pod.ns, c.pod.name) ≠ k) := by
  induction cs generalizing m with
  | nil => exact ⟨fun i h => Or.inr ⟨h, by simp⟩, ⟨fun h => ⟨h, by simp⟩, fun h => h.1⟩⟩
  | cons e r ih =>
    obtain ⟨i1, i2⟩ := ih (AMap.set m (e.2.pod.ns, e.2.pod.name) e.2.pod)
    have hs : podsOf (e :: r) m = podsOf r (AMap.set m (e.2.pod.ns, e.2.pod.name) e.2.pod) := rfl
    rw [hs]
    constructor
    · intro i h
      rcases i1 i h with ⟨id, c, hc, h1, h2⟩ | ⟨h1, h2⟩
      · exact Or.inl ⟨id, c, by simp [hc], h1, h2⟩
      · rw [AMap.get_set] at h1
        split at h1
        · rename_i hk
          cases h1
          exact Or.inl ⟨e.1, e.2, by simp, rfl, hk⟩
        · rename_i hk
          refine Or.inr ⟨h1, ?_⟩
          intro id c hc
          rcases List.mem_cons.1 hc with he | hc
          · cases he; exact hk
          · exact h2 id c hc
    · rw [i2, AMap.get_set]
      constructor
      · rintro ⟨h1, h2⟩
        split at h1
        · cases h1
        · rename_i hk
          refine ⟨h1, ?_⟩
          intro id c hc
          rcases List.mem_cons.1 hc with he | hc
          · cases he; exact hk
          · exact h2 id c hc
      · rintro ⟨h1, h2⟩
        refine ⟨?_, fun id c hc => h2 id c (by simp [hc])⟩
        rw [if_neg (h2 e.1 e.2 (by simp))]
        exact h1

/-- C102.  The client knows by name exactly the pods of which a container is known by its id. -/
theorem pods_known (me : Bytes) (s : St) (k : Bytes × Bytes) :
    ((setup me s).pods.get k ≠ none ↔ ∃ id c, (id, c) ∈ s.cache.cids ∧ (c.pod.ns, c.pod.name) = k) ∧
    (∀ i, (setup me s).pods.get k = some i → ∃ id c, (id, c) ∈ s.cache.cids ∧ sentPod c.pod = i ∧ (i.ns, i.name) = k) := by
  obtain ⟨h1, h2⟩ := podsOf_get (sent s.cache).cids [] k
  have hm : ∀ id c, (id, c) ∈ (sent s.cache).cids ↔ ∃ c0, (id, c0) ∈ s.cache.cids ∧ sentCont c0 = c := by
    intro id c
    simp only [sent, List.mem_map, Prod.mk.injEq]
    constructor
    · rintro ⟨⟨a, b⟩, hab, rfl, rfl⟩; exact ⟨b, hab, rfl⟩
    · rintro ⟨c0, h, rfl⟩; exact ⟨(id, c0), h, rfl, rfl⟩
  constructor
  · show (podsOf (sent s.cache).cids []).get k ≠ none ↔ _
    rw [Ne, h2]
    simp only [AMap.get_nil, true_and]
    constructor
    · intro h
      apply Classical.byContradiction
      intro hn
      apply h
      intro id c hc hk
      obtain ⟨c0, hc0, rfl⟩ := (hm id c).1 hc
      exact hn ⟨id, c0, hc0, hk⟩
    · rintro ⟨id, c, hc, hk⟩ h
      exact h id (sentCont c) ((hm _ _).2 ⟨c, hc, rfl⟩) hk
  · intro i hi
    rcases h1 i hi with ⟨id, c, hc, e1, e2⟩ | ⟨h, _⟩
    · obtain ⟨c0, hc0, rfl⟩ := (hm id c).1 hc
      exact ⟨id, c0, hc0, e1, e2⟩
    · simp at h

/-- Finding.  A pod without a container id, as before its containers have started, is not known by name to the
client.  Its next update plans no deletion there: an address that it gives up stays registered, whereas the
provider plans to remove it. -/
theorem pod_without_ids_leaks (me me' : Bytes) (now now' : Nat) (s : St) (old new : Pod) (hrv : old.rv ≠ new.rv)
    (hcached : s.pods.get (old.ns, old.name) = some (Pods.infoOf old))
    (hids : ∀ id c, (id, c) ∈ s.cache.cids → (c.pod.ns, c.pod.name) ≠ (old.ns, old.name))
    (p : Nat) (hp : p ∈ Pods.portsOf old) (hip : old.ip ≠ []) (hne : new.ip ≠ old.ip) (c : Cont)
    (he : entry s (.port old.ip p) = some c) (hu : c.pod.uid = old.uid) :
    (∃ d, (d, now') ∈ (Pods.updatePod me' now' s old new).queue ∧ d.kills (.port old.ip p) c) ∧
    (Pods.updatePod me now (setup me s) old new).queue = [] ∧
    entry (Pods.updatePod me now (setup me s) old new) (.port old.ip p) = some (sentCont c) := by
  have hnone : (setup me s).pods.get (old.ns, old.name) = none := by
    apply Decidable.by_contra
    intro h
    obtain ⟨id, c, hc, hk⟩ := (pods_known me s _).1.1 h
    exact hids id c hc hk
  refine ⟨⟨Pods.updateReq (Pods.infoOf old) old new, ?_, ?_⟩, ?_, ?_⟩
  · unfold Pods.updatePod
    rw [if_neg hrv, hcached]
    simp
  · refine ⟨⟨rfl, hip, ?_⟩, hu⟩
    show p ∈ (if old.ip ≠ new.ip then (Pods.infoOf old).ports else _)
    rw [if_pos (fun h => hne h.symm)]
    show p ∈ (if old.ip = [] then [] else Pods.portsOf old)
    rw [if_neg hip]
    exact hp
  · rw [Pods.forgotten_pod_leaks me now (setup me s) old new hnone hrv]
    rfl
  · unfold Pods.updatePod
    rw [if_neg hrv, hnone]
    have := (Pods.add_registers me (setup me s) new (.port old.ip p)).2.1 (fun h => hne h.1)
    rw [this, entries_same, he]
    rfl

/-! ### Planned deletions -/

/-- Finding.  A pod is deleted; before the grace period is over a client lists.  The provider removes the addresses
of the pod; the client, whose queue begins empty and who has missed the event, keeps them for ever, as long as no
other pod takes them and no event about the pod itself comes. -/
theorem deleted_pod_stays (me me' : Bytes) (grace t tm : Nat) (s : St) (hinv : Pods.Inv t s) (htm : t ≤ tm) (p : Pod) (hh : p.hostIP ≠ [])
    (k : Key) (hk : Pods.has p k) (hkey : ∀ id, k ≠ .cid id) (c : Cont) (he : entry s k = some c) (hu : c.pod.uid = p.uid) :
    -- the provider
    (∀ l, Pods.Clock tm l → Pods.NotBy p.uid k l → ∀ now, Pods.lastTime tm l ≤ now → tm + grace ≤ now →
      ∀ c', entry (Pods.sweep grace now (Pods.run me grace (Pods.deletePod tm s p) l)) k = some c' → c'.pod.uid ≠ p.uid) ∧
    -- the client
    (∀ l, Pods.Clock tm l → Pods.OnlyBy p.uid k l → (∀ o ∈ l, Pods.outgoing o.2 ≠ some p.uid) →
      ∃ c', entry (Pods.run me' grace (setup me' (Pods.deletePod tm s p)) l) k = some c' ∧ c'.pod.uid = p.uid) := by
  constructor
  · intro l hc hn now h1 h2 c' hc'
    exact Pods.gone_after_grace_partial me grace t s hinv p hh tm htm k hk l hc hn now h1 h2 c' hc'
  · intro l hc ho hout
    have hsame : entry (Pods.deletePod tm s p) k = entry s k := by cases k <;> rfl
    refine Pods.others_kept me' grace p.uid k hkey l tm _ ⟨List.Pairwise.nil, by simp [setup]⟩ hc ho hout (by simp [setup]) ?_
    refine ⟨sentCont c, ?_, hu⟩
    rw [entries_same, hsame, he]
    rfl

/-! ### When the client is faithful -/

/-- A state in which nothing is lost on the way: no deletion is planned, no pod is on the host network, every pod has
a container that is known by its id, and every container leads to the pod of its name. -/
structure Quiet (s : St) : Prop where
  queue : s.queue = []
  cidHost : ∀ id c, (id, c) ∈ s.cache.cids → c.pod.hostNetwork = false
  ipHost : ∀ ip inner, (ip, inner) ∈ s.cache.ips → ∀ p c, (p, c) ∈ inner → c.pod.hostNetwork = false
  hostHost : ∀ k c, (k, c) ∈ s.cache.hosts → c.pod.hostNetwork = false
  named : ∀ id c, (id, c) ∈ s.cache.cids → s.pods.get (c.pod.ns, c.pod.name) = some c.pod
  known : ∀ k i, s.pods.get k = some i → ∃ id c, (id, c) ∈ s.cache.cids ∧ (c.pod.ns, c.pod.name) = k

theorem sent_id {σ : Type} (c : C σ) (h1 : ∀ id x, (id, x) ∈ c.cids → x.pod.hostNetwork = false)
    (h2 : ∀ ip inner, (ip, inner) ∈ c.ips → ∀ p x, (p, x) ∈ inner → x.pod.hostNetwork = false)
    (h3 : ∀ k x, (k, x) ∈ c.hosts → x.pod.hostNetwork = false) : sent c = c := by
  unfold sent
  rw [map_sent_id _ h1, map_sent_id _ h3]
  have : c.ips.map (fun e => (e.1, e.2.map (fun f => (f.1, sentCont f.2)))) = c.ips := by
    have hgen : ∀ l : AMap Bytes (AMap Nat Cont), (∀ ip inner, (ip, inner) ∈ l → ∀ p x, (p, x) ∈ inner → x.pod.hostNetwork = false) →
        l.map (fun e => (e.1, e.2.map (fun f => (f.1, sentCont f.2)))) = l := by
      intro l
      induction l with
      | nil => intro _; rfl
      | cons a r ih =>
        intro h
        rw [List.map_cons, ih (fun ip inner hi => h ip inner (by simp [hi])), map_sent_id a.2 (h a.1 a.2 (by simp))]
    exact hgen _ h2
  rw [this]

/-- States that differ at most in the order of their maps of names, and in the workloads. -/
structure Same (a b : St) : Prop where
  cache : a.cache = b.cache
  queue : a.queue = b.queue
  pods : ∀ k, a.pods.get k = b.pods.get k

theorem same_add (me me' : Bytes) {a b : St} (h : Same a b) (p : Pod) : Same (Pods.addPod me a p) (Pods.addPod me' b p) := by
  refine ⟨?_, h.queue, fun k => ?_⟩
  · show Cache.run a.cache _ = Cache.run b.cache _
    rw [h.cache]
  · show AMap.get (AMap.set a.pods _ _) k = AMap.get (AMap.set b.pods _ _) k
    rw [AMap.get_set, AMap.get_set, h.pods k]

theorem same_delete {a b : St} (h : Same a b) (d : Req) : Same (Pods.deleteInfo a d) (Pods.deleteInfo b d) := by
  unfold Pods.deleteInfo
  by_cases hn : d.name = []
  · simp only [if_pos hn, h.cache]
    exact ⟨rfl, h.queue, h.pods⟩
  · simp only [if_neg hn]
    rw [h.pods]
    cases hg : b.pods.get (d.ns, d.name) with
    | none => simp only [h.cache]; exact ⟨rfl, h.queue, h.pods⟩
    | some i =>
      simp only [h.cache]
      refine ⟨rfl, h.queue, fun k => ?_⟩
      show AMap.get (AMap.del a.pods _) k = AMap.get (AMap.del b.pods _) k
      rw [AMap.get_del, AMap.get_del, h.pods k]

theorem same_deletes (l : List Req) {a b : St} (h : Same a b) : Same (l.foldl Pods.deleteInfo a) (l.foldl Pods.deleteInfo b) := by
  induction l generalizing a b with
  | nil => exact h
  | cons d r ih => exact ih (same_delete h d)

theorem same_step (me me' : Bytes) (grace : Nat) {a b : St} (h : Same a b) (o : Nat × Op) :
    Same (Pods.step me grace a o) (Pods.step me' grace b o) := by
  obtain ⟨now, o⟩ := o
  cases o with
  | add p => exact same_add me me' h p
  | update old new =>
    show Same (Pods.updatePod me now a old new) (Pods.updatePod me' now b old new)
    unfold Pods.updatePod
    split
    · exact h
    · rw [h.pods]
      cases b.pods.get (old.ns, old.name) with
      | none => exact same_add me me' h new
      | some i =>
        have := same_add me me' h new
        exact ⟨this.cache, by show a.queue ++ _ = b.queue ++ _; rw [h.queue], this.pods⟩
  | delete p => exact ⟨h.cache, by show a.queue ++ _ = b.queue ++ _; rw [h.queue], h.pods⟩
  | sweep =>
    show Same (Pods.sweep grace now a) (Pods.sweep grace now b)
    unfold Pods.sweep
    rw [h.queue]
    exact same_deletes _ ⟨h.cache, rfl, h.pods⟩

theorem same_run (me me' : Bytes) (grace : Nat) (l : List (Nat × Op)) {a b : St} (h : Same a b) :
    Same (Pods.run me grace a l) (Pods.run me' grace b l) := by
  induction l generalizing a b with
  | nil => exact h
  | cons o r ih => exact ih (same_step me me' grace h o)

/-- C102.  A client that lists while the provider is quiet stays equal to it: whatever events and sweeps follow, if
both get them, every lookup gives the same answer on both sides. -/
theorem faithful_partial (me me' : Bytes) (grace : Nat) (s : St) (hq : Quiet s) (l : List (Nat × Op)) :
    let a := Pods.run me grace s l
    let b := Pods.run me' grace (setup me' s) l
    (∀ k, entry b k = entry a k) ∧ (∀ ip port, getContainer b.cache.ips ip port = getContainer a.cache.ips ip port) ∧
    (∀ ip, getPodByIp b.cache.ips ip = getPodByIp a.cache.ips ip) ∧ (∀ k, b.pods.get k = a.pods.get k) := by
  have hsent : sent s.cache = s.cache := sent_id s.cache hq.cidHost hq.ipHost hq.hostHost
  have h0 : Same (setup me' s) s := by
    refine ⟨hsent, hq.queue.symm, fun k => ?_⟩
    obtain ⟨h1, h2⟩ := podsOf_get (sent s.cache).cids [] k
    show AMap.get (podsOf (sent s.cache).cids []) k = s.pods.get k
    cases hg : AMap.get (podsOf (sent s.cache).cids []) k with
    | some i =>
      rcases h1 i hg with ⟨id, c, hc, e1, e2⟩ | ⟨h, _⟩
      · rw [hsent] at hc
        have := hq.named id c hc
        rw [e1, e2] at this
        exact this.symm
      · simp at h
    | none =>
      have hn := (h2.1 hg).2
      rw [hsent] at hn
      cases hs : s.pods.get k with
      | none => rfl
      | some i =>
        obtain ⟨id, c, hc, e⟩ := hq.known k i hs
        exact absurd e (hn id c hc)
  have h := same_run me' me grace l h0
  refine ⟨fun k => ?_, fun ip port => by rw [h.cache], fun ip => by rw [h.cache], h.pods⟩
  rw [Pods.entry_centry, Pods.entry_centry, h.cache]

/-! ### Services -/

/-- A service after the way through JSON: `isNodePort` (k8scache.go:40) is not exported; it is written but never
read. -/
def sentInfo (i : Service.Info) : Service.Info := { i with nodePort := false }

/-- The services of a client.  The same object of the provider arrives once under its name, once under its address and
once in its pod: three objects that have nothing to do with each other any more.  Simplified: an object that arrives
several times in one of these places is one object here, as only those under a name are ever written. -/
def sentServices (s : Service.S) : Service.S :=
  { heap := s.heap.flatMap (fun i => [sentInfo i, sentInfo i, sentInfo i])
    names := s.names.map (fun e => (e.1, 3 * e.2))
    svcs := s.svcs.map (fun e => (e.1, e.2.map (fun f => (f.1, 3 * f.2 + 1))))
    pods := s.pods.map (fun e => (e.1, { e.2 with svc := e.2.svc.map (fun p => 3 * p + 2) }))
    nodes := s.nodes }

/-- The service a pod shows (`RefPodInfo.ServiceInfo`). -/
def podService (s : Service.S) (k : Bytes × Bytes) : Option Service.Info :=
  (s.pods.get k).bind (fun e => e.svc.bind (fun p => s.heap[p]?))
/-- The service at an address. -/
def serviceAt (s : Service.S) (ip : Bytes) (port : Nat) : Option Service.Info :=
  (get2 s.svcs ip port).bind (fun p => s.heap[p]?)
/-- The service of a name. -/
def serviceNamed (s : Service.S) (k : Bytes × Bytes) : Option Service.Info := (s.names.get k).bind (fun p => s.heap[p]?)

theorem triple_get (h : List Service.Info) (p j : Nat) (hj : j < 3) :
    (h.flatMap (fun i => [sentInfo i, sentInfo i, sentInfo i]))[3 * p + j]? = (h[p]?).map sentInfo := by
  induction h generalizing p with
  | nil => simp
  | cons a r ih =>
    cases p with
    | zero =>
      have hc : j = 0 ∨ j = 1 ∨ j = 2 := by omega
      rcases hc with rfl | rfl | rfl <;> simp
    | succ q =>
      have e : 3 * (q + 1) + j = (3 * q + j) + 3 := by omega
      rw [e]
      simpa using ih q

/-- C102.  Right after the list the client's pods, addresses and names lead to the services of the provider. -/
theorem services_same (s : Service.S) (k : Bytes × Bytes) (ip : Bytes) (port : Nat) :
    podService (sentServices s) k = (podService s k).map sentInfo ∧
    serviceAt (sentServices s) ip port = (serviceAt s ip port).map sentInfo ∧
    serviceNamed (sentServices s) k = (serviceNamed s k).map sentInfo := by
  refine ⟨?_, ?_, ?_⟩
  · unfold podService
    have := get_mapv s.pods (fun e => ({ e with svc := e.svc.map (fun p => 3 * p + 2) } : Service.PodE)) k
    simp only [sentServices, this]
    cases s.pods.get k with
    | none => rfl
    | some e =>
      cases he : e.svc with
      | none => simp [he]
      | some p => simp only [Option.map_some, he, Option.bind_some]; exact triple_get s.heap p 2 (by omega)
  · unfold serviceAt get2
    have := get_mapv s.svcs (fun m => m.map (fun f => (f.1, 3 * f.2 + 1))) ip
    simp only [sentServices, this]
    cases s.svcs.get ip with
    | none => rfl
    | some m =>
      simp only [Option.map_some, Option.bind_some]
      rw [get_mapv m (fun p => 3 * p + 1) port]
      cases AMap.get m port with
      | none => rfl
      | some p => simp only [Option.map_some, Option.bind_some]; exact triple_get s.heap p 1 (by omega)
  · unfold serviceNamed
    have := get_mapv s.names (fun p => 3 * p) k
    simp only [sentServices, this]
    cases s.names.get k with
    | none => rfl
    | some p => simp only [Option.map_some, Option.bind_some]; exact triple_get s.heap p 0 (by omega)

/-- Finding.  A service that was there when the client listed is deleted.  At the provider its pods show no service any
more, as they share the emptied object; at the client they go on showing the deleted service. -/
theorem deleted_service_stays (s : Service.S) (o : Service.Svc) (k : Bytes × Bytes) (e : Service.PodE) (p : Nat) (i : Service.Info)
    (hpod : s.pods.get k = some e) (hsvc : e.svc = some p) (hname : s.names.get o.key = some p) (hi : s.heap[p]? = some i) :
    podService (Service.deleteService s o) k = some Service.emptied ∧
    serviceNamed (Service.deleteService (sentServices s) o) o.key = some Service.emptied ∧
    podService (Service.deleteService (sentServices s) o) k = some (sentInfo i) := by
  have hlt : p < s.heap.length := by
    apply Decidable.by_contra
    intro h
    rw [List.getElem?_eq_none (by omega)] at hi; cases hi
  have hn' : AMap.get (sentServices s).names o.key = some (3 * p) := by
    have := get_mapv s.names (fun p => 3 * p) o.key
    simp only [sentServices, this, hname, Option.map_some]
  have hp' : AMap.get (sentServices s).pods k = some { e with svc := some (3 * p + 2) } := by
    have := get_mapv s.pods (fun e => ({ e with svc := e.svc.map (fun p => 3 * p + 2) } : Service.PodE)) k
    simp only [sentServices, this, hpod, Option.map_some, hsvc]
  have h0 := triple_get s.heap p 0 (by omega)
  have h2 := triple_get s.heap p 2 (by omega)
  rw [hi] at h0 h2
  refine ⟨?_, ?_, ?_⟩
  · unfold podService Service.deleteService
    simp only [hpod, Option.bind_some, hsvc, hname]
    rw [List.getElem?_set_self hlt]
  · unfold serviceNamed Service.deleteService
    simp only [hn', Option.bind_some]
    rw [List.getElem?_set_self]
    apply Decidable.by_contra
    intro h
    have h0' : (sentServices s).heap[3 * p]? = some (sentInfo i) := h0
    rw [List.getElem?_eq_none (by omega)] at h0'
    cases h0'
  · unfold podService Service.deleteService
    simp only [hp', Option.bind_some, hn']
    rw [List.getElem?_set_ne (by omega)]
    exact h2

/-- … and it does so whatever else happens to services, until a service that selects the pod is added or the pod
itself is registered again. -/
theorem shown_until_registered (s : Service.S) (k : Bytes × Bytes) (e : Service.PodE) (p : Nat) (hpod : s.pods.get k = some e)
    (hsvc : e.svc = some p) (hfree : ∀ k', s.names.get k' ≠ some p) (hlt : p < s.heap.length) (l : List Service.Op)
    (hl : ∀ o ∈ l, match o with
      | .add o | .update _ o => ¬ (o.ns = k.1 ∧ selectorsMatch o.selector e.labels = true)
      | .pod ns name _ => (ns, name) ≠ k
      | _ => True) (hwf : AMap.WF s.pods) :
    podService (Service.run s l) k = podService s k := by
  have hadd : ∀ (s : Service.S) (o : Service.Svc), AMap.WF s.pods → s.pods.get k = some e → (∀ k', s.names.get k' ≠ some p) → p < s.heap.length →
      ¬ (o.ns = k.1 ∧ selectorsMatch o.selector e.labels = true) →
      (Service.addService s o).pods.get k = some e ∧ (∀ k', (Service.addService s o).names.get k' ≠ some p) ∧
      p < (Service.addService s o).heap.length ∧ (Service.addService s o).heap[p]? = s.heap[p]? ∧ AMap.WF (Service.addService s o).pods := by
    intro s o hwf hk hf hlt hsel
    refine ⟨?_, ?_, ?_, ?_, Service.link_wf _ _ _ hwf⟩
    · simp only [Service.addService]
      rw [Service.link_get, hk, Option.map_some, if_neg]
      intro hm
      obtain ⟨_, h2, e', h3, h4⟩ := (Service.mem_matchPods _ _ _ _).1 hm
      have := AMap.get_of_mem hwf h3
      rw [hk] at this; cases this
      exact hsel ⟨h2.symm, h4⟩
    · intro k'
      simp only [Service.addService, AMap.get_set]
      split
      · simp only [Ne, Option.some.injEq]; omega
      · exact hf k'
    · simp only [Service.addService, List.length_append]; omega
    · simp only [Service.addService]
      rw [List.getElem?_append_left hlt]
  have hdel : ∀ (s : Service.S) (o : Service.Svc), (∀ k', s.names.get k' ≠ some p) →
      (Service.deleteService s o).heap[p]? = s.heap[p]? ∧ (Service.deleteService s o).heap.length = s.heap.length := by
    intro s o hf
    simp only [Service.deleteService]
    cases hn : s.names.get o.key with
    | none => exact ⟨rfl, rfl⟩
    | some q =>
      simp only [List.length_set, and_true]
      exact List.getElem?_set_ne (fun h => hf o.key (by rw [hn, h]))
  have hval : ∀ s : Service.S, s.pods.get k = some e → podService s k = s.heap[p]? := by
    intro s hk
    unfold podService
    rw [hk, Option.bind_some, hsvc, Option.bind_some]
  suffices h : (Service.run s l).pods.get k = some e ∧ (Service.run s l).heap[p]? = s.heap[p]? by
    rw [hval _ h.1, hval _ hpod, h.2]
  clear hval
  induction l generalizing s with
  | nil => exact ⟨hpod, rfl⟩
  | cons o r ih =>
    have hr := fun x hx => hl x (List.mem_cons_of_mem _ hx)
    have ho := hl o (List.mem_cons_self ..)
    cases o with
    | add o =>
      obtain ⟨a1, a2, a3, a4, a5⟩ := hadd s o hwf hpod hfree hlt ho
      obtain ⟨b1, b2⟩ := ih (Service.addService s o) a1 a2 a3 hr a5
      exact ⟨b1, b2.trans a4⟩
    | update old new =>
      by_cases hrv : old.rv = new.rv
      · have : Service.run s (.update old new :: r) = Service.run s r := by
          show Service.run (Service.updateService s old new) r = _
          unfold Service.updateService
          rw [if_pos hrv]
        rw [this]
        exact ih s hpod hfree hlt hr hwf
      · have : Service.run s (.update old new :: r) = Service.run (Service.addService (Service.deleteService s old) new) r := by
          show Service.run (Service.updateService s old new) r = _
          unfold Service.updateService
          rw [if_neg hrv]
        rw [this]
        obtain ⟨d1, d2⟩ := hdel s old hfree
        obtain ⟨a1, a2, a3, a4, a5⟩ := hadd (Service.deleteService s old) new hwf hpod hfree (by rw [d2]; exact hlt) ho
        obtain ⟨b1, b2⟩ := ih _ a1 a2 a3 hr a5
        exact ⟨b1, b2.trans (a4.trans d1)⟩
    | delete o =>
      obtain ⟨d1, d2⟩ := hdel s o hfree
      obtain ⟨b1, b2⟩ := ih (Service.deleteService s o) hpod hfree (by rw [d2]; exact hlt) hr hwf
      exact ⟨b1, b2.trans d1⟩
    | pod ns name labels =>
      have hk : AMap.get (Service.addPod s ns name labels).pods k = some e := by
        simp only [Service.addPod]
        rw [AMap.get_set_ne _ _ ho]; exact hpod
      exact ih (Service.addPod s ns name labels) hk hfree hlt hr (hwf.set _ _)
    | node a => exact ih { s with nodes := s.nodes ++ [a] } hpod hfree hlt hr hwf

/-- The pointers of pods in a client are under no name, so that the theorem above applies right after the list. -/
theorem client_pods_free (s : Service.S) (k : Bytes × Bytes) (e : Service.PodE) (p : Nat)
    (hpod : (sentServices s).pods.get k = some e) (hsvc : e.svc = some p) (k' : Bytes × Bytes) : (sentServices s).names.get k' ≠ some p := by
  have h1 := get_mapv s.pods (fun e => ({ e with svc := e.svc.map (fun p => 3 * p + 2) } : Service.PodE)) k
  have h2 := get_mapv s.names (fun p => 3 * p) k'
  simp only [sentServices] at hpod ⊢
  rw [h1] at hpod
  rw [h2]
  cases hg : s.pods.get k with
  | none => rw [hg] at hpod; cases hpod
  | some e0 =>
    rw [hg] at hpod
    cases hpod
    simp only at hsvc
    cases hs : e0.svc with
    | none => rw [hs] at hsvc; cases hsvc
    | some q =>
      rw [hs] at hsvc
      cases hsvc
      cases s.names.get k' with
      | none => simp
      | some q' => simp only [Option.map_some, Ne, Option.some.injEq]; omega

/-! ### The hypotheses can be met -/

/-- One pod on the host network of a node, without ports. -/
def hostPod : Pod := ⟨bs "u9", bs "kube-proxy-x", bs "kube-system", 1, bs "192.168.0.1", bs "192.168.0.1", bs "n1", true, [], bs "daemonset", bs "kube-proxy",
  [(bs "c", bs "docker://0123456789abcdef")], [(bs "c", [])]⟩

example : let c := (Pods.run (bs "n1") 60 Pods.empty [(1, .add hostPod)]).cache
    (∃ x, get2 c.ips (bs "192.168.0.1") 0 = some x ∧ x.pod.hostNetwork = true) ∧
    getContainer c.ips (bs "192.168.0.1") 22 = none ∧
    (getContainer (sent c).ips (bs "192.168.0.1") 22).map (·.pod.name) = some (bs "kube-proxy-x") := by
  exact ⟨⟨_, rfl, rfl⟩, by decide +kernel, by decide +kernel⟩

/-- Two pods, each with a container. -/
def quietState : St :=
  Pods.run (bs "n1") 60 Pods.empty [(1, .add Pods.podA), (2, .add { Pods.podC with statuses := [(bs "c", bs "docker://fedcba9876543210")] })]

example : Quiet quietState := by
  have h1 : ∀ e ∈ quietState.cache.cids, e.2.pod.hostNetwork = false ∧ quietState.pods.get (e.2.pod.ns, e.2.pod.name) = some e.2.pod := by
    decide +kernel
  have h2 : ∀ e ∈ quietState.cache.ips, ∀ f ∈ e.2, f.2.pod.hostNetwork = false := by decide +kernel
  have h3 : ∀ e ∈ quietState.cache.hosts, e.2.pod.hostNetwork = false := by decide +kernel
  have h4 : ∀ e ∈ quietState.pods, ∃ f ∈ quietState.cache.cids, (f.2.pod.ns, f.2.pod.name) = e.1 := by decide +kernel
  refine ⟨rfl, fun id c h => (h1 _ h).1, fun ip m hm p c h => h2 _ hm _ h, fun k c h => h3 _ h, fun id c h => (h1 _ h).2, fun k i h => ?_⟩
  obtain ⟨f, hf, e⟩ := h4 _ (AMap.mem_of_get h)
  exact ⟨f.1, f.2, hf, e⟩

/-- A pod with an address whose container has no id yet, and what becomes of it. -/
def starting : Pod := { Pods.podA with statuses := [] }
def moved : Pod := { Pods.podA with rv := 2, ip := bs "10.0.0.7" }
example : let s := Pods.run (bs "n1") 60 Pods.empty [(1, .add starting)]
    starting.rv ≠ moved.rv ∧ s.pods.get (starting.ns, starting.name) = some (Pods.infoOf starting) ∧ s.cache.cids = [] ∧
    80 ∈ Pods.portsOf starting ∧ starting.ip ≠ [] ∧ moved.ip ≠ starting.ip ∧
    (entry s (.port starting.ip 80)).map (·.pod.uid) = some starting.uid := by decide +kernel

example : Pods.podA.hostIP ≠ [] ∧ Pods.has Pods.podA (.port (bs "10.0.0.1") 443) ∧
    (entry (Pods.run (bs "n1") 60 Pods.empty [(1, .add Pods.podA)]) (.port (bs "10.0.0.1") 443)).map (·.pod.uid) = some Pods.podA.uid := by
  refine ⟨by decide, ⟨rfl, by decide, _, List.mem_singleton.2 rfl, Or.inr ⟨(443, 0), by simp, rfl⟩⟩, by decide +kernel⟩

example : let s := Service.run Service.empty [.add Service.svcA, .pod (bs "ns") (bs "web") Service.labels0]
    s.pods.get (bs "ns", bs "web") = some ⟨Service.labels0, some 0⟩ ∧ s.names.get Service.svcA.key = some 0 ∧
    s.heap[0]? = some (Service.infoOf Service.svcA) := by decide +kernel

/-! ### Workloads -/

theorem workloadsOf_get (me : Bytes) (cs : AMap Bytes Cont) (m : AMap (Bytes × Bytes) Bytes) (k : Bytes × Bytes) :
    (workloadsOf me cs m).get k ≠ none ↔
      m.get k ≠ none ∨ ∃ id c, (id, c) ∈ cs ∧ c.pod.node = me ∧ (c.pod.ns, c.pod.wname) = k := by
  induction cs generalizing m with
  | nil => simp [workloadsOf]
  | cons e r ih =>
    have hs : workloadsOf me (e :: r) m =
        workloadsOf me r (if e.2.pod.node = me then AMap.set m (e.2.pod.ns, e.2.pod.wname) e.2.pod.wkind else m) := rfl
    rw [hs, ih]
    constructor
    · rintro (h | ⟨id, c, hc, h1, h2⟩)
      · by_cases hn : e.2.pod.node = me
        · rw [if_pos hn, AMap.get_set] at h
          by_cases hk : (e.2.pod.ns, e.2.pod.wname) = k
          · exact Or.inr ⟨e.1, e.2, by simp, hn, hk⟩
          · rw [if_neg hk] at h; exact Or.inl h
        · rw [if_neg hn] at h; exact Or.inl h
      · exact Or.inr ⟨id, c, by simp [hc], h1, h2⟩
    · rintro (h | ⟨id, c, hc, h1, h2⟩)
      · left
        split
        · rw [AMap.get_set]; split
          · simp
          · exact h
        · exact h
      · rcases List.mem_cons.1 hc with he | hc
        · left
          cases he
          rw [if_pos h1, AMap.get_set, if_pos h2]
          simp
        · exact Or.inr ⟨id, c, hc, h1, h2⟩

/-- C102.  The workloads the client reports are those of its own node's containers, whatever node the provider
runs on. -/
theorem workloads_local (me : Bytes) (s : St) (k : Bytes × Bytes) :
    (setup me s).workloads.get k ≠ none ↔ ∃ id c, (id, c) ∈ s.cache.cids ∧ c.pod.node = me ∧ (c.pod.ns, c.pod.wname) = k := by
  show (workloadsOf me (sent s.cache).cids []).get k ≠ none ↔ _
  rw [workloadsOf_get]
  simp only [AMap.get_nil, ne_eq, not_true_eq_false, false_or, sent, List.mem_map, Prod.mk.injEq]
  constructor
  · rintro ⟨id, c, ⟨⟨a, b⟩, hab, rfl, rfl⟩, h1, h2⟩; exact ⟨a, b, hab, h1, h2⟩
  · rintro ⟨id, c, hc, h1, h2⟩; exact ⟨id, sentCont c, ⟨(id, c), hc, rfl, rfl⟩, h1, h2⟩

end Kindling.K8s.Setup
