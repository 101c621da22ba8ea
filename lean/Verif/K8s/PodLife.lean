import Verif.K8s.Pods
/-
The life of a pod's entries over whole histories of events and sweeps.
-/
namespace Kindling.K8s.Pods

/-! ### A sweep -/

/-- Requests in the order of their times, none from the future. -/
def Inv (t : Nat) (s : St) : Prop := s.queue.Pairwise (fun a b => a.2 ≤ b.2) ∧ ∀ d ∈ s.queue, d.2 ≤ t

theorem cutoff_spec (grace now : Nat) (q : List (Req × Nat)) (h : q.Pairwise (fun a b => a.2 ≤ b.2)) :
    q.take (cutoff grace now q) = q.filter (fun d => decide (d.2 + grace ≤ now)) ∧
    q.drop (cutoff grace now q) = q.filter (fun d => decide (now < d.2 + grace)) := by
  induction q with
  | nil => simp [cutoff]
  | cons d r ih =>
    obtain ⟨hd, hr⟩ := List.pairwise_cons.1 h
    unfold cutoff
    by_cases hn : now < d.2 + grace
    · rw [if_pos hn]
      constructor
      · rw [List.take_zero]
        symm
        rw [List.filter_eq_nil_iff]
        intro x hx
        simp only [decide_eq_true_eq]
        rcases List.mem_cons.1 hx with rfl | hx
        · omega
        · have := hd x hx; omega
      · rw [List.drop_zero]
        symm
        rw [List.filter_eq_self]
        intro x hx
        simp only [decide_eq_true_eq]
        rcases List.mem_cons.1 hx with rfl | hx
        · omega
        · have := hd x hx; omega
    · rw [if_neg hn]
      obtain ⟨h1, h2⟩ := ih hr
      constructor
      · rw [List.take_succ_cons, h1, List.filter_cons, if_pos (by simp; omega)]
      · rw [List.drop_succ_cons, h2, List.filter_cons, if_neg (by simp; omega)]

theorem deleteAll_spec (l : List Req) (s : St) (k : Key) :
    entry (l.foldl deleteInfo s) k = (entry s k).filter (fun c => !l.any (fun d => d.killsB k c)) ∧
    (l.foldl deleteInfo s).queue = s.queue := by
  induction l generalizing s with
  | nil => exact ⟨by rw [filter_true']; · rfl
                     · intro x _; rfl, rfl⟩
  | cons d r ih =>
    obtain ⟨h1, h2⟩ := ih (deleteInfo s d)
    obtain ⟨e1, e2⟩ := deleteInfo_spec s d k
    rw [List.foldl_cons]
    refine ⟨?_, h2.trans e2⟩
    rw [h1, e1, filter_filter']
    apply filter_congr'
    intro x _
    simp [List.any_cons]

/-- C39, one sweep: exactly the requests whose grace period has passed are served, and they remove exactly the
entries that are theirs. -/
theorem sweep_spec (grace now t : Nat) (s : St) (hinv : Inv t s) (k : Key) :
    (∀ c, entry (sweep grace now s) k = some c ↔
      entry s k = some c ∧ ∀ d ∈ s.queue, d.2 + grace ≤ now → ¬ d.1.kills k c) ∧
    (sweep grace now s).queue = s.queue.filter (fun d => decide (now < d.2 + grace)) := by
  obtain ⟨h1, h2⟩ := cutoff_spec grace now s.queue hinv.1
  unfold sweep
  simp only
  obtain ⟨e1, e2⟩ := deleteAll_spec ((s.queue.take (cutoff grace now s.queue)).map (·.1)) { s with queue := s.queue.drop (cutoff grace now s.queue) } k
  refine ⟨fun c => ?_, e2.trans h2⟩
  rw [e1, h1]
  have : entry { s with queue := s.queue.drop (cutoff grace now s.queue) } k = entry s k := by cases k <;> rfl
  rw [this]
  simp only [Option.filter_eq_some_iff, Bool.not_eq_true', List.any_eq_false, List.mem_map, List.mem_filter, decide_eq_true_eq]
  apply and_congr_right
  intro _
  constructor
  · intro h d hd hdue hk
    exact h d.1 ⟨d, ⟨hd, hdue⟩, rfl⟩ ((killsB_iff _ _ _).2 hk)
  · rintro h _ ⟨d, ⟨hd, hdue⟩, rfl⟩ hk
    exact h d hd hdue ((killsB_iff _ _ _).1 hk)

/-! ### Steps -/

/-- The pod an event registers, if any. -/
def registered : Op → Option Pod
  | .add p => some p
  | .update old new => if old.rv = new.rv then none else some new
  | _ => none

/-- The pod an event plans deletions for. -/
def outgoing : Op → Option Bytes
  | .update old _ => some old.uid
  | .delete p => some p.uid
  | _ => none

/-- One step, seen from a key. -/
theorem step_entry (me : Bytes) (grace : Nat) (s : St) (now : Nat) (o : Op) (k : Key) :
    (∀ p, registered o = some p → has p k → ∃ c, entry (step me grace s (now, o)) k = some c ∧ c.pod = infoOf p) ∧
    ((∀ p, registered o = some p → ¬ has p k) → o ≠ .sweep → entry (step me grace s (now, o)) k = entry s k) ∧
    (o ≠ .sweep → ∃ l, (step me grace s (now, o)).queue = s.queue ++ l ∧ ∀ d ∈ l, d.2 = now ∧ outgoing o = some d.1.uid) := by
  cases o with
  | add p =>
    obtain ⟨h1, h2, h3⟩ := add_registers me s p k
    refine ⟨?_, fun h _ => h2 (h p rfl), fun _ => ⟨[], by rw [List.append_nil]; exact h3, by simp⟩⟩
    intro p' hp hh
    cases hp
    exact h1 hh
  | update old new =>
    simp only [step, registered]
    unfold updatePod
    by_cases hrv : old.rv = new.rv
    · rw [if_pos hrv, if_pos hrv]
      exact ⟨fun p h => by simp at h, fun _ _ => rfl, fun _ => ⟨[], by simp, by simp⟩⟩
    · rw [if_neg hrv, if_neg hrv]
      obtain ⟨h1, h2, h3⟩ := add_registers me s new k
      cases hg : s.pods.get (old.ns, old.name) with
      | none =>
        simp only
        refine ⟨?_, fun h _ => h2 (h new rfl), fun _ => ⟨[], by simpa using h3, by simp⟩⟩
        intro p' hp hh
        cases hp
        exact h1 hh
      | some cached =>
        simp only
        have he : ∀ q, entry { addPod me s new with queue := q } k = entry (addPod me s new) k := fun q => by cases k <;> rfl
        refine ⟨?_, fun h _ => (he _).trans (h2 (h new rfl)), fun _ => ⟨[(updateReq cached old new, now)], by rw [h3], ?_⟩⟩
        · intro p' hp hh
          cases hp
          rw [he]
          exact h1 hh
        · intro d hd
          simp only [List.mem_singleton] at hd
          subst hd
          exact ⟨rfl, rfl⟩
  | delete p =>
    refine ⟨fun p h => by simp [registered] at h, fun _ _ => by cases k <;> rfl, fun _ => ⟨[(deleteReq p, now)], rfl, ?_⟩⟩
    intro d hd
    simp only [List.mem_singleton] at hd
    subst hd
    exact ⟨rfl, rfl⟩
  | sweep => exact ⟨fun p h => by simp [registered] at h, fun _ h => absurd rfl h, fun h => absurd rfl h⟩

theorem step_inv (me : Bytes) (grace t : Nat) (s : St) (hinv : Inv t s) (o : Nat × Op) (ht : t ≤ o.1) :
    Inv o.1 (step me grace s o) := by
  obtain ⟨now, o⟩ := o
  by_cases hs : o = .sweep
  · subst hs
    have := (sweep_spec grace now t s hinv (.cid [])).2
    simp only [step]
    constructor
    · rw [this]; exact List.Pairwise.filter _ hinv.1
    · intro d hd
      rw [this] at hd
      have := hinv.2 d (List.mem_filter.1 hd).1
      simp only at ht
      omega
  · obtain ⟨l, hl, hd⟩ := (step_entry me grace s now o (.cid [])).2.2 hs
    simp only at ht
    constructor
    · rw [hl, List.pairwise_append]
      refine ⟨hinv.1, ?_, ?_⟩
      · apply List.Pairwise.imp_of_mem (R := fun _ _ => True)
        · intro a b ha hb _
          rw [(hd a ha).1, (hd b hb).1]
          exact Nat.le_refl _
        · exact List.pairwise_of_forall (fun _ _ => trivial)
      · intro a ha b hb
        have := hinv.2 a ha
        rw [(hd b hb).1]
        omega
    · intro d hd'
      rw [hl] at hd'
      rcases List.mem_append.1 hd' with h | h
      · have := hinv.2 d h; simp only; omega
      · have := (hd d h).1; simp only; omega

theorem run_append (me : Bytes) (grace : Nat) (s : St) (a b : List (Nat × Op)) :
    run me grace s (a ++ b) = run me grace (run me grace s a) b := by
  induction a generalizing s with
  | nil => rfl
  | cons o r ih => simp only [List.cons_append, run, ih]

/-- Time of the last event. -/
def lastTime : Nat → List (Nat × Op) → Nat
  | t, [] => t
  | _, o :: r => lastTime o.1 r

/-- The queue is in order after every history. -/
theorem run_inv (me : Bytes) (grace t : Nat) (s : St) (hinv : Inv t s) (l : List (Nat × Op)) (hc : Clock t l) :
    Inv (lastTime t l) (run me grace s l) := by
  induction l generalizing s t with
  | nil => exact hinv
  | cons o r ih => exact ih o.1 _ (step_inv me grace t s hinv o hc.1) hc.2

/-! ### C39: not before, not later, not others -/

/-- Nobody but `u` registers the key during `l`. -/
def OnlyBy (u : Bytes) (k : Key) (l : List (Nat × Op)) : Prop :=
  ∀ o ∈ l, ∀ p, registered o.2 = some p → has p k → p.uid = u

/-- C39, not before.  A key that leads to pod `u` at time `t`, with no deletion planned that concerns it, still
leads to `u` as long as less than the grace period has passed, whatever is deleted and updated meanwhile, if no
other pod takes the key. -/
theorem kept_for_grace (me : Bytes) (grace t : Nat) (s : St) (hinv : Inv t s) (u : Bytes) (k : Key)
    (hown : ∃ c, entry s k = some c ∧ c.pod.uid = u)
    (hquiet : ∀ d ∈ s.queue, ∀ c : Cont, c.pod.uid = u → ¬ d.1.kills k c)
    (l : List (Nat × Op)) (hc : Clock t l) (hl : ∀ o ∈ l, o.1 < t + grace) (honly : OnlyBy u k l) :
    ∃ c, entry (run me grace s l) k = some c ∧ c.pod.uid = u := by
  suffices h : ∀ (l : List (Nat × Op)) (t' : Nat) (s : St), t ≤ t' → Inv t' s → Clock t' l → (∀ o ∈ l, o.1 < t + grace) → OnlyBy u k l →
      (∃ c, entry s k = some c ∧ c.pod.uid = u) →
      (∀ d ∈ s.queue, t ≤ d.2 ∨ ∀ c : Cont, c.pod.uid = u → ¬ d.1.kills k c) →
      ∃ c, entry (run me grace s l) k = some c ∧ c.pod.uid = u by
    exact h l t s (Nat.le_refl _) hinv hc hl honly hown (fun d hd => Or.inr (hquiet d hd))
  intro l
  induction l with
  | nil => intro t' s _ _ _ _ _ h _; exact h
  | cons o r ih =>
    intro t' s htt hinv hc hl honly hown hq
    obtain ⟨now, o⟩ := o
    have hnow := hl (now, o) (by simp)
    have hi := step_inv me grace t' s hinv (now, o) hc.1
    have ht : t' ≤ now := hc.1
    simp only at hnow
    rw [run]
    refine ih now _ (Nat.le_trans htt ht) hi hc.2 (fun x hx => hl x (by simp [hx])) (fun x hx => honly x (by simp [hx])) ?_ ?_
    · by_cases hs : o = .sweep
      · subst hs
        obtain ⟨c, h1, h2⟩ := hown
        refine ⟨c, ((sweep_spec grace now t' s hinv k).1 c).2 ⟨h1, ?_⟩, h2⟩
        intro d hd hdue
        rcases hq d hd with h | h
        · omega
        · exact h c h2
      · obtain ⟨e1, e2, _⟩ := step_entry me grace s now o k
        by_cases hr : ∃ p, registered o = some p ∧ has p k
        · obtain ⟨p, hp, hh⟩ := hr
          obtain ⟨c, h1, h2⟩ := e1 p hp hh
          refine ⟨c, h1, ?_⟩
          have := honly (now, o) (by simp) p hp hh
          rw [h2]
          exact this
        · rw [e2 (fun p hp hh => hr ⟨p, hp, hh⟩) hs]
          exact hown
    · by_cases hs : o = .sweep
      · subst hs
        intro d hd
        have := (sweep_spec grace now t' s hinv k).2
        simp only [step] at hd
        rw [this] at hd
        exact hq d (List.mem_filter.1 hd).1
      · obtain ⟨m, hm, hmd⟩ := (step_entry me grace s now o k).2.2 hs
        intro d hd
        rw [hm] at hd
        rcases List.mem_append.1 hd with h | h
        · exact hq d h
        · left; rw [(hmd d h).1]; omega

/-- The keys of a deleted pod are in its request. -/
theorem deleteReq_about (p : Pod) (hh : p.hostIP ≠ []) (k : Key) (h : has p k) : (deleteReq p).about k := by
  cases k with
  | cid id => exact (mem_cidsOf p id).2 h
  | port ip n => exact ⟨h.1, h.2.1, (mem_portsOf p n).2 h.2.2⟩
  | host ip n => exact ⟨h.1, h.1 ▸ hh, (mem_hostPortsOf p n).2 ⟨h.2.2.1, h.2.2.2⟩⟩

/-- Nobody registers the key for `u` during `l`. -/
def NotBy (u : Bytes) (k : Key) (l : List (Nat × Op)) : Prop :=
  ∀ o ∈ l, ∀ p, registered o.2 = some p → has p k → p.uid ≠ u

theorem planned_gone (me : Bytes) (grace t0 : Nat) (d : Req × Nat) (k : Key) (habout : d.1.about k) :
    ∀ (l : List (Nat × Op)) (t : Nat) (s : St), Inv t s → Clock t l → NotBy d.1.uid k l →
      (d ∈ s.queue ∨ ∀ c, entry s k = some c → c.pod.uid ≠ d.1.uid) → d.2 = t0 →
      ∀ now, lastTime t l ≤ now → t0 + grace ≤ now →
      ∀ c, entry (sweep grace now (run me grace s l)) k = some c → c.pod.uid ≠ d.1.uid := by
  have hkill : ∀ c : Cont, c.pod.uid = d.1.uid → d.1.kills k c := by
    intro c hc
    refine ⟨habout, ?_⟩
    cases k <;> first | trivial | exact hc
  intro l
  induction l with
  | nil =>
    intro t s hinv _ _ h hd now _ hnow c hc hu
    rw [run] at hc
    obtain ⟨h1, h2⟩ := ((sweep_spec grace now t s hinv k).1 c).1 hc
    rcases h with h | h
    · exact h2 d h (by omega) (hkill c hu)
    · exact h c h1 hu
  | cons o r ih =>
    intro t s hinv hcl hnot h hd now hlast hnow
    obtain ⟨tm, o⟩ := o
    rw [run]
    refine ih tm _ (step_inv me grace t s hinv _ hcl.1) hcl.2 (fun x hx => hnot x (by simp [hx])) ?_ hd now hlast hnow
    by_cases hs : o = .sweep
    · subst hs
      obtain ⟨e1, e2⟩ := sweep_spec grace tm t s hinv k
      rcases h with h | h
      · by_cases hdue : d.2 + grace ≤ tm
        · right
          intro c hc hu
          exact ((e1 c).1 hc).2 d h hdue (hkill c hu)
        · left
          simp only [step]
          rw [e2]
          exact List.mem_filter.2 ⟨h, by simp; omega⟩
      · right
        intro c hc
        exact h c ((e1 c).1 hc).1
    · obtain ⟨e1, e2, e3⟩ := step_entry me grace s tm o k
      rcases h with h | h
      · left
        obtain ⟨m, hm, _⟩ := e3 hs
        rw [hm]
        exact List.mem_append.2 (Or.inl h)
      · right
        intro c hc
        by_cases hr : ∃ p, registered o = some p ∧ has p k
        · obtain ⟨p, hp, hh⟩ := hr
          obtain ⟨c', h1, h2⟩ := e1 p hp hh
          rw [h1] at hc
          cases hc
          rw [h2]
          exact hnot (tm, o) (by simp) p hp hh
        · rw [e2 (fun p hp hh => hr ⟨p, hp, hh⟩) hs] at hc
          exact h c hc

/-- C39, not later.  The first sweep at least the grace period after the delete event removes all keys of the pod,
whatever happened in between, unless the pod itself was registered again. -/
theorem gone_after_grace_partial (me : Bytes) (grace t : Nat) (s : St) (hinv : Inv t s) (p : Pod) (hh : p.hostIP ≠ [])
    (tm : Nat) (htm : t ≤ tm) (k : Key) (hk : has p k) (l : List (Nat × Op)) (hc : Clock tm l) (hnot : NotBy p.uid k l)
    (now : Nat) (hlast : lastTime tm l ≤ now) (hnow : tm + grace ≤ now) (c : Cont)
    (he : entry (sweep grace now (run me grace (deletePod tm s p) l)) k = some c) : c.pod.uid ≠ p.uid :=
  planned_gone me grace tm (deleteReq p, tm) k (deleteReq_about p hh k hk) l tm _
    (step_inv me grace t s hinv (tm, .delete p) htm) hc hnot (Or.inl (List.mem_append.2 (Or.inr (List.mem_singleton.2 rfl)))) rfl now hlast hnow c he

/-- C39, not others.  The addresses of a pod for which no event was received but registrations are never removed,
whatever happens to other pods that had the same address. -/
theorem others_kept (me : Bytes) (grace : Nat) (u : Bytes) (k : Key) (hk : ∀ id, k ≠ .cid id) :
    ∀ (l : List (Nat × Op)) (t : Nat) (s : St), Inv t s → Clock t l → OnlyBy u k l → (∀ o ∈ l, outgoing o.2 ≠ some u) →
      (∀ d ∈ s.queue, d.1.uid ≠ u) → (∃ c, entry s k = some c ∧ c.pod.uid = u) →
      ∃ c, entry (run me grace s l) k = some c ∧ c.pod.uid = u := by
  intro l
  induction l with
  | nil => intro t s _ _ _ _ _ h; exact h
  | cons o r ih =>
    intro t s hinv hc honly hout hq hown
    obtain ⟨now, o⟩ := o
    rw [run]
    refine ih now _ (step_inv me grace t s hinv _ hc.1) hc.2 (fun x hx => honly x (by simp [hx])) (fun x hx => hout x (by simp [hx])) ?_ ?_
    · by_cases hs : o = .sweep
      · subst hs
        intro d hd
        simp only [step] at hd
        rw [(sweep_spec grace now t s hinv k).2] at hd
        exact hq d (List.mem_filter.1 hd).1
      · obtain ⟨m, hm, hmd⟩ := (step_entry me grace s now o k).2.2 hs
        intro d hd
        rw [hm] at hd
        rcases List.mem_append.1 hd with h | h
        · exact hq d h
        · intro he
          exact hout (now, o) (by simp) (by rw [← he]; exact (hmd d h).2)
    · by_cases hs : o = .sweep
      · subst hs
        obtain ⟨c, h1, h2⟩ := hown
        refine ⟨c, ((sweep_spec grace now t s hinv k).1 c).2 ⟨h1, ?_⟩, h2⟩
        intro d hd _ hkill
        apply hq d hd
        cases k with
        | cid id => exact absurd rfl (hk id)
        | port ip p => rw [← hkill.2]; exact h2
        | host ip p => rw [← hkill.2]; exact h2
      · obtain ⟨e1, e2, _⟩ := step_entry me grace s now o k
        by_cases hr : ∃ p, registered o = some p ∧ has p k
        · obtain ⟨p, hp, hh⟩ := hr
          obtain ⟨c, h1, h2⟩ := e1 p hp hh
          refine ⟨c, h1, ?_⟩
          rw [h2]
          exact honly (now, o) (by simp) p hp hh
        · rw [e2 (fun p hp hh => hr ⟨p, hp, hh⟩) hs]
          exact hown

/-- An update plans the deletion of exactly the keys the old object had and the new one has not. -/
theorem update_requests_stale (old new : Pod) (hip : new.ip ≠ []) (hh : old.hostIP ≠ []) (k : Key) :
    (updateReq (infoOf old) old new).about k ↔ has old k ∧ ¬ has new k := by
  cases k with
  | cid id =>
    simp only [Req.about, updateReq, infoOf]
    have hm : id ∈ removed (cidsOf old) (cidsOf new) ↔ id ∈ cidsOf old ∧ id ∉ cidsOf new := by
      rw [(diff_exact _ _).1]; simp
    exact hm.trans (and_congr (mem_cidsOf _ _) (not_congr (mem_cidsOf _ _)))
  | port ip n =>
    simp only [Req.about, updateReq, infoOf, has]
    constructor
    · rintro ⟨h1, h2, h3⟩
      subst h1
      by_cases hd : old.ip ≠ new.ip
      · rw [if_pos hd, if_neg h2, mem_portsOf] at h3
        exact ⟨⟨rfl, h2, h3⟩, fun h => hd h.1.symm⟩
      · rw [if_neg hd, if_neg h2, (diff_exact _ _).1, List.mem_filter, decide_eq_true_eq, mem_portsOf, mem_portsOf] at h3
        exact ⟨⟨rfl, h2, h3.1⟩, fun h => h3.2 h.2.2⟩
    · rintro ⟨⟨h1, h2, h3⟩, h4⟩
      subst h1
      refine ⟨rfl, h2, ?_⟩
      by_cases hd : old.ip ≠ new.ip
      · rw [if_pos hd, if_neg h2, mem_portsOf]; exact h3
      · rw [if_neg hd, if_neg h2, (diff_exact _ _).1, List.mem_filter, decide_eq_true_eq, mem_portsOf, mem_portsOf]
        exact ⟨h3, fun h => h4 ⟨(Decidable.not_not.1 hd).symm, h2, h⟩⟩
  | host ip n =>
    simp only [Req.about, updateReq, infoOf, has]
    constructor
    · rintro ⟨h1, h2, h3⟩
      subst h1
      by_cases ho : old.ip = []
      · by_cases hd : old.hostIP ≠ new.hostIP
        · rw [if_pos hd, if_pos ho] at h3; simp at h3
        · rw [if_neg hd, if_pos ho, (diff_exact _ _).1] at h3; simp at h3
      by_cases hd : old.hostIP ≠ new.hostIP
      · rw [if_pos hd, if_neg ho, mem_hostPortsOf] at h3
        exact ⟨⟨rfl, ho, h3⟩, fun h => hd h.1.symm⟩
      · rw [if_neg hd, if_neg ho, (diff_exact _ _).1, List.mem_filter, decide_eq_true_eq, mem_hostPortsOf, mem_hostPortsOf] at h3
        exact ⟨⟨rfl, ho, h3.1⟩, fun h => h3.2 h.2.2⟩
    · rintro ⟨⟨h1, h2, h3⟩, h4⟩
      subst h1
      refine ⟨rfl, hh, ?_⟩
      by_cases hd : old.hostIP ≠ new.hostIP
      · rw [if_pos hd, if_neg h2, mem_hostPortsOf]; exact h3
      · rw [if_neg hd, if_neg h2, (diff_exact _ _).1, List.mem_filter, decide_eq_true_eq, mem_hostPortsOf, mem_hostPortsOf]
        exact ⟨h3, fun h => h4 ⟨(Decidable.not_not.1 hd).symm, hip, h⟩⟩

/-! ### What goes wrong -/

def empty : St := ⟨⟨[], [], [], []⟩, [], [], []⟩

/-- Finding.  A key that a pod loses and gets back within the grace period is removed although the pod has it. -/
theorem regained_key_removed (me : Bytes) (grace t1 t2 t3 now : Nat) (a b : Pod) (k : Key)
    (h12 : a.rv ≠ b.rv)
    (hip : b.ip ≠ []) (hh : a.hostIP ≠ []) (ha : has a k) (hb : ¬ has b k)
    (ht : t1 ≤ t2) (ht' : t2 ≤ t3) (hnow : t2 + grace ≤ now) :
    entry (run me grace empty [(t1, .add a), (t2, .update a b), (t3, .update b a)]) k ≠ none ∧
    entry (run me grace empty [(t1, .add a), (t2, .update a b), (t3, .update b a), (now, .sweep)]) k = none := by
  have i0 : Inv t1 empty := ⟨List.Pairwise.nil, by simp [empty]⟩
  have hc : Clock t1 [(t1, .add a), (t2, .update a b), (t3, .update b a)] := ⟨Nat.le_refl _, ht, ht', trivial⟩
  have i3 := run_inv me grace t1 empty i0 _ hc
  have hent : ∃ c, entry (run me grace empty [(t1, .add a), (t2, .update a b), (t3, .update b a)]) k = some c ∧ c.pod = infoOf a := by
    have := (step_entry me grace (run me grace empty [(t1, .add a), (t2, .update a b)]) t3 (.update b a) k).1 a (by simp [registered, Ne.symm h12]) ha
    exact this
  refine ⟨by obtain ⟨c, h, _⟩ := hent; rw [h]; simp, ?_⟩
  have hq : (updateReq (infoOf a) a b, t2) ∈ (run me grace empty [(t1, .add a), (t2, .update a b), (t3, .update b a)]).queue := by
    obtain ⟨m, hm, _⟩ := (step_entry me grace (run me grace empty [(t1, .add a), (t2, .update a b)]) t3 (.update b a) k).2.2 (by simp)
    have h2 : (updateReq (infoOf a) a b, t2) ∈ (run me grace empty [(t1, .add a), (t2, .update a b)]).queue := by
      simp only [run, step]
      unfold updatePod
      rw [if_neg h12]
      have : (addPod me empty a).pods.get (a.ns, a.name) = some (infoOf a) := by
        simp only [addPod]; exact AMap.get_set_self _ _ _
      rw [this]
      simp
    show _ ∈ (step me grace (run me grace empty [(t1, .add a), (t2, .update a b)]) (t3, .update b a)).queue
    rw [hm]
    exact List.mem_append.2 (Or.inl h2)
  have hs : run me grace empty [(t1, .add a), (t2, .update a b), (t3, .update b a), (now, .sweep)] =
      sweep grace now (run me grace empty [(t1, .add a), (t2, .update a b), (t3, .update b a)]) := rfl
  rw [hs]
  cases hx : entry (sweep grace now (run me grace empty [(t1, .add a), (t2, .update a b), (t3, .update b a)])) k with
  | none => rfl
  | some c =>
    exfalso
    obtain ⟨h1, h2⟩ := ((sweep_spec grace now _ _ i3 k).1 c).1 hx
    obtain ⟨c', e, hp⟩ := hent
    rw [h1] at e
    cases e
    refine h2 _ hq hnow ⟨(update_requests_stale a b hip hh k).2 ⟨ha, hb⟩, ?_⟩
    cases k <;> first | trivial | (simp only [hp]; rfl)

theorem deleteInfo_pods (s : St) (d : Req) (hn : d.name ≠ []) :
    (deleteInfo s d).pods.get (d.ns, d.name) = none ∧
    (∀ i, s.pods.get (d.ns, d.name) = some i → (deleteInfo s d).workloads.get (i.ns, i.wname) = none) := by
  unfold deleteInfo
  simp only [if_neg hn]
  cases hg : s.pods.get (d.ns, d.name) with
  | none => exact ⟨hg, fun i h => by cases h⟩
  | some i =>
    refine ⟨AMap.get_del_self _ _, ?_⟩
    rintro j h
    cases h
    exact AMap.get_del_self _ _

/-- Finding.  A pod that is created again under the same name within the grace period (a stateful set's pod) is
forgotten in the map of pods: the old pod's request removes the entry by name. -/
theorem recreated_pod_forgotten (me : Bytes) (grace t now : Nat) (a b : Pod) (hn : a.name ≠ []) (hname : b.name = a.name)
    (hns : b.ns = a.ns) (hnow : t + grace ≤ now) :
    (run me grace empty [(t, .add a), (t, .delete a), (t, .add b)]).pods.get (b.ns, b.name) = some (infoOf b) ∧
    (run me grace empty [(t, .add a), (t, .delete a), (t, .add b), (now, .sweep)]).pods.get (b.ns, b.name) = none := by
  constructor
  · simp only [run, step, addPod, AMap.get_set_self]
  · have hq : (run me grace empty [(t, .add a), (t, .delete a), (t, .add b)]).queue = [(deleteReq a, t)] := rfl
    have hs : run me grace empty [(t, .add a), (t, .delete a), (t, .add b), (now, .sweep)] =
      sweep grace now (run me grace empty [(t, .add a), (t, .delete a), (t, .add b)]) := rfl
    rw [hs]
    unfold sweep
    simp only [hq, cutoff]
    rw [if_neg (by omega)]
    simp only [Nat.zero_add, List.take_succ_cons, List.take_zero, List.map_cons, List.map_nil, List.foldl_cons, List.foldl_nil]
    have := (deleteInfo_pods { run me grace empty [(t, .add a), (t, .delete a), (t, .add b)] with queue := List.drop 1 [(deleteReq a, t)] } (deleteReq a) hn).1
    rw [hname, hns]
    exact this

/-- … after which its own updates plan no deletions any more: what it loses stays. -/
theorem forgotten_pod_leaks (me : Bytes) (now : Nat) (s : St) (old new : Pod) (h : s.pods.get (old.ns, old.name) = none)
    (hrv : old.rv ≠ new.rv) : (updatePod me now s old new).queue = s.queue := by
  unfold updatePod
  rw [if_neg hrv, h]
  rfl

/-- Finding.  The deletion of one pod removes its workload although another pod of the workload still runs on the
node. -/
theorem workload_dropped (me : Bytes) (grace t now : Nat) (a b : Pod) (hn : a.name ≠ []) (hne : (a.ns, a.name) ≠ (b.ns, b.name))
    (hns : b.ns = a.ns) (hw : b.wname = a.wname) (hb : b.node = me) (hnow : t + grace ≤ now) :
    (run me grace empty [(t, .add a), (t, .add b), (t, .delete a)]).workloads.get (b.ns, b.wname) = some b.wkind ∧
    (run me grace empty [(t, .add a), (t, .add b), (t, .delete a), (now, .sweep)]).workloads.get (b.ns, b.wname) = none ∧
    (run me grace empty [(t, .add a), (t, .add b), (t, .delete a), (now, .sweep)]).pods.get (b.ns, b.name) = some (infoOf b) := by
  have hs : run me grace empty [(t, .add a), (t, .add b), (t, .delete a), (now, .sweep)] =
      deleteInfo { run me grace empty [(t, .add a), (t, .add b), (t, .delete a)] with queue := [] } (deleteReq a) := by
    show sweep grace now (run me grace empty [(t, .add a), (t, .add b), (t, .delete a)]) = _
    have hq : (run me grace empty [(t, .add a), (t, .add b), (t, .delete a)]).queue = [(deleteReq a, t)] := rfl
    unfold sweep
    simp only [hq, cutoff]
    rw [if_neg (by omega)]
    rfl
  have hp : (run me grace empty [(t, .add a), (t, .add b), (t, .delete a)]).pods.get (a.ns, a.name) = some (infoOf a) := by
    simp only [run, step, addPod, deletePod]
    rw [AMap.get_set_ne _ _ hne.symm, AMap.get_set_self]
  have hpb : (run me grace empty [(t, .add a), (t, .add b), (t, .delete a)]).pods.get (b.ns, b.name) = some (infoOf b) := by
    simp only [run, step, addPod, deletePod]
    rw [AMap.get_set_self]
  refine ⟨?_, ?_, ?_⟩
  · simp only [run, step, addPod, deletePod]
    rw [if_pos hb, AMap.get_set_self]
  · rw [hs]
    have := (deleteInfo_pods { run me grace empty [(t, .add a), (t, .add b), (t, .delete a)] with queue := [] } (deleteReq a) hn).2 (infoOf a) hp
    rw [hw, hns]
    exact this
  · rw [hs]
    unfold deleteInfo
    have h1 : (deleteReq a).name ≠ [] := hn
    simp only [if_neg h1]
    have h2 : ({ run me grace empty [(t, .add a), (t, .add b), (t, .delete a)] with queue := [] } : St).pods.get ((deleteReq a).ns, (deleteReq a).name) = some (infoOf a) := hp
    simp only [h2]
    show AMap.get (AMap.del _ (a.ns, a.name)) (b.ns, b.name) = _
    rw [AMap.get_del_ne _ hne]
    exact hpb

/-! ### The hypotheses can be met -/

def podA : Pod := ⟨bs "u1", bs "web-0", bs "ns", 1, bs "10.0.0.1", bs "192.168.0.1", bs "n1", false, [], bs "statefulset", bs "web",
  [(bs "c", bs "docker://0123456789abcdef")], [(bs "c", [(80, 8080), (443, 0)])]⟩
def podB : Pod := { podA with rv := 2, containers := [(bs "c", [(80, 8080)])] }
def podC : Pod := { podA with uid := bs "u2", name := bs "web-1", ip := bs "10.0.0.2" }

example : has podA (.port (bs "10.0.0.1") 443) ∧ ¬ has podB (.port (bs "10.0.0.1") 443) := by
  constructor
  · refine ⟨rfl, by decide, _, List.mem_singleton.2 rfl, Or.inr ⟨(443, 0), by simp, rfl⟩⟩
  · rintro ⟨_, _, c, hc, h⟩
    simp only [podB, List.mem_singleton] at hc
    subst hc
    simp at h
example : podA.rv ≠ podB.rv ∧ podB.ip ≠ [] ∧ podA.hostIP ≠ [] ∧ podA.name ≠ [] ∧ (podA.ns, podA.name) ≠ (podC.ns, podC.name) := by decide
example : has podA (.host (bs "192.168.0.1") 8080) :=
  ⟨rfl, by decide, by decide, _, List.mem_singleton.2 rfl, (80, 8080), by simp, rfl⟩
example : Inv 5 (run (bs "n1") 60 empty [(1, .add podA), (5, .delete podA)]) ∧
    Clock 5 [(7, .add podC), (64, .sweep)] ∧ OnlyBy (bs "u1") (.port (bs "10.0.0.1") 80) [(7, .add podC), (64, .sweep)] := by
  refine ⟨run_inv _ _ 0 empty ⟨List.Pairwise.nil, by simp [empty]⟩ _ ⟨by decide, by decide, trivial⟩, ⟨by decide, by decide, trivial⟩, ?_⟩
  intro o ho p hp hh
  simp only [List.mem_cons, List.not_mem_nil, or_false] at ho
  rcases ho with rfl | rfl
  · cases hp; exact absurd hh.1 (by decide)
  · cases hp

end Kindling.K8s.Pods
