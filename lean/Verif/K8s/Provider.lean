import Verif.K8s.Nodes
/-
The metadata provider: snapshot, broadcast and replay.  metadata/metaprovider/service/service.go, handler.go,
metadata/metaprovider/client/client.go, unwrapper_handler.go, metadata/kubernetes/initk8s.go.
-/
namespace Kindling.K8s.Provider

/-! ### List and watch -/

section Watch
variable {R E : Type} [DecidableEq R]

/-- A client: the events the snapshot contains (`ListWithSemaphore`, service.go:204-226, under the locks of the cache), the
events put on its channel since (`eventChannel`), and whether it is still in `flushersMap`. -/
structure Client (E : Type) where
  snap : List E
  sent : List E
  live : Bool

/-- An event that was applied to the cache and whose broadcast has not ended (handler.go:24-51): the clients that were
registered when the broadcast began, and those visited. -/
structure Pending (E : Type) where
  ev : E
  must : Option (List Nat)
  seen : List Nat

/-- `log` are the events applied to the cache.  Each type of resources has an informer that handles one event at a time;
`pending` is the event it is at. -/
structure St (R E : Type) where
  log : List E
  pending : R → Option (Pending E)
  clients : List (Client E)

def start : St R E := ⟨[], fun _ => none, []⟩

def setP (f : R → Option (Pending E)) (r : R) (p : Option (Pending E)) : R → Option (Pending E) := fun x => if x = r then p else f x

def liveAt (cs : List (Client E)) (i : Nat) : Prop := ∃ c, cs[i]? = some c ∧ c.live = true

/-- Steps of the goroutines.  The cache is updated in one step here; the code takes several locks one after the other.
`Range` visits every client registered when it began, and may visit later ones. -/
inductive Step (ty : E → R) : St R E → St R E → Prop
  /-- `m.add(obj)`, `m.update`, `m.delete` (handler.go:25, 34, 44). -/
  | apply (s : St R E) (e : E) (h : s.pending (ty e) = none) :
      Step ty s { s with log := s.log ++ [e], pending := setP s.pending (ty e) (some ⟨e, none, []⟩) }
  /-- `broadcast` begins (service.go:123-140). -/
  | begin (s : St R E) (r : R) (e : E) (h : s.pending r = some ⟨e, none, []⟩) :
      Step ty s { s with pending := setP s.pending r (some ⟨e, some (List.range s.clients.length), []⟩) }
  /-- The event is put on a channel (service.go:146-148). -/
  | deliver (s : St R E) (r : R) (e : E) (must seen : List Nat) (i : Nat) (c : Client E) (h : s.pending r = some ⟨e, some must, seen⟩)
      (hc : s.clients[i]? = some c) (hl : c.live = true) (hs : i ∉ seen) :
      Step ty s { s with
        clients := s.clients.set i { c with sent := c.sent ++ [e] }
        pending := setP s.pending r (some ⟨e, some must, i :: seen⟩) }
  /-- `broadcast` ends. -/
  | finish (s : St R E) (r : R) (e : E) (must seen : List Nat) (h : s.pending r = some ⟨e, some must, seen⟩)
      (hd : ∀ i ∈ must, liveAt s.clients i → i ∈ seen) :
      Step ty s { s with pending := setP s.pending r none }
  /-- A client connects (service.go:208-220). -/
  | connect (s : St R E) : Step ty s { s with clients := s.clients ++ [⟨s.log, [], true⟩] }
  /-- A client leaves, or is removed after a timeout (service.go:149-154, 198-200). -/
  | leave (s : St R E) (i : Nat) (c : Client E) (hc : s.clients[i]? = some c) :
      Step ty s { s with clients := s.clients.set i { c with live := false } }

inductive Reach (ty : E → R) : St R E → Prop
  | start : Reach ty start
  | step {s s' : St R E} : Reach ty s → Step ty s s' → Reach ty s'

/-- The events of one informer. -/
def of (ty : E → R) (r : R) (l : List E) : List E := l.filter (fun e => decide (ty e = r))

theorem of_append (ty : E → R) (r : R) (a b : List E) : of ty r (a ++ b) = of ty r a ++ of ty r b := List.filter_append ..
theorem of_one (ty : E → R) (r : R) (e : E) : of ty r [e] = if ty e = r then [e] else [] := by
  unfold of
  by_cases h : ty e = r <;> simp [h]

/-- Spec: what a client got is what the log has after the snapshot, the last event of the snapshot perhaps repeated. -/
def Complete (ty : E → R) (r : R) (log snap sent : List E) : Prop :=
  ∃ k, k ≤ 1 ∧ k ≤ (of ty r snap).length ∧ (of ty r log).drop ((of ty r snap).length - k) = of ty r sent

def Inv1 (ty : E → R) (r : R) (log : List E) (p : Option (Pending E)) (i : Nat) (c : Client E) : Prop :=
  (∃ t, log = c.snap ++ t) ∧ match p with
  | none => Complete ty r log c.snap c.sent
  | some p => (i ∈ p.seen ∧ Complete ty r log c.snap c.sent) ∨
      (i ∉ p.seen ∧ ((of ty r c.snap = of ty r log ∧ of ty r c.sent = []) ∨
        (Complete ty r log c.snap (c.sent ++ [p.ev]) ∧ ∀ m, p.must = some m → i ∈ m)))

def Inv (ty : E → R) (s : St R E) : Prop :=
  (∀ r p, s.pending r = some p → ty p.ev = r ∧ ∃ l, of ty r s.log = l ++ [p.ev]) ∧
  (∀ r p, s.pending r = some p → ∀ j ∈ p.seen, j < s.clients.length) ∧
  ∀ r i c, s.clients[i]? = some c → c.live = true → Inv1 ty r s.log (s.pending r) i c

theorem setP_same (f : R → Option (Pending E)) (r : R) (p : Option (Pending E)) : setP f r p r = p := by unfold setP; rw [if_pos rfl]
theorem setP_ne (f : R → Option (Pending E)) {r r' : R} (h : r' ≠ r) (p : Option (Pending E)) : setP f r p r' = f r' := by unfold setP; rw [if_neg h]

theorem complete_sent {ty : E → R} {r : R} {log snap sent sent' : List E} (h : of ty r sent = of ty r sent') (hc : Complete ty r log snap sent) :
    Complete ty r log snap sent' := by
  obtain ⟨k, h1, h2, h3⟩ := hc
  exact ⟨k, h1, h2, by rw [h3, h]⟩

theorem complete_log {ty : E → R} {r : R} {log log' snap sent : List E} (h : of ty r log = of ty r log') (hc : Complete ty r log snap sent) :
    Complete ty r log' snap sent := by
  obtain ⟨k, h1, h2, h3⟩ := hc
  exact ⟨k, h1, h2, by rw [← h, h3]⟩

theorem inv_step {ty : E → R} {s s' : St R E} (h : Inv ty s) (hs : Step ty s s') : Inv ty s' := by
  obtain ⟨hp, hseen, hc⟩ := h
  cases hs with
  | apply e h0 =>
    refine ⟨?_, ?_, ?_⟩
    · intro r p hr
      by_cases he : r = ty e
      · subst he
        simp only [setP_same] at hr
        cases hr
        refine ⟨rfl, of ty (ty e) s.log, ?_⟩
        rw [of_append, of_one, if_pos rfl]
      · simp only [setP_ne _ he] at hr
        obtain ⟨h1, l, h2⟩ := hp r p hr
        refine ⟨h1, l, ?_⟩
        rw [of_append, of_one, if_neg (fun x => he x.symm), List.append_nil, h2]
    · intro r p hr j hj
      by_cases he : r = ty e
      · subst he
        simp only [setP_same] at hr
        cases hr
        cases hj
      · simp only [setP_ne _ he] at hr
        exact hseen r p hr j hj
    · intro r i c hi hl
      have hold := hc r i c hi hl
      obtain ⟨t, ht⟩ := hold.1
      refine ⟨⟨t ++ [e], by simp [ht]⟩, ?_⟩
      have h2 := hold.2
      by_cases he : r = ty e
      · subst he
        rw [h0] at h2
        simp only [setP_same]
        refine Or.inr ⟨by simp, Or.inr ⟨?_, by simp⟩⟩
        obtain ⟨k, h3, h4, h5⟩ := h2
        refine ⟨k, h3, h4, ?_⟩
        rw [of_append, of_append, List.drop_append_of_le_length, h5]
        have hl' : (of ty (ty e) c.snap).length ≤ (of ty (ty e) s.log).length := by
          rw [ht, of_append, List.length_append]; omega
        omega
      · have hlog : of ty r s.log = of ty r (s.log ++ [e]) := by
          rw [of_append, of_one, if_neg (fun x => he x.symm), List.append_nil]
        simp only [setP_ne _ he]
        cases hpr : s.pending r with
        | none =>
          rw [hpr] at h2
          exact complete_log hlog h2
        | some p =>
          rw [hpr] at h2
          rcases h2 with ⟨h3, h4⟩ | ⟨h3, h4 | ⟨h4, h5⟩⟩
          · exact Or.inl ⟨h3, complete_log hlog h4⟩
          · exact Or.inr ⟨h3, Or.inl ⟨by rw [h4.1, hlog], h4.2⟩⟩
          · exact Or.inr ⟨h3, Or.inr ⟨complete_log hlog h4, h5⟩⟩
  | begin r0 e h0 =>
    refine ⟨?_, ?_, ?_⟩
    · intro r p hr
      by_cases he : r = r0
      · subst he
        simp only [setP_same] at hr
        cases hr
        have := hp r _ h0
        exact this
      · simp only [setP_ne _ he] at hr
        exact hp r p hr
    · intro r p hr j hj
      by_cases he : r = r0
      · subst he
        simp only [setP_same] at hr
        cases hr
        cases hj
      · simp only [setP_ne _ he] at hr
        exact hseen r p hr j hj
    · intro r i c hi hl
      have hold := hc r i c hi hl
      refine ⟨hold.1, ?_⟩
      have h2 := hold.2
      by_cases he : r = r0
      · subst he
        rw [h0] at h2
        simp only [setP_same]
        rcases h2 with ⟨h3, h4⟩ | ⟨h3, h4 | ⟨h4, h5⟩⟩
        · cases h3
        · exact Or.inr ⟨h3, Or.inl h4⟩
        · refine Or.inr ⟨h3, Or.inr ⟨h4, ?_⟩⟩
          intro m hm
          cases hm
          rw [List.mem_range]
          obtain ⟨hlt, _⟩ := List.getElem?_eq_some_iff.1 hi
          exact hlt
      · simp only [setP_ne _ he]
        exact h2
  | deliver r0 e must seen j c0 h0 hj hlv hns =>
    obtain ⟨hjlt, hje⟩ := List.getElem?_eq_some_iff.1 hj
    obtain ⟨hty, l, hlast⟩ := hp r0 _ h0
    simp only at hty hlast
    refine ⟨?_, ?_, ?_⟩
    · intro r p hr
      by_cases he : r = r0
      · subst he
        simp only [setP_same] at hr
        cases hr
        exact ⟨hty, l, hlast⟩
      · simp only [setP_ne _ he] at hr
        exact hp r p hr
    · intro r p hr i hi
      rw [List.length_set]
      by_cases he : r = r0
      · subst he
        simp only [setP_same] at hr
        cases hr
        rcases List.mem_cons.1 hi with rfl | hi
        · exact hjlt
        · exact hseen r _ h0 i hi
      · simp only [setP_ne _ he] at hr
        exact hseen r p hr i hi
    · intro r i c hi hl
      by_cases hij : i = j
      · subst hij
        rw [List.getElem?_set_self hjlt] at hi
        cases hi
        have hold := hc r i c0 hj hlv
        refine ⟨hold.1, ?_⟩
        have h2 := hold.2
        by_cases he : r = r0
        · subst he
          rw [h0] at h2
          simp only [setP_same]
          refine Or.inl ⟨by simp, ?_⟩
          rcases h2 with ⟨h3, _⟩ | ⟨_, ⟨h4, h5⟩ | ⟨h4, _⟩⟩
          · exact absurd h3 hns
          · refine ⟨1, Nat.le_refl _, ?_, ?_⟩
            · simp only [h4, hlast, List.length_append, List.length_cons, List.length_nil]; omega
            · simp only [h4, of_append, of_one, hty, h5, hlast, List.nil_append, if_true, List.length_append, List.length_cons,
                List.length_nil, Nat.zero_add, Nat.add_sub_cancel, List.drop_left]
          · exact h4
        · simp only [setP_ne _ he]
          have hsent : of ty r c0.sent = of ty r (c0.sent ++ [e]) := by
            rw [of_append, of_one, if_neg (fun x => he (x.symm.trans hty)), List.append_nil]
          cases hpr : s.pending r with
          | none =>
            rw [hpr] at h2
            exact complete_sent hsent h2
          | some p =>
            rw [hpr] at h2
            rcases h2 with ⟨h3, h4⟩ | ⟨h3, h4 | ⟨h4, h5⟩⟩
            · exact Or.inl ⟨h3, complete_sent hsent h4⟩
            · exact Or.inr ⟨h3, Or.inl ⟨h4.1, by rw [← hsent]; exact h4.2⟩⟩
            · refine Or.inr ⟨h3, Or.inr ⟨complete_sent ?_ h4, h5⟩⟩
              rw [of_append, of_append ty r (c0.sent ++ [e]), hsent]
      · rw [List.getElem?_set_ne (fun x => hij x.symm)] at hi
        have hold := hc r i c hi hl
        refine ⟨hold.1, ?_⟩
        have h2 := hold.2
        by_cases he : r = r0
        · subst he
          rw [h0] at h2
          simp only [setP_same]
          rcases h2 with ⟨h3, h4⟩ | ⟨h3, h4⟩
          · exact Or.inl ⟨List.mem_cons_of_mem _ h3, h4⟩
          · refine Or.inr ⟨?_, h4⟩
            simp only [List.mem_cons, not_or]
            exact ⟨hij, h3⟩
        · simp only [setP_ne _ he]
          exact h2
  | finish r0 e must seen h0 hd =>
    refine ⟨?_, ?_, ?_⟩
    · intro r p hr
      by_cases he : r = r0
      · subst he
        simp only [setP_same] at hr
        cases hr
      · simp only [setP_ne _ he] at hr
        exact hp r p hr
    · intro r p hr j hj
      by_cases he : r = r0
      · subst he
        simp only [setP_same] at hr
        cases hr
      · simp only [setP_ne _ he] at hr
        exact hseen r p hr j hj
    · intro r i c hi hl
      have hold := hc r i c hi hl
      refine ⟨hold.1, ?_⟩
      have h2 := hold.2
      by_cases he : r = r0
      · subst he
        rw [h0] at h2
        simp only [setP_same]
        rcases h2 with ⟨_, h4⟩ | ⟨h3, ⟨h4, h5⟩ | ⟨_, h5⟩⟩
        · exact h4
        · refine ⟨0, by omega, by omega, ?_⟩
          rw [h4, h5, Nat.sub_zero, List.drop_length]
        · exact absurd (hd i (h5 must rfl) ⟨c, hi, hl⟩) h3
      · simp only [setP_ne _ he]
        exact h2
  | connect =>
    refine ⟨hp, ?_, ?_⟩
    · intro r p hr j hj
      have := hseen r p hr j hj
      rw [List.length_append]
      omega
    · intro r i c hi hl
      by_cases hlt : i < s.clients.length
      · rw [List.getElem?_append_left hlt] at hi
        exact hc r i c hi hl
      · rw [List.getElem?_append_right (by omega)] at hi
        have : i - s.clients.length = 0 := by
          by_cases h0 : i - s.clients.length = 0
          · exact h0
          · rw [List.getElem?_eq_none (by simp only [List.length_cons, List.length_nil]; omega)] at hi
            cases hi
        rw [this] at hi
        cases hi
        refine ⟨⟨[], by simp⟩, ?_⟩
        have hcomp : Complete ty r s.log s.log [] := by
          refine ⟨0, by omega, by omega, ?_⟩
          rw [Nat.sub_zero, List.drop_length]
          rfl
        cases hpr : s.pending r with
        | none => exact hcomp
        | some p =>
          refine Or.inr ⟨?_, Or.inl ⟨rfl, rfl⟩⟩
          intro hm
          have := hseen r p hpr i hm
          omega
  | leave j c0 hj =>
    obtain ⟨hjlt, _⟩ := List.getElem?_eq_some_iff.1 hj
    refine ⟨hp, ?_, ?_⟩
    · intro r p hr i hi
      rw [List.length_set]
      exact hseen r p hr i hi
    · intro r i c hi hl
      by_cases hij : i = j
      · subst hij
        rw [List.getElem?_set_self hjlt] at hi
        cases hi
        cases hl
      · rw [List.getElem?_set_ne (fun x => hij x.symm)] at hi
        exact hc r i c hi hl

theorem inv_reach {ty : E → R} {s : St R E} (h : Reach ty s) : Inv ty s := by
  induction h with
  | start =>
    refine ⟨?_, ?_, ?_⟩
    · intro r p hr; cases hr
    · intro r p hr; cases hr
    · intro r i c hi; simp [Provider.start] at hi
  | step _ hs ih => exact inv_step ih hs

/-- C83.  Between broadcasts of a type of resources, every connected client has got, as snapshot and stream, exactly the
events of this type applied to the cache of the provider, in order; only the last event of the snapshot may come again. -/
theorem client_complete_partial {ty : E → R} {s : St R E} (h : Reach ty s) (r : R) (hq : s.pending r = none) (i : Nat) (c : Client E)
    (hc : s.clients[i]? = some c) (hl : c.live = true) :
    of ty r s.log = of ty r c.snap ++ of ty r c.sent ∨
      ∃ a e b, of ty r c.snap = a ++ [e] ∧ of ty r c.sent = e :: b ∧ of ty r s.log = a ++ e :: b := by
  obtain ⟨⟨t, ht⟩, h2⟩ := (inv_reach h).2.2 r i c hc hl
  rw [hq] at h2
  obtain ⟨k, h3, h4, h5⟩ := h2
  have hlog : of ty r s.log = of ty r c.snap ++ of ty r t := by rw [ht, of_append]
  by_cases hk : k = 0
  · left
    rw [hk, Nat.sub_zero, hlog, List.drop_left] at h5
    rw [hlog, h5]
  · right
    have hk1 : k = 1 := by omega
    subst hk1
    have hne : of ty r c.snap ≠ [] := by
      intro h0
      rw [h0] at h4
      simp at h4
    obtain ⟨a, e, ha⟩ : ∃ a e, of ty r c.snap = a ++ [e] := ⟨_, _, (List.dropLast_concat_getLast hne).symm⟩
    rw [hlog, ha] at h5
    simp only [List.length_append, List.length_cons, List.length_nil, Nat.zero_add, Nat.add_sub_cancel, List.append_assoc, List.drop_left] at h5
    refine ⟨a, e, of ty r t, ha, h5.symm, ?_⟩
    rw [hlog, ha, List.append_assoc]
    rfl

/-- During a broadcast at most the event being sent is missing. -/
theorem client_nearly_complete {ty : E → R} {s : St R E} (h : Reach ty s) (r : R) (p : Pending E) (hq : s.pending r = some p) (i : Nat)
    (c : Client E) (hc : s.clients[i]? = some c) (hl : c.live = true) :
    ∀ e ∈ of ty r s.log, e ∈ c.snap ∨ e ∈ c.sent ∨ e = p.ev := by
  obtain ⟨⟨t, ht⟩, h2⟩ := (inv_reach h).2.2 r i c hc hl
  rw [hq] at h2
  have hlog : of ty r s.log = of ty r c.snap ++ of ty r t := by rw [ht, of_append]
  have mem : ∀ sent : List E, Complete ty r s.log c.snap sent → ∀ e ∈ of ty r s.log, e ∈ c.snap ∨ e ∈ sent := by
    intro sent hcm e he
    obtain ⟨k, h3, h4, h5⟩ := hcm
    rw [← List.take_append_drop ((of ty r c.snap).length - k) (of ty r s.log), List.mem_append, h5] at he
    rcases he with he | he
    · left
      rw [hlog, List.take_append_of_le_length (by omega)] at he
      exact (List.mem_filter.1 (List.mem_of_mem_take he)).1
    · right
      exact (List.mem_filter.1 he).1
  intro e he
  rcases h2 with ⟨_, h4⟩ | ⟨_, ⟨h4, _⟩ | ⟨h4, _⟩⟩
  · rcases mem _ h4 e he with h | h
    · exact Or.inl h
    · exact Or.inr (Or.inl h)
  · left
    rw [← h4] at he
    exact (List.mem_filter.1 he).1
  · rcases mem _ h4 e he with h | h
    · exact Or.inl h
    · rcases List.mem_append.1 h with h | h
      · exact Or.inr (Or.inl h)
      · exact Or.inr (Or.inr (List.mem_singleton.1 h))

/-- A client that never got an event twice in a row differently from once: applying the snapshot and then the stream gives
the state of the provider, for resources whose state depends on their own events only. -/
theorem client_state {ty : E → R} {s : St R E} (h : Reach ty s) (r : R) (hq : s.pending r = none) (i : Nat) (c : Client E)
    (hc : s.clients[i]? = some c) (hl : c.live = true) {σ : Type} (step : σ → E → σ) (hi : ∀ x e, step (step x e) e = step x e) (x : σ) :
    (of ty r c.sent).foldl step ((of ty r c.snap).foldl step x) = (of ty r s.log).foldl step x := by
  rcases client_complete_partial h r hq i c hc hl with he | ⟨a, e, b, h1, h2, h3⟩
  · rw [he, List.foldl_append]
  · rw [h1, h2, h3]
    simp only [List.foldl_append, List.foldl_cons, List.foldl_nil, hi]

/-- Finding: events of different types may reach a client in another order than the cache of the provider saw them. -/
theorem types_reordered (ty : E → R) (a b : E) (hab : ty a ≠ ty b) :
    ∃ s : St R E, Reach ty s ∧ s.log = [a, b] ∧ (∀ r, s.pending r = none) ∧ ∃ c, s.clients = [c] ∧ c.live = true ∧ c.snap = [] ∧ c.sent = [b, a] := by
  have hba : ty b ≠ ty a := fun h => hab h.symm
  have s0 := Reach.step (Reach.start (ty := ty)) (Step.connect _)
  have s1 := Reach.step s0 (Step.apply _ a rfl)
  have s2 := Reach.step s1 (Step.apply _ b (by simp [setP_ne _ hba, start]))
  have s3 := Reach.step s2 (Step.begin _ (ty b) b (setP_same _ _ _))
  have s4 := Reach.step s3 (Step.deliver _ (ty b) b _ [] 0 ⟨[], [], true⟩ (setP_same _ _ _) rfl rfl (by simp))
  have s5 := Reach.step s4 (Step.finish _ (ty b) b _ _ (setP_same _ _ _) (by
    intro i hi _
    simp only [List.mem_range, start, List.nil_append, List.length_cons, List.length_nil] at hi
    simp only [List.mem_cons, List.not_mem_nil, or_false]
    omega))
  have s6 := Reach.step s5 (Step.begin _ (ty a) a (by simp [setP_ne _ hab, setP_same]))
  have s7 := Reach.step s6 (Step.deliver _ (ty a) a _ [] 0 ⟨[], [b], true⟩ (setP_same _ _ _) rfl rfl (by simp))
  have s8 := Reach.step s7 (Step.finish _ (ty a) a _ _ (setP_same _ _ _) (by
    intro i hi _
    simp only [List.mem_range, start, List.nil_append, List.length_cons, List.length_nil, List.length_set] at hi
    simp only [List.mem_cons, List.not_mem_nil, or_false]
    omega))
  refine ⟨_, s8, rfl, ?_, _, rfl, rfl, rfl, rfl⟩
  intro r
  by_cases h1 : r = ty a
  · rw [h1]; exact setP_same _ _ _
  · simp only [setP_ne _ h1]
    by_cases h2 : r = ty b
    · rw [h2]; exact setP_same _ _ _
    · simp only [setP_ne _ h2, setP_ne _ h1]
      rfl

end Watch

/-! ### Nodes and replica sets of a client -/

open Kindling.K8s.Nodes

/-- The types of resources and their events (service.go:82-115).  Pods and services are left abstract. -/
inductive Ty
  | pod | rs | node | service
deriving DecidableEq

inductive Ev
  | pod (o : Nat)
  | rs (o : ROp)
  | node (o : NOp)
  | service (o : Nat)

def Ev.ty : Ev → Ty
  | .pod _ => .pod
  | .rs _ => .rs
  | .node _ => .node
  | .service _ => .service

def nodeEv : Ev → Option NOp
  | .node o => some o
  | _ => none
def rsEv : Ev → Option ROp
  | .rs o => some o
  | _ => none

/-- The node map of a client: that of the provider at the time of the snapshot (`SetupCache`, k8scache.go:300-340), and
then the events (client.go:68-88, unwrapper_handler.go:85-129). -/
def clientNodes (c : Client Ev) : NodeMap := nrun (nrun [] (c.snap.filterMap nodeEv)) (c.sent.filterMap nodeEv)
def clientRs (c : Client Ev) : RsMap := rrun (rrun [] (c.snap.filterMap rsEv)) (c.sent.filterMap rsEv)

theorem nrun_append (m : NodeMap) (a b : List NOp) : nrun m (a ++ b) = nrun (nrun m a) b := by
  induction a generalizing m with
  | nil => rfl
  | cons o r ih => exact ih _
theorem rrun_append (m : RsMap) (a b : List ROp) : rrun m (a ++ b) = rrun (rrun m a) b := by
  induction a generalizing m with
  | nil => rfl
  | cons o r ih => exact ih _

/-- The same lookups. -/
def Same {K V : Type} [DecidableEq K] (m m' : AMap K V) : Prop := ∀ k, m.get k = m'.get k

theorem nstep_same {m m' : NodeMap} (h : Same m m') (o : NOp) : Same (nstep m o) (nstep m' o) := by
  intro k
  cases o with
  | add n => simp only [nstep, addNode, AMap.get_set, h k]
  | update old new => simp only [nstep, addNode, deleteNode, AMap.get_set, AMap.get_del, h k]
  | delete n => simp only [nstep, deleteNode, AMap.get_del, h k]

theorem nrun_same {m m' : NodeMap} (h : Same m m') (l : List NOp) : Same (nrun m l) (nrun m' l) := by
  induction l generalizing m m' with
  | nil => exact h
  | cons o r ih => exact ih (nstep_same h o)

theorem nstep_twice (m : NodeMap) (o : NOp) : Same (nstep (nstep m o) o) (nstep m o) := by
  intro k
  cases o with
  | add n =>
    simp only [nstep, addNode, AMap.get_set]
    split <;> rfl
  | update old new =>
    simp only [nstep, addNode, deleteNode, AMap.get_set, AMap.get_del]
    split
    · rfl
    · split <;> rfl
  | delete n =>
    simp only [nstep, deleteNode, AMap.get_del]
    split <;> rfl

theorem addRs_same {m m' : RsMap} (h : Same m m') (r : Rs) : Same (addRs m r) (addRs m' r) := by
  unfold addRs
  cases controllerOf r.owners with
  | none => exact h
  | some o => intro k; simp only [AMap.get_set, h k]

theorem rstep_same {m m' : RsMap} (h : Same m m') (o : ROp) : Same (rstep m o) (rstep m' o) := by
  cases o with
  | add r => exact addRs_same h r
  | update old new =>
    simp only [rstep]
    split
    · exact h
    · refine addRs_same ?_ new
      intro k
      simp only [deleteRs, AMap.get_del, h k]
  | delete r => intro k; simp only [rstep, deleteRs, AMap.get_del, h k]

theorem rrun_same {m m' : RsMap} (h : Same m m') (l : List ROp) : Same (rrun m l) (rrun m' l) := by
  induction l generalizing m m' with
  | nil => exact h
  | cons o r ih => exact ih (rstep_same h o)

theorem rstep_twice (m : RsMap) (o : ROp) : Same (rstep (rstep m o) o) (rstep m o) := by
  intro k
  cases o with
  | add r =>
    simp only [rstep, addRs]
    cases controllerOf r.owners with
    | none => rfl
    | some o => simp only [AMap.get_set]; split <;> rfl
  | update old new =>
    simp only [rstep]
    split
    · rfl
    · simp only [addRs]
      cases controllerOf new.owners with
      | none => simp only [deleteRs, AMap.get_del]; split <;> rfl
      | some o =>
        simp only [deleteRs, AMap.get_set, AMap.get_del]
        split
        · rfl
        · split <;> rfl
  | delete r =>
    simp only [rstep, deleteRs, AMap.get_del]
    split <;> rfl

theorem filterMap_of {A : Type} (f : Ev → Option A) (t : Ty) (h : ∀ e, e.ty ≠ t → f e = none) (l : List Ev) :
    l.filterMap f = (of Ev.ty t l).filterMap f := by
  induction l with
  | nil => rfl
  | cons e r ih =>
    by_cases he : e.ty = t
    · simp only [of, List.filter_cons, he, decide_true, if_true, List.filterMap_cons] at ih ⊢
      rw [ih]
    · simp only [of, List.filter_cons, he, decide_false, Bool.false_eq_true, if_false, List.filterMap_cons, h e he] at ih ⊢
      rw [ih]

/-- C83, nodes.  Between broadcasts a client finds the same node for every address as the provider. -/
theorem client_nodes {s : St Ty Ev} (h : Reach Ev.ty s) (hq : s.pending .node = none) (i : Nat) (c : Client Ev) (hc : s.clients[i]? = some c)
    (hl : c.live = true) : Same (clientNodes c) (nrun [] (s.log.filterMap nodeEv)) := by
  have hf : ∀ e : Ev, e.ty ≠ .node → nodeEv e = none := by
    intro e he
    cases e <;> first | rfl | exact absurd rfl he
  unfold clientNodes
  rw [filterMap_of nodeEv .node hf c.snap, filterMap_of nodeEv .node hf c.sent, filterMap_of nodeEv .node hf s.log]
  rcases client_complete_partial h .node hq i c hc hl with he | ⟨a, e, b, h1, h2, h3⟩
  · rw [he, List.filterMap_append, nrun_append]
    intro k; rfl
  · rw [h1, h2, h3]
    simp only [List.filterMap_append, nrun_append]
    cases hn : nodeEv e with
    | none =>
      simp only [List.filterMap_cons, hn, List.filterMap_nil, nrun]
      intro k; rfl
    | some o =>
      simp only [List.filterMap_cons, hn, List.filterMap_nil, nrun]
      exact nrun_same (nstep_twice _ o) _

/-- C83, replica sets. -/
theorem client_replica_sets {s : St Ty Ev} (h : Reach Ev.ty s) (hq : s.pending .rs = none) (i : Nat) (c : Client Ev) (hc : s.clients[i]? = some c)
    (hl : c.live = true) : Same (clientRs c) (rrun [] (s.log.filterMap rsEv)) := by
  have hf : ∀ e : Ev, e.ty ≠ .rs → rsEv e = none := by
    intro e he
    cases e <;> first | rfl | exact absurd rfl he
  unfold clientRs
  rw [filterMap_of rsEv .rs hf c.snap, filterMap_of rsEv .rs hf c.sent, filterMap_of rsEv .rs hf s.log]
  rcases client_complete_partial h .rs hq i c hc hl with he | ⟨a, e, b, h1, h2, h3⟩
  · rw [he, List.filterMap_append, rrun_append]
    intro k; rfl
  · rw [h1, h2, h3]
    simp only [List.filterMap_append, rrun_append]
    cases hn : rsEv e with
    | none =>
      simp only [List.filterMap_cons, hn, List.filterMap_nil, rrun]
      intro k; rfl
    | some o =>
      simp only [List.filterMap_cons, hn, List.filterMap_nil, rrun]
      exact rrun_same (rstep_twice _ o) _

/-! ### Counting clients -/

/-- `historyClientCount`, `historyDisconnectClientCount`, the ids in `flushersMap`, and the watchers whose `isClosed` is set
(service.go:228-246). -/
structure Reg where
  added : Nat
  removed : Nat
  ids : List Nat
  closed : List Nat

/-- `AddFlusher` (service.go:234-238). -/
def addFlusher (s : Reg) : Reg := { s with added := s.added + 1, ids := s.ids ++ [s.added + 1] }
/-- `RemoveFlusher` (service.go:240-250); the broadcast and the handler of the request may both call it. -/
def removeFlusher (s : Reg) (id : Nat) : Reg :=
  if id ∈ s.closed then s else { s with removed := s.removed + 1, ids := s.ids.filter (· ≠ id), closed := id :: s.closed }

inductive RReach : Reg → Prop
  | start : RReach ⟨0, 0, [], []⟩
  | add {s : Reg} : RReach s → RReach (addFlusher s)
  | remove {s : Reg} (id : Nat) (h : 0 < id ∧ id ≤ s.added) : RReach s → RReach (removeFlusher s id)

/-- The watcher size that is logged is the number of registered clients, however often clients are removed. -/
theorem watcher_size {s : Reg} (h : RReach s) : s.added = s.removed + s.ids.length ∧ s.ids.Nodup ∧
    (∀ i, i ∈ s.ids ↔ (0 < i ∧ i ≤ s.added ∧ i ∉ s.closed)) := by
  suffices hh : s.added = s.removed + s.ids.length ∧ s.ids.Nodup ∧ (∀ i, i ∈ s.ids ↔ (0 < i ∧ i ≤ s.added ∧ i ∉ s.closed)) ∧
      ∀ i ∈ s.closed, i ≤ s.added from ⟨hh.1, hh.2.1, hh.2.2.1⟩
  induction h with
  | start => refine ⟨rfl, List.nodup_nil, ?_, ?_⟩ <;> simp; omega
  | @add s _ ih =>
    obtain ⟨h1, h2, h3, h4⟩ := ih
    refine ⟨?_, ?_, ?_, ?_⟩
    · simp only [addFlusher, List.length_append, List.length_cons, List.length_nil]; omega
    · simp only [addFlusher]
      rw [List.nodup_append]
      refine ⟨h2, by simp, ?_⟩
      intro a ha b hb
      rw [List.mem_singleton] at hb
      have := (h3 a).1 ha
      omega
    · intro i
      simp only [addFlusher, List.mem_append, List.mem_singleton, h3 i]
      constructor
      · rintro (⟨a, b, c⟩ | rfl)
        · exact ⟨a, by omega, c⟩
        · exact ⟨by omega, by omega, fun hc => by have := h4 _ hc; omega⟩
      · rintro ⟨a, b, c⟩
        by_cases hi : i = s.added + 1
        · exact Or.inr hi
        · exact Or.inl ⟨a, by omega, c⟩
    · intro i hi
      have := h4 i hi
      simp only [addFlusher]; omega
  | @remove s id hid _ ih =>
    obtain ⟨h1, h2, h3, h4⟩ := ih
    unfold removeFlusher
    by_cases hc : id ∈ s.closed
    · rw [if_pos hc]; exact ⟨h1, h2, h3, h4⟩
    · rw [if_neg hc]
      have hmem : id ∈ s.ids := (h3 id).2 ⟨hid.1, hid.2, hc⟩
      have hlen : (s.ids.filter (· ≠ id)).length + 1 = s.ids.length := by
        have e : s.ids.filter (· ≠ id) = s.ids.erase id := by
          rw [List.Nodup.erase_eq_filter h2]
          apply List.filter_congr
          intro x _
          simp only [ne_eq, decide_not, bne, Bool.not_eq_eq_eq_not]
          by_cases hx : x = id <;> simp [hx]
        rw [e, List.length_erase_of_mem hmem]
        have := List.length_pos_of_mem hmem
        omega
      refine ⟨?_, h2.filter _, ?_, ?_⟩
      · simp only; omega
      · intro i
        simp only [List.mem_filter, h3 i, List.mem_cons, not_or, decide_eq_true_eq]
        constructor
        · rintro ⟨⟨a, b, c⟩, d⟩; exact ⟨a, b, d, c⟩
        · rintro ⟨a, b, d, c⟩; exact ⟨⟨a, b, c⟩, d⟩
      · intro i hi
        rcases List.mem_cons.1 hi with rfl | hi
        · exact hid.2
        · exact h4 i hi

/-! ### Tombstones -/

/-- A deleted object as the informer hands it over: the pod, or `DeletedFinalStateUnknown` with the last known pod. -/
inductive Deleted (P : Type)
  | pod (p : P)
  | unknown (p : P)

/-- `DeletePod` of the provider (pod_watch.go:430-443). -/
def serverDeletes {P : Type} : Deleted P → P
  | .pod p => p
  | .unknown p => p

/-- What the client deletes: the JSON of a tombstone has the fields `Key` and `Obj` only, so that `json.Unmarshal` leaves the
pod empty (unwrapper_handler.go:32-36, 117-124). -/
def clientDeletes {P : Type} (zero : P) : Deleted P → P
  | .pod p => p
  | .unknown _ => zero

/-- Finding: a client deletes what the provider deletes unless the informer missed the deletion itself; then it deletes the
empty pod and keeps the real one. -/
theorem tombstone_lost {P : Type} (zero : P) (d : Deleted P) :
    clientDeletes zero d = serverDeletes d ∨ ∃ p, d = .unknown p ∧ clientDeletes zero d = zero := by
  cases d with
  | pod p => exact Or.inl rfl
  | unknown p => exact Or.inr ⟨p, rfl, rfl⟩

/-! ### Retrying -/

/-- The inner loop of `watchFromMPWithRetry` (initk8s.go:113-130) on the results of the attempts (`true`: no error): the
number of attempts before the pause of a minute.  After a success `i = 0; continue` still increments `i`. -/
def retry : Nat → List Bool → Option Nat
  | i, os => if 3 ≤ i then some 0 else match os with
    | [] => none
    | true :: r => (retry 1 r).map (· + 1)
    | false :: r => (retry (i + 1) r).map (· + 1)

theorem retry_three (os : List Bool) : retry 3 os = some 0 := by unfold retry; rw [if_pos (Nat.le_refl 3)]

/-- Without a success there are three attempts. -/
theorem three_attempts (os : List Bool) : retry 0 (false :: false :: false :: os) = some 3 ∧ retry 0 [false, false] = none := by
  constructor
  · simp [retry, retry_three]
  · simp [retry]

/-- Finding: after a success there are only two before the pause. -/
theorem two_attempts_after_success (i : Nat) (pre os : List Bool) (h : retry i pre = none) :
    retry i (pre ++ true :: false :: false :: os) = some (pre.length + 3) := by
  induction pre generalizing i with
  | nil =>
    have hi : ¬ 3 ≤ i := by
      intro hi
      unfold retry at h
      rw [if_pos hi] at h
      cases h
    rw [List.nil_append]
    unfold retry
    rw [if_neg hi]
    simp [retry, retry_three]
  | cons b r ih =>
    have hi : ¬ 3 ≤ i := by
      intro hi
      unfold retry at h
      rw [if_pos hi] at h
      cases h
    unfold retry at h ⊢
    rw [if_neg hi] at h ⊢
    cases b with
    | true =>
      simp only [List.cons_append, Option.map_eq_none_iff] at h ⊢
      rw [ih 1 h]
      simp
    | false =>
      simp only [List.cons_append, Option.map_eq_none_iff] at h ⊢
      rw [ih (i + 1) h]
      simp

/-! ### Examples -/

example : ∃ s : St Ty Ev, Reach Ev.ty s ∧ s.pending .node = none ∧ ∃ c, s.clients = [c] ∧ c.snap = [.node (.add node1)] ∧
    c.sent = [.node (.add node1)] ∧ s.log = [.node (.add node1)] := by
  have s1 := Reach.step (Reach.start (ty := Ev.ty)) (Step.apply _ (.node (.add node1)) rfl)
  have s2 := Reach.step s1 (Step.connect _)
  have s3 := Reach.step s2 (Step.begin _ .node (.node (.add node1)) rfl)
  have s4 := Reach.step s3 (Step.deliver _ .node (.node (.add node1)) _ [] 0 ⟨[.node (.add node1)], [], true⟩ rfl rfl rfl (by simp))
  have s5 := Reach.step s4 (Step.finish _ .node (.node (.add node1)) _ _ rfl (by
    intro i hi _
    simp only [List.mem_range, start, List.nil_append, List.length_cons, List.length_nil] at hi
    simp only [List.mem_cons, List.not_mem_nil, or_false]
    omega))
  exact ⟨_, s5, rfl, _, rfl, rfl, rfl, rfl⟩
example : retry 0 [false, true, false, false, true] = some 4 := by decide
example : RReach (removeFlusher (removeFlusher (addFlusher ⟨0, 0, [], []⟩) 1) 1) :=
  .remove 1 ⟨by decide, by decide⟩ (.remove 1 ⟨by decide, by decide⟩ (.add .start))

end Kindling.K8s.Provider
