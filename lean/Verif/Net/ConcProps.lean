import Verif.Net.ConcInv
/-
C06 and C07 for every interleaving of the consumer and the timeout scanner.
-/
namespace Kindling.Net.Conc
open Kindling Kindling.Net

/-- Neither goroutine is in the middle of an event. -/
def Quiet (s : S) : Prop := s.c = .idle ∧ s.t = .idle

/-- C06: whatever the interleaving, no exchange is handed to the next consumer twice. -/
theorem reported_at_most_once {cfg : Cfg} {s : S} (h : Reachable cfg s) (id : Nat) : s.reports.count id ≤ 1 := by
  have := (inv_reachable h).once id; omega

/-- C06: an exchange that was ever stored in the monitor is, whenever both goroutines are between events,
either still stored under its socket (and not yet reported) or it has been reported exactly once.  (Missing:
"reported" means handed to `distributeTraceMetric`; an exchange of an HTTP 100-continue response yields no
record there, `continue_exchange_lost_on_timeout`.) -/
theorem stored_exchange_reported_or_pending_partial {cfg : Cfg} {s : S} (h : Reachable cfg s) (hq : Quiet s)
    (id : Nat) (hb : s.born id = true) :
    s.reports.count id = 1 ∨ (s.reports.count id = 0 ∧ AMap.get s.map (s.home id) = some id) := by
  have hi := inv_reachable h
  have ho := hi.once id
  simp only [cPend, tPend, hq.1, hq.2] at ho
  by_cases h0 : s.sent id = 0
  · right; exact ⟨by omega, hi.stored id hb h0⟩
  · left; omega

/-- C06: nothing is reported that was not stored before. -/
theorem only_stored_exchanges_reported {cfg : Cfg} {s : S} (h : Reachable cfg s) (id : Nat) (hr : id ∈ s.reports) :
    s.born id = true := by
  have hi := inv_reachable h
  have ho := hi.once id
  have hc : 0 < s.reports.count id := List.count_pos_iff.mpr hr
  cases hb : s.born id with
  | true => rfl
  | false => have := hi.unborn id hb; omega

/-- C07: between events the gauge is the number of stored exchanges not yet reported.  (Missing from the full
claim: `gauge_disagrees_with_map` — the map can also hold an exchange that was already reported.) -/
theorem gauge_counts_unreported_partial {cfg : Cfg} {s : S} (h : Reachable cfg s) (hq : Quiet s) :
    s.size = (s.map.filter (fun p => decide (p.2 ∉ s.reports))).length := by
  have hi := inv_reachable h
  have hg := hi.gauge
  simp only [hq.1, hq.2, gAdd, gStore, gDec, Int.add_zero] at hg
  rw [hg, List.countP_eq_length_filter]
  congr 2
  apply List.filter_congr
  intro p _
  have ho := hi.once p.2
  simp only [cPend, tPend, hq.1, hq.2] at ho
  by_cases h0 : s.sent p.2 = 0
  · have : p.2 ∉ s.reports := by
      intro hm; have := List.count_pos_iff.mpr hm; omega
    simp [unsent, h0, this]
  · have : p.2 ∈ s.reports := List.count_pos_iff.mp (by omega)
    simp [unsent, h0, this]

/-- C07: the gauge is never negative between events. -/
theorem gauge_nonneg {cfg : Cfg} {s : S} (h : Reachable cfg s) (hq : Quiet s) : 0 ≤ s.size := by
  rw [gauge_counts_unreported_partial h hq]; omega

/-! ## Where the code falls short -/

def wreq : Evt := { pid := 1, fd := 3, ts := 1000000000, latency := 1, res := 4, data := bs "ping" }
def wresp : Evt := { pid := 1, fd := 3, ts := 1000000100, latency := 1, res := 4, data := bs "pong" }
def wreq2 : Evt := { pid := 1, fd := 3, ts := 900000000000, latency := 1, res := 4, data := bs "next" }
def wcfg : Cfg := { snaplen := 200 }

/-- The consumer handles a request and its response; while it handles a further fragment of the response the
scanner flushes the exchange; then the consumer stores the flushed exchange again (network_analyzer.go:433). -/
def zombieRun : List Act :=
  [.request wreq, .consumer, .response wresp, .consumer, .consumer,
   .response wresp, .pick ⟨1, 3⟩ 900000000000, .scanner, .scanner, .scanner, .scanner, .scanner,
   .consumer, .consumer]

/-- Is the state quiet with one stored, already reported exchange of key ⟨1,3⟩ (with request and response)? -/
def zombieCheck (s : S) : Bool :=
  decide (s.c = .idle) && decide (s.t = .idle) && decide (AMap.get s.map ⟨1, 3⟩ = some 0) && decide (s.reports = [0])
    && decide (s.size = 0) && decide (s.map.length = 1) && decide (s.sent 0 = 1) && (s.cont 0).requests.isSome && (s.cont 0).responses.isSome

theorem zombie_reachable : ∃ s, Reachable wcfg s ∧ zombieCheck s = true := by
  have h : ∃ s, exec wcfg {} zombieRun = some s ∧ zombieCheck s = true := ⟨_, rfl, by decide⟩
  obtain ⟨s, h1, h2⟩ := h
  exact ⟨s, ⟨_, h1⟩, h2⟩

/-- C07 fails of the code: between events the gauge can be 0 while the monitor stores an exchange. -/
theorem gauge_disagrees_with_map : ∃ s, Reachable wcfg s ∧ Quiet s ∧ s.size ≠ s.map.length := by
  obtain ⟨s, hr, hz⟩ := zombie_reachable
  simp only [zombieCheck, Bool.and_eq_true, decide_eq_true_eq] at hz
  refine ⟨s, hr, ⟨hz.1.1.1.1.1.1.1.1, hz.1.1.1.1.1.1.1.2⟩, ?_⟩
  rw [hz.1.1.1.1.2, hz.1.1.1.2]; simp

/-- An exchange with request and response that is stored under `k` although it was reported. -/
structure Stuck (s : S) (k : Key) (id : Nat) : Prop where
  stored : AMap.get s.map k = some id
  claimed : 1 ≤ s.sent id
  full : (s.cont id).requests.isSome ∧ (s.cont id).responses.isSome
  noStore : ∀ o n, s.c = .storeNew o n → s.home o ≠ k
  noReport : ∀ o, s.c = .report o → s.home o ≠ k
  noChk : ∀ o n, s.c = .checkSend o n → s.home o = k → o = id
  tDec : ∀ i, (s.t = .decSize i ∨ s.t = .delete i ∨ s.t = .report i) → s.home i ≠ k
  tPick : ∀ i, (s.t = .checkSend i ∨ ∃ now, s.t = .picked i now) → s.home i = k → i = id

theorem stuck_loadOrStore {s : S} (hi : Inv s) {k : Key} {id : Nat} (h : Stuck s k id) (e : Evt) (p : Pairs)
    (pc : Nat → Nat → CPC) (hpc : (∃ e', pc = .connectOld e') ∨ (∃ e', pc = .requestOld e')) :
    Stuck (loadOrStore s e p pc) k id ∧ (loadOrStore s e p pc).reports = s.reports := by
  obtain ⟨hk, hb⟩ := hi.home k id h.stored
  have hlt := hi.bornLt id hb
  have hne : id ≠ s.next := by omega
  have ht : ∀ i, tHand s = some i → i ≠ s.next := by
    intro i hi'; have := hi.bornLt i (hi.thand i hi'); omega
  refine ⟨?_, by simp only [loadOrStore]; split <;> rfl⟩
  simp only [loadOrStore]
  split
  · rename_i hg
    constructor
    · simp only []
      rw [AMap.get_set_ne]; exact h.stored
      rintro rfl; rw [h.stored] at hg; cases hg
    · simp only [upd_ne _ _ hne]; exact h.claimed
    · simp only [upd_ne _ _ hne]; exact h.full
    · intro o n ho; simp at ho
    · intro o ho; simp at ho
    · intro o n ho; simp at ho
    · intro i hh
      have hh' : s.t = .decSize i ∨ s.t = .delete i ∨ s.t = .report i := hh
      simp only [upd_ne _ _ (ht i (by rcases hh' with e | e | e <;> simp [tHand, e]))]
      exact h.tDec i hh
    · intro i hh hhome
      have hh' : s.t = .checkSend i ∨ ∃ now, s.t = .picked i now := hh
      simp only [upd_ne _ _ (ht i (by rcases hh' with e | ⟨_, e⟩ <;> simp [tHand, e]))] at hhome
      exact h.tPick i hh hhome
  · rename_i old hg
    constructor
    · exact h.stored
    · simp only [upd_ne _ _ hne]; exact h.claimed
    · simp only [upd_ne _ _ hne]; exact h.full
    · intro o n ho; rcases hpc with ⟨_, rfl⟩ | ⟨_, rfl⟩ <;> simp at ho
    · intro o ho; rcases hpc with ⟨_, rfl⟩ | ⟨_, rfl⟩ <;> simp at ho
    · intro o n ho; rcases hpc with ⟨_, rfl⟩ | ⟨_, rfl⟩ <;> simp at ho
    · intro i hh
      have hh' : s.t = .decSize i ∨ s.t = .delete i ∨ s.t = .report i := hh
      simp only [upd_ne _ _ (ht i (by rcases hh' with e | e | e <;> simp [tHand, e]))]
      exact h.tDec i hh
    · intro i hh hhome
      have hh' : s.t = .checkSend i ∨ ∃ now, s.t = .picked i now := hh
      simp only [upd_ne _ _ (ht i (by rcases hh' with e | ⟨_, e⟩ <;> simp [tHand, e]))] at hhome
      exact h.tPick i hh hhome

/-- The consumer's old exchange under `k` is the stuck one. -/
theorem stuck_old {s : S} (hi : Inv s) {k : Key} {id : Nat} (h : Stuck s k id) {o : Nat} (ho : cOld s = some o)
    (hr : ∀ o, s.c ≠ .report o) (hk : s.home o = k) : o = id := by
  have := hi.place o ho hr
  rw [hk, h.stored] at this
  rcases this with e | e <;> simp at e
  exact e.symm

/-- What one step adds to the reports has another home than `k`. -/
def Adds (s s' : S) (k : Key) : Prop :=
  s'.reports = s.reports ∨ ∃ o, s'.reports = o :: s.reports ∧ s'.home o ≠ k

theorem stuck_act {cfg : Cfg} {s s' : S} (hi : Inv s) {k : Key} {id : Nat} (h : Stuck s k id) (a : Act)
    (hs : act cfg s a = some s') : Stuck s' k id ∧ Adds s s' k := by
  obtain ⟨hk, hb⟩ := hi.home k id h.stored
  cases a with
  | connect e =>
    simp only [act] at hs
    split at hs
    · cases hs
      obtain ⟨h1, h2⟩ := stuck_loadOrStore hi h e _ (.connectOld e) (.inl ⟨e, rfl⟩)
      exact ⟨h1, .inl h2⟩
    · simp at hs
  | request e =>
    simp only [act] at hs
    split at hs
    · cases hs
      obtain ⟨h1, h2⟩ := stuck_loadOrStore hi h e _ (.requestOld e) (.inr ⟨e, rfl⟩)
      exact ⟨h1, .inl h2⟩
    · simp at hs
  | response e =>
    simp only [act] at hs
    split at hs
    · split at hs
      · cases hs; exact ⟨h, .inl rfl⟩
      · cases hs
        exact ⟨⟨h.stored, h.claimed, h.full, by simp, by simp, by simp, h.tDec, h.tPick⟩, .inl rfl⟩
    · simp at hs
  | pick k' now =>
    simp only [act] at hs
    split at hs
    · split at hs
      · cases hs; exact ⟨h, .inl rfl⟩
      · rename_i j hg
        cases hs
        obtain ⟨hj, _⟩ := hi.home k' j hg
        refine ⟨⟨h.stored, h.claimed, h.full, h.noStore, h.noReport, h.noChk, by simp, ?_⟩, .inl rfl⟩
        rintro i (e | ⟨_, e⟩) hh
        · simp at e
        · simp only [TPC.picked.injEq] at e
          obtain ⟨rfl, _⟩ := e
          have hh' : s.home j = k := hh
          rw [hj] at hh'; subst hh'
          rw [h.stored] at hg; simpa using hg.symm
    · simp at hs
  | consumer =>
    simp only [act, consumerStep] at hs
    split at hs
    · simp at hs
    · cases hs
      exact ⟨⟨h.stored, h.claimed, h.full, by simp, by simp, by simp, h.tDec, h.tPick⟩, .inl rfl⟩
    · rename_i e old new hc
      cases hs
      simp only [decideConnect]
      have hco : cOld s = some old := by simp [cOld, hc]
      have hold : s.home old = k → old = id := stuck_old hi h hco (by simp [hc])
      have chk : Stuck { s with c := .checkSend old new } k id :=
        ⟨h.stored, h.claimed, h.full, by simp, by simp,
          fun o n ho hh => by simp only [CPC.checkSend.injEq] at ho; obtain ⟨rfl, rfl⟩ := ho; exact hold hh, h.tDec, h.tPick⟩
      split
      · rename_i hrq hcn
        split
        · exact ⟨chk, .inl rfl⟩
        · have hne : id ≠ old := by rintro rfl; have := h.full.1; rw [hrq] at this; simp at this
          exact ⟨⟨h.stored, h.claimed, by simp only [upd_ne _ _ hne]; exact h.full, by simp, by simp, by simp, h.tDec, h.tPick⟩, .inl rfl⟩
      · exact ⟨chk, .inl rfl⟩
    · rename_i e old new hc
      cases hs
      simp only [decideRequest]
      have hco : cOld s = some old := by simp [cOld, hc]
      have hold : s.home old = k → old = id := stuck_old hi h hco (by simp [hc])
      have hbo := hi.cold old hco
      have hne0 := hi.nonempty old (hi.bornLt old hbo)
      split
      · rename_i hrq
        have hne : id ≠ old := by rintro rfl; have := h.full.1; rw [hrq] at this; simp at this
        split
        · rename_i hcn
          rcases hne0 with e | e
          · simp [hcn] at e
          · simp [hrq] at e
        · exact ⟨⟨h.stored, h.claimed, by simp only [upd_ne _ _ hne]; exact h.full, by simp, by simp, by simp, h.tDec, h.tPick⟩, .inl rfl⟩
      · rename_i r hrq
        split
        · exact ⟨⟨h.stored, h.claimed, h.full, by simp, by simp,
            fun o n ho hh => by simp only [CPC.checkSend.injEq] at ho; obtain ⟨rfl, rfl⟩ := ho; exact hold hh, h.tDec, h.tPick⟩, .inl rfl⟩
        · rename_i hcond
          have hne : id ≠ old := by
            rintro rfl
            have := h.full.2
            simp [this] at hcond
          exact ⟨⟨h.stored, h.claimed, by simp only [upd_ne _ _ hne]; exact h.full, by simp, by simp, by simp, h.tDec, h.tPick⟩, .inl rfl⟩
    · rename_i e old hc
      cases hs
      simp only [decideResponse]
      split
      · exact ⟨⟨h.stored, h.claimed, h.full, by simp, by simp, by simp, h.tDec, h.tPick⟩, .inl rfl⟩
      · rename_i r hrq
        refine ⟨⟨h.stored, h.claimed, ?_, by simp, by simp, by simp, h.tDec, h.tPick⟩, .inl rfl⟩
        simp only [upd_apply]
        split
        · rename_i he; subst he
          simp [Pairs.mergeResponse, hrq]
        · exact h.full
    · rename_i old new hc
      cases hs
      have hco : cOld s = some old := by simp [cOld, hc]
      have hold := h.noChk old new hc
      refine ⟨⟨h.stored, ?_, h.full, ?_, ?_, ?_, h.tDec, h.tPick⟩, .inl rfl⟩
      · simp only [upd_apply]; split
        · omega
        · exact h.claimed
      · intro o n ho
        split at ho
        · rename_i h1
          simp only [CPC.storeNew.injEq] at ho
          obtain ⟨rfl, rfl⟩ := ho
          intro hh
          have := hold hh; subst this
          have := h.claimed; omega
        · simp at ho
      · intro o ho; split at ho <;> simp at ho
      · intro o n ho; split at ho <;> simp at ho
    · rename_i old new hc
      cases hs
      have hco : cOld s = some old := by simp [cOld, hc]
      have hhm := hi.sameHome old new hco (by simp [cNew, hc])
      have hno := h.noStore old new hc
      refine ⟨⟨?_, h.claimed, h.full, by simp, ?_, by simp, h.tDec, h.tPick⟩, .inl rfl⟩
      · simp only []
        rw [AMap.get_set_ne]; exact h.stored
        rw [← hhm]; exact hno
      · intro o ho
        simp only [CPC.report.injEq] at ho; subst ho; exact hno
    · rename_i old hc
      cases hs
      have hco : cOld s = some old := by simp [cOld, hc]
      refine ⟨⟨?_, h.claimed, h.full, by simp, by simp, by simp, h.tDec, h.tPick⟩, .inl rfl⟩
      simp only []
      by_cases hh : s.home old = k
      · have := stuck_old hi h hco (by simp [hc]) hh
        rw [hh, this]; simp
      · rw [AMap.get_set_ne _ _ hh]; exact h.stored
    · rename_i old hc
      cases hs
      exact ⟨⟨h.stored, h.claimed, h.full, by simp, by simp, by simp, h.tDec, h.tPick⟩, .inr ⟨old, rfl, h.noReport old hc⟩⟩
  | scanner =>
    simp only [act, scannerStep] at hs
    split at hs
    · simp at hs
    · rename_i j now ht
      cases hs
      refine ⟨⟨h.stored, h.claimed, h.full, h.noStore, h.noReport, h.noChk, ?_, ?_⟩, .inl rfl⟩
      · intro i hh; simp only [] at hh; split at hh <;> simp at hh
      · intro i hh hhome
        simp only [] at hh
        split at hh
        · have hji : j = i := by rcases hh with e | ⟨_, e⟩ <;> simp at e; exact e
          subst hji; exact h.tPick j (.inr ⟨now, ht⟩) hhome
        · simp at hh
    · rename_i j ht
      cases hs
      refine ⟨⟨h.stored, ?_, h.full, h.noStore, h.noReport, h.noChk, ?_, ?_⟩, .inl rfl⟩
      · simp only [upd_apply]; split
        · omega
        · exact h.claimed
      · intro i hh hhome
        simp only [] at hh
        split at hh
        · rename_i h1
          have hji : j = i := by rcases hh with e | e | e <;> simp at e; exact e
          subst hji
          have := h.tPick j (.inl ht) hhome
          subst this
          have := h.claimed; omega
        · simp at hh
      · intro i hh; simp only [] at hh; split at hh <;> simp at hh
    · rename_i j ht
      cases hs
      have hj := h.tDec j (.inl ht)
      refine ⟨⟨h.stored, h.claimed, h.full, h.noStore, h.noReport, h.noChk, ?_, ?_⟩, .inl rfl⟩
      · intro i hh
        have hji : j = i := by rcases hh with e | e | e <;> simp at e; exact e
        subst hji; exact hj
      · intro i hh; simp at hh
    · rename_i j ht
      cases hs
      have hj := h.tDec j (.inr (.inl ht))
      refine ⟨⟨?_, h.claimed, h.full, h.noStore, h.noReport, h.noChk, ?_, ?_⟩, .inl rfl⟩
      · simp only [AMap.get_del_ne _ hj]; exact h.stored
      · intro i hh
        have hji : j = i := by rcases hh with e | e | e <;> simp at e; exact e
        subst hji; exact hj
      · intro i hh; simp at hh
    · rename_i j ht
      cases hs
      have hj := h.tDec j (.inr (.inr ht))
      exact ⟨⟨h.stored, h.claimed, h.full, h.noStore, h.noReport, h.noChk, by simp, by simp⟩, .inr ⟨j, rfl, hj⟩⟩

theorem act_next_home {cfg : Cfg} {s s' : S} (a : Act) (hs : act cfg s a = some s') :
    s.next ≤ s'.next ∧ ∀ i, i < s.next → s'.home i = s.home i := by
  have lo : ∀ e p pc, s.next ≤ (loadOrStore s e p pc).next ∧ ∀ i, i < s.next → (loadOrStore s e p pc).home i = s.home i := by
    intro e p pc
    simp only [loadOrStore]
    split <;> refine ⟨by simp, fun i hi => ?_⟩ <;> exact upd_ne _ _ (by omega)
  cases a with
  | connect e => simp only [act] at hs; split at hs <;> simp at hs; subst hs; exact lo _ _ _
  | request e => simp only [act] at hs; split at hs <;> simp at hs; subst hs; exact lo _ _ _
  | response e =>
    simp only [act] at hs
    split at hs
    · split at hs <;> simp at hs <;> subst hs <;> exact ⟨Nat.le_refl _, fun _ _ => rfl⟩
    · simp at hs
  | pick k now =>
    simp only [act] at hs
    split at hs
    · split at hs <;> simp at hs <;> subst hs <;> exact ⟨Nat.le_refl _, fun _ _ => rfl⟩
    · simp at hs
  | scanner =>
    simp only [act, scannerStep] at hs
    split at hs <;> simp at hs <;> subst hs <;> exact ⟨Nat.le_refl _, fun _ _ => rfl⟩
  | consumer =>
    simp only [act, consumerStep] at hs
    split at hs <;> simp at hs <;> subst hs <;>
      first
      | exact ⟨Nat.le_refl _, fun _ _ => rfl⟩
      | (simp only [decideConnect, decideRequest, decideResponse]
         repeat' split
         all_goals exact ⟨Nat.le_refl _, fun _ _ => rfl⟩)

/-- The reports of the socket `k`, newest first. -/
def reportsOf (s : S) (k : Key) : List Nat := s.reports.filter (fun i => decide (s.home i = k))

/-- Once an already reported exchange is stored again, its socket is lost for good: in every continuation
the same exchange stays stored and nothing on that socket is ever reported again. -/
theorem stuck_socket_never_reports {cfg : Cfg} {k : Key} {id : Nat} (as : List Act) {s s' : S} (hr : Reachable cfg s)
    (h : Stuck s k id) (hs : exec cfg s as = some s') :
    AMap.get s'.map k = some id ∧ reportsOf s' k = reportsOf s k := by
  have hi := inv_reachable hr
  clear hr
  induction as generalizing s with
  | nil => simp only [exec, Option.some.injEq] at hs; subst hs; exact ⟨h.stored, rfl⟩
  | cons a r ih =>
    simp only [exec] at hs
    split at hs
    · simp at hs
    · rename_i s1 h1
      obtain ⟨h2, hadd⟩ := stuck_act hi h a h1
      obtain ⟨e1, e2⟩ := ih h2 hs (inv_act a hi h1)
      obtain ⟨hn, hh⟩ := act_next_home a h1
      refine ⟨e1, e2.trans ?_⟩
      have hlt : ∀ i ∈ s.reports, i < s.next := by
        intro i him
        have ho := hi.once i
        have : 0 < s.reports.count i := List.count_pos_iff.mpr him
        cases hb : s.born i with
        | true => exact hi.bornLt i hb
        | false => have := hi.unborn i hb; omega
      have hsame : s.reports.filter (fun i => decide (s1.home i = k)) = s.reports.filter (fun i => decide (s.home i = k)) :=
        List.filter_congr (fun i him => by rw [hh i (hlt i him)])
      rcases hadd with e | ⟨o, e, ho⟩
      · simp only [reportsOf, e]; exact hsame
      · simp only [reportsOf, e, List.filter_cons]
        simp only [ho, decide_false, Bool.false_eq_true, ↓reduceIte]
        exact hsame

/-- Such a state is reachable: after `zombieRun` no continuation ever reports anything on the socket. -/
theorem socket_can_be_lost : ∃ s, Reachable wcfg s ∧ Quiet s ∧
    ∀ as s', exec wcfg s as = some s' → reportsOf s' ⟨1, 3⟩ = reportsOf s ⟨1, 3⟩ := by
  obtain ⟨s, hr, hz⟩ := zombie_reachable
  simp only [zombieCheck, Bool.and_eq_true, decide_eq_true_eq] at hz
  have hc := hz.1.1.1.1.1.1.1.1
  have ht := hz.1.1.1.1.1.1.1.2
  refine ⟨s, hr, ⟨hc, ht⟩, fun as s' hs => ?_⟩
  refine (stuck_socket_never_reports (id := 0) as hr ⟨hz.1.1.1.1.1.1.2, by rw [hz.1.1.2]; exact Nat.le_refl _,
    ⟨hz.1.2, hz.2⟩, by simp [hc], by simp [hc], by simp [hc], by simp [ht], by simp [ht]⟩ hs).2

/-- The consumer takes a request that ends the previous exchange while the scanner flushes that exchange. -/
def lostRun : List Act :=
  [.request wreq, .consumer, .response wresp, .consumer, .consumer,
   .request wreq2, .consumer, .pick ⟨1, 3⟩ 900000000000, .scanner, .scanner, .scanner, .scanner, .scanner, .consumer]

def lostCheck (s : S) : Bool :=
  decide (s.c = .idle) && decide (s.t = .idle) && decide (s.map = []) && decide (s.reports = [0]) &&
    decide ((s.cont 0).requests.map (·.getData) = some (bs "ping")) && decide ((s.cont 1).requests.map (·.getData) = some (bs "next"))

/-- C06 fails of the code for accepted requests: one whose arrival coincides with the flush of the previous
exchange is neither stored nor reported (network_analyzer.go:446-449). -/
theorem request_lost_in_race : ∃ s, exec wcfg {} lostRun = some s ∧ Quiet s ∧ s.map = [] ∧ s.reports = [0] ∧
    (s.cont 0).requests.map (·.getData) = some (bs "ping") ∧ (s.cont 1).requests.map (·.getData) = some (bs "next") := by
  have h : ∃ s, exec wcfg {} lostRun = some s ∧ lostCheck s = true := ⟨_, rfl, by decide⟩
  obtain ⟨s, h1, h2⟩ := h
  simp only [lostCheck, Bool.and_eq_true, decide_eq_true_eq] at h2
  exact ⟨s, h1, ⟨h2.1.1.1.1.1, h2.1.1.1.1.2⟩, h2.1.1.1.2, h2.1.1.2, h2.1.2, h2.2⟩

end Kindling.Net.Conc
