import Verif.Net.Conc
namespace Kindling.Net.Conc
open Kindling Kindling.Net

theorem inv_loadOrStore {s : S} (h : Inv s) (hc : s.c = .idle) (e : Evt) (p : Pairs) (hp : nonEmpty p)
    (pc : Nat → Nat → CPC) (hpc : (∃ e', pc = .connectOld e') ∨ (∃ e', pc = .requestOld e')) : Inv (loadOrStore s e p pc) := by
  have hb : s.born s.next = false := by
    cases hh : s.born s.next with
    | false => rfl
    | true => exact absurd (h.bornLt _ hh) (by omega)
  have h0 : s.sent s.next = 0 := h.unborn _ hb
  have hsent : upd s.sent s.next 0 = s.sent := by
    funext j; simp only [upd_apply]; split
    · rename_i hj; rw [hj, h0]
    · rfl
  have hnb : ∀ id, s.born id = true → id ≠ s.next := by
    intro id hid e; rw [e, hb] at hid; cases hid
  have hhome : ∀ id, s.born id = true → upd s.home s.next (keyOf e) id = s.home id := by
    intro id hid; exact upd_ne _ _ (hnb id hid)
  simp only [loadOrStore, hsent]
  cases hg : AMap.get s.map (keyOf e) with
  | none =>
    simp only []
    have hgau := h.gauge
    have hcp := countP_set (unsent s) s.map (keyOf e) s.next
    constructor
    · exact h.wf.set _ _
    · intro k id hk
      rw [AMap.get_set] at hk
      split at hk
      · rename_i hke; cases hk; simp [hke]
      · obtain ⟨h1, h2⟩ := h.home k id hk
        simp only [hhome id h2, h1, true_and, upd_apply]
        split <;> simp [h2]
    · intro id hid
      simp only [upd_apply] at hid
      split at hid
      · rename_i hj; simp only [hj]; omega
      · have := h.bornLt id hid; simp only []; omega
    · intro id hid
      simp only [upd_apply]
      split
      · exact hp
      · exact h.nonempty id (by simp only [] at hid; omega)
    · intro id
      have := h.once id
      simpa [cPend, tPend, hc] using this
    · intro id hid
      simp only [upd_apply] at hid
      split at hid
      · cases hid
      · exact h.unborn id hid
    · intro id hid; simp [cOld] at hid
    · intro id hid
      have := h.thand id hid
      simp only [upd_apply]; split <;> simp [this]
    · intro n hn; simp [cNew] at hn
    · intro o n ho; simp [cOld] at ho
    · intro id hid hs
      simp only [upd_apply] at hid
      split at hid
      · rename_i hj; subst hj; simp
      · rename_i hj
        simp only [upd_ne _ _ hj]
        have := h.stored id hid hs
        rw [AMap.get_set_ne]
        · exact this
        · intro hk; rw [← hk, hg] at this; cases this
    · intro id ho; simp [cOld] at ho
    · intro o n ho; simp at ho
    · intro id hid
      have hid' : s.t = .decSize id ∨ s.t = .delete id := hid
      have hbid : s.born id = true := h.thand id (by rcases hid' with e | e <;> simp [tHand, e])
      have := h.placeDel id hid'
      simp only [hhome id hbid]
      rw [AMap.get_set_ne]
      · exact this
      · intro hk; rw [← hk, hg] at this; cases this
    · simp only [hc, gAdd, gStore] at hgau
      have hu : unsent s (keyOf e, s.next) = true := by simp [unsent, h0]
      have hun : unsent { s with
          map := s.map.set (keyOf e) s.next, cont := upd s.cont s.next p, home := upd s.home s.next (keyOf e), next := s.next + 1,
          born := upd s.born s.next true, c := CPC.addSize } = unsent s := rfl
      simp only [hg, hu, ↓reduceIte] at hcp
      rw [hun]
      simp only [gAdd, gStore]
      omega
  | some old =>
    simp only []
    obtain ⟨ho1, ho2⟩ := h.home _ _ hg
    have hcold : cOld { s with cont := upd s.cont s.next p, home := upd s.home s.next (keyOf e), next := s.next + 1, c := pc old s.next } = some old := by
      rcases hpc with ⟨e', rfl⟩ | ⟨e', rfl⟩ <;> rfl
    have hcnew : cNew { s with cont := upd s.cont s.next p, home := upd s.home s.next (keyOf e), next := s.next + 1, c := pc old s.next } = some s.next := by
      rcases hpc with ⟨e', rfl⟩ | ⟨e', rfl⟩ <;> rfl
    have hgau := h.gauge
    constructor
    · exact h.wf
    · intro k id hk
      obtain ⟨h1, h2⟩ := h.home k id hk
      exact ⟨(hhome id h2).trans h1, h2⟩
    · intro id hid; have := h.bornLt id hid; simp only []; omega
    · intro id hid
      simp only [upd_apply]
      split
      · exact hp
      · exact h.nonempty id (by simp only [] at hid; omega)
    · intro id
      have := h.once id
      rcases hpc with ⟨e', rfl⟩ | ⟨e', rfl⟩ <;> simpa [cPend, tPend, hc] using this
    · intro id hid; exact h.unborn id hid
    · intro id hid; rw [hcold] at hid; cases hid; exact ho2
    · intro id hid; exact h.thand id hid
    · intro n hn; rw [hcnew] at hn; cases hn; exact ⟨by simp, hb⟩
    · intro o n ho hn
      rw [hcold] at ho; rw [hcnew] at hn; cases ho; cases hn
      simp only [upd_self]
      rw [hhome _ ho2]; exact ho1
    · intro id hid hs
      simp only [hhome id hid]
      exact h.stored id hid hs
    · intro id hid _
      rw [hcold] at hid; cases hid
      simp only [hhome _ ho2, ho1]
      exact .inl hg
    · intro o n ho; rcases hpc with ⟨e', rfl⟩ | ⟨e', rfl⟩ <;> simp at ho
    · intro id hid
      have hid' : s.t = .decSize id ∨ s.t = .delete id := hid
      have hbid : s.born id = true := h.thand id (by rcases hid' with e | e <;> simp [tHand, e])
      simp only [hhome id hbid]
      exact h.placeDel id hid'
    · have : ∀ c', (c' = CPC.idle) → s.c = c' := by intro c' h'; rw [h', hc]
      simp only [hc, gAdd, gStore] at hgau
      rcases hpc with ⟨e', rfl⟩ | ⟨e', rfl⟩ <;> exact hgau

/-- A consumer step that changes only contents and the program counter, not claiming anything. -/
theorem inv_local {s : S} (h : Inv s) (cont : Nat → Pairs) (c' : CPC)
    (hcont : ∀ id, id < s.next → nonEmpty (cont id))
    (hpend : ∀ id, cPend { s with cont := cont, c := c' } id = cPend s id)
    (hnew : ∀ n, cNew { s with cont := cont, c := c' } = some n → cNew s = some n)
    (hold : ∀ o, cOld { s with cont := cont, c := c' } = some o → cOld s = some o)
    (hrep : ∀ o, s.c ≠ .report o)
    (hsn : ∀ o n, c' ≠ .storeNew o n) (hsn' : ∀ o n, s.c ≠ .storeNew o n)
    (has : c' ≠ .addSize) (has' : s.c ≠ .addSize) : Inv { s with cont := cont, c := c' } := by
  constructor
  · exact h.wf
  · exact h.home
  · exact h.bornLt
  · exact hcont
  · intro id
    have := h.once id
    rw [hpend id]; exact this
  · exact h.unborn
  · intro id hid; exact h.cold id (hold id hid)
  · exact h.thand
  · intro n hn; exact h.cnew n (hnew n hn)
  · intro o n ho hn; exact h.sameHome o n (hold o ho) (hnew n hn)
  · exact h.stored
  · intro id hid _; exact h.place id (hold id hid) hrep
  · intro o n ho; exact absurd ho (hsn o n)
  · exact h.placeDel
  · have hg := h.gauge
    have e1 : gAdd c' = 0 := by cases c' <;> simp_all [gAdd, gStore]
    have e2 : gAdd s.c = 0 := by cases hsc : s.c <;> simp_all [gAdd, gStore]
    have e3 : gStore c' = 0 := by cases c' <;> simp_all [gAdd, gStore]
    have e4 : gStore s.c = 0 := by cases hsc : s.c <;> simp_all [gAdd, gStore]
    have hun : unsent { s with cont := cont, c := c' } = unsent s := rfl
    simp only [hun]
    rw [e2, e4] at hg
    rw [e1, e3]
    exact hg

theorem nonEmpty_mergeRequest (p : Pairs) (e : Evt) : nonEmpty (p.mergeRequest e) := .inr rfl

theorem nonEmpty_upd {s : S} (h : Inv s) (i : Nat) {p : Pairs} (hp : nonEmpty p) :
    ∀ id, id < s.next → nonEmpty (upd s.cont i p id) := by
  intro id hid
  simp only [upd_apply]; split
  · exact hp
  · exact h.nonempty id hid

theorem inv_consumer {cfg : Cfg} {s s' : S} (h : Inv s) (hs : consumerStep cfg s = some s') : Inv s' := by
  simp only [consumerStep] at hs
  split at hs
  · simp at hs
  · rename_i hc
    cases hs
    have hg := h.gauge
    simp only [hc, gAdd, gStore] at hg
    exact ⟨h.wf, h.home, h.bornLt, h.nonempty, fun id => by simpa [cPend, tPend, hc] using h.once id, h.unborn,
      fun id hid => by simp [cOld] at hid, h.thand, fun n hn => by simp [cNew] at hn, fun o n ho => by simp [cOld] at ho,
      h.stored, fun id hid => by simp [cOld] at hid, fun o n ho => by simp at ho, h.placeDel, by
        have hun : unsent { s with size := s.size + 1, c := CPC.idle } = unsent s := rfl
        simp only [hun, gAdd, gStore]; omega⟩
  · rename_i e old new hc
    cases hs
    simp only [decideConnect]
    have hrep : ∀ o, s.c ≠ .report o := by simp [hc]
    have hsn' : ∀ o n, s.c ≠ .storeNew o n := by simp [hc]
    have has' : s.c ≠ .addSize := by simp [hc]
    have chk : Inv { s with c := .checkSend old new } :=
      inv_local h s.cont (.checkSend old new) h.nonempty (fun id => by simp [cPend, hc]) (fun n hn => by simpa [cNew, hc] using hn)
        (fun o ho => by simpa [cOld, hc] using ho) hrep (by simp) hsn' (by simp) has'
    split
    · split
      · exact chk
      · refine inv_local h _ .idle (nonEmpty_upd h old (.inl rfl)) (fun id => by simp [cPend, hc]) (fun n hn => by simp [cNew] at hn)
          (fun o ho => by simp [cOld] at ho) hrep (by simp) hsn' (by simp) has'
    · exact chk
  · rename_i e old new hc
    cases hs
    simp only [decideRequest]
    have hrep : ∀ o, s.c ≠ .report o := by simp [hc]
    have hsn' : ∀ o n, s.c ≠ .storeNew o n := by simp [hc]
    have has' : s.c ≠ .addSize := by simp [hc]
    have hbo : s.born old = true := h.cold old (by simp [cOld, hc])
    have hne := h.nonempty old (h.bornLt old hbo)
    split
    · rename_i hr
      split
      · rename_i hcn
        rcases hne with hne | hne
        · simp [hcn] at hne
        · simp [hr] at hne
      · refine inv_local h _ (.storeOld old) (nonEmpty_upd h old (nonEmpty_mergeRequest _ _)) (fun id => by simp [cPend, hc])
          (fun n hn => by simp [cNew] at hn) (fun o ho => by simpa [cOld, hc] using ho) hrep (by simp) hsn' (by simp) has'
    · split
      · exact inv_local h s.cont (.checkSend old new) h.nonempty (fun id => by simp [cPend, hc]) (fun n hn => by simpa [cNew, hc] using hn)
          (fun o ho => by simpa [cOld, hc] using ho) hrep (by simp) hsn' (by simp) has'
      · refine inv_local h _ .idle (nonEmpty_upd h old (nonEmpty_mergeRequest _ _)) (fun id => by simp [cPend, hc])
          (fun n hn => by simp [cNew] at hn) (fun o ho => by simp [cOld] at ho) hrep (by simp) hsn' (by simp) has'
  · rename_i e old hc
    cases hs
    simp only [decideResponse]
    have hrep : ∀ o, s.c ≠ .report o := by simp [hc]
    have hsn' : ∀ o n, s.c ≠ .storeNew o n := by simp [hc]
    have has' : s.c ≠ .addSize := by simp [hc]
    split
    · exact inv_local h s.cont .idle h.nonempty (fun id => by simp [cPend, hc]) (fun n hn => by simp [cNew] at hn)
        (fun o ho => by simp [cOld] at ho) hrep (by simp) hsn' (by simp) has'
    · rename_i r hr
      refine inv_local h _ (.storeOld old) (nonEmpty_upd h old (.inr ?_)) (fun id => by simp [cPend, hc])
          (fun n hn => by simp [cNew] at hn) (fun o ho => by simpa [cOld, hc] using ho) hrep (by simp) hsn' (by simp) has'
      simp [Pairs.mergeResponse, hr]
  · -- checkSend
    rename_i old new hc
    cases hs
    have hbo : s.born old = true := h.cold old (by simp [cOld, hc])
    have hg := h.gauge
    simp only [hc, gAdd, gStore] at hg
    have honce := h.once
    by_cases h0 : s.sent old = 0
    · have hst := h.stored old hbo h0
      have hcl := countP_claim h.wf (fun k id hk => (h.home k id hk).1) h0 hst (s.sent old + 1) (by omega)
      simp only [h0, Nat.zero_add, ↓reduceIte] at hcl ⊢
      constructor
      · exact h.wf
      · exact h.home
      · exact h.bornLt
      · exact h.nonempty
      · intro id
        have ho := honce id
        simp only [cPend, tPend, hc] at ho ⊢
        by_cases hid : id = old
        · subst hid; simp only [upd_self, ↓reduceIte]; rw [h0] at ho; omega
        · have hid' : old ≠ id := fun e => hid e.symm
          simp only [upd_ne _ _ hid, hid', ↓reduceIte]; exact ho
      · intro id hid
        by_cases hio : id = old
        · rw [hio, hbo] at hid; cases hid
        · simp only [upd_ne _ _ hio]; exact h.unborn id hid
      · intro id hid; exact h.cold id (by simpa [cOld, hc] using hid)
      · exact h.thand
      · intro n hn; exact h.cnew n (by simpa [cNew, hc] using hn)
      · intro o n ho hn; exact h.sameHome o n (by simpa [cOld, hc] using ho) (by simpa [cNew, hc] using hn)
      · intro id hid hs0
        by_cases hio : id = old
        · simp [hio] at hs0
        · simp only [upd_ne _ _ hio] at hs0; exact h.stored id hid hs0
      · intro id hid _
        have : id = old := by simpa [cOld] using hid.symm
        subst this; exact .inl hst
      · intro o n ho
        simp only [CPC.storeNew.injEq] at ho
        obtain ⟨rfl, rfl⟩ := ho; exact hst
      · exact h.placeDel
      · have hun : (unsent { s with sent := upd s.sent old 1, c := CPC.storeNew old new }) = (fun p => upd s.sent old 1 p.2 == 0) := rfl
        have hun' : unsent s = (fun p => s.sent p.2 == 0) := rfl
        simp only [hun, gAdd, gStore]
        rw [hun'] at hg
        omega
    · have hne1 : ¬ (s.sent old + 1 = 1) := by omega
      simp only [hne1, ↓reduceIte]
      have hcs := countP_same h.wf (sent := s.sent) (id := old) (v := s.sent old + 1) (.inr ⟨h0, by omega⟩)
      constructor
      · exact h.wf
      · exact h.home
      · exact h.bornLt
      · exact h.nonempty
      · intro id
        have ho := honce id
        simp only [cPend, tPend, hc] at ho ⊢
        by_cases hid : id = old
        · subst hid; simp only [upd_self]; omega
        · simp only [upd_ne _ _ hid]; exact ho
      · intro id hid
        by_cases hio : id = old
        · rw [hio, hbo] at hid; cases hid
        · simp only [upd_ne _ _ hio]; exact h.unborn id hid
      · intro id hid; simp [cOld] at hid
      · exact h.thand
      · intro n hn; simp [cNew] at hn
      · intro o n ho; simp [cOld] at ho
      · intro id hid hs0
        by_cases hio : id = old
        · simp [hio] at hs0
        · simp only [upd_ne _ _ hio] at hs0; exact h.stored id hid hs0
      · intro id hid; simp [cOld] at hid
      · intro o n ho; simp at ho
      · exact h.placeDel
      · have hun : (unsent { s with sent := upd s.sent old (s.sent old + 1), c := CPC.idle }) =
            (fun p => upd s.sent old (s.sent old + 1) p.2 == 0) := rfl
        have hun' : unsent s = (fun p => s.sent p.2 == 0) := rfl
        simp only [hun, hcs, gAdd, gStore]
        rw [hun'] at hg
        omega
  · -- storeNew
    rename_i old new hc
    cases hs
    have hbo : s.born old = true := h.cold old (by simp [cOld, hc])
    obtain ⟨hnlt, hnb⟩ := h.cnew new (by simp [cNew, hc])
    have hn0 := h.unborn new hnb
    have hhome := h.sameHome old new (by simp [cOld, hc]) (by simp [cNew, hc])
    have hpl := h.placeNew old new hc
    have honce := h.once
    have hso : 1 ≤ s.sent old := by
      have := honce old; simp only [cPend, hc, ↓reduceIte] at this; omega
    have hnt : tPend s old = 0 := by have := honce old; simp only [cPend, hc, ↓reduceIte] at this; omega
    have hg := h.gauge
    simp only [hc, gAdd, gStore] at hg
    have hcp := countP_set (unsent s) s.map (s.home new) new
    rw [← hhome, hpl] at hcp
    have hu1 : unsent s (s.home old, old) = false := by simp [unsent]; omega
    have hu2 : unsent s (s.home old, new) = true := by simp [unsent, hn0]
    simp only [hu1, hu2, Bool.false_eq_true, ↓reduceIte] at hcp
    have hnn : ∀ id, s.born id = true → id ≠ new := by
      intro id hid e; rw [e, hnb] at hid; cases hid
    rw [← hhome]
    constructor
    · exact h.wf.set _ _
    · intro k id hk
      rw [AMap.get_set] at hk
      split at hk
      · rename_i hke; cases hk; exact ⟨by rw [← hhome]; exact hke, by simp⟩
      · obtain ⟨h1, h2⟩ := h.home k id hk
        refine ⟨h1, ?_⟩
        simp only [upd_apply]; split <;> simp [h2]
    · intro id hid
      simp only [upd_apply] at hid
      split at hid
      · rename_i hj; rw [hj]; exact hnlt
      · exact h.bornLt id hid
    · exact h.nonempty
    · intro id
      have ho := honce id
      simpa [cPend, tPend, hc] using ho
    · intro id hid
      simp only [upd_apply] at hid
      split at hid
      · cases hid
      · exact h.unborn id hid
    · intro id hid
      have : id = old := by simpa [cOld] using hid.symm
      subst this; simp only [upd_apply]; split <;> simp [hbo]
    · intro id hid; have := h.thand id hid; simp only [upd_apply]; split <;> simp [this]
    · intro n hn; simp [cNew] at hn
    · intro o n ho hn; simp [cNew] at hn
    · intro id hid hs0
      simp only [upd_apply] at hid
      split at hid
      · rename_i hj; subst hj; simp [hhome]
      · have := h.stored id hid hs0
        by_cases hk : s.home old = s.home id
        · rw [← hk, hpl] at this
          have e : old = id := by simpa using this
          have : s.sent id = 0 := hs0
          rw [e] at hso; omega
        · rw [AMap.get_set_ne _ _ hk]; exact this
    · intro id hid hr; exact absurd rfl (hr old)
    · intro o n ho; simp at ho
    · intro id hid
      have hid' : s.t = .decSize id ∨ s.t = .delete id := hid
      have hpd := h.placeDel id hid'
      have hne : id ≠ old := by
        rintro rfl
        rcases hid' with e | e <;> simp [tPend, e] at hnt
      have hk : s.home old ≠ s.home id := by
        intro hk; rw [← hk, hpl] at hpd; cases hpd; exact hne rfl
      simp only [AMap.get_set_ne _ _ hk]; exact hpd
    · have hun : (unsent { s with map := AMap.set s.map (s.home old) new, born := upd s.born new true, c := CPC.report old }) = unsent s := rfl
      simp only [hun, gAdd, gStore]
      omega
  · -- storeOld
    rename_i old hc
    cases hs
    have hbo : s.born old = true := h.cold old (by simp [cOld, hc])
    have hpl := h.place old (by simp [cOld, hc]) (by simp [hc])
    have hg := h.gauge
    simp only [hc, gAdd, gStore] at hg
    have hcp := countP_set (unsent s) s.map (s.home old) old
    have hcount : (AMap.set s.map (s.home old) old).countP (unsent s) = s.map.countP (unsent s) := by
      rcases hpl with hpl | hpl
      · rw [hpl] at hcp; simp only [] at hcp; omega
      · rw [hpl] at hcp
        have : s.sent old ≠ 0 := by
          intro h0; have := h.stored old hbo h0; rw [hpl] at this; cases this
        have hu : unsent s (s.home old, old) = false := by simp [unsent, this]
        simp only [hu, Bool.false_eq_true, ↓reduceIte] at hcp; omega
    have hget : ∀ id, AMap.get s.map (s.home id) = some id → AMap.get (AMap.set s.map (s.home old) old) (s.home id) = some id := by
      intro id hid
      by_cases hk : s.home old = s.home id
      · rw [← hk] at hid ⊢
        rcases hpl with hpl | hpl
        · rw [hpl] at hid; cases hid; simp
        · rw [hpl] at hid; cases hid
      · rw [AMap.get_set_ne _ _ hk]; exact hid
    constructor
    · exact h.wf.set _ _
    · intro k id hk
      rw [AMap.get_set] at hk
      split at hk
      · rename_i hke; cases hk; exact ⟨hke, hbo⟩
      · exact h.home k id hk
    · exact h.bornLt
    · exact h.nonempty
    · intro id; simpa [cPend, tPend, hc] using h.once id
    · exact h.unborn
    · intro id hid; simp [cOld] at hid
    · exact h.thand
    · intro n hn; simp [cNew] at hn
    · intro o n ho; simp [cOld] at ho
    · intro id hid hs0; exact hget id (h.stored id hid hs0)
    · intro id hid; simp [cOld] at hid
    · intro o n ho; simp at ho
    · intro id hid; exact hget id (h.placeDel id hid)
    · have hun : (unsent { s with map := AMap.set s.map (s.home old) old, c := CPC.idle }) = unsent s := rfl
      simp only [hun, hcount, gAdd, gStore]
      omega
  · -- report
    rename_i old hc
    cases hs
    have hg := h.gauge
    simp only [hc, gAdd, gStore] at hg
    exact ⟨h.wf, h.home, h.bornLt, h.nonempty, fun id => by
        have := h.once id
        simp only [cPend, tPend, hc] at this ⊢
        simp only [List.count_cons]
        by_cases hid : old = id <;> simp [hid] at this ⊢ <;> omega, h.unborn,
      fun id hid => by simp [cOld] at hid, h.thand, fun n hn => by simp [cNew] at hn, fun o n ho => by simp [cOld] at ho,
      h.stored, fun id hid => by simp [cOld] at hid, fun o n ho => by simp at ho, h.placeDel, by
        have hun : unsent { s with reports := old :: s.reports, c := CPC.idle } = unsent s := rfl
        simp only [hun, gAdd, gStore]; exact hg⟩

/-- A scanner step that changes only its program counter, not claiming anything. -/
theorem inv_localT {s : S} (h : Inv s) (t' : TPC)
    (hpend : ∀ id, tPend { s with t := t' } id = tPend s id)
    (hhand : ∀ id, tHand { s with t := t' } = some id → s.born id = true)
    (hd : ∀ id, t' ≠ .decSize id) (hd' : ∀ id, s.t ≠ .decSize id)
    (hdel : ∀ id, t' ≠ .delete id) : Inv { s with t := t' } := by
  constructor
  · exact h.wf
  · exact h.home
  · exact h.bornLt
  · exact h.nonempty
  · intro id; rw [hpend id]; exact h.once id
  · exact h.unborn
  · exact h.cold
  · exact hhand
  · exact h.cnew
  · exact h.sameHome
  · exact h.stored
  · exact h.place
  · exact h.placeNew
  · intro id hid
    rcases hid with e | e
    · exact absurd e (hd id)
    · exact absurd e (hdel id)
  · have hg := h.gauge
    have hun : unsent { s with t := t' } = unsent s := rfl
    have e1 : gDec t' = 0 := by cases t' <;> simp_all [gDec]
    have e2 : gDec s.t = 0 := by cases hst : s.t <;> simp_all [gDec]
    rw [e2] at hg
    simp only [hun]
    rw [e1]; exact hg

theorem inv_scanner {cfg : Cfg} {s s' : S} (h : Inv s) (hs : scannerStep cfg s = some s') : Inv s' := by
  simp only [scannerStep] at hs
  split at hs
  · simp at hs
  · rename_i id now ht
    cases hs
    have hb := h.thand id (by simp [tHand, ht])
    refine inv_localT h _ (fun i => ?_) (fun i hi => ?_) (fun i => ?_) (by simp [ht]) (fun i => ?_)
    · split <;> simp [tPend, ht]
    · split at hi
      · have : i = id := by simpa [tHand] using hi.symm
        rw [this]; exact hb
      · simp [tHand] at hi
    · split <;> simp
    · split <;> simp
  · -- checkSend
    rename_i id ht
    cases hs
    have hb := h.thand id (by simp [tHand, ht])
    have hg := h.gauge
    simp only [ht, gDec] at hg
    have honce := h.once
    by_cases h0 : s.sent id = 0
    · have hst := h.stored id hb h0
      have hcl := countP_claim h.wf (fun k i hk => (h.home k i hk).1) h0 hst (s.sent id + 1) (by omega)
      simp only [h0, Nat.zero_add, ↓reduceIte] at hcl ⊢
      constructor
      · exact h.wf
      · exact h.home
      · exact h.bornLt
      · exact h.nonempty
      · intro i
        have ho := honce i
        have e1 : ∀ t', cPend { s with sent := upd s.sent id 1, t := t' } i = cPend s i := fun _ => rfl
        rw [e1]
        simp only [tPend, ht] at ho ⊢
        by_cases hi : i = id
        · subst hi; simp only [upd_self, ↓reduceIte]; rw [h0] at ho; omega
        · have hi' : id ≠ i := fun e => hi e.symm
          simp only [upd_ne _ _ hi, hi', ↓reduceIte]; exact ho
      · intro i hi
        by_cases hio : i = id
        · rw [hio, hb] at hi; cases hi
        · simp only [upd_ne _ _ hio]; exact h.unborn i hi
      · exact h.cold
      · intro i hi; exact h.thand i (by simpa [tHand, ht] using hi)
      · exact h.cnew
      · exact h.sameHome
      · intro i hi hs0
        by_cases hio : i = id
        · simp [hio] at hs0
        · simp only [upd_ne _ _ hio] at hs0; exact h.stored i hi hs0
      · exact h.place
      · exact h.placeNew
      · intro i hi
        have : i = id := by simp at hi; exact hi.symm
        subst this; exact hst
      · have hun : (unsent { s with sent := upd s.sent id 1, t := TPC.decSize id }) = (fun p => upd s.sent id 1 p.2 == 0) := rfl
        have hun' : unsent s = (fun p => s.sent p.2 == 0) := rfl
        simp only [hun, gDec]
        rw [hun'] at hg
        omega
    · have hne1 : ¬ (s.sent id + 1 = 1) := by omega
      simp only [hne1, ↓reduceIte]
      have hcs := countP_same h.wf (sent := s.sent) (id := id) (v := s.sent id + 1) (.inr ⟨h0, by omega⟩)
      constructor
      · exact h.wf
      · exact h.home
      · exact h.bornLt
      · exact h.nonempty
      · intro i
        have ho := honce i
        have e1 : ∀ t', cPend { s with sent := upd s.sent id (s.sent id + 1), t := t' } i = cPend s i := fun _ => rfl
        rw [e1]
        simp only [tPend, ht] at ho ⊢
        by_cases hi : i = id
        · subst hi; simp only [upd_self]; omega
        · simp only [upd_ne _ _ hi]; exact ho
      · intro i hi
        by_cases hio : i = id
        · rw [hio, hb] at hi; cases hi
        · simp only [upd_ne _ _ hio]; exact h.unborn i hi
      · exact h.cold
      · intro i hi; simp [tHand] at hi
      · exact h.cnew
      · exact h.sameHome
      · intro i hi hs0
        by_cases hio : i = id
        · simp [hio] at hs0
        · simp only [upd_ne _ _ hio] at hs0; exact h.stored i hi hs0
      · exact h.place
      · exact h.placeNew
      · intro i hi; simp at hi
      · have hun : (unsent { s with sent := upd s.sent id (s.sent id + 1), t := TPC.idle }) =
            (fun p => upd s.sent id (s.sent id + 1) p.2 == 0) := rfl
        have hun' : unsent s = (fun p => s.sent p.2 == 0) := rfl
        simp only [hun, hcs, gDec]
        rw [hun'] at hg
        omega
  · -- decSize
    rename_i id ht
    cases hs
    have hg := h.gauge
    simp only [ht, gDec] at hg
    exact ⟨h.wf, h.home, h.bornLt, h.nonempty, fun i => by
        have := h.once i
        have e1 : cPend { s with size := s.size - 1, t := TPC.delete id } i = cPend s i := rfl
        rw [e1]; simpa [tPend, ht] using this, h.unborn, h.cold,
      fun i hi => h.thand i (by simpa [tHand, ht] using hi), h.cnew, h.sameHome, h.stored, h.place, h.placeNew,
      fun i hi => by
        have : i = id := by simp at hi; exact hi.symm
        subst this; exact h.placeDel i (.inl ht), by
        have hun : unsent { s with size := s.size - 1, t := TPC.delete id } = unsent s := rfl
        simp only [hun, gDec]; omega⟩
  · -- delete
    rename_i id ht
    cases hs
    have hb := h.thand id (by simp [tHand, ht])
    have hpd := h.placeDel id (.inr ht)
    have honce := h.once
    have hsi : 1 ≤ s.sent id := by
      have := honce id; simp only [tPend, ht, ↓reduceIte] at this; omega
    have hcp0 : cPend s id = 0 := by have := honce id; simp only [tPend, ht, ↓reduceIte] at this; omega
    have hg := h.gauge
    simp only [ht, gDec] at hg
    have hcd := countP_del (unsent s) h.wf (s.home id)
    rw [hpd] at hcd
    have hu : unsent s (s.home id, id) = false := by simp [unsent]; omega
    simp only [hu, Bool.false_eq_true, ↓reduceIte, Nat.add_zero] at hcd
    have hget : ∀ i, i ≠ id → AMap.get s.map (s.home i) = some i → AMap.get (AMap.del s.map (s.home id)) (s.home i) = some i := by
      intro i hi hgi
      by_cases hk : s.home id = s.home i
      · rw [← hk, hpd] at hgi; cases hgi; exact absurd rfl hi
      · rw [AMap.get_del_ne _ hk]; exact hgi
    constructor
    · exact h.wf.del _
    · intro k i hk
      rw [AMap.get_del] at hk
      split at hk
      · simp at hk
      · exact h.home k i hk
    · exact h.bornLt
    · exact h.nonempty
    · intro i
      have ho := honce i
      have e1 : cPend { s with map := AMap.del s.map (s.home id), t := TPC.report id } i = cPend s i := rfl
      rw [e1]; simpa [tPend, ht] using ho
    · exact h.unborn
    · exact h.cold
    · intro i hi; exact h.thand i (by simpa [tHand, ht] using hi)
    · exact h.cnew
    · exact h.sameHome
    · intro i hi hs0
      have hs0' : s.sent i = 0 := hs0
      exact hget i (by rintro rfl; omega) (h.stored i hi hs0)
    · intro i hi hr
      rcases h.place i hi hr with hp | hp
      · by_cases hii : i = id
        · subst hii; exact .inr (by simp)
        · exact .inl (hget i hii hp)
      · right
        by_cases hk : s.home id = s.home i
        · simp only [hk, AMap.get_del_self]
        · simp only [AMap.get_del_ne _ hk]; exact hp
    · intro o n ho
      have ho' : s.c = .storeNew o n := ho
      have hp := h.placeNew o n ho'
      have : o ≠ id := by rintro rfl; simp [cPend, ho'] at hcp0
      exact hget o this hp
    · intro i hi; simp at hi
    · have hun : (unsent { s with map := AMap.del s.map (s.home id), t := TPC.report id }) = unsent s := rfl
      simp only [hun, hcd, gDec]
      exact hg
  · -- report
    rename_i id ht
    cases hs
    have hg := h.gauge
    simp only [ht, gDec] at hg
    exact ⟨h.wf, h.home, h.bornLt, h.nonempty, fun i => by
        have := h.once i
        have e1 : cPend { s with reports := id :: s.reports, t := TPC.idle } i = cPend s i := rfl
        rw [e1]
        simp only [tPend, ht] at this ⊢
        simp only [List.count_cons]
        by_cases hi : id = i <;> simp [hi] at this ⊢ <;> omega, h.unborn, h.cold,
      fun i hi => by simp [tHand] at hi, h.cnew, h.sameHome, h.stored, h.place, h.placeNew, fun i hi => by simp at hi, by
        have hun : unsent { s with reports := id :: s.reports, t := TPC.idle } = unsent s := rfl
        simp only [hun, gDec]; exact hg⟩

theorem inv_act {cfg : Cfg} {s s' : S} (a : Act) (h : Inv s) (hs : act cfg s a = some s') : Inv s' := by
  cases a with
  | connect e =>
    simp only [act] at hs
    split at hs
    · rename_i hc; cases hs
      exact inv_loadOrStore h hc e _ (.inl rfl) _ (.inl ⟨e, rfl⟩)
    · simp at hs
  | request e =>
    simp only [act] at hs
    split at hs
    · rename_i hc; cases hs
      exact inv_loadOrStore h hc e _ (.inr rfl) _ (.inr ⟨e, rfl⟩)
    · simp at hs
  | response e =>
    simp only [act] at hs
    split at hs
    · rename_i hc
      split at hs
      · cases hs; exact h
      · rename_i old hg
        cases hs
        obtain ⟨h1, h2⟩ := h.home _ _ hg
        have hgau := h.gauge
        simp only [hc, gAdd, gStore] at hgau
        refine ⟨h.wf, h.home, h.bornLt, h.nonempty, fun id => by simpa [cPend, tPend, hc] using h.once id, h.unborn,
          fun id hid => ?_, h.thand, fun n hn => by simp [cNew] at hn, fun o n ho hn => by simp [cNew] at hn,
          h.stored, fun id hid _ => ?_, fun o n ho => by simp at ho, h.placeDel, ?_⟩
        · have : id = old := by simpa [cOld] using hid.symm
          subst this; exact h2
        · have : id = old := by simpa [cOld] using hid.symm
          subst this; left; simp only [h1]; exact hg
        · exact hgau
    · simp at hs
  | consumer => exact inv_consumer h hs
  | pick k now =>
    simp only [act] at hs
    split at hs
    · rename_i ht
      split at hs
      · cases hs; exact h
      · rename_i id hg
        cases hs
        obtain ⟨_, h2⟩ := h.home _ _ hg
        refine inv_localT h _ (fun i => by simp [tPend, ht]) (fun i hi => ?_) (by simp) (by simp [ht]) (by simp)
        have : i = id := by simpa [tHand] using hi.symm
        subst this; exact h2
    · simp at hs
  | scanner => exact inv_scanner h hs

theorem inv_exec {cfg : Cfg} (as : List Act) {s s' : S} (h : Inv s) (hs : exec cfg s as = some s') : Inv s' := by
  induction as generalizing s with
  | nil => simp only [exec, Option.some.injEq] at hs; subst hs; exact h
  | cons a r ih =>
    simp only [exec] at hs
    split at hs
    · simp at hs
    · rename_i s1 h1; exact ih (inv_act a h h1) hs

theorem inv_reachable {cfg : Cfg} {s : S} (h : Reachable cfg s) : Inv s := by
  obtain ⟨as, h⟩ := h
  exact inv_exec as inv_init h

end Kindling.Net.Conc
