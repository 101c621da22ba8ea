import Verif.Net.ConcProps
/-
The interleaved monitor (Conc.lean) and the atomic one (Model.lean) are the same program: every run of the
atomic monitor is the run of the interleaved one in which each event, and each exchange the scanner visits,
is finished before anything else starts.  What is proved about the atomic monitor is therefore proved about
some schedule of the two goroutines.  (HTTP 100-continue is left out of Conc.lean; the atomic monitor is
taken with parsers that never attach it.)
-/
namespace Kindling.Net.Conc
open Kindling Kindling.Net

/-- Parsers that never see an HTTP 100-continue. -/
def noContinue : Parsers := fun _ => false

/-- The events of an exchange belong to its socket. -/
def Homed (k : Key) (p : Pairs) : Prop :=
  (∀ c, p.connects = some c → keyOf c.event = k) ∧ (∀ r, p.requests = some r → keyOf r.event = k)

/-- The interleaved monitor `s`, between events, holds and has reported what the atomic monitor has. -/
structure Sim (s : S) (st : Mon) (out : List Out) : Prop where
  inv : Inv s
  quiet : Quiet s
  unsent : ∀ k id, AMap.get s.map k = some id → s.sent id = 0
  homed : ∀ k id, AMap.get s.map k = some id → Homed k (s.cont id)
  map : ∀ k, AMap.get st.map k = (AMap.get s.map k).map s.cont
  size : st.size = s.size
  outs : out = s.reports.reverse.map (fun id => Out.report (s.cont id))

theorem Sim.notReported {s : S} {st : Mon} {out : List Out} (h : Sim s st out) {k : Key} {id : Nat}
    (hg : AMap.get s.map k = some id) : id ∉ s.reports := by
  intro hm
  have ho := h.inv.once id
  have h0 := h.unsent k id hg
  have := List.count_pos_iff.mpr hm
  simp only [h0] at ho
  omega

theorem Sim.reportedLt {s : S} {st : Mon} {out : List Out} (h : Sim s st out) {id : Nat} (hm : id ∈ s.reports) :
    id < s.next := by
  have ho := h.inv.once id
  have hc := List.count_pos_iff.mpr hm
  cases hb : s.born id with
  | true => exact h.inv.bornLt id hb
  | false => have := h.inv.unborn id hb; omega

theorem Sim.storedLt {s : S} {st : Mon} {out : List Out} (h : Sim s st out) {k : Key} {id : Nat}
    (hg : AMap.get s.map k = some id) : id < s.next := h.inv.bornLt id (h.inv.home k id hg).2

theorem Sim.same {s : S} {st : Mon} {out : List Out} (h : Sim s st out) {k k' : Key} {id : Nat}
    (hg : AMap.get s.map k = some id) (hg' : AMap.get s.map k' = some id) : k' = k := by
  rw [← (h.inv.home k id hg).1, ← (h.inv.home k' id hg').1]

theorem outs_congr {f g : Nat → Pairs} {l : List Nat} (h : ∀ id ∈ l, f id = g id) :
    l.reverse.map (fun id => Out.report (f id)) = l.reverse.map (fun id => Out.report (g id)) := by
  apply List.map_congr_left
  intro id hid
  rw [h id (List.mem_reverse.1 hid)]

/-- A new exchange on a socket that has none. -/
theorem sim_insert {s s' : S} {st : Mon} {out : List Out} (h : Sim s st out) (hi : Inv s') (hq : Quiet s') (k : Key)
    (p : Pairs) (hk : Homed k p)
    (hmap : s'.map = AMap.set s.map k s.next) (hcont : s'.cont = upd s.cont s.next p)
    (hsent : s'.sent = upd s.sent s.next 0) (hsize : s'.size = s.size + 1) (hrep : s'.reports = s.reports) :
    Sim s' { map := AMap.set st.map k p, size := st.size + 1 } out := by
  refine ⟨hi, hq, ?_, ?_, ?_, by rw [hsize, h.size], ?_⟩
  · intro k' id hid
    rw [hmap, AMap.get_set] at hid
    rw [hsent, upd_apply]
    split
    · rfl
    · rename_i hn
      by_cases hkk : k = k'
      · rw [if_pos hkk] at hid; cases hid; exact absurd rfl hn
      · rw [if_neg hkk] at hid; exact h.unsent k' id hid
  · intro k' id hid
    rw [hmap, AMap.get_set] at hid
    by_cases hkk : k = k'
    · rw [if_pos hkk] at hid; cases hid; subst hkk; rw [hcont, upd_self]; exact hk
    · rw [if_neg hkk] at hid
      have hl := h.storedLt hid
      rw [hcont, upd_ne _ _ (by omega)]; exact h.homed k' id hid
  · intro k'
    rw [hmap, AMap.get_set, AMap.get_set, hcont]
    by_cases hkk : k = k'
    · simp [hkk]
    · simp only [hkk, if_false]
      rw [h.map k']
      cases hid : AMap.get s.map k' with
      | none => rfl
      | some id => have hl := h.storedLt hid; simp only [Option.map_some]; rw [upd_ne _ _ (by omega)]
  · rw [h.outs, hrep, hcont]
    apply outs_congr
    intro id hid
    rw [upd_ne]
    have := h.reportedLt hid; omega

/-- A change of the stored exchange. -/
theorem sim_change {s s' : S} {st : Mon} {out : List Out} (h : Sim s st out) (hi : Inv s') (hq : Quiet s') (k : Key)
    (old : Nat) (p : Pairs) (hk : Homed k p) (hg : AMap.get s.map k = some old)
    (hmap : ∀ k', AMap.get s'.map k' = AMap.get s.map k') (hcont : ∀ id, id < s.next → s'.cont id = upd s.cont old p id)
    (hsent : ∀ id, id < s.next → s'.sent id = s.sent id) (hsize : s'.size = s.size) (hrep : s'.reports = s.reports) :
    Sim s' { st with map := AMap.set st.map k p } out := by
  refine ⟨hi, hq, ?_, ?_, ?_, by rw [hsize]; exact h.size, ?_⟩
  · intro k' id hid
    rw [hmap] at hid
    rw [hsent id (h.storedLt hid)]; exact h.unsent k' id hid
  · intro k' id hid
    rw [hmap] at hid
    rw [hcont id (h.storedLt hid), upd_apply]
    split
    · rename_i hio; subst hio
      rw [h.same hg hid]; exact hk
    · exact h.homed k' id hid
  · intro k'
    rw [hmap, AMap.get_set]
    by_cases hkk : k = k'
    · subst hkk
      rw [if_pos rfl, hg, Option.map_some, hcont old (h.storedLt hg), upd_self]
    · rw [if_neg hkk, h.map k']
      cases hid : AMap.get s.map k' with
      | none => rfl
      | some id =>
        simp only [Option.map_some]
        rw [hcont id (h.storedLt hid), upd_ne]
        intro hio; subst hio
        exact hkk (h.same hg hid).symm
  · rw [h.outs, hrep]
    apply outs_congr
    intro id hid
    rw [hcont id (h.reportedLt hid), upd_ne]
    intro hio; subst hio; exact h.notReported hg hid

/-- Nothing changes but for identifiers never stored. -/
theorem sim_skip {s s' : S} {st : Mon} {out : List Out} (h : Sim s st out) (hi : Inv s') (hq : Quiet s')
    (hmap : s'.map = s.map) (hcont : s'.cont = s.cont)
    (hsent : s'.sent = s.sent) (hsize : s'.size = s.size) (hrep : s'.reports = s.reports) :
    Sim s' st out := by
  refine ⟨hi, hq, ?_, ?_, ?_, by rw [hsize]; exact h.size, ?_⟩
  · rw [hmap, hsent]; exact h.unsent
  · rw [hmap, hcont]; exact h.homed
  · rw [hmap, hcont]; exact h.map
  · rw [hrep, hcont]; exact h.outs

/-- The stored exchange is reported and a new one takes its place. -/
theorem sim_replace {s s' : S} {st : Mon} {out : List Out} (h : Sim s st out) (hi : Inv s') (hq : Quiet s') (k : Key)
    (old : Nat) (p : Pairs) (hk : Homed k p) (hg : AMap.get s.map k = some old)
    (hmap : s'.map = AMap.set s.map k s.next) (hcont : s'.cont = upd s.cont s.next p)
    (hsent : ∀ id, id ≠ old → s'.sent id = upd s.sent s.next 0 id) (hsize : s'.size = s.size)
    (hrep : s'.reports = old :: s.reports) :
    Sim s' { st with map := AMap.set st.map k p } (out ++ [.report (s.cont old)]) := by
  have hlt := h.storedLt hg
  refine ⟨hi, hq, ?_, ?_, ?_, by rw [hsize]; exact h.size, ?_⟩
  · intro k' id hid
    rw [hmap, AMap.get_set] at hid
    by_cases hkk : k = k'
    · rw [if_pos hkk] at hid; cases hid; rw [hsent _ (by omega), upd_self]
    · rw [if_neg hkk] at hid
      have hl := h.storedLt hid
      rw [hsent, upd_ne _ _ (by omega)]
      · exact h.unsent k' id hid
      · intro hio; subst hio; exact hkk (h.same hg hid).symm
  · intro k' id hid
    rw [hmap, AMap.get_set] at hid
    by_cases hkk : k = k'
    · rw [if_pos hkk] at hid; cases hid; subst hkk; rw [hcont, upd_self]; exact hk
    · rw [if_neg hkk] at hid
      have hl := h.storedLt hid
      rw [hcont, upd_ne _ _ (by omega)]; exact h.homed k' id hid
  · intro k'
    rw [hmap, AMap.get_set, AMap.get_set, hcont]
    by_cases hkk : k = k'
    · simp [hkk]
    · simp only [hkk, if_false]
      rw [h.map k']
      cases hid : AMap.get s.map k' with
      | none => rfl
      | some id => have hl := h.storedLt hid; simp only [Option.map_some]; rw [upd_ne _ _ (by omega)]
  · rw [h.outs, hrep, hcont, List.reverse_cons, List.map_append]
    congr 1
    · apply outs_congr
      intro id hid
      rw [upd_ne]
      have := h.reportedLt hid; omega
    · simp only [List.map_cons, List.map_nil]; rw [upd_ne _ _ (by omega)]

/-- The stored exchange is reported and gone. -/
theorem sim_flush {s s' : S} {st : Mon} {out : List Out} (h : Sim s st out) (hi : Inv s') (hq : Quiet s') (k : Key)
    (old : Nat) (hg : AMap.get s.map k = some old)
    (hmap : s'.map = AMap.del s.map k) (hcont : s'.cont = s.cont)
    (hsent : ∀ id, id ≠ old → s'.sent id = s.sent id) (hsize : s'.size = s.size - 1)
    (hrep : s'.reports = old :: s.reports) :
    Sim s' { map := AMap.del st.map k, size := st.size - 1 } (out ++ [.report (s.cont old)]) := by
  refine ⟨hi, hq, ?_, ?_, ?_, by rw [hsize, h.size], ?_⟩
  · intro k' id hid
    rw [hmap, AMap.get_del] at hid
    by_cases hkk : k = k'
    · rw [if_pos hkk] at hid; cases hid
    · rw [if_neg hkk] at hid
      rw [hsent]
      · exact h.unsent k' id hid
      · intro hio; subst hio; exact hkk (h.same hg hid).symm
  · intro k' id hid
    rw [hmap, AMap.get_del] at hid
    by_cases hkk : k = k'
    · rw [if_pos hkk] at hid; cases hid
    · rw [if_neg hkk] at hid
      rw [hcont]; exact h.homed k' id hid
  · intro k'
    rw [hmap, AMap.get_del, AMap.get_del, hcont]
    by_cases hkk : k = k'
    · simp [hkk]
    · simp only [hkk, if_false]; exact h.map k'
  · rw [h.outs, hrep, hcont, List.reverse_cons, List.map_append]; rfl

theorem exec_append {cfg : Cfg} (as bs : List Act) (s : S) :
    exec cfg s (as ++ bs) = (exec cfg s as).bind (fun s' => exec cfg s' bs) := by
  induction as generalizing s with
  | nil => rfl
  | cons a as ih =>
    simp only [List.cons_append, exec]
    cases act cfg s a with
    | none => rfl
    | some s' => exact ih s'

/-- The interleaved monitor can do what the atomic one does, from here. -/
def Follows (cfg : Cfg) (s : S) (out : List Out) (r : Mon × List Out) : Prop :=
  ∃ as s', exec cfg s as = some s' ∧ Sim s' r.1 (out ++ r.2)

theorem homed_key {k : Key} {p : Pairs} (h : Homed k p) (hn : nonEmpty p) : p.key = k := by
  unfold Pairs.key
  obtain ⟨h1, h2⟩ := h
  cases hc : p.connects with
  | some c => simpa using h1 c hc
  | none =>
    cases hr : p.requests with
    | some r => simpa using h2 r hr
    | none => simp [nonEmpty, hc, hr] at hn

theorem distribute_eq {st : Mon} {old : Pairs} (hn : nonEmpty old) (new : Option Pairs) :
    distribute noContinue st old new = (match new with
      | some n => { st with map := AMap.set st.map n.key n }
      | none => { map := AMap.del st.map old.key, size := st.size - 1 }, [.report old]) := by
  unfold distribute noContinue
  cases hc : old.connects <;> cases hr : old.requests <;> simp_all [nonEmpty]
  all_goals cases new <;> rfl

theorem follows_replace {cfg : Cfg} {s : S} {st : Mon} {out : List Out} (h : Sim s st out) (e : Evt) (p : Pairs) (old : Nat)
    (hg : AMap.get s.map (keyOf e) = some old) (hk : Homed (keyOf e) p) (a : Act)
    (ha : exec cfg s [a, .consumer] = some { s with
      next := s.next + 1, cont := upd s.cont s.next p, home := upd s.home s.next (keyOf e), sent := upd s.sent s.next 0,
      c := .checkSend old s.next }) :
    Follows cfg s out ({ st with map := AMap.set st.map (keyOf e) p }, [.report (s.cont old)]) := by
  have hlt := h.storedLt hg
  have hs0 := h.unsent _ _ hg
  have hex : exec cfg s ([a, .consumer] ++ [.consumer, .consumer, .consumer]) = some { s with
      next := s.next + 1, cont := upd s.cont s.next p, home := upd s.home s.next (keyOf e),
      sent := upd (upd s.sent s.next 0) old 1,
      map := AMap.set s.map (keyOf e) s.next, born := upd s.born s.next true, reports := old :: s.reports, c := .idle } := by
    rw [exec_append, ha]
    simp [exec, act, consumerStep, upd_ne _ _ (Nat.ne_of_lt hlt), hs0]
  refine ⟨_, _, hex, ?_⟩
  exact sim_replace h (inv_exec _ h.inv hex) ⟨rfl, h.quiet.2⟩ (keyOf e) old p hk hg rfl rfl
    (fun id hid => upd_ne _ _ hid) rfl rfl

theorem follows_insert {cfg : Cfg} {s : S} {st : Mon} {out : List Out} (h : Sim s st out) (e : Evt) (p : Pairs)
    (hk : Homed (keyOf e) p) (a : Act)
    (ha : exec cfg s [a, .consumer] = some { s with
      next := s.next + 1, cont := upd s.cont s.next p, home := upd s.home s.next (keyOf e), sent := upd s.sent s.next 0,
      map := AMap.set s.map (keyOf e) s.next, born := upd s.born s.next true, size := s.size + 1, c := .idle }) :
    Follows cfg s out ({ map := AMap.set st.map (keyOf e) p, size := st.size + 1 }, []) := by
  refine ⟨_, _, ha, ?_⟩
  rw [List.append_nil]
  exact sim_insert h (inv_exec _ h.inv ha) ⟨rfl, h.quiet.2⟩ (keyOf e) p hk rfl rfl rfl rfl rfl

/-- The exchange `old` gets the contents `p`; `m'` is the map, perhaps stored again. -/
theorem follows_change {cfg : Cfg} {s s' : S} {st : Mon} {out : List Out} (h : Sim s st out) (k : Key) (p : Pairs) (old : Nat)
    (hg : AMap.get s.map k = some old) (hk : Homed k p) (as : List Act)
    (ha : exec cfg s as = some s') (hq : Quiet s')
    (hmap : s'.map = s.map ∨ s'.map = AMap.set s.map k old)
    (hcont : ∀ id, id < s.next → s'.cont id = upd s.cont old p id)
    (hsent : ∀ id, id < s.next → s'.sent id = s.sent id) (hsize : s'.size = s.size) (hrep : s'.reports = s.reports) :
    Follows cfg s out ({ st with map := AMap.set st.map k p }, []) := by
  refine ⟨_, _, ha, ?_⟩
  rw [List.append_nil]
  refine sim_change h (inv_exec _ h.inv ha) hq k old p hk hg ?_ hcont hsent hsize hrep
  intro k'
  rcases hmap with hm | hm
  · rw [hm]
  · rw [hm, AMap.get_set]
    split
    · rename_i he; rw [← he, hg]
    · rfl

theorem sim_connect {cfg : Cfg} {s : S} {st : Mon} {out : List Out} (h : Sim s st out) (e : Evt) :
    ∃ r, analyseConnect cfg noContinue st e = some r ∧ Follows cfg s out r := by
  have hidle := h.quiet.1
  have hmap := h.map (keyOf e)
  unfold analyseConnect
  simp only [show ({ connects := some (newEvents e cfg.snaplen), maxLen := cfg.snaplen } : Pairs).key = keyOf e from rfl]
  cases hg : AMap.get s.map (keyOf e) with
  | none =>
    rw [hg] at hmap
    simp only [Option.map_none] at hmap
    simp only [hmap]
    refine ⟨_, rfl, follows_insert h e _ ⟨by simp [newEvents], by simp⟩ (.connect e) ?_⟩
    simp [exec, act, hidle, loadOrStore, hg, consumerStep]
  | some old =>
    rw [hg] at hmap
    simp only [Option.map_some] at hmap
    simp only [hmap]
    have hlt := h.storedLt hg
    have hn := h.inv.nonempty old hlt
    have hh := h.homed _ _ hg
    have hne : old ≠ s.next := by omega
    have hrep : (decideConnect cfg { s with
        next := s.next + 1, cont := upd s.cont s.next { connects := some (newEvents e cfg.snaplen), maxLen := cfg.snaplen },
        home := upd s.home s.next (keyOf e), sent := upd s.sent s.next 0, c := .connectOld e old s.next } e old s.next).c =
          .checkSend old s.next →
        Follows cfg s out (distribute noContinue st (s.cont old) (some { connects := some (newEvents e cfg.snaplen), maxLen := cfg.snaplen })) := by
      intro hc
      rw [distribute_eq hn]
      refine follows_replace h e _ old hg ⟨by simp [newEvents], by simp⟩ (.connect e) ?_
      simp only [exec, act, hidle, if_true, loadOrStore, hg, consumerStep]
      unfold decideConnect at hc ⊢
      simp only [upd_ne _ _ hne] at hc ⊢
      split at hc
      · rename_i h1 h2
        split at hc
        · rename_i h3
          simp only [h1, h2, h3, if_true]
        · simp at hc
      · rfl
    cases hr : (s.cont old).requests with
    | some r =>
      refine ⟨_, by cases (s.cont old).connects <;> rfl, hrep ?_⟩
      unfold decideConnect
      simp only [upd_ne _ _ hne, hr]
    | none =>
      cases hcn : (s.cont old).connects with
      | none => simp [nonEmpty, hr, hcn] at hn
      | some c =>
        by_cases ht : c.isTimeout e cfg.getConnectTimeout.toNat = true
        · simp only [ht, if_true]
          refine ⟨_, rfl, hrep ?_⟩
          unfold decideConnect
          simp only [upd_ne _ _ hne, hr, hcn, ht, if_true]
        · simp only [ht, Bool.false_eq_true, if_false, Pairs.mergeConnect, hr]
          refine ⟨_, rfl, ?_⟩
          have ha : exec cfg s [.connect e, .consumer] = some { s with
              next := s.next + 1,
              cont := upd (upd s.cont s.next { connects := some (newEvents e cfg.snaplen), maxLen := cfg.snaplen }) old
                { s.cont old with connects := some (newEvents e (s.cont old).maxLen) },
              home := upd s.home s.next (keyOf e), sent := upd s.sent s.next 0, c := .idle } := by
            simp only [exec, act, hidle, if_true, loadOrStore, hg, consumerStep]
            unfold decideConnect
            simp only [upd_ne _ _ hne, hr, hcn, ht, Bool.false_eq_true, if_false]
          refine follows_change h (keyOf e) _ old hg ⟨by simp [newEvents], by simp [hr]⟩ _ ha
            ⟨rfl, h.quiet.2⟩ (Or.inl rfl) ?_ ?_ rfl rfl
          · intro id hid
            simp only [upd_apply, hr]
            by_cases hio : id = old
            · simp [hio]
            · simp [hio, Nat.ne_of_lt hid]
          · intro id hid
            exact upd_ne _ _ (by omega)

theorem homed_mergeRequest {k : Key} {p : Pairs} (h : Homed k p) {e : Evt} (he : keyOf e = k) : Homed k (p.mergeRequest e) := by
  refine ⟨h.1, ?_⟩
  intro r hr
  simp only [Pairs.mergeRequest, mergeSide, Option.some.injEq] at hr
  subst hr
  cases hq : p.requests with
  | none => exact he
  | some r => exact h.2 r hq

theorem sim_request {cfg : Cfg} {s : S} {st : Mon} {out : List Out} (h : Sim s st out) (e : Evt) :
    Follows cfg s out (analyseRequest cfg noContinue st e) := by
  have hidle := h.quiet.1
  have hmap := h.map (keyOf e)
  unfold analyseRequest
  simp only [show ({ requests := some (newEvents e cfg.snaplen), maxLen := cfg.snaplen } : Pairs).key = keyOf e from rfl]
  cases hg : AMap.get s.map (keyOf e) with
  | none =>
    rw [hg] at hmap
    simp only [Option.map_none] at hmap
    simp only [hmap]
    refine follows_insert h e _ ⟨by simp, by simp [newEvents]⟩ (.request e) ?_
    simp [exec, act, hidle, loadOrStore, hg, consumerStep]
  | some old =>
    rw [hg] at hmap
    simp only [Option.map_some] at hmap
    simp only [hmap]
    have hlt := h.storedLt hg
    have hn := h.inv.nonempty old hlt
    have hh := h.homed _ _ hg
    have hne : old ≠ s.next := by omega
    have hhome := (h.inv.home _ _ hg).1
    have hcont : ∀ p q : Pairs, ∀ id, id < s.next → upd (upd s.cont s.next p) old q id = upd s.cont old q id := by
      intro p q id hid
      simp only [upd_apply]
      by_cases hio : id = old
      · simp [hio]
      · simp [hio, Nat.ne_of_lt hid]
    cases hr : (s.cont old).requests with
    | none =>
      cases hcn : (s.cont old).connects with
      | none => simp [nonEmpty, hr, hcn] at hn
      | some c =>
        have ha : exec cfg s [.request e, .consumer, .consumer] = some { s with
            next := s.next + 1,
            cont := upd (upd s.cont s.next { requests := some (newEvents e cfg.snaplen), maxLen := cfg.snaplen }) old
              ((s.cont old).mergeRequest e),
            home := upd s.home s.next (keyOf e), sent := upd s.sent s.next 0,
            map := AMap.set s.map (keyOf e) old, c := .idle } := by
          simp only [exec, act, hidle, if_true, loadOrStore, hg, consumerStep]
          unfold decideRequest
          simp only [upd_ne _ _ hne, hr, hcn, consumerStep, hhome]
        exact follows_change h (keyOf e) _ old hg (homed_mergeRequest hh rfl) _ ha
            ⟨rfl, h.quiet.2⟩ (Or.inr rfl) (hcont _ _) (fun id hid => upd_ne _ _ (by omega)) rfl rfl
    | some r =>
      by_cases hc : ((s.cont old).responses.isSome || r.sportChanged e) = true
      · simp only [hc, if_true]
        rw [distribute_eq hn]
        refine follows_replace h e _ old hg ⟨by simp, by simp [newEvents]⟩ (.request e) ?_
        simp only [exec, act, hidle, if_true, loadOrStore, hg, consumerStep]
        unfold decideRequest
        simp only [upd_ne _ _ hne, hr, hc, if_true]
      · simp only [hc, Bool.false_eq_true, if_false]
        have ha : exec cfg s [.request e, .consumer] = some { s with
            next := s.next + 1,
            cont := upd (upd s.cont s.next { requests := some (newEvents e cfg.snaplen), maxLen := cfg.snaplen }) old
              ((s.cont old).mergeRequest e),
            home := upd s.home s.next (keyOf e), sent := upd s.sent s.next 0, c := .idle } := by
          simp only [exec, act, hidle, if_true, loadOrStore, hg, consumerStep]
          unfold decideRequest
          simp only [upd_ne _ _ hne, hr, hc, Bool.false_eq_true, if_false]
        exact follows_change h (keyOf e) _ old hg (homed_mergeRequest hh rfl) _ ha
            ⟨rfl, h.quiet.2⟩ (Or.inl rfl) (hcont _ _) (fun id hid => upd_ne _ _ (by omega)) rfl rfl

theorem sim_response {cfg : Cfg} {s : S} {st : Mon} {out : List Out} (h : Sim s st out) (e : Evt) :
    Follows cfg s out (analyseResponse st e) := by
  have hidle := h.quiet.1
  have hmap := h.map (keyOf e)
  unfold analyseResponse
  cases hg : AMap.get s.map (keyOf e) with
  | none =>
    rw [hg] at hmap
    simp only [Option.map_none] at hmap
    simp only [hmap]
    refine ⟨[], s, rfl, ?_⟩
    rw [List.append_nil]; exact h
  | some old =>
    rw [hg] at hmap
    simp only [Option.map_some] at hmap
    simp only [hmap]
    have hh := h.homed _ _ hg
    have hhome := (h.inv.home _ _ hg).1
    cases hr : (s.cont old).requests with
    | none =>
      have ha : exec cfg s [.response e, .consumer] = some { s with c := .idle } := by
        simp only [exec, act, hidle, if_true, hg, consumerStep]
        unfold decideResponse
        simp only [hr]
      refine ⟨_, _, ha, ?_⟩
      rw [List.append_nil]
      exact sim_skip h (inv_exec _ h.inv ha) ⟨rfl, h.quiet.2⟩ rfl rfl rfl rfl rfl
    | some r =>
      have ha : exec cfg s [.response e, .consumer, .consumer] = some { s with
          cont := upd s.cont old ((s.cont old).mergeResponse e),
          map := AMap.set s.map (keyOf e) old, c := .idle } := by
        simp only [exec, act, hidle, if_true, hg, consumerStep]
        unfold decideResponse
        simp only [hr, consumerStep, hhome]
      exact follows_change h (keyOf e) _ old hg ⟨hh.1, hh.2⟩ _ ha
          ⟨rfl, h.quiet.2⟩ (Or.inr rfl) (fun _ _ => rfl) (fun _ _ => rfl) rfl rfl

theorem sim_scanKeys {cfg : Cfg} (now : Int) (ks : List Key) {s : S} {st : Mon} {out : List Out} (h : Sim s st out) :
    Follows cfg s out (scanKeys cfg noContinue now st ks) := by
  induction ks generalizing s st out with
  | nil => exact ⟨[], s, rfl, by simpa [scanKeys] using h⟩
  | cons k ks ih =>
    have hidle := h.quiet.2
    have hmap := h.map k
    simp only [scanKeys]
    cases hg : AMap.get s.map k with
    | none =>
      rw [hg] at hmap
      simp only [Option.map_none] at hmap
      simp only [hmap]
      exact ih h
    | some old =>
      rw [hg] at hmap
      simp only [Option.map_some] at hmap
      simp only [hmap]
      have hn := h.inv.nonempty old (h.storedLt hg)
      have hs0 := h.unsent _ _ hg
      have hhome := (h.inv.home _ _ hg).1
      by_cases hd : due cfg now (s.cont old) = true
      · simp only [hd, if_true]
        have ha : exec cfg s [.pick k now, .scanner, .scanner, .scanner, .scanner, .scanner] = some { s with
            sent := upd s.sent old 1, size := s.size - 1, map := AMap.del s.map k, reports := old :: s.reports, t := .idle } := by
          simp [exec, act, hidle, hg, scannerStep, hd, hs0, hhome]
        have h1 := sim_flush h (inv_exec _ h.inv ha) ⟨h.quiet.1, rfl⟩ k old hg rfl rfl
          (fun id hid => upd_ne _ _ hid) rfl rfl
        rw [distribute_eq hn, homed_key (h.homed _ _ hg) hn]
        obtain ⟨as, s', he, hs'⟩ := ih h1
        refine ⟨_ ++ as, s', by rw [exec_append, ha]; exact he, ?_⟩
        simpa [List.append_assoc] using hs'
      · simp only [hd, Bool.false_eq_true, if_false]
        exact ih h

/-- C06, C07: whatever the atomic monitor does with a list of events and scans, some schedule of the two
goroutines does: it ends between events with the same stored exchanges, the same gauge, and has reported the
same exchanges in the same order. -/
theorem atomic_run_is_schedule (cfg : Cfg) (ops : List Op) {st : Mon} {out : List Out}
    (h : run cfg noContinue {} ops = some (st, out)) :
    ∃ s, Reachable cfg s ∧ Quiet s ∧ (∀ k, AMap.get st.map k = (AMap.get s.map k).map s.cont) ∧ st.size = s.size ∧
      out = s.reports.reverse.map (fun id => Out.report (s.cont id)) := by
  have key : ∀ (ops : List Op) (s0 : S) (st0 st : Mon) (out0 out : List Out), Sim s0 st0 out0 →
      run cfg noContinue st0 ops = some (st, out) → Follows cfg s0 out0 (st, out) := by
    intro ops
    induction ops with
    | nil =>
      intro s0 st0 st out0 out hs hr
      simp only [run, Option.some.injEq, Prod.mk.injEq] at hr
      obtain ⟨rfl, rfl⟩ := hr
      exact ⟨[], s0, rfl, by simpa using hs⟩
    | cons op ops ih =>
      intro s0 st0 st out0 out hs hr
      simp only [run] at hr
      have hstep : ∃ r, step cfg noContinue st0 op = some r ∧ Follows cfg s0 out0 r := by
        cases op with
        | connect e => exact sim_connect hs e
        | request e => exact ⟨_, rfl, sim_request hs e⟩
        | response e => exact ⟨_, rfl, sim_response hs e⟩
        | scan now => exact ⟨_, rfl, sim_scanKeys now _ hs⟩
      obtain ⟨⟨st1, o1⟩, hst, as, s1, he, hs1⟩ := hstep
      rw [hst] at hr
      simp only [Option.map_eq_some_iff, Prod.mk.injEq] at hr
      obtain ⟨⟨st2, o2⟩, hrun, rfl, rfl⟩ := hr
      obtain ⟨bs, s2, he2, hs2⟩ := ih s1 st1 _ _ _ hs1 hrun
      exact ⟨as ++ bs, s2, by rw [exec_append, he]; exact he2, by simpa [List.append_assoc] using hs2⟩
  have h0 : Sim {} {} [] := ⟨inv_init, ⟨rfl, rfl⟩, by simp, by simp, by simp, rfl, rfl⟩
  obtain ⟨as, s, he, hs⟩ := key ops {} {} st [] out h0 h
  exact ⟨s, ⟨as, he⟩, hs.quiet, hs.map, hs.size, by simpa using hs.outs⟩

/-- Two exchanges on a socket, the second flushed by a scan. -/
example : (run wcfg noContinue {} [.request { pid := 1, fd := 3, ts := 1000000000 },
    .response { pid := 1, fd := 3, ts := 2000000000 }, .request { pid := 1, fd := 3, ts := 3000000000 },
    .scan 500000000000]).map (fun r => (r.1.map.length, r.2.length)) = some (0, 2) := by decide +kernel

end Kindling.Net.Conc
