import Verif.Net.Model
/-
Model of udp_cache.go and of the UDP part of network_analyzer.go (DNS over UDP), the steps of the event
consumer and the passes of the scanner taken atomically.  What the parsers do with the payload is modelled in
Verif/Proto/Dns.lean; here a request or response event carries the transaction id they found.
`κ` is the type of socket keys (udp_cache.go:80-98, a comparable struct).
-/
namespace Kindling.Net.Udp
open Kindling Kindling.Net

/-- udp_cache.go:66-70 `udpRequest` (without the attributes). -/
structure UReq where
  id : Int
  ev : Evt
deriving DecidableEq, Repr

/-- udp_cache.go:11-14 `DnsUdpCache`. -/
structure Cache where
  count : Int := 0
  reqs : AMap Int UReq := []
deriving DecidableEq, Repr

/-- udp_cache.go:20-23. -/
def Cache.addRequest (c : Cache) (r : UReq) : Cache :=
  { reqs := AMap.set c.reqs r.id r, count := c.count + 1 }

/-- udp_cache.go:25-31. -/
def Cache.getMatchRequest (c : Cache) (id : Int) : Cache × Option UReq × Int :=
  match AMap.get c.reqs id with
  | some r => ({ reqs := AMap.del c.reqs id, count := c.count - 1 }, some r, c.count - 1)
  | none => (c, none, c.count)

/-- udp_cache.go:33-36. -/
def Cache.deleteRequest (c : Cache) (id : Int) : Cache :=
  { reqs := AMap.del c.reqs id, count := c.count - 1 }

/-- udp_cache.go:38-40. -/
def Cache.isEmpty (c : Cache) : Bool := decide (c.count = 0)

/-- A reported exchange: the request and, if there is one, the response event. -/
structure Rep (κ : Type) where
  key : κ
  req : UReq
  resp : Option Evt
deriving DecidableEq

variable {κ : Type} [DecidableEq κ]

/-- `dnsRequestMonitor`. -/
abbrev Mon (κ : Type) := AMap κ Cache

/-- network_analyzer.go:292-299 `consumeUdpDnsRequest` after successful parsing. -/
def request (m : Mon κ) (k : κ) (r : UReq) : Mon κ :=
  match AMap.get m k with
  | some c => AMap.set m k (c.addRequest r)
  | none => AMap.set m k (({} : Cache).addRequest r)

/-- network_analyzer.go:233-251: a response with transaction id `id`. -/
def response (m : Mon κ) (k : κ) (id : Int) (e : Evt) : Mon κ × List (Rep κ) :=
  match AMap.get m k with
  | none => (m, [])
  | some c =>
    match c.getMatchRequest id with
    | (c', r, size) =>
      (if size ≤ 0 then AMap.del m k else AMap.set m k c',
       match r with
       | some r => [{ key := k, req := r, resp := some e }]
       | none => [])

/-- network_analyzer.go:326-327. -/
def expired (cfg : Cfg) (now : Int) (r : UReq) : Bool :=
  decide (now.tdiv 1000000000 - (toI64 r.ev.ts).tdiv 1000000000 ≥ cfg.getNoResponseThreshold)

/-- network_analyzer.go:324-338: one pass over the requests of a cache. -/
def scanReqs (cfg : Cfg) (now : Int) : Cache → AMap Int UReq → Cache × List UReq
  | c, [] => (c, [])
  | c, (id, r) :: rest =>
    if expired cfg now r then
      let (c', l) := scanReqs cfg now (c.deleteRequest id) rest
      (c', r :: l)
    else scanReqs cfg now c rest

/-- network_analyzer.go:322-343: one pass over all caches. -/
def scanAll (cfg : Cfg) (now : Int) : Mon κ → AMap κ Cache → Mon κ × List (Rep κ)
  | m, [] => (m, [])
  | m, (k, c) :: rest =>
    let (c', l) := scanReqs cfg now c c.reqs
    let m' := if c'.isEmpty then AMap.del m k else AMap.set m k c'
    let (m'', l') := scanAll cfg now m' rest
    (m'', l.map (fun r => { key := k, req := r, resp := none }) ++ l')

inductive Op (κ : Type) where
  | request (k : κ) (r : UReq)
  | response (k : κ) (id : Int) (e : Evt)
  | scan (now : Int)

def step (cfg : Cfg) (m : Mon κ) : Op κ → Mon κ × List (Rep κ)
  | .request k r => (request m k r, [])
  | .response k id e => response m k id e
  | .scan now => scanAll cfg now m m

def run (cfg : Cfg) (m : Mon κ) : List (Op κ) → Mon κ × List (Rep κ)
  | [] => (m, [])
  | op :: ops =>
    let (m1, o1) := step cfg m op
    let (m2, o2) := run cfg m1 ops
    (m2, o1 ++ o2)

/-- The stored query of a transaction id on a socket. -/
def stored (m : Mon κ) (k : κ) (id : Int) : Option UReq :=
  match AMap.get m k with
  | none => none
  | some c => AMap.get c.reqs id

/-! ## Specification: every (socket, transaction id) on its own -/

/-- The life of one transaction id on one socket. -/
def slot (cfg : Cfg) (k : κ) (id : Int) (cur : Option UReq) : Op κ → Option UReq × List (Rep κ)
  | .request k' r => if k' = k ∧ r.id = id then (some r, []) else (cur, [])
  | .response k' id' e =>
    if k' = k ∧ id' = id then
      (none, match cur with | some r => [{ key := k, req := r, resp := some e }] | none => [])
    else (cur, [])
  | .scan now => match cur with
    | some r => if expired cfg now r then (none, [{ key := k, req := r, resp := none }]) else (some r, [])
    | none => (none, [])

def slotRun (cfg : Cfg) (k : κ) (id : Int) (cur : Option UReq) : List (Op κ) → Option UReq × List (Rep κ)
  | [] => (cur, [])
  | op :: ops =>
    let (c1, o1) := slot cfg k id cur op
    let (c2, o2) := slotRun cfg k id c1 ops
    (c2, o1 ++ o2)

/-! ## Invariant -/

structure CInv (c : Cache) : Prop where
  wf : AMap.WF c.reqs
  ids : ∀ i r, AMap.get c.reqs i = some r → r.id = i
  ge : (c.reqs.length : Int) ≤ c.count

structure Inv (m : Mon κ) : Prop where
  wf : AMap.WF m
  each : ∀ k c, AMap.get m k = some c → CInv c ∧ 0 < c.count

theorem cinv_init : CInv {} := ⟨by simp, by simp, by simp⟩

theorem cinv_add {c : Cache} (h : CInv c) (r : UReq) : CInv (c.addRequest r) := by
  refine ⟨h.wf.set _ _, fun i r' hr => ?_, ?_⟩
  · simp only [Cache.addRequest, AMap.get_set] at hr
    split at hr
    · rename_i e; cases hr; exact e
    · exact h.ids i r' hr
  · have hge := h.ge
    simp only [Cache.addRequest]
    cases hg : AMap.get c.reqs r.id with
    | none => rw [AMap.length_set_of_none hg]; omega
    | some w => rw [AMap.length_set_of_some hg]; omega

theorem cinv_del {c : Cache} (h : CInv c) {id : Int} {r : UReq} (hr : AMap.get c.reqs id = some r) :
    CInv (c.deleteRequest id) := by
  refine ⟨h.wf.del _, fun i r' hr' => ?_, ?_⟩
  · simp only [Cache.deleteRequest, AMap.get_del] at hr'
    split at hr'
    · simp at hr'
    · exact h.ids i r' hr'
  · have hge := h.ge
    have := AMap.length_del_of_some h.wf hr
    simp only [Cache.deleteRequest]; omega

theorem getMatch_some {c : Cache} {id : Int} {r : UReq} (h : AMap.get c.reqs id = some r) :
    c.getMatchRequest id = (c.deleteRequest id, some r, c.count - 1) := by
  simp [Cache.getMatchRequest, h, Cache.deleteRequest]

theorem getMatch_none {c : Cache} {id : Int} (h : AMap.get c.reqs id = none) :
    c.getMatchRequest id = (c, none, c.count) := by
  simp [Cache.getMatchRequest, h]

/-- Scanning the requests of a cache removes exactly the expired ones and keeps `count - stored`. -/
theorem scanReqs_spec (cfg : Cfg) (now : Int) (l : AMap Int UReq) {c : Cache} (h : CInv c) (hl : AMap.WF l)
    (hsub : ∀ i r, (i, r) ∈ l → AMap.get c.reqs i = some r) :
    CInv (scanReqs cfg now c l).1 ∧
    ((scanReqs cfg now c l).1.count - (scanReqs cfg now c l).1.reqs.length = c.count - c.reqs.length) ∧
    (∀ i, AMap.get (scanReqs cfg now c l).1.reqs i =
      match AMap.get l i with
      | some r => if expired cfg now r then none else AMap.get c.reqs i
      | none => AMap.get c.reqs i) ∧
    (scanReqs cfg now c l).2 = (l.filter (fun p => expired cfg now p.2)).map (·.2) := by
  induction l generalizing c with
  | nil => simp [scanReqs, h]
  | cons p rest ih =>
    obtain ⟨id, r⟩ := p
    have hlr : AMap.WF rest := by simp [AMap.WF, AMap.keys] at hl ⊢; exact hl.2
    have hni : ∀ r', (id, r') ∉ rest := by
      simp only [AMap.WF, AMap.keys, List.map_cons, List.nodup_cons] at hl
      intro r' hm; exact hl.1 (List.mem_map.2 ⟨_, hm, rfl⟩)
    have hn0 : AMap.get rest id = none := by
      rw [AMap.get_eq_none_iff]; simp [AMap.WF, AMap.keys] at hl ⊢; exact hl.1
    simp only [scanReqs]
    by_cases he : expired cfg now r = true
    · simp only [he, ↓reduceIte]
      have hg := hsub id r (by simp)
      obtain ⟨i1, i2, i3, i4⟩ := ih (cinv_del h hg) hlr (fun i r' hm => by
        have hne : id ≠ i := by rintro rfl; exact hni r' hm
        simp only [Cache.deleteRequest, AMap.get_del_ne _ hne]
        exact hsub i r' (by simp [hm]))
      refine ⟨i1, ?_, ?_, ?_⟩
      · rw [i2]
        have := AMap.length_del_of_some h.wf hg
        simp only [Cache.deleteRequest]; omega
      · intro i
        rw [i3 i]
        simp only [Cache.deleteRequest, AMap.get_del, AMap.get]
        by_cases hid : id = i
        · subst hid; simp [he, hn0]
        · simp only [hid, ↓reduceIte]
      · simp [i4, he]
    · simp only [he, Bool.false_eq_true, ↓reduceIte]
      obtain ⟨i1, i2, i3, i4⟩ := ih h hlr (fun i r' hm => hsub i r' (by simp [hm]))
      refine ⟨i1, i2, ?_, ?_⟩
      · intro i
        rw [i3 i]
        simp only [AMap.get]
        by_cases hid : id = i
        · subst hid; simp [he, hn0]
        · simp only [hid, ↓reduceIte]
      · simp [i4, he]

/-- The result of scanning one cache. -/
def scanned (cfg : Cfg) (now : Int) (c : Cache) : Option Cache :=
  if (scanReqs cfg now c c.reqs).1.isEmpty then none else some (scanReqs cfg now c c.reqs).1

theorem scanAll_get (cfg : Cfg) (now : Int) (l : AMap κ Cache) (m : Mon κ) (hw : AMap.WF m) (hl : AMap.WF l) :
    AMap.WF (scanAll cfg now m l).1 ∧
    (∀ k, AMap.get (scanAll cfg now m l).1 k =
      match AMap.get l k with
      | some c => scanned cfg now c
      | none => AMap.get m k) ∧
    (scanAll cfg now m l).2 = l.flatMap (fun p => (scanReqs cfg now p.2 p.2.reqs).2.map (fun r => { key := p.1, req := r, resp := none })) := by
  induction l generalizing m with
  | nil => simp [scanAll, hw]
  | cons p rest ih =>
    obtain ⟨k0, c⟩ := p
    have hlr : AMap.WF rest := by simp [AMap.WF, AMap.keys] at hl ⊢; exact hl.2
    have hn0 : AMap.get rest k0 = none := by
      rw [AMap.get_eq_none_iff]; simp [AMap.WF, AMap.keys] at hl ⊢; exact hl.1
    simp only [scanAll]
    obtain ⟨i1, i2, i3⟩ := ih (if (scanReqs cfg now c c.reqs).1.isEmpty then AMap.del m k0 else AMap.set m k0 (scanReqs cfg now c c.reqs).1)
      (by split; exact hw.del _; exact hw.set _ _) hlr
    refine ⟨i1, ?_, ?_⟩
    · intro k
      rw [i2 k]
      by_cases hk : k0 = k
      · subst hk
        simp only [AMap.get, ↓reduceIte, hn0, scanned]
        split <;> simp
      · simp only [AMap.get, hk, ↓reduceIte]
        cases AMap.get rest k with
        | some c' => rfl
        | none =>
          simp only
          split
          · exact AMap.get_del_ne _ hk
          · exact AMap.get_set_ne _ _ hk
    · rw [i3]; simp

theorem mem_get {c : Cache} (h : CInv c) (i : Int) (r : UReq) : (i, r) ∈ c.reqs ↔ AMap.get c.reqs i = some r :=
  AMap.mem_iff_get h.wf

theorem scanReqs_self {cfg : Cfg} {now : Int} {c : Cache} (h : CInv c) :
    CInv (scanReqs cfg now c c.reqs).1 ∧
    ((scanReqs cfg now c c.reqs).1.count - (scanReqs cfg now c c.reqs).1.reqs.length = c.count - c.reqs.length) ∧
    (∀ i, AMap.get (scanReqs cfg now c c.reqs).1.reqs i =
      match AMap.get c.reqs i with
      | some r => if expired cfg now r then none else some r
      | none => none) ∧
    (scanReqs cfg now c c.reqs).2 = (c.reqs.filter (fun p => expired cfg now p.2)).map (·.2) := by
  obtain ⟨i1, i2, i3, i4⟩ := scanReqs_spec cfg now c.reqs h h.wf (fun i r hm => (mem_get h i r).1 hm)
  refine ⟨i1, i2, ?_, i4⟩
  intro i
  rw [i3 i]
  cases hg : AMap.get c.reqs i with
  | none => simp
  | some r => simp

theorem inv_step {cfg : Cfg} {m : Mon κ} (h : Inv m) (op : Op κ) : Inv (step cfg m op).1 := by
  cases op with
  | request k r =>
    simp only [step, request]
    cases hg : AMap.get m k with
    | none =>
      refine ⟨h.wf.set _ _, fun k' c' hc => ?_⟩
      rw [AMap.get_set] at hc
      split at hc
      · cases hc; exact ⟨cinv_add cinv_init r, by simp [Cache.addRequest]⟩
      · exact h.each k' c' hc
    | some c =>
      obtain ⟨h1, h2⟩ := h.each k c hg
      refine ⟨h.wf.set _ _, fun k' c' hc => ?_⟩
      rw [AMap.get_set] at hc
      split at hc
      · cases hc; exact ⟨cinv_add h1 r, by simp only [Cache.addRequest]; omega⟩
      · exact h.each k' c' hc
  | response k id e =>
    simp only [step, response]
    cases hg : AMap.get m k with
    | none => exact h
    | some c =>
      obtain ⟨h1, h2⟩ := h.each k c hg
      cases hr : AMap.get c.reqs id with
      | none =>
        simp only [getMatch_none hr]
        simp only [show ¬ c.count ≤ 0 by omega, ↓reduceIte]
        refine ⟨h.wf.set _ _, fun k' c' hc => ?_⟩
        rw [AMap.get_set] at hc
        split at hc
        · cases hc; exact ⟨h1, h2⟩
        · exact h.each k' c' hc
      | some r =>
        simp only [getMatch_some hr]
        split
        · refine ⟨h.wf.del _, fun k' c' hc => ?_⟩
          rw [AMap.get_del] at hc
          split at hc
          · simp at hc
          · exact h.each k' c' hc
        · refine ⟨h.wf.set _ _, fun k' c' hc => ?_⟩
          rw [AMap.get_set] at hc
          split at hc
          · cases hc; exact ⟨cinv_del h1 hr, by simp only [Cache.deleteRequest]; omega⟩
          · exact h.each k' c' hc
  | scan now =>
    simp only [step]
    obtain ⟨i1, i2, _⟩ := scanAll_get cfg now m m h.wf h.wf
    refine ⟨i1, fun k c hc => ?_⟩
    rw [i2 k] at hc
    cases hg : AMap.get m k with
    | none => rw [hg] at hc; simp at hc
    | some c0 =>
      rw [hg] at hc
      simp only [scanned] at hc
      obtain ⟨h1, h2⟩ := h.each k c0 hg
      obtain ⟨j1, j2, j3, _⟩ := scanReqs_self (cfg := cfg) (now := now) h1
      split at hc
      · simp at hc
      · rename_i hne
        cases hc
        refine ⟨j1, ?_⟩
        have := j1.ge
        simp only [Cache.isEmpty, decide_eq_true_eq] at hne
        omega

/-- Reports of one transaction id on one socket. -/
def ofSlot (k : κ) (id : Int) (l : List (Rep κ)) : List (Rep κ) :=
  l.filter (fun r => decide (r.key = k) && decide (r.req.id = id))

theorem ofSlot_append (k : κ) (id : Int) (a b : List (Rep κ)) : ofSlot k id (a ++ b) = ofSlot k id a ++ ofSlot k id b := by
  simp [ofSlot]

theorem ofSlot_none {k : κ} {id : Int} {l : List (Rep κ)} (h : ∀ r ∈ l, r.key = k → r.req.id ≠ id) : ofSlot k id l = [] := by
  simp only [ofSlot, List.filter_eq_nil_iff]
  intro r hr
  simp only [Bool.and_eq_true, decide_eq_true_eq]
  rintro ⟨h1, h2⟩; exact h r hr h1 h2

/-- The reports of one scanned cache, for one id. -/
theorem scan_reqs_slot {cfg : Cfg} {now : Int} (k : κ) (id : Int) (l : AMap Int UReq) (hw : AMap.WF l)
    (hids : ∀ i r, (i, r) ∈ l → r.id = i) :
    ofSlot k id (((l.filter (fun p => expired cfg now p.2)).map (·.2)).map (fun r => ({ key := k, req := r, resp := none } : Rep κ))) =
      match AMap.get l id with
      | some r => if expired cfg now r then [{ key := k, req := r, resp := none }] else []
      | none => [] := by
  induction l with
  | nil => simp [ofSlot]
  | cons p rest ih =>
    obtain ⟨i, r⟩ := p
    have hwr : AMap.WF rest := by simp [AMap.WF, AMap.keys] at hw ⊢; exact hw.2
    have ih' := ih hwr (fun i' r' hm => hids i' r' (by simp [hm]))
    have hid : r.id = i := hids i r (by simp)
    have hn : AMap.get rest i = none := by
      rw [AMap.get_eq_none_iff]; simp [AMap.WF, AMap.keys] at hw ⊢; exact hw.1
    by_cases hi : i = id
    · subst hi
      rw [hn] at ih'
      simp only [AMap.get, ↓reduceIte]
      by_cases he : expired cfg now r = true
      · simp only [List.filter_cons, he, ↓reduceIte, List.map_cons, ofSlot] at ih' ⊢
        simp only [hid, decide_true, Bool.and_self, ↓reduceIte]
        rw [ih']
      · simp only [List.filter_cons, he]
        simpa using ih'
    · simp only [AMap.get, hi, ↓reduceIte]
      have : r.id ≠ id := by rw [hid]; exact hi
      by_cases he : expired cfg now r = true
      · rw [← ih']
        simp only [List.filter_cons, he, ↓reduceIte, List.map_cons, ofSlot]
        simp [this]
      · rw [← ih']; simp [he]

theorem scan_slot {cfg : Cfg} {now : Int} (k : κ) (id : Int) (l : Mon κ) (hw : AMap.WF l)
    (hc : ∀ k c, AMap.get l k = some c → CInv c) :
    ofSlot k id (l.flatMap (fun p => (scanReqs cfg now p.2 p.2.reqs).2.map (fun r => { key := p.1, req := r, resp := none }))) =
      match stored l k id with
      | some r => if expired cfg now r then [{ key := k, req := r, resp := none }] else []
      | none => [] := by
  induction l with
  | nil => simp [ofSlot, stored]
  | cons p rest ih =>
    obtain ⟨k0, c⟩ := p
    have hwr : AMap.WF rest := by simp [AMap.WF, AMap.keys] at hw ⊢; exact hw.2
    have hn : AMap.get rest k0 = none := by
      rw [AMap.get_eq_none_iff]; simp [AMap.WF, AMap.keys] at hw ⊢; exact hw.1
    have hc0 : CInv c := hc k0 c (by simp [AMap.get])
    have ih' := ih hwr (fun k' c' hg => hc k' c' (by
      simp only [AMap.get]; split
      · rename_i e; rw [← e, hn] at hg; cases hg
      · exact hg))
    rw [List.flatMap_cons, ofSlot_append, ih']
    obtain ⟨_, _, _, j4⟩ := scanReqs_self (cfg := cfg) (now := now) hc0
    by_cases hk : k0 = k
    · subst hk
      simp only [stored, hn, AMap.get, ↓reduceIte, List.append_nil]
      rw [j4]
      exact scan_reqs_slot k0 id c.reqs hc0.wf (fun i r hm => hc0.ids i r ((mem_get hc0 i r).1 hm))
    · simp only [stored, AMap.get, hk, ↓reduceIte]
      rw [ofSlot_none]
      · simp
      · intro r hr hrk
        obtain ⟨r', _, rfl⟩ := List.mem_map.1 hr
        exact absurd hrk hk

/-- One step refines the machine of every (socket, id). -/
theorem step_slot {cfg : Cfg} {m : Mon κ} (h : Inv m) (op : Op κ) (k : κ) (id : Int) :
    (stored (step cfg m op).1 k id, ofSlot k id (step cfg m op).2) = slot cfg k id (stored m k id) op := by
  cases op with
  | request k' r =>
    simp only [step, request, slot, ofSlot, List.filter_nil]
    by_cases hk : k' = k
    · subst hk
      cases hg : AMap.get m k' with
      | none => by_cases hi : r.id = id <;> simp [stored, hg, Cache.addRequest, AMap.get_set, hi]
      | some c => by_cases hi : r.id = id <;> simp [stored, hg, Cache.addRequest, AMap.get_set, hi]
    · cases hg : AMap.get m k' with
      | none => simp [stored, AMap.get_set, hk]
      | some c => simp [stored, AMap.get_set, hk]
  | response k' id' e =>
    simp only [step, response, slot]
    by_cases hk : k' = k
    · subst hk
      cases hg : AMap.get m k' with
      | none => simp [stored, hg, ofSlot]
      | some c =>
        obtain ⟨h1, h2⟩ := h.each k' c hg
        cases hr : AMap.get c.reqs id' with
        | none =>
          simp only [getMatch_none hr]
          simp only [show ¬ c.count ≤ 0 by omega, ↓reduceIte]
          by_cases hi : id' = id
          · subst hi; simp [stored, hg, hr, ofSlot]
          · simp [stored, hg, ofSlot, hi]
        | some r =>
          have hrid := h1.ids id' r hr
          simp only [getMatch_some hr]
          by_cases hi : id' = id
          · subst hi
            split <;> simp [stored, hg, hr, ofSlot, hrid, Cache.deleteRequest]
          · have hne : r.id ≠ id := by rw [hrid]; exact hi
            split
            · rename_i hle
              -- the cache is dropped: nothing else was stored
              have h3 := AMap.length_del_of_some h1.wf hr
              have hge := h1.ge
              have : (AMap.del c.reqs id').length = 0 := by omega
              have he : AMap.del c.reqs id' = [] := by simpa using this
              have hgi : AMap.get c.reqs id = none := by rw [← AMap.get_del_ne c.reqs hi, he]; rfl
              simp [stored, hg, hgi, ofSlot, hne, hi]
            · simp [stored, hg, ofSlot, hne, hi, Cache.deleteRequest, AMap.get_del]
    · have hst : ∀ v, stored (AMap.set m k' v) k id = stored m k id := by intro v; simp [stored, AMap.get_set_ne _ _ hk]
      have hsd : stored (AMap.del m k') k id = stored m k id := by simp [stored, AMap.get_del_ne _ hk]
      simp only [hk, false_and, ↓reduceIte]
      cases hg : AMap.get m k' with
      | none => simp [ofSlot]
      | some c =>
        cases hr : AMap.get c.reqs id' with
        | none =>
          simp only [getMatch_none hr]
          split <;> simp [hst, hsd, ofSlot]
        | some r => simp only [getMatch_some hr]; split <;> simp [hst, hsd, ofSlot, hk]
  | scan now =>
    simp only [step, slot]
    obtain ⟨i1, i2, i3⟩ := scanAll_get cfg now m m h.wf h.wf
    have hc : ∀ k c, AMap.get m k = some c → CInv c := fun k c hg => (h.each k c hg).1
    rw [i3, scan_slot k id m h.wf hc]
    have hst : stored (scanAll cfg now m m).1 k id =
        match stored m k id with
        | some r => if expired cfg now r then none else some r
        | none => none := by
      simp only [stored, i2 k]
      cases hg : AMap.get m k with
      | none => simp
      | some c =>
        obtain ⟨j1, j2, j3, _⟩ := scanReqs_self (cfg := cfg) (now := now) (hc k c hg)
        simp only [scanned]
        split
        · rename_i he
          split at he
          · rename_i hem
            simp only [Cache.isEmpty, decide_eq_true_eq] at hem
            have := j1.ge
            have hl : (scanReqs cfg now c c.reqs).1.reqs = [] := by
              rw [← List.length_eq_zero_iff]; omega
            have := j3 id
            rw [hl] at this
            simp only [AMap.get_nil] at this
            exact this
          · simp at he
        · rename_i c' he
          split at he
          · simp at he
          · cases he; exact j3 id
    rw [hst]
    cases stored m k id with
    | none => rfl
    | some r => simp only []; split <;> simp_all

end Kindling.Net.Udp
