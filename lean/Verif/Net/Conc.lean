import Verif.Net.Props
/-
The exchange monitor with its two goroutines interleaved at the granularity of the atomic operations
of the code: the event consumer (network_analyzer.go:180-193, 350-435) and the timeout scanner
(301-321).  An execution is a list of actions; every list is allowed.

Simplifications:
* an exchange is an identifier with its contents in `cont`; contents are changed by the consumer only
  (the scanner only reads them: HTTP 100-continue, where it would put a request back, is left out);
* the key under which an exchange is stored (`getKey`) is fixed when it is created (`home`; for the
  atomic model this is proved in `gauge_is_number_of_exchanges_partial`);
* the scanner may pick any stored exchange at any time (`sync.Map.Range` promises no more).
-/
namespace Kindling.Net.Conc
open Kindling Kindling.Net

def upd {α : Type} (f : Nat → α) (i : Nat) (v : α) : Nat → α := fun j => if j = i then v else f j

@[simp] theorem upd_self {α : Type} (f : Nat → α) (i : Nat) (v : α) : upd f i v i = v := by simp [upd]
theorem upd_ne {α : Type} (f : Nat → α) {i j : Nat} (v : α) (h : j ≠ i) : upd f i v j = f j := by simp [upd, h]
theorem upd_apply {α : Type} (f : Nat → α) (i : Nat) (v : α) (j : Nat) : upd f i v j = if j = i then v else f j := rfl

/-- Where the consumer stands. -/
inductive CPC where
  | idle
  /-- stored a new exchange, gauge not yet incremented (375, 416) -/
  | addSize
  /-- about to decide what to do with the connect event `e` given the old exchange (359-374) -/
  | connectOld (e : Evt) (old new : Nat)
  /-- the same for a request event (394-414) -/
  | requestOld (e : Evt) (old new : Nat)
  /-- the same for a response event (426-434) -/
  | responseOld (e : Evt) (old : Nat)
  /-- before `checkSend` (446) -/
  | checkSend (old new : Nat)
  /-- `checkSend` won, before `Store(newPairs)` (452) -/
  | storeNew (old new : Nat)
  /-- before `Store(oldPairs)` (404, 433) -/
  | storeOld (old : Nat)
  /-- before the records are handed over (476) -/
  | report (old : Nat)
deriving DecidableEq

/-- Where the scanner stands. -/
inductive TPC where
  | idle
  /-- exchange taken from the map, `due` not yet evaluated (307-318) -/
  | picked (id : Nat) (now : Int)
  | checkSend (id : Nat)
  /-- `checkSend` won, before the gauge is decremented (454) -/
  | decSize (id : Nat)
  /-- before `Delete` (455) -/
  | delete (id : Nat)
  | report (id : Nat)
deriving DecidableEq

structure S where
  map : AMap Key Nat := []
  cont : Nat → Pairs := fun _ => { maxLen := 0 }
  home : Nat → Key := fun _ => ⟨0, 0⟩
  /-- `isSend` -/
  sent : Nat → Nat := fun _ => 0
  size : Int := 0
  next : Nat := 0
  reports : List Nat := []
  /-- ghost: has been stored in the map -/
  born : Nat → Bool := fun _ => false
  c : CPC := .idle
  t : TPC := .idle

inductive Act where
  /-- the consumer takes the next event from the channel -/
  | connect (e : Evt)
  | request (e : Evt)
  | response (e : Evt)
  /-- the consumer goes on -/
  | consumer
  /-- the scanner visits a stored exchange at time `now` -/
  | pick (k : Key) (now : Int)
  /-- the scanner goes on -/
  | scanner

/-- A fresh exchange with the given contents (352-358, 387-393) and `LoadOrStore` (359, 394). -/
def loadOrStore (s : S) (e : Evt) (p : Pairs) (pc : Nat → Nat → CPC) : S :=
  let id := s.next
  let s1 := { s with next := id + 1, cont := upd s.cont id p, home := upd s.home id (keyOf e), sent := upd s.sent id 0 }
  match AMap.get s.map (keyOf e) with
  | none => { s1 with map := AMap.set s.map (keyOf e) id, born := upd s.born id true, c := .addSize }
  | some old => { s1 with c := pc old id }

/-- network_analyzer.go:350-376 after `LoadOrStore` found `old`. -/
def decideConnect (cfg : Cfg) (s : S) (e : Evt) (old new : Nat) : S :=
  let p := s.cont old
  match p.requests, p.connects with
  | none, some c =>
    if c.isTimeout e cfg.getConnectTimeout.toNat then { s with c := .checkSend old new }
    else { s with cont := upd s.cont old { p with connects := some (newEvents e p.maxLen) }, c := .idle }
  | _, _ => { s with c := .checkSend old new }

/-- network_analyzer.go:395-414. -/
def decideRequest (s : S) (e : Evt) (old new : Nat) : S :=
  let p := s.cont old
  match p.requests with
  | none => match p.connects with
    | none => { s with c := .storeNew old new }
    | some _ => { s with cont := upd s.cont old (p.mergeRequest e), c := .storeOld old }
  | some r =>
    if p.responses.isSome || r.sportChanged e then { s with c := .checkSend old new }
    else { s with cont := upd s.cont old (p.mergeRequest e), c := .idle }

/-- network_analyzer.go:426-434. -/
def decideResponse (s : S) (e : Evt) (old : Nat) : S :=
  let p := s.cont old
  match p.requests with
  | none => { s with c := .idle }
  | some _ => { s with cont := upd s.cont old (p.mergeResponse e), c := .storeOld old }

def consumerStep (cfg : Cfg) (s : S) : Option S :=
  match s.c with
  | .idle => none
  | .addSize => some { s with size := s.size + 1, c := .idle }
  | .connectOld e old new => some (decideConnect cfg s e old new)
  | .requestOld e old new => some (decideRequest s e old new)
  | .responseOld e old => some (decideResponse s e old)
  | .checkSend old new =>
    -- message_pair.go:162-165 and network_analyzer.go:437-449
    some { s with sent := upd s.sent old (s.sent old + 1), c := if s.sent old + 1 = 1 then .storeNew old new else .idle }
  | .storeNew old new => some { s with map := AMap.set s.map (s.home new) new, born := upd s.born new true, c := .report old }
  | .storeOld old => some { s with map := AMap.set s.map (s.home old) old, c := .idle }
  | .report old => some { s with reports := old :: s.reports, c := .idle }

def scannerStep (cfg : Cfg) (s : S) : Option S :=
  match s.t with
  | .idle => none
  | .picked id now => some { s with t := if due cfg now (s.cont id) then .checkSend id else .idle }
  | .checkSend id =>
    some { s with sent := upd s.sent id (s.sent id + 1), t := if s.sent id + 1 = 1 then .decSize id else .idle }
  | .decSize id => some { s with size := s.size - 1, t := .delete id }
  | .delete id => some { s with map := AMap.del s.map (s.home id), t := .report id }
  | .report id => some { s with reports := id :: s.reports, t := .idle }

/-- One action; `none`: not possible now. -/
def act (cfg : Cfg) (s : S) : Act → Option S
  | .connect e => if s.c = .idle then
      some (loadOrStore s e { connects := some (newEvents e cfg.snaplen), maxLen := cfg.snaplen } (.connectOld e)) else none
  | .request e => if s.c = .idle then
      some (loadOrStore s e { requests := some (newEvents e cfg.snaplen), maxLen := cfg.snaplen } (.requestOld e)) else none
  | .response e => if s.c = .idle then
      match AMap.get s.map (keyOf e) with
      | none => some s
      | some old => some { s with c := .responseOld e old }
    else none
  | .consumer => consumerStep cfg s
  | .pick k now => if s.t = .idle then
      match AMap.get s.map k with
      | none => some s
      | some id => some { s with t := .picked id now }
    else none
  | .scanner => scannerStep cfg s

def exec (cfg : Cfg) : S → List Act → Option S
  | s, [] => some s
  | s, a :: as => match act cfg s a with
    | none => none
    | some s' => exec cfg s' as

/-- States reached from the empty monitor by some interleaving. -/
def Reachable (cfg : Cfg) (s : S) : Prop := ∃ as, exec cfg {} as = some s

/-! ## Invariants -/

/-- Exchanges whose report is on its way. -/
def cPend (s : S) (id : Nat) : Nat :=
  match s.c with
  | .storeNew old _ => if old = id then 1 else 0
  | .report old => if old = id then 1 else 0
  | _ => 0

def tPend (s : S) (id : Nat) : Nat :=
  match s.t with
  | .decSize i => if i = id then 1 else 0
  | .delete i => if i = id then 1 else 0
  | .report i => if i = id then 1 else 0
  | _ => 0

/-- Created but never stored so far: the new exchange in the consumer's hand. -/
def cNew (s : S) : Option Nat :=
  match s.c with
  | .connectOld _ _ new => some new
  | .requestOld _ _ new => some new
  | .checkSend _ new => some new
  | .storeNew _ new => some new
  | _ => none

/-- The old exchange in the consumer's hand. -/
def cOld (s : S) : Option Nat :=
  match s.c with
  | .connectOld _ old _ => some old
  | .requestOld _ old _ => some old
  | .responseOld _ old => some old
  | .checkSend old _ => some old
  | .storeNew old _ => some old
  | .storeOld old => some old
  | .report old => some old
  | _ => none

def tHand (s : S) : Option Nat :=
  match s.t with
  | .idle => none
  | .picked id _ => some id
  | .checkSend id => some id
  | .decSize id => some id
  | .delete id => some id
  | .report id => some id

/-- Every exchange has a connect or a request. -/
def nonEmpty (p : Pairs) : Prop := p.connects.isSome ∨ p.requests.isSome

def unsent (s : S) (p : Key × Nat) : Bool := s.sent p.2 == 0

/-- An increment of the gauge still to come. -/
def gAdd : CPC → Int | .addSize => 1 | _ => 0
/-- An exchange claimed whose successor is not yet stored. -/
def gStore : CPC → Int | .storeNew _ _ => 1 | _ => 0
/-- A decrement of the gauge still to come. -/
def gDec : TPC → Int | .decSize _ => 1 | _ => 0

structure Inv (s : S) : Prop where
  wf : AMap.WF s.map
  home : ∀ k id, AMap.get s.map k = some id → s.home id = k ∧ s.born id = true
  bornLt : ∀ id, s.born id = true → id < s.next
  nonempty : ∀ id, id < s.next → nonEmpty (s.cont id)
  /-- reports and pending reports of an exchange: one iff it was claimed -/
  once : ∀ id, s.reports.count id + cPend s id + tPend s id = min 1 (s.sent id)
  unborn : ∀ id, s.born id = false → s.sent id = 0
  cold : ∀ id, cOld s = some id → s.born id = true
  thand : ∀ id, tHand s = some id → s.born id = true
  cnew : ∀ n, cNew s = some n → n < s.next ∧ s.born n = false
  sameHome : ∀ o n, cOld s = some o → cNew s = some n → s.home o = s.home n
  /-- an unclaimed exchange stays stored -/
  stored : ∀ id, s.born id = true → s.sent id = 0 → AMap.get s.map (s.home id) = some id
  /-- the consumer's old exchange is the only one that can be stored under its key -/
  place : ∀ id, cOld s = some id → (∀ o, s.c ≠ .report o) →
    AMap.get s.map (s.home id) = some id ∨ AMap.get s.map (s.home id) = none
  placeNew : ∀ o n, s.c = .storeNew o n → AMap.get s.map (s.home o) = some o
  placeDel : ∀ id, (s.t = .decSize id ∨ s.t = .delete id) → AMap.get s.map (s.home id) = some id
  gauge : s.size + gAdd s.c = s.map.countP (unsent s) + gStore s.c + gDec s.t

theorem inv_init : Inv {} := by
  constructor <;> simp [AMap.get, gAdd, gStore, gDec, cPend, tPend, cOld, cNew, tHand]

theorem countP_set {κ : Type} [DecidableEq κ] (f : κ × Nat → Bool) (m : AMap κ Nat) (k : κ) (v : Nat) :
    (AMap.set m k v).countP f + (match AMap.get m k with | some w => if f (k, w) then 1 else 0 | none => 0) =
      m.countP f + (if f (k, v) then 1 else 0) := by
  induction m with
  | nil => simp [AMap.set, List.countP_cons]
  | cons p r ih =>
    obtain ⟨a, b⟩ := p
    simp only [AMap.set, AMap.get]
    by_cases h : a = k
    · subst h; simp only [↓reduceIte, List.countP_cons]; omega
    · simp only [h, ↓reduceIte, List.countP_cons]; omega

theorem countP_del {κ : Type} [DecidableEq κ] (f : κ × Nat → Bool) {m : AMap κ Nat} (hw : AMap.WF m) (k : κ) :
    (AMap.del m k).countP f + (match AMap.get m k with | some w => if f (k, w) then 1 else 0 | none => 0) =
      m.countP f := by
  induction m with
  | nil => rfl
  | cons p r ih =>
    obtain ⟨a, b⟩ := p
    have hwr : AMap.WF r := by
      simp only [AMap.WF, AMap.keys, List.map_cons, List.nodup_cons] at hw ⊢; exact hw.2
    have hna : AMap.get r a = none := by
      rw [AMap.get_eq_none_iff]
      simp only [AMap.WF, AMap.keys, List.map_cons, List.nodup_cons] at hw ⊢; exact hw.1
    simp only [AMap.del, AMap.get]
    by_cases h : a = k
    · subst h; simp only [↓reduceIte, List.countP_cons]
      rw [AMap.del_eq_self hna]
    · simp only [h, ↓reduceIte, List.countP_cons]
      have := ih hwr
      omega

/-- Claiming an exchange that is stored takes it out of the unsent ones. -/
theorem countP_claim {m : AMap Key Nat} (hw : AMap.WF m) {sent : Nat → Nat} {home : Nat → Key}
    (hh : ∀ k id, AMap.get m k = some id → home id = k) {id : Nat} (h0 : sent id = 0)
    (hg : AMap.get m (home id) = some id) (v : Nat) (hv : v ≠ 0) :
    m.countP (fun p => upd sent id v p.2 == 0) + 1 = m.countP (fun p => sent p.2 == 0) := by
  have hd := countP_del (fun p => upd sent id v p.2 == 0) hw (home id)
  have hd' := countP_del (fun p => sent p.2 == 0) hw (home id)
  rw [hg] at hd hd'
  simp only [upd_self, ↓reduceIte, beq_iff_eq, hv, h0] at hd hd'
  rw [← hd, ← hd']
  congr 1
  apply List.countP_congr
  intro p hp
  obtain ⟨k, i⟩ := p
  have hgd := AMap.get_of_mem (hw.del (home id)) hp
  rw [AMap.get_del] at hgd
  have hne : i ≠ id := by
    rintro rfl
    split at hgd
    · simp at hgd
    · rename_i hk; exact hk (hh k i hgd)
  simp [upd_ne _ _ hne]

/-- Changing the claims of an exchange that is not stored, or already claimed, keeps the number. -/
theorem countP_same {m : AMap Key Nat} (hw : AMap.WF m) {sent : Nat → Nat} {id : Nat} {v : Nat}
    (h : (∀ k, AMap.get m k ≠ some id) ∨ (sent id ≠ 0 ∧ v ≠ 0)) :
    m.countP (fun p => upd sent id v p.2 == 0) = m.countP (fun p => sent p.2 == 0) := by
  apply List.countP_congr
  intro p hp
  obtain ⟨k, i⟩ := p
  have hg := AMap.get_of_mem hw hp
  simp only [upd]
  by_cases hi : i = id
  · subst hi
    rcases h with h | ⟨h1, h2⟩
    · exact absurd hg (h k)
    · simp [h1, h2]
  · simp [hi]

end Kindling.Net.Conc
