import Verif.Conn.Lookup
/-
The statistics of the connection tracker and the metrics made of them: metadata/conntracker/internal/conntracker.go:132-290,
333-386 (the counters), 156-191 (`GetStats`), internal/consumer.go:320-328, metadata/conntracker/conntracker_linux.go:20-52, 97-101,
conntrakcer.go:9-32, self_metrics.go:35-77.
-/
namespace Kindling.Conn.Stats
open Kindling Kindling.Conn.Cache Kindling.Conn.Lookup

/-- `stats` of the tracker (conntracker.go:75-81).  The counters are `int64`; that they never wrap is assumed. -/
structure Cnt where
  gets : Nat
  registers : Nat
  dropped : Nat
  unregisters : Nat
  evicts : Nat
deriving DecidableEq, Repr

/-- `registerTuple` (conntracker.go:334-363) with what it adds to `evicts`; `none` is a panic. -/
def registerTuple (limit : Int) (timeout now : Nat) (s : CSt) (orphan : Bool) (key trans : Tuple) : Option (CSt × Nat) := match formatKey key with
  | none => none
  | some none => some (s, 0)
  | some (some k) => match usable limit, formatTransl trans with
    | some max, some t =>
      some ((Cache.register max s k t orphan (now + timeout)).1, if (Cache.register max s k t orphan (now + timeout)).2 then 1 else 0)
    | _, _ => none

/-- `Add` (conntracker.go:333-368) with its result. -/
def add (limit : Int) (timeout now : Nat) (s : CSt) (c : Con) (orphan : Bool) : Option (CSt × Nat) := match c.origin, c.reply with
  | some o, some r => match registerTuple limit timeout now s orphan o r with
    | none => none
    | some (s', n) => match registerTuple limit timeout now s' orphan r o with
      | none => none
      | some (s'', m) => some (s'', n + m)
  | _, _ => none

/-- The tracker: its cache and counters, the lookups that have left the lock but are not counted yet (conntracker.go:133-135, the
deferred function runs after the unlock), and what sweeps have removed but not counted yet (281-284).  Only one goroutine sweeps;
the model lets the sums wait, which allows more orders than there are. -/
structure T where
  cache : CSt
  cnt : Cnt
  looked : Nat
  swept : Nat

def start : T := ⟨Cache.init, ⟨0, 0, 0, 0, 0⟩, 0, 0⟩

/-- What goroutines do to the tracker.  `con … false` is a round of `loadInitialState`, `con … true` a call of `register`. -/
inductive Act
  | con (o r : Flow) (n : UInt8) (orphan : Bool)
  | look (c : Lookup.Stats)
  | countLook
  | delete (c : Lookup.Stats)
  | sweep
  | countSweep

/-- conntracker.go:214-232 and 236-252, 132-154, 193-208, 280-290. -/
def step (limit : Int) (timeout : Nat) (t : T) (now : Nat) : Act → Option T
  | .con o r n orphan => match isNAT (con o r n) with
    | none => none
    | some false => some (if orphan then { t with cnt.dropped := t.cnt.dropped + 1 } else t)
    | some true => match add limit timeout now t.cache (con o r n) orphan with
      | none => none
      | some (s, ev) => some { t with cache := s, cnt.registers := t.cnt.registers + 1, cnt.evicts := t.cnt.evicts + ev }
  | .look c => match getTranslation limit t.cache c with
    | none => none
    | some (s, _) => some { t with cache := s, looked := t.looked + 1 }
  | .countLook => some (if 0 < t.looked then { t with looked := t.looked - 1, cnt.gets := t.cnt.gets + 1 } else t)
  | .delete c => match usable limit with
    | none => none
    | some _ =>
      let (s, b) := Cache.remove t.cache (keyOf c)
      some { t with cache := s, cnt.unregisters := if b then t.cnt.unregisters + 1 else t.cnt.unregisters }
  | .sweep => match usable limit with
    | none => none
    | some _ => match Cache.sweep t.cache.orphans.length t.cache now with
      | none => none
      | some (s, k) => some { t with cache := s, swept := t.swept + k }
  | .countSweep => some { t with swept := 0, cnt.unregisters := t.cnt.unregisters + t.swept }

def run (limit : Int) (timeout : Nat) : T → List (Nat × Act) → Option T
  | t, [] => some t
  | t, (now, a) :: r => match step limit timeout t now a with
    | none => none
    | some t' => run limit timeout t' r

/-! ### What the counters should say -/

/-- The event of the cache an action is. -/
def Act.ev : Act → Option Ev
  | .con o r n orphan => some (.con o r n orphan)
  | .look c => some (.look c)
  | .delete c => some (.delete c)
  | .sweep => some .compact
  | _ => none

def evs (as : List (Nat × Act)) : List (Nat × Ev) := as.filterMap (fun p => p.2.ev.map (fun e => (p.1, e)))

/-- Translations that came anew, that were pushed out by others, and that were deleted or expired. -/
structure Tally where
  news : Nat
  evicted : Nat
  removed : Nat

/-- What an operation does to the translations, in terms of the specification of the cache. -/
def tallyOp (max : Nat) (l : Spec.S Key Transl) (now : Nat) : Op Key Transl → Tally
  | .add k _ _ => if (Spec.lookup l k).isSome then ⟨0, 0, 0⟩ else if l.length = max then ⟨1, 1, 0⟩ else ⟨1, 0, 0⟩
  | .get _ => ⟨0, 0, 0⟩
  | .remove k => ⟨0, 0, if (Spec.lookup l k).isSome then 1 else 0⟩
  | .sweep => ⟨0, 0, l.countP (Spec.Expired now)⟩

def tally (max timeout : Nat) : Spec.S Key Transl → List (Nat × Op Key Transl) → Tally
  | _, [] => ⟨0, 0, 0⟩
  | l, (now, o) :: r =>
    let a := tallyOp max l now o
    let b := tally max timeout (Spec.step max timeout l now o) r
    ⟨a.news + b.news, a.evicted + b.evicted, a.removed + b.removed⟩

instance (o r : Flow) : Decidable (Opposite o r) := by unfold Opposite; infer_instance

def isLook : Act → Bool
  | .look _ => true
  | _ => false
/-- A connection whose addresses are translated. -/
def isTranslated : Act → Bool
  | .con o r _ _ => !decide (Opposite o r)
  | _ => false
/-- A connection told by the kernel whose addresses are not translated. -/
def isPlain : Act → Bool
  | .con o r _ true => decide (Opposite o r)
  | _ => false

def count (p : Act → Bool) (as : List (Nat × Act)) : Nat := as.countP (fun a => p a.2)

/-! ### The counters say so -/

theorem tally_append (max timeout : Nat) (l : Spec.S Key Transl) (a b : List (Nat × Op Key Transl)) :
    tally max timeout l (a ++ b) = ⟨(tally max timeout l a).news + (tally max timeout (Spec.run max timeout l a) b).news,
      (tally max timeout l a).evicted + (tally max timeout (Spec.run max timeout l a) b).evicted,
      (tally max timeout l a).removed + (tally max timeout (Spec.run max timeout l a) b).removed⟩ := by
  induction a generalizing l with
  | nil => simp [tally, Spec.run]
  | cons p r ih =>
    obtain ⟨now, o⟩ := p
    simp only [List.cons_append, tally, Spec.run, ih, Nat.add_assoc]

theorem run_append (limit : Int) (timeout : Nat) (t : T) (a b : List (Nat × Act)) :
    run limit timeout t (a ++ b) = (run limit timeout t a).bind (fun t' => run limit timeout t' b) := by
  induction a generalizing t with
  | nil => rfl
  | cons p r ih =>
    obtain ⟨now, o⟩ := p
    simp only [List.cons_append, run]
    cases step limit timeout t now o with
    | none => rfl
    | some t' => exact ih t'

theorem lrun_append (limit : Int) (timeout : Nat) (s : CSt) (a b : List (Nat × Ev)) :
    Lookup.run limit timeout s (a ++ b) = (Lookup.run limit timeout s a).bind (fun s' => Lookup.run limit timeout s' b) := by
  induction a generalizing s with
  | nil => rfl
  | cons p r ih =>
    obtain ⟨now, o⟩ := p
    simp only [List.cons_append, Lookup.run]
    cases Lookup.step limit timeout s now o with
    | none => rfl
    | some t' => exact ih t'

theorem evs_snoc (as : List (Nat × Act)) (now : Nat) (a : Act) :
    evs (as ++ [(now, a)]) = evs as ++ (match a.ev with | none => [] | some e => [(now, e)]) := by
  unfold evs
  rw [List.filterMap_append]
  cases h : a.ev <;> simp [h]

theorem evs_clock (as : List (Nat × Act)) (h : (as.map (·.1)).Pairwise (· ≤ ·)) : ((evs as).map (·.1)).Pairwise (· ≤ ·) := by
  unfold evs
  rw [List.map_filterMap]
  rw [List.pairwise_map] at h
  rw [List.pairwise_filterMap]
  refine h.imp ?_
  intro a b hab x hx y hy
  cases ha : a.2.ev <;> cases hb : b.2.ev <;> simp [ha, hb] at hx hy
  omega

/-- Registering changes the size by what it tells. -/
theorem register_size {max : Nat} {s : CSt} (h : Inv max s) (k : Key) (v : Transl) (orphan : Bool) (exp : Nat) (now : Nat) :
    (Cache.register max s k v orphan exp).1.lru.length + (tallyOp max (abs s) now (.add k v orphan)).evicted =
      s.lru.length + (tallyOp max (abs s) now (.add k v orphan)).news ∧
    (if (Cache.register max s k v orphan exp).2 then 1 else 0) = (tallyOp max (abs s) now (.add k v orphan)).evicted := by
  have he := evicts_iff h k v orphan exp
  simp only [tallyOp]
  rw [find_lookup, abs_length] at *
  unfold Cache.register at *
  cases hf : find s.lru k with
  | some e =>
    have := erase_length_eq h.keys (find_mem hf)
    simp; omega
  | none =>
    simp only [hf, Option.map_none, Option.isSome_none, Bool.false_eq_true, if_false, true_and, List.length_cons] at he ⊢
    have hs := h.size
    by_cases hm : s.lru.length + 1 > max
    · have : s.lru.length = max := by omega
      simp only [if_pos hm, if_pos this, removeOldest]
      cases hl : ((k, newEnt s v orphan) :: s.lru).getLast? with
      | none => simp at hl
      | some p => simp
    · have : ¬ s.lru.length = max := by omega
      simp only [if_neg hm, if_neg this]
      simp

theorem add_nat (limit : Int) (hl : 0 < limit) (timeout now : Nat) (s : CSt) (o r : Flow) (udp orphan : Bool) :
    add limit timeout now s (con o r (protoNum udp)) orphan =
      some ((Cache.register limit.toNat (Cache.register limit.toNat s (o.key udp) r.transl orphan (now + timeout)).1 (r.key udp) o.transl orphan
        (now + timeout)).1,
        (if (Cache.register limit.toNat s (o.key udp) r.transl orphan (now + timeout)).2 then 1 else 0) +
        (if (Cache.register limit.toNat (Cache.register limit.toNat s (o.key udp) r.transl orphan (now + timeout)).1 (r.key udp) o.transl orphan
          (now + timeout)).2 then 1 else 0)) := by
  have hu : usable limit = some limit.toNat := by unfold usable; rw [if_neg (by omega)]
  simp only [add, con, registerTuple, formatKey_flow, hu]
  rfl

theorem add_other (limit : Int) (timeout now : Nat) (s : CSt) (o r : Flow) (n : UInt8) (orphan : Bool) (h : n ≠ 6 ∧ n ≠ 17) :
    add limit timeout now s (con o r n) orphan = some (s, 0) := by
  have hk : ∀ f : Flow, formatKey (f.tuple n) = some none := by
    intro f
    simp only [formatKey, Flow.tuple, tuple]
    rw [if_neg h.1, if_neg h.2]
  simp only [add, con, registerTuple, hk]

/-- The state of the cache after a history, as the specification of the cache has it. -/
theorem cache_state (limit : Int) (hl : 0 < limit) (timeout : Nat) (es : List (Nat × Ev)) (hc : (es.map (·.1)).Pairwise (· ≤ ·)) :
    ∃ s, Lookup.run limit timeout Cache.init es = some s ∧ Inv limit.toNat s ∧ Sorted s ∧
      abs s = Spec.run limit.toNat timeout [] (opsAll es) := by
  rw [run_ops limit hl]
  exact history_refines timeout (opsAll es) (opsAll_clock es hc)

/-- What the counters say after a history, in terms of the history alone. -/
structure Exact (limit : Int) (timeout : Nat) (as : List (Nat × Act)) (t : T) : Prop where
  gets : t.cnt.gets + t.looked = count isLook as
  registers : t.cnt.registers = count isTranslated as
  dropped : t.cnt.dropped = count isPlain as
  evicts : t.cnt.evicts = (tally limit.toNat timeout [] (opsAll (evs as))).evicted
  unregisters : t.cnt.unregisters + t.swept = (tally limit.toNat timeout [] (opsAll (evs as))).removed
  size : t.cache.lru.length + t.cnt.evicts + t.cnt.unregisters + t.swept = (tally limit.toNat timeout [] (opsAll (evs as))).news

theorem count_snoc (p : Act → Bool) (as : List (Nat × Act)) (now : Nat) (a : Act) :
    count p (as ++ [(now, a)]) = count p as + (if p a then 1 else 0) := by
  unfold count
  rw [List.countP_append, List.countP_singleton]

theorem opsAll_snoc (es : List (Nat × Ev)) (now : Nat) (e : Ev) :
    opsAll (es ++ [(now, e)]) = opsAll es ++ (opsOf e).map (fun o => (now, o)) := by
  unfold opsAll; rw [List.flatMap_append]; simp

/-- C108.  For every history of connections, lookups, deletions and sweeps, with counting as late as it can be: the tracker does not panic, its
cache is the one that histories without counters have, and the counters are the numbers of lookups, of translated and of plain
connections, of translations pushed out, and of translations deleted or expired; the size is what came minus what went. -/
theorem counters_exact (limit : Int) (hl : 0 < limit) (timeout : Nat) (as : List (Nat × Act)) (hc : (as.map (·.1)).Pairwise (· ≤ ·)) :
    ∃ t, run limit timeout start as = some t ∧ Lookup.run limit timeout Cache.init (evs as) = some t.cache ∧ Exact limit timeout as t := by
  induction as using snoc_ind with
  | nil =>
    refine ⟨start, rfl, rfl, ?_⟩
    constructor <;> simp [start, count, tally, evs, opsAll, Cache.init]
  | snoc as p ih =>
    obtain ⟨now, a⟩ := p
    have hc' : (as.map (·.1)).Pairwise (· ≤ ·) := by
      rw [List.map_append, List.pairwise_append] at hc; exact hc.1
    obtain ⟨t, hr, hlr, hx⟩ := ih hc'
    obtain ⟨s, hs1, hinv, hsort, habs⟩ := cache_state limit hl timeout (evs as) (evs_clock as hc')
    rw [hlr] at hs1
    cases hs1
    have hu : usable limit = some limit.toNat := by unfold usable; rw [if_neg (by omega)]
    obtain ⟨hx1, hx2, hx3, hx4, hx5, hx6⟩ := hx
    rw [run_append, hr, evs_snoc, lrun_append, hlr]
    simp only [Option.bind_some, run]
    cases a with
    | con o r n orphan =>
      simp only [Act.ev]
      obtain ⟨b, hb, hb'⟩ := isNAT_iff o r n
      simp only [step, hb, Lookup.run, Lookup.step, Lookup.register]
      cases b with
      | false =>
        have hop : Opposite o r := Decidable.by_contra (fun h => by simpa using hb'.2 h)
        refine ⟨_, rfl, by cases orphan <;> rfl, ?_⟩
        have hoo : opsOf (.con o r n orphan) = [] := by simp only [opsOf]; rw [if_pos (Or.inl hop)]
        cases orphan <;> constructor <;>
          simp only [Act.ev, count_snoc, opsAll_snoc, evs_snoc, hoo, List.map_nil, List.append_nil, isLook, isTranslated, isPlain, hop] <;> (try simp) <;> omega
      | true =>
        have hop : ¬ Opposite o r := hb'.1 rfl
        by_cases h17 : n ≠ 6 ∧ n ≠ 17
        · rw [add_other limit timeout now t.cache o r n orphan h17]
          have hreg := register_plain limit timeout now t.cache o r n orphan (Or.inr h17)
          simp only [Lookup.register, hb] at hreg
          rw [hreg]
          refine ⟨_, rfl, rfl, ?_⟩
          have hoo : opsOf (.con o r n orphan) = [] := by simp only [opsOf]; rw [if_pos (Or.inr h17)]
          cases orphan <;> constructor <;>
            simp only [Act.ev, count_snoc, opsAll_snoc, evs_snoc, hoo, List.map_nil, List.append_nil, isLook, isTranslated, isPlain, hop] <;> (try simp) <;> omega
        · have hn : n = protoNum (n == 17) := by
            unfold protoNum
            by_cases h : n = 17
            · subst h; rfl
            · have : n = 6 := Decidable.by_contra (fun hc => h17 ⟨hc, h⟩)
              subst this; rfl
          have hoo : opsOf (.con o r n orphan) = [.add (o.key (n == 17)) r.transl orphan, .add (r.key (n == 17)) o.transl orphan] := by
            simp only [opsOf]; rw [if_neg (by rw [not_or]; exact ⟨hop, h17⟩)]
          generalize (n == 17) = udp at hn hoo
          subst hn
          rw [add_nat limit hl]
          have hreg := register_nat limit hl timeout now t.cache o r udp orphan hop
          simp only [Lookup.register, hb] at hreg
          rw [hreg]
          refine ⟨_, rfl, rfl, ?_⟩
          have z1 := register_size hinv (o.key udp) r.transl orphan (now + timeout) now
          have r1 := register_refines hinv (o.key udp) r.transl orphan (now + timeout)
          have z2 := register_size r1.1 (r.key udp) o.transl orphan (now + timeout) now
          have ta : (tally limit.toNat timeout [] (opsAll (evs as) ++ (opsOf (.con o r (protoNum udp) orphan)).map (fun o => (now, o)))) =
            ⟨(tally limit.toNat timeout [] (opsAll (evs as))).news + ((tallyOp limit.toNat (abs t.cache) now (.add (o.key udp) r.transl orphan)).news +
              (tallyOp limit.toNat (abs (Cache.register limit.toNat t.cache (o.key udp) r.transl orphan (now + timeout)).1) now (.add (r.key udp) o.transl orphan)).news),
             (tally limit.toNat timeout [] (opsAll (evs as))).evicted + ((tallyOp limit.toNat (abs t.cache) now (.add (o.key udp) r.transl orphan)).evicted +
              (tallyOp limit.toNat (abs (Cache.register limit.toNat t.cache (o.key udp) r.transl orphan (now + timeout)).1) now (.add (r.key udp) o.transl orphan)).evicted),
             (tally limit.toNat timeout [] (opsAll (evs as))).removed⟩ := by
            rw [tally_append, hoo, ← habs]
            simp only [List.map_cons, List.map_nil, tally, Spec.step, ← r1.2, Nat.add_zero]
            have q : ∀ l k v, (tallyOp limit.toNat l now (.add k v orphan)).removed = 0 := by
              intro l k v; simp only [tallyOp]; split
              · rfl
              · split <;> rfl
            rw [q, q]
            rfl
          constructor <;>
            simp only [Act.ev, count_snoc, opsAll_snoc, evs_snoc, ta, isLook, isTranslated, isPlain, hop]
          · simp; omega
          · simp; omega
          · cases orphan <;> simp [hop] <;> omega
          · omega
          · omega
          · omega
    | look c =>
      simp only [Act.ev, step, getTranslation, hu, Lookup.run, Lookup.step, Option.map_some]
      refine ⟨_, rfl, rfl, ?_⟩
      have hg := get_refines hinv (keyOf c)
      have hlen : (Cache.get t.cache (keyOf c)).1.lru.length = t.cache.lru.length := by
        unfold Cache.get
        cases hf : find t.cache.lru (keyOf c) with
        | none => rfl
        | some e =>
          have := erase_length_eq hinv.keys (find_mem hf)
          simp; omega
      constructor <;>
        simp only [Act.ev, count_snoc, opsAll_snoc, evs_snoc, tally_append, opsOf, List.map_cons, List.map_nil, tally, tallyOp, isLook, isTranslated, isPlain, hlen] <;> (try simp) <;> omega
    | countLook =>
      simp only [Act.ev, step, Lookup.run]
      refine ⟨_, rfl, by split <;> rfl, ?_⟩
      have e0 : evs (as ++ [(now, .countLook)]) = evs as := by rw [evs_snoc]; simp [Act.ev]
      split <;> constructor <;>
        simp only [count_snoc, e0, isLook, isTranslated, isPlain] <;> (try simp) <;> omega
    | delete c =>
      simp only [Act.ev, step, hu, Lookup.run, Lookup.step]
      refine ⟨_, rfl, rfl, ?_⟩
      have hlen : (Cache.remove t.cache (keyOf c)).1.lru.length + (if (Cache.remove t.cache (keyOf c)).2 then 1 else 0) = t.cache.lru.length ∧
          (Cache.remove t.cache (keyOf c)).2 = (Spec.lookup (abs t.cache) (keyOf c)).isSome := by
        unfold Cache.remove
        rw [find_lookup]
        cases hf : find t.cache.lru (keyOf c) with
        | none => simp
        | some e =>
          have := erase_length_eq hinv.keys (find_mem hf)
          simp; omega
      rw [habs] at hlen
      constructor <;>
        simp only [Act.ev, count_snoc, opsAll_snoc, evs_snoc, tally_append, opsOf, List.map_cons, List.map_nil, tally, tallyOp, isLook, isTranslated, isPlain, ← hlen.2]
      · simp; omega
      · simp; omega
      · simp; omega
      · simp; omega
      · simp only [Nat.add_zero]; split <;> omega
      · have := hlen.1
        simp only [Nat.add_zero]; split at this <;> simp_all <;> omega
    | sweep =>
      obtain ⟨s', k, hsw, _, _, ha, hk, _, _⟩ := sweep_refines hinv hsort now t.cache.orphans.length (Nat.le_refl _)
      simp only [Act.ev, step, hu, hsw, Lookup.run, Lookup.step, Option.map_some]
      refine ⟨_, rfl, rfl, ?_⟩
      have hcnt : k = (Spec.run limit.toNat timeout [] (opsAll (evs as))).countP (Spec.Expired now) := by
        rw [ha, habs] at hk
        unfold Spec.expire at hk
        have := List.length_eq_countP_add_countP (Spec.Expired now) (l := Spec.run limit.toNat timeout [] (opsAll (evs as)))
        rw [← List.countP_eq_length_filter] at hk
        have e : (fun t => !Spec.Expired now t) = (fun t : Tr Key Transl => decide ¬ Spec.Expired now t = true) := by
          funext x; cases Spec.Expired now x <;> rfl
        rw [e] at hk
        omega
      rw [abs_length, abs_length] at hk
      constructor <;>
        simp only [Act.ev, count_snoc, opsAll_snoc, evs_snoc, tally_append, opsOf, List.map_cons, List.map_nil, tally, tallyOp, isLook, isTranslated, isPlain, ← hcnt] <;> (try simp) <;> omega
    | countSweep =>
      simp only [Act.ev, step, Lookup.run]
      refine ⟨_, rfl, rfl, ?_⟩
      have e0 : evs (as ++ [(now, .countSweep)]) = evs as := by rw [evs_snoc]; simp [Act.ev]
      constructor <;>
        simp only [count_snoc, e0, isLook, isTranslated, isPlain] <;> (try simp) <;> omega

/-- A connection brings at most two translations. -/
theorem tally_two (max timeout : Nat) (as : List (Nat × Act)) : ∀ l, (tally max timeout l (opsAll (evs as))).news ≤ 2 * count isTranslated as := by
  induction as with
  | nil => intro l; simp [tally, evs, opsAll]
  | cons p r ih =>
    intro l
    obtain ⟨now, a⟩ := p
    have e1 : evs ((now, a) :: r) = (match a.ev with | none => [] | some e => [(now, e)]) ++ evs r := by
      unfold evs; rw [List.filterMap_cons]; cases h : a.ev <;> simp
    have e2 : ∀ x, opsAll ((now, x) :: evs r) = (opsOf x).map (fun o => (now, o)) ++ opsAll (evs r) := by
      intro x; unfold opsAll; rw [List.flatMap_cons]
    have e3 : count isTranslated ((now, a) :: r) = (if isTranslated a then 1 else 0) + count isTranslated r := by
      unfold count; rw [List.countP_cons]; exact Nat.add_comm _ _
    have q : ∀ l k v o, (tallyOp max l now (.add k v o)).news ≤ 1 := by
      intro l k v o; simp only [tallyOp]; split
      · simp
      · split <;> simp
    rw [e1, e3]
    cases a with
    | con o r' n orphan =>
      simp only [Act.ev, List.cons_append, List.nil_append, e2, tally_append]
      by_cases h : Opposite o r' ∨ (n ≠ 6 ∧ n ≠ 17)
      · have : opsOf (.con o r' n orphan) = [] := by simp only [opsOf]; rw [if_pos h]
        rw [this]
        have := ih l
        simp only [List.map_nil, tally, Spec.run]
        omega
      · have hoo : opsOf (.con o r' n orphan) = [.add (o.key (n == 17)) r'.transl orphan, .add (r'.key (n == 17)) o.transl orphan] := by
          simp only [opsOf]; rw [if_neg h]
        rw [not_or] at h
        rw [hoo]
        simp only [List.map_cons, List.map_nil, tally, isTranslated, h.1, decide_false, Bool.not_false, if_true]
        have a1 := q l (o.key (n == 17)) r'.transl orphan
        have a2 := q (Spec.step max timeout l now (.add (o.key (n == 17)) r'.transl orphan)) (r'.key (n == 17)) o.transl orphan
        have a3 := ih (Spec.run max timeout l [(now, .add (o.key (n == 17)) r'.transl orphan), (now, .add (r'.key (n == 17)) o.transl orphan)])
        omega
    | look c =>
      simp only [Act.ev, List.cons_append, List.nil_append, e2, opsOf, List.map_cons, List.map_nil, tally, tallyOp, isTranslated]
      have := ih (Spec.step max timeout l now (.get (keyOf c)))
      simpa using this
    | countLook => simpa [Act.ev, isTranslated] using ih l
    | delete c =>
      simp only [Act.ev, List.cons_append, List.nil_append, e2, opsOf, List.map_cons, List.map_nil, tally, tallyOp, isTranslated]
      have := ih (Spec.step max timeout l now (.remove (keyOf c)))
      simpa using this
    | sweep =>
      simp only [Act.ev, List.cons_append, List.nil_append, e2, opsOf, List.map_cons, List.map_nil, tally, tallyOp, isTranslated]
      have := ih (Spec.step max timeout l now .sweep)
      simpa using this
    | countSweep => simpa [Act.ev, isTranslated] using ih l

/-- C108.  No more leaves than came: what is stored, what was pushed out and what was removed is at most two translations for every
registered connection; the stored translations are at most as many as configured, and the orphans are among them. -/
theorem sizes_bounded (limit : Int) (hl : 0 < limit) (timeout : Nat) (as : List (Nat × Act)) (hc : (as.map (·.1)).Pairwise (· ≤ ·)) :
    ∃ t, run limit timeout start as = some t ∧
      t.cache.lru.length + t.cnt.evicts + t.cnt.unregisters + t.swept ≤ 2 * t.cnt.registers ∧
      (t.cache.lru.length : Int) ≤ limit ∧ t.cache.orphans.length ≤ t.cache.lru.length := by
  obtain ⟨t, hr, hlr, hx⟩ := counters_exact limit hl timeout as hc
  obtain ⟨s, hs1, hinv, _, _⟩ := cache_state limit hl timeout (evs as) (evs_clock as hc)
  rw [hlr] at hs1
  cases hs1
  refine ⟨t, hr, ?_, ?_, ?_⟩
  · rw [hx.size, hx.registers]; exact tally_two _ _ _ _
  · have := hinv.size; omega
  · have hnd : (t.cache.orphans.map (·.key)).Nodup := by
      have hi := hinv.ids
      rw [List.nodup_iff_pairwise_ne, List.pairwise_map] at hi ⊢
      refine List.Pairwise.imp_of_mem ?_ hi
      intro a b ha hb hne heq
      obtain ⟨e, he, hea⟩ := hinv.owned a ha
      obtain ⟨e', he', heb⟩ := hinv.owned b hb
      rw [← heq] at he'
      have := key_unique hinv.keys he he'
      subst this
      rw [hea] at heb
      exact hne (Option.some.inj heb)
    have := length_le_of_nodup _ (t.cache.lru.map (·.1)) hnd (by
      intro k hk
      obtain ⟨o, ho, rfl⟩ := List.mem_map.1 hk
      obtain ⟨e, he, _⟩ := hinv.owned o ho
      exact List.mem_map.2 ⟨_, he, rfl⟩)
    simpa using this

/-! ### Counters only grow -/

structure Le (a b : T) : Prop where
  gets : a.cnt.gets ≤ b.cnt.gets
  registers : a.cnt.registers ≤ b.cnt.registers
  dropped : a.cnt.dropped ≤ b.cnt.dropped
  unregisters : a.cnt.unregisters ≤ b.cnt.unregisters
  evicts : a.cnt.evicts ≤ b.cnt.evicts
  removed : a.cnt.unregisters + a.swept ≤ b.cnt.unregisters + b.swept

theorem Le.refl (a : T) : Le a a := by constructor <;> exact Nat.le_refl _
theorem Le.trans {a b c : T} (h : Le a b) (h' : Le b c) : Le a c :=
  ⟨Nat.le_trans h.1 h'.1, Nat.le_trans h.2 h'.2, Nat.le_trans h.3 h'.3, Nat.le_trans h.4 h'.4, Nat.le_trans h.5 h'.5, Nat.le_trans h.6 h'.6⟩

theorem step_grows (limit : Int) (timeout : Nat) (t t' : T) (now : Nat) (a : Act) (h : step limit timeout t now a = some t') : Le t t' := by
  cases a <;> simp only [step] at h
  case con o r n orphan =>
    split at h
    · cases h
    · cases h
      split <;> constructor <;> simp
    · split at h
      · cases h
      · cases h
        constructor <;> simp
  case look c =>
    split at h
    · cases h
    · cases h
      constructor <;> simp
  case countLook =>
    cases h
    split <;> constructor <;> simp
  case delete c =>
    split at h
    · cases h
    · cases h
      constructor <;> simp only [Nat.le_refl] <;> split <;> omega
  case sweep =>
    split at h
    · cases h
    · split at h
      · cases h
      · cases h
        constructor <;> simp <;> omega
  case countSweep =>
    cases h
    constructor <;> simp

theorem run_grows (limit : Int) (timeout : Nat) (as : List (Nat × Act)) : ∀ t t', run limit timeout t as = some t' → Le t t' := by
  induction as with
  | nil => intro t t' h; cases h; exact Le.refl _
  | cons p r ih =>
    obtain ⟨now, a⟩ := p
    intro t t' h
    unfold run at h
    cases hs : step limit timeout t now a with
    | none => rw [hs] at h; cases h
    | some u => rw [hs] at h; exact (step_grows _ _ _ _ _ _ hs).trans (ih u t' h)

/-! ### The statistics -/

/-- The counters of the consumer (consumer.go:93-97). -/
structure Cons where
  enobufs : Nat
  throttles : Nat
  samplingPct : Nat
  readErrors : Nat
  msgErrors : Nat

/-- `Consumer.GetStats` (consumer.go:320-328). -/
def consStats (c : Cons) : AMap String Int :=
  [("enobufs", c.enobufs), ("throttles", c.throttles), ("sampling_pct", c.samplingPct), ("read_errors", c.readErrors), ("msg_errors", c.msgErrors)]

/-- The states `GetStats` reads: the sizes under the lock, then one counter after the other, meanwhile the tracker goes on. -/
structure Reads where
  sizes : T
  gets : T
  registers : T
  dropped : T
  unregisters : T
  evicts : T
  cons : Cons

/-- An entry that is left out when it is zero (conntracker.go:168-171, 173-176, 179-182). -/
def setNonZero (m : AMap String Int) (k : String) (v : Int) : AMap String Int := if v ≠ 0 then AMap.set m k v else m

/-- `realConntracker.GetStats` (conntracker.go:156-191). -/
def getStats (r : Reads) : AMap String Int :=
  let m : AMap String Int := [("state_size", r.sizes.cache.lru.length), ("orphan_size", r.sizes.cache.orphans.length)]
  let m := setNonZero m "gets_total" r.gets.cnt.gets
  let m := setNonZero m "registers_total" r.registers.cnt.registers
  let m := AMap.set m "registers_dropped" r.dropped.cnt.dropped
  let m := setNonZero m "unregisters_total" r.unregisters.cnt.unregisters
  let m := AMap.set m "evicts_total" r.evicts.cnt.evicts
  (consStats r.cons).foldl (fun m p => AMap.set m p.1 p.2) m

/-- The tracker of the collector (conntracker_linux.go:54-57, conntrakcer.go:9-12). -/
inductive Tracker
  | noop
  | netlink (max : Int)
deriving DecidableEq

/-- `GetStats` of both trackers (conntracker_linux.go:97-101, conntrakcer.go:29-31). -/
def Tracker.stats (r : Reads) : Tracker → AMap String Int
  | .noop => []
  | .netlink max => AMap.set (getStats r) "cache_max_size" max

/-- A lookup of a Go map that may lack the key, or be nil. -/
def at0 (m : AMap String Int) (k : String) : Int := (AMap.get m k).getD 0

/-- The callbacks of the instruments (self_metrics.go:38-69), in the order of their registration. -/
inductive Cb
  | size | maxSize | ops | errors | sampling | throttles
deriving DecidableEq

def callbacks : List Cb := [.size, .maxSize, .ops, .errors, .sampling, .throttles]

/-- Metric, labels and value. -/
abbrev Obs := String × List (String × String) × Int

/-- What a callback observes, given the global `conntrackerStaticStates`. -/
def Cb.observe (m : AMap String Int) : Cb → List Obs
  | .size => [("kindling_telemetry_conntracker_cache_size", [("type", "general")], at0 m "state_size"),
      ("kindling_telemetry_conntracker_cache_size", [("type", "orphan")], at0 m "orphan_size")]
  | .maxSize => [("kindling_telemetry_conntracker_cache_max_size", [], at0 m "cache_max_size")]
  | .ops => [("kindling_telemetry_conntracker_operation_times_total", [("op", "add")], at0 m "registers_total"),
      ("kindling_telemetry_conntracker_operation_times_total", [("op", "drop")], at0 m "registers_dropped"),
      ("kindling_telemetry_conntracker_operation_times_total", [("op", "remove")], at0 m "unregisters_total"),
      ("kindling_telemetry_conntracker_operation_times_total", [("op", "get")], at0 m "gets_total"),
      ("kindling_telemetry_conntracker_operation_times_total", [("op", "evict")], at0 m "evicts_total")]
  | .errors => [("kindling_telemetry_conntracker_errors_total", [("type", "enobuf")], at0 m "enobufs"),
      ("kindling_telemetry_conntracker_errors_total", [("type", "read_errors")], at0 m "read_errors"),
      ("kindling_telemetry_conntracker_errors_total", [("type", "msg_errors")], at0 m "msg_errors")]
  | .sampling => [("kindling_telemetry_conntracker_sampling_rate", [], at0 m "sampling_pct")]
  | .throttles => [("kindling_telemetry_conntracker_throttles_total", [], at0 m "throttles")]

/-- A collection: the callbacks run one after the other; the one of the sizes takes the statistics first (self_metrics.go:40).
`old` is what the global holds before; the result has what it holds afterwards. -/
def collect (tr : Tracker) (r : Reads) : AMap String Int → List Cb → List Obs × AMap String Int
  | old, [] => ([], old)
  | old, c :: cs =>
    let m := if c = .size then tr.stats r else old
    let (o, m') := collect tr r m cs
    (c.observe m ++ o, m')

/-- What the metrics should be, in terms of the tracker's own fields. -/
def wanted (max size orphans adds drops removes gets evicts enobufs readErrors msgErrors pct throttles : Int) : List Obs :=
  [("kindling_telemetry_conntracker_cache_size", [("type", "general")], size),
   ("kindling_telemetry_conntracker_cache_size", [("type", "orphan")], orphans),
   ("kindling_telemetry_conntracker_cache_max_size", [], max),
   ("kindling_telemetry_conntracker_operation_times_total", [("op", "add")], adds),
   ("kindling_telemetry_conntracker_operation_times_total", [("op", "drop")], drops),
   ("kindling_telemetry_conntracker_operation_times_total", [("op", "remove")], removes),
   ("kindling_telemetry_conntracker_operation_times_total", [("op", "get")], gets),
   ("kindling_telemetry_conntracker_operation_times_total", [("op", "evict")], evicts),
   ("kindling_telemetry_conntracker_errors_total", [("type", "enobuf")], enobufs),
   ("kindling_telemetry_conntracker_errors_total", [("type", "read_errors")], readErrors),
   ("kindling_telemetry_conntracker_errors_total", [("type", "msg_errors")], msgErrors),
   ("kindling_telemetry_conntracker_sampling_rate", [], pct),
   ("kindling_telemetry_conntracker_throttles_total", [], throttles)]

theorem at0_set (m : AMap String Int) (k k' : String) (v : Int) : at0 (AMap.set m k v) k' = if k = k' then v else at0 m k' := by
  unfold at0; rw [AMap.get_set]; split <;> simp

theorem at0_setNonZero (m : AMap String Int) (k k' : String) (v : Int) (h : at0 m k = 0) :
    at0 (setNonZero m k v) k' = if k = k' then v else at0 m k' := by
  unfold setNonZero
  split
  · exact at0_set m k k' v
  · rename_i hv
    split
    · rename_i hk
      subst hk
      rw [h]; omega
    · rfl

theorem stats_at (max : Int) (r : Reads) (k : String) : at0 (Tracker.stats r (.netlink max)) k =
      if k = "cache_max_size" then max else if k = "msg_errors" then (r.cons.msgErrors : Int) else if k = "read_errors" then (r.cons.readErrors : Int)
      else if k = "sampling_pct" then (r.cons.samplingPct : Int) else if k = "throttles" then (r.cons.throttles : Int)
      else if k = "enobufs" then (r.cons.enobufs : Int) else if k = "evicts_total" then (r.evicts.cnt.evicts : Int)
      else if k = "unregisters_total" then (r.unregisters.cnt.unregisters : Int) else if k = "registers_dropped" then (r.dropped.cnt.dropped : Int)
      else if k = "registers_total" then (r.registers.cnt.registers : Int) else if k = "gets_total" then (r.gets.cnt.gets : Int)
      else if k = "orphan_size" then (r.sizes.cache.orphans.length : Int) else if k = "state_size" then (r.sizes.cache.lru.length : Int) else 0 := by
  have b : ∀ k, at0 [("state_size", (r.sizes.cache.lru.length : Int)), ("orphan_size", (r.sizes.cache.orphans.length : Int))] k =
      if k = "orphan_size" then (r.sizes.cache.orphans.length : Int) else if k = "state_size" then (r.sizes.cache.lru.length : Int) else 0 := by
    intro k
    simp only [at0, AMap.get]
    by_cases h1 : "state_size" = k
    · subst h1; simp
    · by_cases h2 : "orphan_size" = k
      · subst h2; simp
      · simp [h1, h2, Ne.symm h1, Ne.symm h2]
  have g1 : ∀ k, at0 (setNonZero [("state_size", (r.sizes.cache.lru.length : Int)), ("orphan_size", (r.sizes.cache.orphans.length : Int))] "gets_total" r.gets.cnt.gets) k = _ :=
    fun k => at0_setNonZero _ "gets_total" k _ (by rw [b]; simp)
  have g2 : ∀ k, at0 (setNonZero (setNonZero [("state_size", (r.sizes.cache.lru.length : Int)), ("orphan_size", (r.sizes.cache.orphans.length : Int))] "gets_total" r.gets.cnt.gets)
      "registers_total" r.registers.cnt.registers) k = _ :=
    fun k => at0_setNonZero _ "registers_total" k _ (by rw [g1, b]; simp)
  simp only [Tracker.stats, getStats, consStats, List.foldl_cons, List.foldl_nil, at0_set]
  rw [at0_setNonZero _ _ _ _ (by rw [at0_set, g2, g1, b]; simp), at0_set, g2, g1, b]
  simp only [eq_comm]

/-- C108.  Every series of a collection has the value of the counter it is named after, whatever the previous collection left behind:
a counter left out of the statistics because it is zero reads as zero, and no entry of the consumer hides one of the tracker. -/
theorem metrics_exact (max : Int) (r : Reads) (old : AMap String Int) :
    (collect (.netlink max) r old callbacks).1 =
      wanted max r.sizes.cache.lru.length r.sizes.cache.orphans.length r.registers.cnt.registers r.dropped.cnt.dropped
        r.unregisters.cnt.unregisters r.gets.cnt.gets r.evicts.cnt.evicts r.cons.enobufs r.cons.readErrors r.cons.msgErrors
        r.cons.samplingPct r.cons.throttles := by
  simp only [callbacks, collect, if_true, reduceCtorEq, if_false, Cb.observe, stats_at, wanted]
  simp

/-- In another order a callback before that of the sizes observes what the previous collection took: the metrics rely on the order of
registration. -/
theorem other_order_is_stale (tr : Tracker) (r : Reads) (old : AMap String Int) (a b : List Cb) (ha : Cb.size ∉ a) :
    (collect tr r old (a ++ .size :: b)).1 =
      a.flatMap (Cb.observe old) ++ (Cb.size :: b).flatMap (Cb.observe (tr.stats r)) := by
  induction a with
  | nil =>
    have : ∀ b, (collect tr r (tr.stats r) b).1 = b.flatMap (Cb.observe (tr.stats r)) := by
      intro b
      induction b with
      | nil => rfl
      | cons c cs ih =>
        simp only [collect, List.flatMap_cons, ite_self, ih]
    simp [collect, this]
  | cons c cs ih =>
    simp only [List.mem_cons, not_or] at ha
    have hc : ¬ c = Cb.size := fun h => ha.1 h.symm
    simp only [List.cons_append, collect, if_neg hc, List.flatMap_cons, List.append_assoc]
    rw [ih ha.2]
    simp

/-- C108.  A tracker that is disabled, or could not be started, reports zeros: also a sampling rate of zero, as does one whose filter lets
no message through. -/
theorem noop_reports_zero (r : Reads) : (collect .noop r [] callbacks).1 = wanted 0 0 0 0 0 0 0 0 0 0 0 0 0 := rfl

/-- The states are read one after the other. -/
structure InOrder (limit : Int) (timeout : Nat) (r : Reads) : Prop where
  gets : ∃ as, run limit timeout r.sizes as = some r.gets
  registers : ∃ as, run limit timeout r.gets as = some r.registers
  dropped : ∃ as, run limit timeout r.registers as = some r.dropped
  unregisters : ∃ as, run limit timeout r.dropped as = some r.unregisters
  evicts : ∃ as, run limit timeout r.unregisters as = some r.evicts

/-- C108.  While the tracker goes on, the statistics are not those of one moment; but every counter lies between its value when the call begins
and when it ends, and the statistics never miss a translation that had come when the sizes were taken: it is counted as stored, as
pushed out, or as removed, unless a sweep has not counted it yet. -/
theorem report_between (limit : Int) (hl : 0 < limit) (timeout : Nat) (as : List (Nat × Act)) (hc : (as.map (·.1)).Pairwise (· ≤ ·)) (r : Reads)
    (hs : run limit timeout start as = some r.sizes) (ho : InOrder limit timeout r) :
    (r.sizes.cnt.gets ≤ r.gets.cnt.gets ∧ r.gets.cnt.gets ≤ r.evicts.cnt.gets) ∧
    (r.sizes.cnt.registers ≤ r.registers.cnt.registers ∧ r.registers.cnt.registers ≤ r.evicts.cnt.registers) ∧
    (r.sizes.cnt.dropped ≤ r.dropped.cnt.dropped ∧ r.dropped.cnt.dropped ≤ r.evicts.cnt.dropped) ∧
    (r.sizes.cnt.unregisters ≤ r.unregisters.cnt.unregisters ∧ r.unregisters.cnt.unregisters ≤ r.evicts.cnt.unregisters) ∧
    r.sizes.cnt.evicts ≤ r.evicts.cnt.evicts ∧
    (tally limit.toNat timeout [] (opsAll (evs as))).news ≤
      r.sizes.cache.lru.length + r.evicts.cnt.evicts + r.unregisters.cnt.unregisters + r.unregisters.swept := by
  obtain ⟨⟨a1, h1⟩, ⟨a2, h2⟩, ⟨a3, h3⟩, ⟨a4, h4⟩, ⟨a5, h5⟩⟩ := ho
  have l1 := run_grows _ _ _ _ _ h1
  have l2 := run_grows _ _ _ _ _ h2
  have l3 := run_grows _ _ _ _ _ h3
  have l4 := run_grows _ _ _ _ _ h4
  have l5 := run_grows _ _ _ _ _ h5
  obtain ⟨t, ht, _, hx⟩ := counters_exact limit hl timeout as hc
  rw [hs] at ht
  cases ht
  have s2 := l1.trans l2
  have s3 := s2.trans l3
  have s4 := s3.trans l4
  have s5 := s4.trans l5
  refine ⟨⟨l1.gets, (((l2.trans l3).trans l4).trans l5).gets⟩, ⟨s2.registers, ((l3.trans l4).trans l5).registers⟩,
    ⟨s3.dropped, (l4.trans l5).dropped⟩, ⟨s4.unregisters, l5.unregisters⟩, s5.evicts, ?_⟩
  rw [← hx.size]
  have := s4.removed
  have := s5.evicts
  omega

/-- And a translation deleted between the reads is counted twice: as stored and as removed. -/
theorem report_counts_twice (limit : Int) (hl : 0 < limit) (timeout now : Nat) (t : T) (c : Lookup.Stats) (cs : Cons) (e : Ent Transl)
    (h : find t.cache.lru (keyOf c) = some e) :
    ∃ t', step limit timeout t now (.delete c) = some t' ∧
      let m := getStats ⟨t, t, t, t, t', t', cs⟩
      at0 m "state_size" + at0 m "unregisters_total" + at0 m "evicts_total" =
        (t.cache.lru.length + t.cnt.unregisters + t.cnt.evicts : Int) + 1 := by
  have hu : usable limit = some limit.toNat := by unfold usable; rw [if_neg (by omega)]
  simp only [step, hu, Cache.remove, h]
  refine ⟨_, rfl, ?_⟩
  have e : ∀ (r : Reads) (k : String), k ≠ "cache_max_size" → at0 (getStats r) k = at0 (Tracker.stats r (.netlink 0)) k := by
    intro r k hk
    rw [Tracker.stats, at0_set, if_neg (Ne.symm hk)]
  simp only [e _ "state_size" (by decide), e _ "unregisters_total" (by decide), e _ "evicts_total" (by decide), stats_at]
  simp
  omega

/-! ### One tracker for the process -/

/-- What `internal.NewConntracker` may do (internal/conntracker.go:85-105): start, or fail. -/
structure Config where
  enabled : Bool
  maxSize : Int

/-- The globals (conntracker_linux.go:16-18): whether `once` has run, and what it left. -/
abbrev Globals := Option (Tracker × Bool)

/-- `NewConntracker` (conntracker_linux.go:20-52) with a configuration that may be nil; `starts` tells whether the tracker can be started.
The boolean of the result tells whether an error is returned. -/
def newConntracker (g : Globals) (cfg : Option Config) (starts : Bool) : Globals × (Tracker × Bool) := match g with
  | some r => (g, r)
  | none =>
    let r := match cfg with
      | none => (Tracker.noop, false)
      | some c => if !c.enabled then (Tracker.noop, false) else if starts then (Tracker.netlink c.maxSize, false) else (Tracker.noop, true)
    (some r, r)

def calls : Globals → List (Option Config × Bool) → List (Tracker × Bool)
  | _, [] => []
  | g, (c, s) :: r => (newConntracker g c s).2 :: calls (newConntracker g c s).1 r

/-- C108.  Every call returns what the first one returned, whatever its own configuration: a later call cannot enable the tracker, and an error
of the first start is returned for ever. -/
theorem first_call_decides (c : Option Config) (s : Bool) (r : List (Option Config × Bool)) :
    ∃ x, (calls none ((c, s) :: r)) = List.replicate (r.length + 1) x ∧
      (x.1 = .noop ↔ ∀ k, c = some k → k.enabled = true → s = false) ∧
      (x.2 = true ↔ ∃ k, c = some k ∧ k.enabled = true ∧ s = false) ∧
      (∀ m, x.1 = .netlink m → ∃ k, c = some k ∧ k.maxSize = m) := by
  have later : ∀ (x : Tracker × Bool) (r : List (Option Config × Bool)), calls (some x) r = List.replicate r.length x := by
    intro x r
    induction r with
    | nil => rfl
    | cons p r ih => simp only [calls, newConntracker, ih, List.length_cons, List.replicate_succ]
  refine ⟨(newConntracker none c s).2, ?_, ?_, ?_, ?_⟩
  · simp only [calls, List.replicate_succ]
    congr 1
    exact later _ r
  all_goals
    cases c with
    | none => simp [newConntracker]
    | some k => cases hk : k.enabled <;> cases s <;> simp [newConntracker, hk]

/-! ### Examples -/

/-- A full cache of two: a second connection pushes out the first; a lookup and a deletion follow. -/
def demo : List (Nat × Act) :=
  [(0, .con exO exR 6 true), (1, .con exO ⟨exO.dst, exO.src, exO.dport, exO.sport⟩ 6 true), (2, .look ⟨exO.src, exO.dst, exO.sport, exO.dport, 0⟩), (2, .countLook),
   (3, .con ⟨[10, 0, 0, 2], [10, 96, 0, 1], 40001, 80⟩ ⟨[10, 0, 0, 9], [10, 0, 0, 2], 8080, 40001⟩ 6 true),
   (4, .delete ⟨[10, 0, 0, 2], [10, 96, 0, 1], 40001, 80, 0⟩), (9, .sweep), (9, .countSweep)]

example : (run 2 3 start demo).map (·.cnt) = some ⟨1, 2, 1, 2, 2⟩ := by decide +kernel
example : (run 2 3 start demo).map (·.cache.lru.length) = some 0 := by decide +kernel
example : (demo.map (·.1)).Pairwise (· ≤ ·) := by decide
example : ∃ t, run 2 3 start demo = some t ∧ InOrder 2 3 ⟨t, t, t, t, t, t, ⟨0, 0, 100, 0, 0⟩⟩ := by
  obtain ⟨t, h, _⟩ := counters_exact 2 (by decide) 3 demo (by decide)
  exact ⟨t, h, ⟨⟨[], rfl⟩, ⟨[], rfl⟩, ⟨[], rfl⟩, ⟨[], rfl⟩, ⟨[], rfl⟩⟩⟩
example : ∃ t e, run 2 3 start (demo.take 1) = some t ∧ find t.cache.lru (keyOf ⟨exO.src, exO.dst, exO.sport, exO.dport, 0⟩) = some e :=
  ⟨_, _, rfl, rfl⟩
example : calls none [(none, true), (some ⟨true, 100⟩, true)] = [(.noop, false), (.noop, false)] := by decide
example : calls none [(some ⟨true, 100⟩, false), (some ⟨true, 100⟩, true)] = [(.noop, true), (.noop, true)] := by decide

end Kindling.Conn.Stats
