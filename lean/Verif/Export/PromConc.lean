import Verif.Agg.HistProps
/-
C105: scrapes while requests are recorded.

Model of one histogram of the Prometheus exporter: the goroutines that record into it
(cumulative_aggregator.go:59-72, 25-37, 102-116 with agg_values.go:302-313 and 330-345) and those that collect it
(collector.go:18-65 with cumulative_aggregator.go:74-87 and agg_values.go:315-324).  `histogramValue.get` hands out the very
slice of bucket counts into which the recorders go on counting (agg_values.go:322), and `Collect` reads it when all mutexes have
been released (collector.go:48-52).

Steps: every mutex operation, every addition to a field and every reading of a bucket is one step of a goroutine, and the
steps of all goroutines interleave in any order (sequentially consistent memory).

Simplifications: one series with one histogram, which exists already; bucket counts do not overflow; a mutex is given to any
goroutine that asks while it is free (no preference for writers); records that are refused because of other boundaries
(agg_values.go:334-336), and those that panic because they have more buckets than boundaries, do not occur.
-/
namespace Kindling.Export.PromConc
open Kindling Kindling.Agg

/-- What one record adds: agg_values.go:305-311 for a value, agg_values.go:337-341 for a histogram. -/
structure Delta where
  sum : Int
  count : Nat
  buckets : List Nat
deriving DecidableEq, Repr

/-- agg_values.go:305-311: a single value. -/
def ofValue (bounds : List Int) (v : Int) : Delta := ⟨v, 1, bounds.map fun b => if v ≤ b then 1 else 0⟩

/-- agg_values.go:337-341: a histogram. -/
def ofHist (h : Hist) : Delta := ⟨h.sum, h.count, h.buckets⟩

inductive Op where
  /-- collector.go:67-69 `recordMetricGroups`: the time is taken before any mutex. -/
  | record (d : Delta) (now : Int)
  /-- collector.go:18-65 `Collect`. -/
  | collect
deriving DecidableEq, Repr

/-- Where a goroutine is. -/
inductive Pc where
  | idle
  /-- cumulative_aggregator.go:61: holds the aggregator's mutex for reading. -/
  | entered (d : Delta) (now : Int)
  /-- agg_values.go:303, 331: holds the mutex of the histogram; field `k` is next (0 the sum, 1 the count, `x + 2` bucket `x`). -/
  | adding (d : Delta) (now : Int) (k : Nat)
  /-- cumulative_aggregator.go:114: `e.update = now` is next. -/
  | stamping (now : Int)
  /-- cumulative_aggregator.go:62: `RUnlock` is next. -/
  | leaving
  /-- cumulative_aggregator.go:77: holds the aggregator's mutex for writing. -/
  | dumping
  /-- agg_values.go:318-323: has read sum and count and holds a reference to the buckets. -/
  | dumped (sum : Int) (count : Nat)
  /-- collector.go:49-52: has copied some buckets; holds no mutex. -/
  | copying (sum : Int) (count : Nat) (got : List Nat)
deriving DecidableEq, Repr

structure Th where
  pc : Pc
  todo : List Op
deriving DecidableEq, Repr

/-- collector.go:53-58: what is given to `NewConstHistogram`. -/
structure Export where
  sum : Int
  count : Nat
  buckets : List Nat
deriving DecidableEq, Repr

/-- The histogram (agg_values.go:293-300), its mutex, the aggregator's mutex and the time of the last update.
`log` is for the theorems only: the records in the order in which they got the mutex of the histogram. -/
structure Conf where
  ths : List Th
  readers : Nat
  writer : Bool
  held : Bool
  sum : Int
  count : Nat
  buckets : List Nat
  update : Option Int
  outs : List Export
  log : List Delta
deriving DecidableEq, Repr

def Conf.setTh (c : Conf) (i : Nat) (t : Th) : Conf := { c with ths := c.ths.set i t }

/-- The additions under the mutex (agg_values.go:305-311, 337-341). -/
def Conf.add (c : Conf) (d : Delta) : Nat → Conf
  | 0 => { c with sum := c.sum + d.sum }
  | 1 => { c with count := c.count + d.count }
  | x + 2 => { c with buckets := c.buckets.modify x (· + d.buckets.getD x 0) }

/-- One step of goroutine `i`; a goroutine that has to wait does nothing.  `n` is the number of boundaries. -/
def step (n : Nat) (c : Conf) (i : Nat) : Conf :=
  match c.ths[i]? with
  | none => c
  | some t => match t.pc with
    | .idle => match t.todo with
      | [] => c
      | .record d now :: r => if c.writer then c else { c with readers := c.readers + 1 }.setTh i ⟨.entered d now, r⟩
      | .collect :: r => if c.writer || c.readers != 0 then c else { c with writer := true }.setTh i ⟨.dumping, r⟩
    | .entered d now => if c.held then c else { c with held := true, log := c.log ++ [d] }.setTh i ⟨.adding d now 0, t.todo⟩
    | .adding d now k =>
      if k = n + 2 then { c with held := false }.setTh i ⟨.stamping now, t.todo⟩
      else (c.add d k).setTh i ⟨.adding d now (k + 1), t.todo⟩
    | .stamping now => { c with update := some now }.setTh i ⟨.leaving, t.todo⟩
    | .leaving => { c with readers := c.readers - 1 }.setTh i ⟨.idle, t.todo⟩
    | .dumping => if c.held then c else c.setTh i ⟨.dumped c.sum c.count, t.todo⟩
    | .dumped s k => { c with writer := false }.setTh i ⟨.copying s k [], t.todo⟩
    | .copying s k got =>
      if got.length = n then { c with outs := c.outs ++ [(⟨s, k, got⟩ : Export)] }.setTh i ⟨.idle, t.todo⟩
      else c.setTh i ⟨.copying s k (got ++ [c.buckets.getD got.length 0]), t.todo⟩

def exec (n : Nat) (c : Conf) (is : List Nat) : Conf := is.foldl (step n) c

/-- An empty histogram (agg_values.go:160) and goroutines with their calls. -/
def begin (n : Nat) (progs : List (List Op)) : Conf :=
  { ths := progs.map fun p => (⟨.idle, p⟩ : Th), readers := 0, writer := false, held := false, sum := 0, count := 0,
    buckets := List.replicate n 0, update := none, outs := [], log := [] }

theorem exec_append (n : Nat) (c : Conf) (a b : List Nat) : exec n c (a ++ b) = exec n (exec n c a) b := by
  simp [exec, List.foldl_append]

/-! ### Specification -/

/-- The histogram of records: sum, count and bucket `x`. -/
def sumOf (l : List Delta) : Int := (l.map (·.sum)).sum
def countOf (l : List Delta) : Nat := (l.map (·.count)).sum
def bucketOf (x : Nat) (l : List Delta) : Nat := (l.map fun d => d.buckets.getD x 0).sum

/-- Records that have been added completely. -/
def Conf.finished (c : Conf) : Nat := c.log.length - (if c.held then 1 else 0)

/-- `n0` records are in the sum and the count; bucket `x` has the first `ns[x]` records. -/
structure Copied (log : List Delta) (s : Int) (k : Nat) (got : List Nat) (n0 : Nat) (ns : List Nat) : Prop where
  sum : s = sumOf (log.take n0)
  count : k = countOf (log.take n0)
  len : ns.length = got.length
  bucket : ∀ x m, ns[x]? = some m → got[x]? = some (bucketOf x (log.take m))
  lower : ∀ m ∈ ns, n0 ≤ m
  upper : ∀ m ∈ ns, m ≤ log.length
  n0le : n0 ≤ log.length
  back : ns.Pairwise fun a b => a ≤ b + 1

/-! ### Invariant -/

/-- The number of records that field `j` has when field `k` is next. -/
def seen (log : List Delta) (k j : Nat) : Nat := if j < k then log.length else log.length - 1

def isAdding : Pc → Bool
  | .adding .. => true
  | _ => false

def PcOk (m n : Nat) (log : List Delta) (lo : Nat) : Pc → Prop
  | .dumped s k => ∃ n0, m ≤ n0 ∧ n0 ≤ lo ∧ s = sumOf (log.take n0) ∧ k = countOf (log.take n0)
  | .copying s k got => got.length ≤ n ∧ ∃ n0 ns, m ≤ n0 ∧ n0 ≤ lo ∧ (∀ a ∈ ns, a ≤ lo + 1) ∧ Copied log s k got n0 ns
  | .adding d _ k => k ≤ n + 2 ∧ ∃ l, log = l ++ [d]
  | _ => True

/-- `m` is a number of records every scrape under way has in its sum and count, `o` a number of exports not spoken of. -/
structure Inv (m o n : Nat) (c : Conf) : Prop where
  len : c.buckets.length = n
  one : ∀ (i j : Nat) (t u : Th), c.ths[i]? = some t → c.ths[j]? = some u → isAdding t.pc = true → isAdding u.pc = true → i = j
  free : c.held = false → ∀ t ∈ c.ths, isAdding t.pc = false
  prog : ∃ k, k ≤ n + 2 ∧ (c.held = false → k = n + 2) ∧ (∀ t ∈ c.ths, ∀ d now k', t.pc = .adding d now k' → k' = k) ∧
    c.sum = sumOf (c.log.take (seen c.log k 0)) ∧ c.count = countOf (c.log.take (seen c.log k 1)) ∧
    ∀ x, x < n → c.buckets[x]? = some (bucketOf x (c.log.take (seen c.log k (x + 2))))
  owner : c.held = true → ∃ t ∈ c.ths, isAdding t.pc = true
  pcs : ∀ t ∈ c.ths, PcOk m n c.log c.finished t.pc
  outs : ∀ e ∈ c.outs.drop o, e.buckets.length = n ∧ ∃ n0 ns, m ≤ n0 ∧ Copied c.log e.sum e.count e.buckets n0 ns

theorem Copied.grow {log log' : List Delta} {s : Int} {k : Nat} {got : List Nat} {n0 : Nat} {ns : List Nat}
    (h : Copied log s k got n0 ns) (hp : log <+: log') : Copied log' s k got n0 ns := by
  obtain ⟨r, rfl⟩ := hp
  have ht : ∀ a, a ≤ log.length → (log ++ r).take a = log.take a := fun a ha => List.take_append_of_le_length ha
  refine ⟨by rw [ht _ h.n0le]; exact h.sum, by rw [ht _ h.n0le]; exact h.count, h.len, ?_, h.lower, ?_, ?_, h.back⟩
  · intro x m hm
    rw [ht _ (h.upper m (List.mem_of_getElem? hm))]
    exact h.bucket x m hm
  · intro a ha
    have := h.upper a ha
    simp; omega
  · have := h.n0le
    simp; omega

theorem PcOk.grow {m n : Nat} {log log' : List Delta} {lo lo' : Nat} {p : Pc} (h : PcOk m n log lo p) (hp : log <+: log')
    (hlo : lo ≤ lo') (hl : lo ≤ log.length) (hna : isAdding p = false ∨ log' = log) : PcOk m n log' lo' p := by
  cases p with
  | dumped s k =>
    obtain ⟨n0, h1, h2, h3, h4⟩ := h
    obtain ⟨r, rfl⟩ := hp
    have ht : (log ++ r).take n0 = log.take n0 := List.take_append_of_le_length (by omega)
    exact ⟨n0, h1, by omega, by rw [ht]; exact h3, by rw [ht]; exact h4⟩
  | copying s k got =>
    obtain ⟨h0, n0, ns, h1, h2, h3, h4⟩ := h
    exact ⟨h0, n0, ns, h1, by omega, fun a ha => by have := h3 a ha; omega, h4.grow hp⟩
  | adding d now k =>
    rcases hna with hna | rfl
    · simp [isAdding] at hna
    · exact h
  | _ => trivial

theorem finished_le (c : Conf) : c.finished ≤ c.log.length := Nat.sub_le _ _

theorem sumOf_snoc (l : List Delta) (d : Delta) : sumOf (l ++ [d]) = sumOf l + d.sum := by simp [sumOf]
theorem countOf_snoc (l : List Delta) (d : Delta) : countOf (l ++ [d]) = countOf l + d.count := by simp [countOf]
theorem bucketOf_snoc (x : Nat) (l : List Delta) (d : Delta) : bucketOf x (l ++ [d]) = bucketOf x l + d.buckets.getD x 0 := by
  simp [bucketOf]

/-- Steps that change neither the histogram, nor its mutex, nor the exports. -/
theorem inv_plain {m o n : Nat} {c : Conf} (h : Inv m o n c) {i : Nat} {t t' : Th} (ht : c.ths[i]? = some t)
    (ha : isAdding t.pc = false) (ha' : isAdding t'.pc = false) (hok : PcOk m n c.log c.finished t'.pc)
    (r : Nat) (w : Bool) (u : Option Int) :
    Inv m o n ({ c with readers := r, writer := w, update := u }.setTh i t') := by
  have hi : i < c.ths.length := (List.getElem?_eq_some_iff.1 ht).1
  have hmem : ∀ s ∈ c.ths.set i t', s = t' ∨ s ∈ c.ths := fun s hs => (List.mem_or_eq_of_mem_set hs).symm
  refine ⟨h.len, ?_, ?_, ?_, ?_, ?_, h.outs⟩
  · intro a b s v hs hv h1 h2
    simp only [Conf.setTh, List.getElem?_set] at hs hv
    have ha0 : a ≠ i := by
      rintro rfl
      simp [hi] at hs; subst hs; simp [ha'] at h1
    have hb0 : b ≠ i := by
      rintro rfl
      simp [hi] at hv; subst hv; simp [ha'] at h2
    rw [if_neg (Ne.symm ha0)] at hs
    rw [if_neg (Ne.symm hb0)] at hv
    exact h.one a b s v hs hv h1 h2
  · intro hf s hs
    rcases hmem s hs with rfl | hs
    · exact ha'
    · exact h.free hf s hs
  · obtain ⟨k, h1, h2, h3, h4⟩ := h.prog
    refine ⟨k, h1, h2, ?_, h4⟩
    intro s hs d now k' hk
    rcases hmem s hs with rfl | hs
    · rw [hk] at ha'; simp [isAdding] at ha'
    · exact h3 s hs d now k' hk
  · intro hh
    obtain ⟨s, hs, hsa⟩ := h.owner hh
    obtain ⟨j, hj⟩ := List.mem_iff_getElem?.1 hs
    have hij : i ≠ j := by
      rintro rfl
      rw [ht] at hj
      cases hj
      rw [ha] at hsa
      cases hsa
    exact ⟨s, List.mem_iff_getElem?.2 ⟨j, by simp only [Conf.setTh]; rw [List.getElem?_set_ne hij]; exact hj⟩, hsa⟩
  · intro s hs
    rcases hmem s hs with rfl | hs
    · exact hok
    · exact h.pcs s hs

theorem inv_step {m o n : Nat} {c : Conf} (h : Inv m o n c) (ho : o ≤ c.outs.length) (hm : m ≤ c.finished) (i : Nat) :
    Inv m o n (step n c i) ∧ o ≤ (step n c i).outs.length ∧ m ≤ (step n c i).finished := by
  unfold step
  cases ht : c.ths[i]? with
  | none => exact ⟨h, ho, hm⟩
  | some t =>
  have hi : i < c.ths.length := (List.getElem?_eq_some_iff.1 ht).1
  have htm : t ∈ c.ths := List.mem_of_getElem? ht
  have hmem : ∀ t' s, s ∈ c.ths.set i t' → s = t' ∨ s ∈ c.ths := fun _ s hs => (List.mem_or_eq_of_mem_set hs).symm
  dsimp only
  cases hpc : t.pc with
  | idle =>
    dsimp only
    have ha : isAdding t.pc = false := by rw [hpc]; rfl
    cases htd : t.todo with
    | nil => exact ⟨h, ho, hm⟩
    | cons op r =>
      cases op with
      | record d now =>
        dsimp only
        split
        · exact ⟨h, ho, hm⟩
        · exact ⟨inv_plain h ht ha (t' := ⟨.entered d now, r⟩) rfl trivial _ c.writer c.update, ho, hm⟩
      | collect =>
        dsimp only
        split
        · exact ⟨h, ho, hm⟩
        · exact ⟨inv_plain h ht ha (t' := ⟨.dumping, r⟩) rfl trivial c.readers true c.update, ho, hm⟩
  | stamping now =>
    have ha : isAdding t.pc = false := by rw [hpc]; rfl
    exact ⟨inv_plain h ht ha (t' := ⟨.leaving, t.todo⟩) rfl trivial c.readers c.writer (some now), ho, hm⟩
  | leaving =>
    have ha : isAdding t.pc = false := by rw [hpc]; rfl
    exact ⟨inv_plain h ht ha (t' := ⟨.idle, t.todo⟩) rfl trivial _ c.writer c.update, ho, hm⟩
  | dumping =>
    have ha : isAdding t.pc = false := by rw [hpc]; rfl
    dsimp only
    split
    · exact ⟨h, ho, hm⟩
    · rename_i hh
      have hh : c.held = false := by simpa using hh
      refine ⟨inv_plain h ht ha rfl ?_ c.readers c.writer c.update, ho, hm⟩
      obtain ⟨k, h1, h2, _, h4, h5, _⟩ := h.prog
      have hk := h2 hh
      subst hk
      have hf : c.finished = c.log.length := by simp [Conf.finished, hh]
      refine ⟨c.log.length, by omega, by omega, ?_, ?_⟩
      · rw [h4]; simp [seen]
      · rw [h5]; simp [seen]
  | dumped s k =>
    have ha : isAdding t.pc = false := by rw [hpc]; rfl
    refine ⟨inv_plain h ht ha rfl ?_ c.readers false c.update, ho, hm⟩
    have := h.pcs t htm
    rw [hpc] at this
    obtain ⟨n0, h1, h2, h3, h4⟩ := this
    exact ⟨by simp, n0, [], h1, h2, by simp, h3, h4, rfl, by simp, by simp, by simp, Nat.le_trans h2 (finished_le c), .nil⟩
  | copying s k got =>
    have ha : isAdding t.pc = false := by rw [hpc]; rfl
    have hok := h.pcs t htm
    rw [hpc] at hok
    obtain ⟨h0, n0, ns, h1, h2, h3, h4⟩ := hok
    dsimp only
    split
    · rename_i hl
      have hp := inv_plain h ht ha (t' := ⟨.idle, t.todo⟩) rfl trivial c.readers c.writer c.update
      refine ⟨⟨hp.len, hp.one, hp.free, hp.prog, hp.owner, hp.pcs, ?_⟩, ?_, hm⟩
      · intro e he
        simp only [Conf.setTh] at he
        rw [List.drop_append_of_le_length ho] at he
        rcases List.mem_append.1 he with he | he
        · exact h.outs e he
        · rw [List.mem_singleton] at he
          subst he
          exact ⟨hl, n0, ns, h1, h4⟩
      · simp [Conf.setTh]; omega
    · rename_i hl
      have hlt : got.length < n := by omega
      refine ⟨inv_plain h ht ha rfl ?_ c.readers c.writer c.update, ho, hm⟩
      obtain ⟨k', h1', h2', _, _, _, h6⟩ := h.prog
      have hb := h6 got.length hlt
      have hfl := finished_le c
      have hnew : c.finished ≤ seen c.log k' (got.length + 2) ∧ seen c.log k' (got.length + 2) ≤ c.finished + 1 ∧
          seen c.log k' (got.length + 2) ≤ c.log.length := by
        cases hh : c.held with
        | false =>
          have hk := h2' hh
          have h7 : seen c.log k' (got.length + 2) = c.log.length := if_pos (by omega)
          have h8 : c.finished = c.log.length := by simp [Conf.finished, hh]
          omega
        | true =>
          have h7 : seen c.log k' (got.length + 2) = c.log.length ∨ seen c.log k' (got.length + 2) = c.log.length - 1 := by
            unfold seen; split <;> simp
          have h8 : c.finished = c.log.length - 1 := by simp [Conf.finished, hh]
          have h9 : 0 < c.log.length := by
            obtain ⟨u, hu, hua⟩ := h.owner hh
            have hup := h.pcs u hu
            revert hua hup
            cases u.pc <;> simp only [isAdding, PcOk, Bool.false_eq_true, false_implies]
            rintro - ⟨-, l, hl⟩
            rw [hl]; simp
          omega
      refine ⟨by simp; omega, n0, ns ++ [seen c.log k' (got.length + 2)], h1, h2, ?_, h4.sum, h4.count, by simp [h4.len], ?_, ?_, ?_, h4.n0le, ?_⟩
      · intro a ha'
        rcases List.mem_append.1 ha' with ha' | ha'
        · exact h3 a ha'
        · rw [List.mem_singleton] at ha'; subst ha'; exact hnew.2.1
      · intro x a hx
        by_cases hxl : x < got.length
        · rw [List.getElem?_append_left (by rw [h4.len]; exact hxl)] at hx
          rw [List.getElem?_append_left hxl]
          exact h4.bucket x a hx
        · rw [List.getElem?_append_right (by rw [h4.len]; omega)] at hx
          have hx0 : x = got.length := by
            rw [h4.len] at hx
            have := (List.getElem?_eq_some_iff.1 hx).1
            simp at this; omega
          subst hx0
          simp [h4.len] at hx
          subst hx
          simp [List.getD_eq_getElem?_getD, hb]
      · intro a ha'
        rcases List.mem_append.1 ha' with ha' | ha'
        · exact h4.lower a ha'
        · rw [List.mem_singleton] at ha'; subst ha'; omega
      · intro a ha'
        rcases List.mem_append.1 ha' with ha' | ha'
        · exact h4.upper a ha'
        · rw [List.mem_singleton] at ha'; subst ha'; omega
      · rw [List.pairwise_append]
        refine ⟨h4.back, by simp, ?_⟩
        intro a ha' b hb'
        rw [List.mem_singleton] at hb'
        subst hb'
        have := h3 a ha'
        omega
  | entered d now =>
    dsimp only
    split
    · exact ⟨h, ho, hm⟩
    · rename_i hh
      have hh : c.held = false := by simpa using hh
      have hfin : c.finished = c.log.length := by simp [Conf.finished, hh]
      have hfin' : ({ c with held := true, log := c.log ++ [d] }.setTh i ⟨.adding d now 0, t.todo⟩ : Conf).finished = c.log.length := by
        simp [Conf.finished, Conf.setTh]
      refine ⟨⟨h.len, ?_, (by intro hx; cases hx), ?_, fun _ => ⟨_, List.mem_set hi _, rfl⟩, ?_, ?_⟩, ho, by omega⟩
      · intro a b s v hs hv h1 h2
        have hfree := h.free hh
        have : ∀ a s, (c.ths.set i ⟨.adding d now 0, t.todo⟩)[a]? = some s → isAdding s.pc = true → a = i := by
          intro a s hs h1
          rw [List.getElem?_set] at hs
          by_cases hai : i = a
          · exact hai.symm
          · rw [if_neg hai] at hs
            rw [hfree s (List.mem_of_getElem? hs)] at h1
            cases h1
        rw [this a s hs h1, this b v hv h2]
      · obtain ⟨k, h1, h2, _, h4, h5, h6⟩ := h.prog
        have hk := h2 hh
        subst hk
        refine ⟨0, by omega, (by intro hx; cases hx), ?_, ?_, ?_, ?_⟩
        · intro s hs d' now' k' hk
          rcases hmem _ s hs with rfl | hs
          · cases hk; rfl
          · have := h.free hh s hs
            rw [hk] at this; cases this
        · simp [Conf.setTh, h4, seen]
        · simp [Conf.setTh, h5, seen]
        · intro x hx
          have := h6 x hx
          simp only [seen] at this
          rw [if_pos (by omega)] at this
          simp [Conf.setTh, this, seen]
      · intro s hs
        rw [hfin']
        rcases hmem _ s hs with rfl | hs
        · exact ⟨by omega, c.log, rfl⟩
        · have hp := h.pcs s hs
          exact hp.grow ⟨[d], rfl⟩ (by omega) (by omega) (.inl (h.free hh s hs))
      · intro e he
        obtain ⟨h1, n0, ns, h2, h3⟩ := h.outs e he
        exact ⟨h1, n0, ns, h2, h3.grow ⟨[d], rfl⟩⟩
  | adding d now k =>
    have hheld : c.held = true := by
      cases hh : c.held with
      | true => rfl
      | false => have := h.free hh t htm; rw [hpc] at this; cases this
    have hok := h.pcs t htm
    rw [hpc] at hok
    obtain ⟨hkn, l, hl⟩ := hok
    obtain ⟨k', h1, h2, h3, h4, h5, h6⟩ := h.prog
    have hk := h3 t htm d now k hpc
    subst hk
    have hothers : ∀ j u, c.ths[j]? = some u → j ≠ i → isAdding u.pc = false := by
      intro j u hu hji
      cases hx : isAdding u.pc with
      | false => rfl
      | true => exact absurd (h.one j i u t hu ht hx (by rw [hpc]; rfl)) hji
    have hset : ∀ t' s, s ∈ c.ths.set i t' → s = t' ∨ s ∈ c.ths ∧ isAdding s.pc = false := by
      intro t' s hs
      obtain ⟨j, hj⟩ := List.mem_iff_getElem?.1 hs
      rw [List.getElem?_set] at hj
      by_cases hji : i = j
      · rw [if_pos hji] at hj
        split at hj
        · cases hj; exact .inl rfl
        · exact absurd hi ‹_›
      · rw [if_neg hji] at hj
        exact .inr ⟨List.mem_of_getElem? hj, hothers j s hj (Ne.symm hji)⟩
    dsimp only
    split
    · rename_i hkk
      subst hkk
      have hfin : ({ c with held := false }.setTh i ⟨.stamping now, t.todo⟩ : Conf).finished = c.log.length := by
        simp [Conf.finished, Conf.setTh]
      have hfl := finished_le c
      refine ⟨⟨h.len, ?_, ?_, ?_, (by intro hx; cases hx), ?_, h.outs⟩, ho, by omega⟩
      · intro a b s v hs hv ha hb
        rcases hset _ s (List.mem_of_getElem? hs) with rfl | ⟨_, hs'⟩
        · cases ha
        · rw [hs'] at ha; cases ha
      · intro _ s hs
        rcases hset _ s hs with rfl | ⟨_, hs'⟩
        · rfl
        · exact hs'
      · refine ⟨n + 2, by omega, fun _ => rfl, ?_, h4, h5, h6⟩
        intro s hs d' now' k'' hk
        rcases hset _ s hs with rfl | ⟨_, hs'⟩
        · cases hk
        · rw [hk] at hs'; cases hs'
      · intro s hs
        rw [hfin]
        rcases hset _ s hs with rfl | ⟨hs, hs'⟩
        · trivial
        · exact (h.pcs s hs).grow (List.prefix_refl _) (by omega) (by omega) (.inl hs')
    · rename_i hkk
      have hsame : ∀ x : Conf, x = (c.add d k).setTh i ⟨.adding d now (k + 1), t.todo⟩ →
          x.ths = c.ths.set i ⟨.adding d now (k + 1), t.todo⟩ ∧ x.log = c.log ∧ x.held = c.held ∧ x.outs = c.outs ∧
          x.buckets.length = c.buckets.length := by
        rintro x rfl
        rcases k with _ | _ | k <;> simp [Conf.add, Conf.setTh]
      obtain ⟨e1, e2, e3, e4, e5⟩ := hsame _ rfl
      have hval : ((c.add d k).setTh i ⟨.adding d now (k + 1), t.todo⟩).sum = sumOf (c.log.take (seen c.log (k + 1) 0)) ∧
          ((c.add d k).setTh i ⟨.adding d now (k + 1), t.todo⟩).count = countOf (c.log.take (seen c.log (k + 1) 1)) ∧
          ∀ x, x < n → ((c.add d k).setTh i ⟨.adding d now (k + 1), t.todo⟩).buckets[x]? =
            some (bucketOf x (c.log.take (seen c.log (k + 1) (x + 2)))) := by
        have htk : (l ++ [d]).take (l.length + 1) = l ++ [d] := by rw [List.take_of_length_le]; simp
        rw [hl] at h4 h5 h6 ⊢
        rcases k with _ | _ | k
        · refine ⟨?_, ?_, ?_⟩
          · simp [Conf.add, Conf.setTh, h4, seen, htk, sumOf_snoc]
          · simp [Conf.add, Conf.setTh, h5, seen]
          · intro x hx
            simp only [Conf.add, Conf.setTh, h6 x hx]
            simp [seen]
        · refine ⟨?_, ?_, ?_⟩
          · simp [Conf.add, Conf.setTh, h4, seen]
          · simp [Conf.add, Conf.setTh, h5, seen, htk, countOf_snoc]
          · intro x hx
            simp only [Conf.add, Conf.setTh, h6 x hx]
            simp [seen]
        · refine ⟨?_, ?_, ?_⟩
          · simp [Conf.add, Conf.setTh, h4, seen]
          · simp [Conf.add, Conf.setTh, h5, seen]
          · intro x hx
            simp only [Conf.add, Conf.setTh, List.getElem?_modify, h6 x hx]
            by_cases hxk : k = x
            · subst hxk
              simp [seen, htk, bucketOf_snoc]
            · simp only [if_neg hxk, seen]
              have : (x + 2 < k + 1 + 1) ↔ (x + 2 < k + 1 + 1 + 1) := by omega
              simp [this]
      generalize (c.add d k).setTh i ⟨.adding d now (k + 1), t.todo⟩ = c' at *
      have hfin : c'.finished = c.finished := by simp [Conf.finished, e2, e3]
      refine ⟨⟨by rw [e5]; exact h.len, ?_, ?_, ?_, by rw [e1]; exact fun _ => ⟨_, List.mem_set hi _, rfl⟩, ?_, by rw [e4, e2]; exact h.outs⟩, by rw [e4]; exact ho, by rw [hfin]; exact hm⟩
      · intro a b s v hs hv ha hb
        rw [e1] at hs hv
        have : ∀ a s, (c.ths.set i ⟨.adding d now (k + 1), t.todo⟩)[a]? = some s → isAdding s.pc = true → a = i := by
          intro a s hs h1
          rw [List.getElem?_set] at hs
          by_cases hai : i = a
          · exact hai.symm
          · rw [if_neg hai] at hs
            rw [hothers a s hs (Ne.symm hai)] at h1
            cases h1
        rw [this a s hs ha, this b v hv hb]
      · intro hx
        rw [e3, hheld] at hx; cases hx
      · refine ⟨k + 1, by omega, (by intro hx; rw [e3, hheld] at hx; cases hx), ?_, ?_⟩
        · intro s hs d' now' k'' hk
          rw [e1] at hs
          rcases hset _ s hs with rfl | ⟨_, hs'⟩
          · cases hk; rfl
          · rw [hk] at hs'; cases hs'
        · rw [e2]; exact hval
      · intro s hs
        rw [e1] at hs
        rw [hfin, e2]
        rcases hset _ s hs with rfl | ⟨hs, _⟩
        · exact ⟨by omega, l, hl⟩
        · exact h.pcs s hs

/-! ### Executions -/

theorem inv_begin (n : Nat) (progs : List (List Op)) : Inv 0 0 n (begin n progs) := by
  have hidle : ∀ t ∈ (begin n progs).ths, t.pc = .idle := by
    intro t ht
    simp only [begin, List.mem_map] at ht
    obtain ⟨p, _, rfl⟩ := ht
    rfl
  refine ⟨by simp [begin], ?_, ?_, ?_, (by intro hx; cases hx), ?_, (by intro e he; simp [begin] at he)⟩
  · intro i j t u hi _ h1 _
    rw [hidle t (List.mem_of_getElem? hi)] at h1
    cases h1
  · intro _ t ht
    rw [hidle t ht]; rfl
  · refine ⟨n + 2, by omega, fun _ => rfl, ?_, ?_, ?_, ?_⟩
    · intro t ht d now k hk
      rw [hidle t ht] at hk; cases hk
    · simp [begin, sumOf]
    · simp [begin, countOf]
    · intro x hx
      simp [begin, bucketOf, hx]
  · intro t ht
    rw [hidle t ht]; trivial

theorem inv_exec {m o n : Nat} {c : Conf} (h : Inv m o n c) (ho : o ≤ c.outs.length) (hm : m ≤ c.finished) (is : List Nat) :
    Inv m o n (exec n c is) ∧ o ≤ (exec n c is).outs.length ∧ m ≤ (exec n c is).finished := by
  induction is generalizing c with
  | nil => exact ⟨h, ho, hm⟩
  | cons i is ih =>
    obtain ⟨h1, h2, h3⟩ := inv_step h ho hm i
    exact ih h1 h2 h3

theorem inv_all (n : Nat) (progs : List (List Op)) (is : List Nat) : Inv 0 0 n (exec n (begin n progs) is) :=
  (inv_exec (inv_begin n progs) (Nat.zero_le _) (Nat.zero_le _) is).1

/-- The goroutine is in a scrape and has read the histogram. -/
def scraping : Pc → Bool
  | .dumped .. => true
  | .copying .. => true
  | _ => false

/-! ### Theorems -/

/-- C105.  A scrape that begins after `is` gets a sum and a count that belong together and have all records that were complete
when it began; each bucket has the records of the sum and the count, and perhaps some that came later, up to the moment it was
copied.  (Missing: that the buckets have the same records as the count, see `bucket_exceeds_count` and `buckets_fall`.) -/
theorem scrape_within_partial (n : Nat) (progs : List (List Op)) (is js : List Nat)
    (hq : ∀ t ∈ (exec n (begin n progs) is).ths, scraping t.pc = false) :
    let c := exec n (begin n progs) is
    let c' := exec n c js
    ∀ e ∈ c'.outs.drop c.outs.length, e.buckets.length = n ∧ ∃ n0 ns, c.finished ≤ n0 ∧
      Copied c'.log e.sum e.count e.buckets n0 ns := by
  intro c c'
  have h := inv_all n progs is
  have h' : Inv c.finished c.outs.length n c := by
    refine ⟨h.len, h.one, h.free, h.prog, h.owner, ?_, ?_⟩
    · intro t ht
      have h1 := hq t ht
      have h2 := h.pcs t ht
      revert h1 h2
      cases t.pc <;> simp only [scraping, PcOk, Bool.true_eq_false, false_implies, implies_true]
      exact fun _ h2 => h2
    · intro e he
      simp at he
  exact (inv_exec h' (Nat.le_refl _) (Nat.le_refl _) js).1.outs

/-- C105, without other records: if nobody begins to add to the histogram between the beginning and the end of a scrape, and
nobody was adding to it, then the export is the histogram of all records. -/
theorem quiet_scrape_exact (n : Nat) (progs : List (List Op)) (is js : List Nat)
    (hq : ∀ t ∈ (exec n (begin n progs) is).ths, scraping t.pc = false) :
    let c := exec n (begin n progs) is
    let c' := exec n c js
    c'.log.length = c.finished → ∀ e ∈ c'.outs.drop c.outs.length,
      e = ⟨sumOf c'.log, countOf c'.log, (List.range n).map fun x => bucketOf x c'.log⟩ := by
  intro c c' hlen e he
  obtain ⟨h1, n0, ns, h2, h3⟩ := scrape_within_partial n progs is js hq e he
  have h2 : c.finished ≤ n0 := h2
  have h3 : Copied c'.log e.sum e.count e.buckets n0 ns := h3
  have hn0 : n0 = c'.log.length := by have := h3.n0le; omega
  have hb : e.buckets = (List.range n).map fun x => bucketOf x c'.log := by
    apply List.ext_getElem?
    intro x
    by_cases hx : x < n
    · have hxl : x < ns.length := by rw [h3.len, h1]; exact hx
      have hm := h3.bucket x ns[x] (List.getElem?_eq_getElem hxl)
      have hl := h3.lower ns[x] (List.getElem_mem hxl)
      have hu := h3.upper ns[x] (List.getElem_mem hxl)
      have : ns[x] = c'.log.length := by omega
      rw [hm, this]
      simp [hx]
    · rw [List.getElem?_eq_none (by omega), List.getElem?_eq_none (by simp; omega)]
  obtain ⟨s, k, b⟩ := e
  have hs := h3.sum
  have hk := h3.count
  simp only [hn0, List.take_length] at hs hk
  simp only at hb
  rw [hs, hk, hb]

theorem bucketOf_append (x : Nat) (a b : List Delta) : bucketOf x (a ++ b) = bucketOf x a + bucketOf x b := by
  simp [bucketOf]

theorem bucketOf_take_le (x : Nat) (l : List Delta) {a b : Nat} (h : a ≤ b) : bucketOf x (l.take a) ≤ bucketOf x (l.take b) := by
  have : l.take b = l.take a ++ (l.drop a).take (b - a) := by
    conv => lhs; rw [show b = a + (b - a) by omega, List.take_add]
  rw [this, bucketOf_append]
  omega

/-- C105.  An exported bucket is never below that of the records in the exported count and never above that of all records. -/
theorem bucket_bounds (n : Nat) (progs : List (List Op)) (is : List Nat) :
    ∀ e ∈ (exec n (begin n progs) is).outs, ∃ l r, (exec n (begin n progs) is).log = l ++ r ∧ e.sum = sumOf l ∧ e.count = countOf l ∧
      ∀ x, x < n → ∃ v, e.buckets[x]? = some v ∧ bucketOf x l ≤ v ∧ v ≤ bucketOf x (l ++ r) := by
  intro e he
  obtain ⟨h1, n0, ns, _, h3⟩ := (inv_all n progs is).outs e (by simpa using he)
  refine ⟨_, _, (List.take_append_drop n0 _).symm, h3.sum, h3.count, ?_⟩
  intro x hx
  have hxl : x < ns.length := by rw [h3.len, h1]; exact hx
  refine ⟨_, h3.bucket x ns[x] (List.getElem?_eq_getElem hxl), bucketOf_take_le x _ (h3.lower _ (List.getElem_mem hxl)), ?_⟩
  rw [List.take_append_drop]
  have := bucketOf_take_le x (exec n (begin n progs) is).log (h3.upper _ (List.getElem_mem hxl))
  rwa [List.take_length] at this

/-- Buckets that are cumulative in every record. -/
def Cumulative (d : Delta) : Prop := ∀ x y, x ≤ y → y < d.buckets.length → d.buckets.getD x 0 ≤ d.buckets.getD y 0

/-- The largest bucket of the records. -/
def largest (l : List Delta) : Nat := (l.flatMap (·.buckets)).foldr max 0

theorem le_foldr_max {a : Nat} {l : List Nat} (h : a ∈ l) : a ≤ l.foldr max 0 := by
  induction l with
  | nil => cases h
  | cons b l ih =>
    simp only [List.foldr_cons]
    rcases List.mem_cons.1 h with rfl | h
    · omega
    · have := ih h; omega

theorem getD_le_largest {d : Delta} {l : List Delta} (h : d ∈ l) (x : Nat) : d.buckets.getD x 0 ≤ largest l := by
  rw [List.getD_eq_getElem?_getD]
  cases hx : d.buckets[x]? with
  | none => simp
  | some v => exact le_foldr_max (List.mem_flatMap.2 ⟨d, h, List.mem_of_getElem? hx⟩)

theorem bucketOf_mono {x y n : Nat} {l : List Delta} (h : ∀ d ∈ l, Cumulative d ∧ d.buckets.length = n) (hxy : x ≤ y) (hy : y < n) :
    bucketOf x l ≤ bucketOf y l := by
  induction l with
  | nil => simp [bucketOf]
  | cons d l ih =>
    have h1 := ih fun d hd => h d (List.mem_cons_of_mem _ hd)
    have h2 := (h d (List.mem_cons_self ..)).1 x y hxy (by rw [(h d (List.mem_cons_self ..)).2]; exact hy)
    simp only [bucketOf, List.map_cons, List.sum_cons] at h1 ⊢
    omega

/-- C105.  Of two exported buckets the wider one is smaller by at most one record: the one that was being added. -/
theorem buckets_almost_cumulative (n : Nat) (progs : List (List Op)) (is : List Nat)
    (hc : ∀ d ∈ (exec n (begin n progs) is).log, Cumulative d ∧ d.buckets.length = n) :
    ∀ e ∈ (exec n (begin n progs) is).outs, ∀ x y a b : Nat, x ≤ y → e.buckets[x]? = some a → e.buckets[y]? = some b →
      a ≤ b + largest (exec n (begin n progs) is).log := by
  intro e he x y a b hxy ha hb
  obtain ⟨h1, n0, ns, _, h3⟩ := (inv_all n progs is).outs e (by simpa using he)
  have hy : y < n := by rw [← h1]; exact (List.getElem?_eq_some_iff.1 hb).1
  have hxl : x < ns.length := by rw [h3.len, h1]; omega
  have hyl : y < ns.length := by rw [h3.len, h1]; omega
  have hx' := h3.bucket x ns[x] (List.getElem?_eq_getElem hxl)
  have hy' := h3.bucket y ns[y] (List.getElem?_eq_getElem hyl)
  rw [ha] at hx'
  rw [hb] at hy'
  cases hx'
  cases hy'
  generalize hlog : (exec n (begin n progs) is).log = log at *
  have hback : ns[x] ≤ ns[y] + 1 := by
    rcases Nat.lt_or_eq_of_le hxy with h | h
    · exact List.pairwise_iff_getElem.1 h3.back x y hxl hyl h
    · subst h; omega
  have h4 : bucketOf x (log.take ns[x]) ≤ bucketOf x (log.take (ns[y] + 1)) := bucketOf_take_le x log hback
  have h5 : bucketOf x (log.take (ns[y] + 1)) ≤ bucketOf x (log.take ns[y]) + largest log := by
    rw [List.take_add_one, bucketOf_append]
    cases hg : log[ns[y]]? with
    | none => simp [bucketOf]
    | some d =>
      have := getD_le_largest (List.mem_of_getElem? hg) x
      simp only [Option.toList_some, bucketOf, List.map_cons, List.map_nil, List.sum_cons, List.sum_nil] at this ⊢
      omega
  have h6 := bucketOf_mono (x := x) (y := y) (l := log.take ns[y]) (fun d hd => hc d (List.mem_of_mem_take hd)) hxy hy
  omega

/-! ### Nothing is lost -/

/-- Records of a goroutine that have not got the mutex of the histogram. -/
def pending (t : Th) : List Delta :=
  (match t.pc with | .entered d _ => [d] | _ => []) ++
    t.todo.filterMap fun op => match op with | .record d _ => some d | .collect => none

def pendings (c : Conf) : List Delta := c.ths.flatMap pending

theorem flatMap_set_perm {α β : Type} (f : α → List β) : ∀ (l : List α) (i : Nat) (a b : α), l[i]? = some a →
    ((l.set i b).flatMap f ++ f a).Perm (l.flatMap f ++ f b)
  | [], _, _, _, h => by simp at h
  | x :: l, 0, a, b, h => by
    simp only [List.getElem?_cons_zero, Option.some.injEq] at h
    subst h
    simp only [List.set_cons_zero, List.flatMap_cons]
    exact List.perm_append_comm.trans (List.Perm.append_left _ List.perm_append_comm |>.trans (by
      rw [List.append_assoc]))
  | x :: l, i + 1, a, b, h => by
    simp only [List.getElem?_cons_succ] at h
    simp only [List.set_cons_succ, List.flatMap_cons, List.append_assoc]
    exact (flatMap_set_perm f l i a b h).append_left _

/-- A step of goroutine `i` that neither begins nor ends the waiting of a record. -/
theorem pend_same {c : Conf} {i : Nat} {t t' : Th} {d : Conf} (ht : c.ths[i]? = some t) (hp : pending t' = pending t)
    (h1 : d.ths = c.ths.set i t') (h2 : d.log = c.log) : (pendings d ++ d.log).Perm (pendings c ++ c.log) := by
  rw [h2]
  refine List.Perm.append_right _ ?_
  have := flatMap_set_perm pending c.ths i t t' ht
  rw [hp] at this
  unfold pendings
  rw [h1]
  exact (List.perm_append_right_iff _).1 this

theorem pend_step (n : Nat) (c : Conf) (i : Nat) : (pendings (step n c i) ++ (step n c i).log).Perm (pendings c ++ c.log) := by
  unfold step
  cases ht : c.ths[i]? with
  | none => exact .refl _
  | some t =>
  obtain ⟨pc, todo⟩ := t
  dsimp only
  cases pc with
  | idle =>
    dsimp only
    cases todo with
    | nil => exact .refl _
    | cons op r =>
      cases op with
      | record d now =>
        dsimp only
        split
        · exact .refl _
        · exact pend_same ht (t' := ⟨.entered d now, r⟩) (by simp [pending]) rfl rfl
      | collect =>
        dsimp only
        split
        · exact .refl _
        · exact pend_same ht (t' := ⟨.dumping, r⟩) (by simp [pending]) rfl rfl
  | stamping now => exact pend_same ht (t' := ⟨.leaving, todo⟩) (by simp [pending]) rfl rfl
  | leaving => exact pend_same ht (t' := ⟨.idle, todo⟩) (by simp [pending]) rfl rfl
  | dumping =>
    dsimp only
    split
    · exact .refl _
    · exact pend_same ht (t' := ⟨.dumped c.sum c.count, todo⟩) (by simp [pending]) rfl rfl
  | dumped s k => exact pend_same ht (t' := ⟨.copying s k [], todo⟩) (by simp [pending]) rfl rfl
  | copying s k got =>
    dsimp only
    split
    · exact pend_same ht (t' := ⟨.idle, todo⟩) (by simp [pending]) rfl rfl
    · exact pend_same ht (t' := ⟨.copying s k _, todo⟩) (by simp [pending]) rfl rfl
  | entered d now =>
    dsimp only
    split
    · exact .refl _
    · have h1 := flatMap_set_perm pending c.ths i _ ⟨.adding d now 0, todo⟩ ht
      simp only [pendings, Conf.setTh]
      have h2 : pending ⟨.entered d now, todo⟩ = d :: pending ⟨.adding d now 0, todo⟩ := by simp [pending]
      rw [h2] at h1
      have h3 : (d :: ((c.ths.set i ⟨.adding d now 0, todo⟩).flatMap pending)).Perm (c.ths.flatMap pending) := by
        refine (List.perm_append_right_iff (pending ⟨.adding d now 0, todo⟩)).1 ?_
        refine List.Perm.trans ?_ h1
        simpa using (List.perm_middle (a := d) (l₁ := (c.ths.set i ⟨.adding d now 0, todo⟩).flatMap pending)
          (l₂ := pending ⟨.adding d now 0, todo⟩)).symm
      refine List.Perm.trans ?_ (h3.append_right c.log)
      rw [← List.append_assoc]
      exact (List.perm_append_singleton d _)
  | adding d now k =>
    dsimp only
    split
    · exact pend_same ht (t' := ⟨.stamping now, todo⟩) (by simp [pending]) rfl rfl
    · refine pend_same ht (t' := ⟨.adding d now (k + 1), todo⟩) (by simp [pending]) ?_ ?_
      · rcases k with _ | _ | k <;> rfl
      · rcases k with _ | _ | k <;> rfl

/-- The records of all programs. -/
def records (progs : List (List Op)) : List Delta :=
  progs.flatMap fun p => p.filterMap fun op => match op with | .record d _ => some d | .collect => none

theorem pend_exec (n : Nat) (progs : List (List Op)) (is : List Nat) :
    (pendings (exec n (begin n progs) is) ++ (exec n (begin n progs) is).log).Perm (records progs) := by
  have h : ∀ (is : List Nat) (c : Conf), (pendings (exec n c is) ++ (exec n c is).log).Perm (pendings c ++ c.log) := by
    intro is
    induction is with
    | nil => intro c; exact .refl _
    | cons i is ih => intro c; exact (ih (step n c i)).trans (pend_step n c i)
  refine (h is _).trans ?_
  have : pendings (begin n progs) ++ (begin n progs).log = records progs := by
    simp [pendings, begin, records, List.flatMap_map, pending]
  rw [this]

theorem perm_sum {a b : List Int} (h : a.Perm b) : a.sum = b.sum := by
  induction h <;> simp_all <;> omega

theorem perm_sum_nat {a b : List Nat} (h : a.Perm b) : a.sum = b.sum := by
  induction h <;> simp_all <;> omega

/-- All calls have returned. -/
def Conf.through (c : Conf) : Prop := ∀ t ∈ c.ths, t.pc = .idle ∧ t.todo = []

/-- C105.  However the goroutines interleave, no record is lost or added twice: when all calls have returned the histogram is that
of all records, whatever was collected in between. -/
theorem recorded_exactly (n : Nat) (progs : List (List Op)) (is : List Nat) (hd : (exec n (begin n progs) is).through) :
    let c := exec n (begin n progs) is
    c.log.Perm (records progs) ∧ c.sum = sumOf (records progs) ∧ c.count = countOf (records progs) ∧
      c.buckets = (List.range n).map fun x => bucketOf x (records progs) := by
  intro c
  have hp : c.log.Perm (records progs) := by
    have h := pend_exec n progs is
    have h0 : pendings c = [] := by
      rw [pendings, List.flatMap_eq_nil_iff]
      intro t ht
      obtain ⟨h1, h2⟩ := hd t ht
      simp [pending, h1, h2]
    rw [show pendings (exec n (begin n progs) is) = [] from h0] at h
    simpa using h
  have hinv := inv_all n progs is
  obtain ⟨k, h1, h2, h3, h4, h5, h6⟩ := hinv.prog
  have hs : sumOf c.log = sumOf (records progs) := by
    unfold sumOf
    exact perm_sum (hp.map _)
  have hk : countOf c.log = countOf (records progs) := by
    unfold countOf
    exact perm_sum_nat (hp.map _)
  have hb : ∀ x, bucketOf x c.log = bucketOf x (records progs) := by
    intro x
    unfold bucketOf
    exact perm_sum_nat (hp.map _)
  have hh : c.held = false := by
    cases hx : c.held with
    | false => rfl
    | true =>
      obtain ⟨t, ht, ha⟩ := hinv.owner hx
      rw [(hd t ht).1] at ha
      cases ha
  have hk2 := h2 hh
  subst hk2
  have hseen : ∀ j, j < n + 2 → c.log.take (seen c.log (n + 2) j) = c.log := by
    intro j hj
    simp [seen, hj]
  refine ⟨hp, ?_, ?_, ?_⟩
  · rw [← hs]
    exact h4.trans (by rw [hseen 0 (by omega)])
  · rw [← hk]
    exact h5.trans (by rw [hseen 1 (by omega)])
  · apply List.ext_getElem?
    intro x
    have hl : c.buckets.length = n := hinv.len
    by_cases hx : x < n
    · refine (h6 x hx).trans ?_
      rw [hseen (x + 2) (by omega), hb]
      simp [hx]
    · rw [List.getElem?_eq_none (by omega), List.getElem?_eq_none (by simp; omega)]

/-! ### What fails -/

/-- Goroutine 0 records, goroutine 1 collects. -/
def duel (d0 d1 : Delta) : Conf := begin 2 [[.record d0 10, .record d1 20], [.collect]]

/-- C105 violated: the buckets have a record that is not in the count, whatever the records are.  A scrape dumps the histogram
after `d0`, and before it copies the buckets `d1` is added (agg_values.go:322, collector.go:48-52). -/
theorem bucket_exceeds_count (s0 s1 : Int) (k0 k1 a0 b0 a1 b1 : Nat) :
    (exec 2 (duel ⟨s0, k0, [a0, b0]⟩ ⟨s1, k1, [a1, b1]⟩)
      (List.replicate 9 0 ++ List.replicate 3 1 ++ List.replicate 9 0 ++ List.replicate 3 1)).outs =
      [⟨s0, k0, [a0 + a1, b0 + b1]⟩] := by
  simp [exec, step, duel, begin, Conf.setTh, Conf.add, List.replicate, List.modify]

/-- C105 violated: a wider bucket is smaller than a narrower one.  The scrape copies the first bucket after `d1` was added to it
and the second bucket before. -/
theorem buckets_fall (s0 s1 : Int) (k0 k1 a0 b0 a1 b1 : Nat) :
    (exec 2 (duel ⟨s0, k0, [a0, b0]⟩ ⟨s1, k1, [a1, b1]⟩)
      (List.replicate 9 0 ++ List.replicate 3 1 ++ List.replicate 5 0 ++ List.replicate 3 1)).outs =
      [⟨s0, k0, [a0 + a1, b0]⟩] := by
  simp [exec, step, duel, begin, Conf.setTh, Conf.add, List.replicate, List.modify]

/-- C105 violated: two goroutines write the time of the last update at once, because it is guarded by the aggregator's mutex held
for reading only (cumulative_aggregator.go:61, 114); the time is then that of either, so that a series can be as old as an
earlier record. -/
theorem update_races (d0 d1 : Delta) (t0 t1 : Int) :
    let c := exec 0 (begin 0 [[.record d0 t0], [.record d1 t1]]) (List.replicate 5 0 ++ List.replicate 5 1)
    c.ths.map (·.pc) = [.stamping t0, .stamping t1] ∧
      (exec 0 c [0, 1]).update = some t1 ∧ (exec 0 c [1, 0]).update = some t0 := by
  simp [exec, step, begin, Conf.setTh, Conf.add, List.replicate]

/-! ### Dumps and records exclude each other -/

def isReader : Pc → Bool
  | .entered .. => true
  | .adding .. => true
  | .stamping _ => true
  | .leaving => true
  | _ => false

def isWriter : Pc → Bool
  | .dumping => true
  | .dumped .. => true
  | _ => false

def rd (t : Th) : Bool := isReader t.pc
def wr (t : Th) : Bool := isWriter t.pc
theorem rd_mk (p : Pc) (r : List Op) : rd ⟨p, r⟩ = isReader p := rfl
theorem wr_mk (p : Pc) (r : List Op) : wr ⟨p, r⟩ = isWriter p := rfl

theorem countP_set (f : Th → Bool) : ∀ (l : List Th) (i : Nat) (a b : Th), l[i]? = some a →
    (l.set i b).countP f + (f a).toNat = l.countP f + (f b).toNat
  | [], _, _, _, h => by simp at h
  | x :: l, 0, a, b, h => by
    simp only [List.getElem?_cons_zero, Option.some.injEq] at h
    subst h
    simp only [List.set_cons_zero, List.countP_cons]
    cases f x <;> cases f b <;> simp
  | x :: l, i + 1, a, b, h => by
    simp only [List.getElem?_cons_succ] at h
    have := countP_set f l i a b h
    simp only [List.set_cons_succ, List.countP_cons]
    omega

/-- The mutex of the aggregator. -/
structure Rw (c : Conf) : Prop where
  readers : c.ths.countP rd = c.readers
  writer : c.ths.countP wr = c.writer.toNat
  excl : c.writer = true → c.readers = 0

theorem rw_step {n : Nat} {c : Conf} (h : Rw c) (i : Nat) : Rw (step n c i) := by
  unfold step
  cases ht : c.ths[i]? with
  | none => exact h
  | some t =>
  obtain ⟨h1, h2, h3⟩ := h
  have cr := fun b => countP_set rd c.ths i t b ht
  have cw := fun b => countP_set wr c.ths i t b ht
  obtain ⟨pc, todo⟩ := t
  cases pc with
  | idle =>
    simp only
    cases todo with
    | nil => exact ⟨h1, h2, h3⟩
    | cons op r =>
      cases op with
      | record d now =>
        simp only
        cases hw : c.writer with
        | true => exact ⟨h1, h2, h3⟩
        | false =>
          have a := cr ⟨.entered d now, r⟩
          have b := cw ⟨.entered d now, r⟩
          simp only [rd_mk, wr_mk, isReader, isWriter, Bool.toNat_false, Bool.toNat_true] at a b
          rw [if_neg (by simp)]
          exact ⟨by simp only [Conf.setTh]; omega, by rw [hw] at h2; simp only [Conf.setTh, Bool.toNat_false] at h2 ⊢; omega, by simp [Conf.setTh]⟩
      | collect =>
        simp only
        cases hw : c.writer with
        | true => exact ⟨h1, h2, h3⟩
        | false =>
          by_cases hr : c.readers = 0
          · have a := cr ⟨.dumping, r⟩
            have b := cw ⟨.dumping, r⟩
            simp only [rd_mk, wr_mk, isReader, isWriter, Bool.toNat_false, Bool.toNat_true] at a b
            rw [hw] at h2
            rw [hr] at h1
            simp only [hr, Bool.false_or, bne_self_eq_false, Bool.false_eq_true, if_false]
            exact ⟨by simp only [Conf.setTh]; omega, by simp only [Conf.setTh, Bool.toNat_false, Bool.toNat_true] at h2 ⊢; omega, by simp [Conf.setTh]⟩
          · have : (false || c.readers != 0) = true := by simp [hr]
            rw [if_pos this]
            exact ⟨h1, h2, h3⟩
  | entered d now =>
    simp only
    split
    · exact ⟨h1, h2, h3⟩
    · have a := cr ⟨.adding d now 0, todo⟩
      have b := cw ⟨.adding d now 0, todo⟩
      simp only [rd_mk, wr_mk, isReader, isWriter, Bool.toNat_false, Bool.toNat_true] at a b
      exact ⟨by simp only [Conf.setTh]; omega, by simp only [Conf.setTh]; omega, h3⟩
  | adding d now k =>
    simp only
    split
    · have a := cr ⟨.stamping now, todo⟩
      have b := cw ⟨.stamping now, todo⟩
      simp only [rd_mk, wr_mk, isReader, isWriter, Bool.toNat_false, Bool.toNat_true] at a b
      exact ⟨by simp only [Conf.setTh]; omega, by simp only [Conf.setTh]; omega, h3⟩
    · have a := cr ⟨.adding d now (k + 1), todo⟩
      have b := cw ⟨.adding d now (k + 1), todo⟩
      simp only [rd_mk, wr_mk, isReader, isWriter, Bool.toNat_false, Bool.toNat_true] at a b
      have e : (c.add d k).ths = c.ths ∧ (c.add d k).readers = c.readers ∧ (c.add d k).writer = c.writer := by
        unfold Conf.add; split <;> exact ⟨rfl, rfl, rfl⟩
      exact ⟨by simp only [Conf.setTh, e.1, e.2.1]; omega, by simp only [Conf.setTh, e.1, e.2.2]; omega,
        by simp only [Conf.setTh, e.2.1, e.2.2]; exact h3⟩
  | stamping now =>
    have a := cr ⟨.leaving, todo⟩
    have b := cw ⟨.leaving, todo⟩
    simp only [rd_mk, wr_mk, isReader, isWriter, Bool.toNat_false, Bool.toNat_true] at a b
    exact ⟨by simp only [Conf.setTh]; omega, by simp only [Conf.setTh]; omega, h3⟩
  | leaving =>
    have a := cr ⟨.idle, todo⟩
    have b := cw ⟨.idle, todo⟩
    simp only [rd_mk, wr_mk, isReader, isWriter, Bool.toNat_false, Bool.toNat_true] at a b
    exact ⟨by simp only [Conf.setTh]; omega, by simp only [Conf.setTh]; omega, fun hw => by simp only [Conf.setTh]; have := h3 hw; omega⟩
  | dumping =>
    simp only
    split
    · exact ⟨h1, h2, h3⟩
    · have a := cr ⟨.dumped c.sum c.count, todo⟩
      have b := cw ⟨.dumped c.sum c.count, todo⟩
      simp only [rd_mk, wr_mk, isReader, isWriter, Bool.toNat_false, Bool.toNat_true] at a b
      exact ⟨by simp only [Conf.setTh]; omega, by simp only [Conf.setTh]; omega, h3⟩
  | dumped s k =>
    have a := cr ⟨.copying s k [], todo⟩
    have b := cw ⟨.copying s k [], todo⟩
    simp only [rd_mk, wr_mk, isReader, isWriter, Bool.toNat_false, Bool.toNat_true] at a b
    have hw : c.writer.toNat ≤ 1 := Bool.toNat_le c.writer
    exact ⟨by simp only [Conf.setTh]; omega, by simp only [Conf.setTh, Bool.toNat_false]; omega, by simp [Conf.setTh]⟩
  | copying s k got =>
    simp only
    split
    · have a := cr ⟨.idle, todo⟩
      have b := cw ⟨.idle, todo⟩
      simp only [rd_mk, wr_mk, isReader, isWriter, Bool.toNat_false] at a b
      exact ⟨by simp only [Conf.setTh]; omega, by simp only [Conf.setTh]; omega, h3⟩
    · have a := cr ⟨.copying s k (got ++ [c.buckets.getD got.length 0]), todo⟩
      have b := cw ⟨.copying s k (got ++ [c.buckets.getD got.length 0]), todo⟩
      simp only [rd_mk, wr_mk, isReader, isWriter, Bool.toNat_false] at a b
      exact ⟨by simp only [Conf.setTh]; omega, by simp only [Conf.setTh]; omega, h3⟩

theorem rw_exec (n : Nat) (progs : List (List Op)) (is : List Nat) : Rw (exec n (begin n progs) is) := by
  have h0 : Rw (begin n progs) := by
    have hz : ∀ f : Pc → Bool, f .idle = false → (progs.map fun p => (⟨.idle, p⟩ : Th)).countP (fun t => f t.pc) = 0 := by
      intro f hf
      rw [List.countP_eq_zero]
      intro t ht
      obtain ⟨p, _, rfl⟩ := List.mem_map.1 ht
      simp [hf]
    exact ⟨hz isReader rfl, hz isWriter rfl, by simp [begin]⟩
  generalize begin n progs = c at h0
  induction is generalizing c with
  | nil => exact h0
  | cons i is ih => exact ih _ (rw_step h0 i)

/-- C105.  While a goroutine dumps, no other dumps and none is between the beginning and the end of a record. -/
theorem dump_excludes (n : Nat) (progs : List (List Op)) (is : List Nat) (i j : Nat) (t u : Th)
    (ht : (exec n (begin n progs) is).ths[i]? = some t) (hu : (exec n (begin n progs) is).ths[j]? = some u)
    (hw : isWriter t.pc = true) (hij : i ≠ j) : isReader u.pc = false ∧ isWriter u.pc = false := by
  obtain ⟨h1, h2, h3⟩ := rw_exec n progs is
  generalize exec n (begin n progs) is = c at *
  have hpos : 0 < c.ths.countP wr := List.countP_pos_iff.2 ⟨t, List.mem_of_getElem? ht, hw⟩
  have hc : c.writer = true := by
    cases hc : c.writer with
    | true => rfl
    | false => rw [hc, Bool.toNat_false] at h2; omega
  refine ⟨?_, ?_⟩
  · cases hr : isReader u.pc with
    | false => rfl
    | true =>
      have : 0 < c.ths.countP rd := List.countP_pos_iff.2 ⟨u, List.mem_of_getElem? hu, hr⟩
      have := h3 hc
      omega
  · cases hr : isWriter u.pc with
    | false => rfl
    | true =>
      have hone : c.ths.countP wr = 1 := by rw [h2, hc]; rfl
      have hset := countP_set wr c.ths i t ⟨.idle, []⟩ ht
      simp only [wr_mk, show wr t = true from hw, isWriter, Bool.toNat_true, Bool.toNat_false] at hset
      have hu' : (c.ths.set i ⟨.idle, []⟩)[j]? = some u := by rw [List.getElem?_set_ne hij]; exact hu
      have : 0 < (c.ths.set i ⟨.idle, []⟩).countP wr := List.countP_pos_iff.2 ⟨u, List.mem_of_getElem? hu', hr⟩
      omega

/-- So a dump never waits for the histogram. -/
theorem dump_never_waits (n : Nat) (progs : List (List Op)) (is : List Nat) (i : Nat) (t : Th)
    (ht : (exec n (begin n progs) is).ths[i]? = some t) (hw : t.pc = .dumping) :
    (step n (exec n (begin n progs) is) i).ths[i]? = some ⟨.dumped (exec n (begin n progs) is).sum (exec n (begin n progs) is).count, t.todo⟩ := by
  have hinv := (inv_exec (inv_begin n progs) (Nat.zero_le _) (Nat.zero_le _) is).1
  have hex := fun j u hu => dump_excludes n progs is i j t u ht hu (by rw [hw]; rfl)
  generalize exec n (begin n progs) is = c at *
  have hh : c.held = false := by
    cases hh : c.held with
    | false => rfl
    | true =>
      obtain ⟨u, hu, ha⟩ := hinv.owner hh
      obtain ⟨j, hj⟩ := List.mem_iff_getElem?.1 hu
      have hij : i ≠ j := by
        rintro rfl
        rw [ht] at hj
        cases hj
        rw [hw] at ha
        cases ha
      have := (hex j u hj hij).1
      cases hp : u.pc <;> rw [hp] at ha this <;> first | exact Bool.noConfusion ha | exact Bool.noConfusion this
  obtain ⟨hi, _⟩ := List.getElem?_eq_some_iff.1 ht
  unfold step
  simp only [ht, hw, hh, Bool.false_eq_true, if_false, Conf.setTh, List.getElem?_set_self hi]

/-! ### The theorems apply -/

/-- A value below the first boundary, then one between the boundaries. -/
def demo : List (List Op) := [[.record (ofValue [10, 20] 5) 1, .record (ofValue [10, 20] 15) 2], [.collect, .collect]]

/-- A goroutine dumps, the other waits to record. -/
example : (exec 2 (begin 2 demo) [1, 0]).ths.map (·.pc) = [.idle, .dumping] ∧ isWriter .dumping = true := by decide +kernel

example : ofHist ⟨20, 2, [10, 20], [1, 2]⟩ = ⟨20, 2, [1, 2]⟩ := rfl

/-- A scrape between the records and one that overlaps with the second. -/
example : (exec 2 (begin 2 demo) (List.replicate 9 0 ++ List.replicate 9 1 ++ List.replicate 9 0 ++ List.replicate 3 1)).outs =
    [⟨5, 1, [1, 1]⟩, ⟨5, 1, [1, 2]⟩] := by decide +kernel

example : (∀ t ∈ (exec 2 (begin 2 demo) (List.replicate 9 0)).ths, scraping t.pc = false) ∧
    (exec 2 (begin 2 demo) (List.replicate 9 0)).finished = 1 ∧
    (exec 2 (exec 2 (begin 2 demo) (List.replicate 9 0)) (List.replicate 6 1)).log.length = 1 ∧
    (exec 2 (exec 2 (begin 2 demo) (List.replicate 9 0)) (List.replicate 6 1)).outs = [⟨5, 1, [1, 1]⟩] := by decide +kernel

example : (exec 2 (begin 2 demo) (List.replicate 18 0 ++ List.replicate 12 1)).through ∧ records demo = [ofValue [10, 20] 5, ofValue [10, 20] 15] := by
  refine ⟨?_, rfl⟩
  unfold Conf.through
  decide +kernel

example : ∀ d ∈ (exec 2 (begin 2 demo) (List.replicate 18 0)).log, Cumulative d ∧ d.buckets.length = 2 := by
  have : (exec 2 (begin 2 demo) (List.replicate 18 0)).log = [⟨5, 1, [1, 1]⟩, ⟨15, 1, [0, 1]⟩] := by decide +kernel
  rw [this]
  intro d hd
  have hc : ∀ x y, x ≤ y → y < 2 → ([1, 1].getD x 0 ≤ [1, 1].getD y 0 ∧ [0, 1].getD x 0 ≤ [0, 1].getD y 0) := by
    intro x y hxy hy
    have : (x = 0 ∨ x = 1) ∧ (y = 0 ∨ y = 1) := by omega
    rcases this with ⟨rfl | rfl, rfl | rfl⟩ <;> first | omega | simp
  simp only [List.mem_cons, List.not_mem_nil, or_false] at hd
  rcases hd with rfl | rfl
  · exact ⟨fun x y hxy hy => (hc x y hxy hy).1, rfl⟩
  · exact ⟨fun x y hxy hy => (hc x y hxy hy).2, rfl⟩

end Kindling.Export.PromConc
