import Verif.Agg.Commute
/-
The aggregator used by several goroutines at once (aggregator/defaultaggregator): the steps of `Aggregate`, `Dump` and
`DumpSingle` as they interleave.  `Verif.Agg.Model` has each call as one step; here every access to shared data is one.

Simplified:
* the mutex of the aggregator (default_aggregator.go:19) is derived from where the goroutines are: a reader enters when nobody
  has it for writing, a writer when nobody has it at all (that a waiting writer keeps new readers out is left out: this allows
  more executions);
* one `calculate` or `merge` of an accumulator is one step: it is one atomic operation (sum, last, count) or a critical
  section of the accumulator's own mutex (max, avg, histogram), agg_values.go:178-342;
* the body of `Dump`, done with the mutex held for writing, is one step;
* recorders are never deleted (default_aggregator.go:46-58), so the name stands for the pointer; the values of a series are
  behind a pointer (`heap`), since `reset` drops them while goroutines might hold it;
* int64 counters are unbounded.
-/
namespace Kindling.Agg.Conc
open Kindling Kindling.Agg

/-! ## Code -/

/-- Where a goroutine is. -/
inductive Pc where
  /-- between two calls -/
  | idle
  /-- default_aggregator.go:33: has the mutex for reading -/
  | rlocked (g : Group) (s : List Selector)
  /-- default_aggregator.go:38: `Load` found no recorder -/
  | noRecorder (g : Group) (s : List Selector)
  /-- default_aggregator.go:42: has the recorder -/
  | recorder (g : Group) (s : List Selector)
  /-- value_recorder.go:33: `Load` found no values -/
  | noSeries (g : Group) (s : List Selector)
  /-- value_recorder.go:37: has the values `p`; the metrics still to record -/
  | record (g : Group) (p : Nat) (ms : List Metric)
  /-- agg_values.go:109: records `m`, next in the accumulator number `j` -/
  | values (g : Group) (p : Nat) (m : Metric) (j : Nat) (ms : List Metric)
  /-- default_aggregator.go:48, 61: has the mutex for writing -/
  | wlocked (op : Op)
  /-- default_aggregator.go:57, 69: before `Unlock` -/
  | wdone

def Pc.reads : Pc → Bool
  | .rlocked .. | .noRecorder .. | .recorder .. | .noSeries .. | .record .. | .values .. => true
  | _ => false

def Pc.writes : Pc → Bool
  | .wlocked _ | .wdone => true
  | _ => false

/-- A goroutine: where it is and the calls it makes next. -/
structure Th where
  pc : Pc
  todo : List Op

/-- The shared data.  `log` and `outs` are for the statements only: the calls in the order in which they took effect (a dump
that panics last), with their goroutines, and all groups dumped. -/
structure Conf where
  recs : AMap String (AMap LabelKeys Nat)
  heap : List ValuesMap
  ths : List Th
  log : List (Nat × Op)
  outs : List Group
  crashed : Bool

/-- The values of a series. -/
def Conf.ptr (c : Conf) (n : String) (k : LabelKeys) : Option Nat := (AMap.get c.recs n).bind (AMap.get · k)

/-- The contents of the aggregator. -/
def Conf.deref (c : Conf) : State :=
  c.recs.map fun q => (q.1, q.2.map fun r => (r.1, (c.heap[r.2]?).getD ⟨[], 0⟩))

def Conf.at (c : Conf) (i : Nat) (pc : Pc) (todo : List Op) : Conf := { c with ths := c.ths.set i ⟨pc, todo⟩ }

/-- value_recorder.go:28-40: has found or stored the values `p`. -/
def Conf.found (c : Conf) (i : Nat) (g : Group) (s : List Selector) (p : Nat) (todo : List Op) : Conf :=
  { c.at i (.record g p g.metrics) todo with log := c.log ++ [(i, .aggregate g s)] }

/-- default_aggregator.go:46-58 `Dump` with value_recorder.go:58-60 `reset`. -/
def Conf.dumpAll (c : Conf) (i : Nat) (todo : List Op) : Conf :=
  match dump c.deref with
  | none => { c.at i .wdone todo with crashed := true, log := c.log ++ [(i, .dump)] }
  | some (_, gs) => { c.at i .wdone todo with
      recs := c.recs.map (fun q => (q.1, [])), log := c.log ++ [(i, .dump)], outs := c.outs ++ gs }

/-- default_aggregator.go:60-70 `DumpSingle`. -/
def Conf.dumpOne (c : Conf) (i : Nat) (n : String) (todo : List Op) : Conf :=
  match dumpSingle c.deref n with
  | none => { c.at i .wdone todo with crashed := true, log := c.log ++ [(i, .dumpSingle n)] }
  | some (_, gs) => { c.at i .wdone todo with
      recs := (match AMap.get c.recs n with | none => c.recs | some _ => AMap.set c.recs n [])
      log := c.log ++ [(i, .dumpSingle n)], outs := c.outs ++ gs }

/-- agg_values.go:104-117, value_recorder.go:28-60, default_aggregator.go:31-70: one step of goroutine `i`; nothing happens
when it has to wait or is through, or after a panic. -/
def step (kinds : KindMap) (c : Conf) (i : Nat) : Conf :=
  if c.crashed then c else
  match c.ths[i]? with
  | none => c
  | some ⟨.idle, []⟩ => c
  | some ⟨.idle, .aggregate g s :: r⟩ => if c.ths.any (·.pc.writes) then c else c.at i (.rlocked g s) r
  | some ⟨.idle, op :: r⟩ => if c.ths.any (fun t => t.pc.writes || t.pc.reads) then c else c.at i (.wlocked op) r
  | some ⟨.rlocked g s, r⟩ =>
    if (AMap.get c.recs g.name).isSome then c.at i (.recorder g s) r else c.at i (.noRecorder g s) r
  | some ⟨.noRecorder g s, r⟩ =>
    if (AMap.get c.recs g.name).isSome then c.at i (.recorder g s) r
    else { c.at i (.recorder g s) r with recs := AMap.set c.recs g.name [] }
  | some ⟨.recorder g s, r⟩ =>
    match c.ptr g.name (getLabelKeys s g.labels) with
    | some p => c.found i g s p r
    | none => c.at i (.noSeries g s) r
  | some ⟨.noSeries g s, r⟩ =>
    match c.ptr g.name (getLabelKeys s g.labels) with
    | some p => c.found i g s p r
    | none => { c.found i g s c.heap.length r with
        recs := AMap.set c.recs g.name (AMap.set ((AMap.get c.recs g.name).getD []) (getLabelKeys s g.labels) c.heap.length)
        heap := c.heap ++ [newAggValuesMap kinds g.metrics] }
  | some ⟨.record _ _ [], r⟩ => c.at i .idle r
  | some ⟨.record g p (m :: ms), r⟩ =>
    if ((c.heap[p]?).bind (AMap.get ·.values m.name)).isSome then c.at i (.values g p m 0 ms) r else c.at i (.record g p ms) r
  | some ⟨.values g p m j ms, r⟩ =>
    match c.heap[p]? with
    | none => c
    | some vm => match AMap.get vm.values m.name with
      | none => c
      | some vs => match vs[j]? with
        | none => { c.at i (.record g p ms) r with heap := c.heap.set p { vm with ts := g.ts } }
        | some v => match v.apply m.data with
          | none => { c with crashed := true }
          | some v' => { c.at i (.values g p m (j + 1) ms) r with
              heap := c.heap.set p { vm with values := AMap.set vm.values m.name (vs.set j v') } }
  | some ⟨.wlocked .dump, r⟩ => c.dumpAll i r
  | some ⟨.wlocked (.dumpSingle n), r⟩ => c.dumpOne i n r
  | some ⟨.wlocked (.aggregate _ _), _⟩ => c
  | some ⟨.wdone, r⟩ => c.at i .idle r

/-- The aggregator when the program starts: goroutine `i` makes the calls `progs[i]`. -/
def begin (progs : List (List Op)) : Conf := ⟨[], [], progs.map (⟨.idle, ·⟩), [], [], false⟩

/-- An execution: the goroutines in the order in which they step. -/
def exec (kinds : KindMap) (c : Conf) (is : List Nat) : Conf := is.foldl (step kinds) c

/-! ## Invariant -/

/-- What a goroutine has still to give to the accumulator number `i` of metric `m` of the values `p`. -/
def pend (p : Nat) (m : String) (i : Nat) : Pc → List MData
  | .record _ p' ms => if p' = p then datasOf m ms else []
  | .values _ p' x j ms => if p' = p then (if x.name = m ∧ j ≤ i then [x.data] else []) ++ datasOf m ms else []
  | _ => []

/-- A goroutine that still has to set the time of the values `p`. -/
def Owes (known : String → Prop) (p : Nat) : Pc → Prop
  | .record _ p' ms => p' = p ∧ ∃ x ∈ ms, known x.name
  | .values _ p' _ _ _ => p' = p
  | _ => False

/-- The metrics of a series: the configured ones of its first record. -/
def Known (kinds : KindMap) (r0 : List Metric × Nat) (m : String) : Prop := m ∈ r0.1.map (·.name) ∧ (kinds m).isSome

/-- The values of a series with the records `r0 :: rs`, when `pd` has still to be given to the accumulators. -/
structure SeriesOk (kinds : KindMap) (pd : String → Nat → List MData) (owes : Prop) (r0 : List Metric × Nat)
    (rs : List (List Metric × Nat)) (vm : ValuesMap) : Prop where
  keys : AMap.keys vm.values = AMap.keys (newAggValuesMap kinds r0.1).values
  vals : ∀ m cs, m ∈ r0.1.map (·.name) → kinds m = some cs → ∃ vs, AMap.get vm.values m = some vs ∧ vs.length = cs.length ∧
    ∀ i (k : KindConfig) v, cs[i]? = some k → vs[i]? = some v → v.name = k.outputName ∧
      ∃ ds, foldApply (Acc.init k) ds = some v.acc ∧ (ds ++ pd m i).Perm (valuesOf m (r0 :: rs))
  stamp : (∃ r ∈ r0 :: rs, (∃ x ∈ r.1, Known kinds r0 x.name) ∧ vm.ts = r.2) ∨
    (vm.ts = 0 ∧ ((∃ r ∈ r0 :: rs, ∃ x ∈ r.1, Known kinds r0 x.name) → owes))

/-- The records of every series since its last dump. -/
def Conf.recd (c : Conf) : Pending := pending (c.log.map (·.2))

def Conf.pend (c : Conf) (p : Nat) (m : String) (i : Nat) : List MData := c.ths.flatMap fun t => Conc.pend p m i t.pc

/-- What holds of a goroutine on its way. -/
def Fly (c : Conf) (g : Group) (p : Nat) (ms : List Metric) : Prop :=
  ∃ k, c.ptr g.name k = some p ∧ (g.metrics, g.ts) ∈ c.recd g.name k ∧ ∀ x ∈ ms, x ∈ g.metrics

def ThOk (c : Conf) : Pc → Prop
  | .recorder g _ | .noSeries g _ => (AMap.get c.recs g.name).isSome
  | .record g p ms => Fly c g p ms
  | .values g p m j ms => Fly c g p (m :: ms) ∧
    ∃ vm vs, c.heap[p]? = some vm ∧ AMap.get vm.values m.name = some vs ∧ j ≤ vs.length
  | .wlocked (.aggregate _ _) => False
  | _ => True

structure Inv (kinds : KindMap) (c : Conf) : Prop where
  wf : AMap.WF c.recs
  wf2 : ∀ q ∈ c.recs, AMap.WF q.2
  lock : ∀ (i : Nat) (t : Th), c.ths[i]? = some t → t.pc.writes = true → ∀ (j : Nat) (u : Th), c.ths[j]? = some u → j ≠ i → u.pc = .idle
  inj : ∀ n k n' k' p, c.ptr n k = some p → c.ptr n' k' = some p → n = n' ∧ k = k'
  bound : ∀ n k p, c.ptr n k = some p → p < c.heap.length
  empty : ∀ n k, c.ptr n k = none ↔ c.recd n k = []
  ths : ∀ t ∈ c.ths, ThOk c t.pc
  series : ∀ n k p r0 rs, c.ptr n k = some p → c.recd n k = r0 :: rs →
    ∃ vm, c.heap[p]? = some vm ∧
      SeriesOk kinds (c.pend p) (∃ t ∈ c.ths, Owes (Known kinds r0) p t.pc) r0 rs vm

/-! ### Steps of one goroutine -/

theorem set_split {α : Type} {l : List α} {i : Nat} {t : α} (h : l[i]? = some t) (t' : α) :
    ∃ a b, l = a ++ t :: b ∧ l.set i t' = a ++ t' :: b := by
  obtain ⟨hi, rfl⟩ := List.getElem?_eq_some_iff.1 h
  refine ⟨l.take i, l.drop (i + 1), ?_, ?_⟩
  · rw [List.getElem_cons_drop, List.take_append_drop]
  · rw [List.set_eq_take_append_cons_drop, if_pos hi]

theorem mem_set_or {α : Type} {l : List α} {i : Nat} {t t' u : α} (h : l[i]? = some t) (hu : u ∈ l.set i t') : u = t' ∨ u ∈ l :=
  (List.mem_or_eq_of_mem_set hu).symm

/-- Who is not the goroutine that steps stays. -/
theorem mem_set_of {α : Type} {l : List α} {i : Nat} {t t' u : α} (h : l[i]? = some t) (hu : u ∈ l) : u = t ∨ u ∈ l.set i t' := by
  obtain ⟨a, b, rfl, hs⟩ := set_split h t'
  rw [hs]
  rcases List.mem_append.1 hu with h1 | h1
  · exact .inr (by simp [h1])
  · rcases List.mem_cons.1 h1 with rfl | h1
    · exact .inl rfl
    · exact .inr (by simp [h1])

theorem self_mem_set {α : Type} {l : List α} {i : Nat} {t t' : α} (h : l[i]? = some t) : t' ∈ l.set i t' := by
  obtain ⟨a, b, rfl, hs⟩ := set_split h t'
  rw [hs]
  simp

theorem get_set_or {α : Type} {l : List α} {i j : Nat} {t t' u : α} (h : l[i]? = some t) (hu : (l.set i t')[j]? = some u) :
    (j = i ∧ u = t') ∨ (j ≠ i ∧ l[j]? = some u) := by
  rw [List.getElem?_set] at hu
  split at hu
  · rename_i hij
    subst hij
    split at hu
    · exact .inl ⟨rfl, (Option.some.inj hu).symm⟩
    · cases hu
  · rename_i hij
    exact .inr ⟨Ne.symm hij, hu⟩

theorem pend_perm {ths : List Th} {i : Nat} {t : Th} (h : ths[i]? = some t) (t' : Th) (p : Nat) (m : String) (l : Nat) {X : List MData}
    (hx : (pend p m l t.pc).Perm (X ++ pend p m l t'.pc)) :
    (ths.flatMap fun t => pend p m l t.pc).Perm (X ++ (ths.set i t').flatMap fun t => pend p m l t.pc) := by
  obtain ⟨a, b, rfl, hs⟩ := set_split h t'
  rw [hs]
  simp only [List.flatMap_append, List.flatMap_cons]
  have h1 := (List.Perm.append_left (a.flatMap fun t => pend p m l t.pc)
    (List.Perm.append_right (b.flatMap fun t => pend p m l t.pc) hx))
  refine h1.trans ?_
  rw [List.append_assoc]
  exact List.perm_append_comm_assoc _ _ _

/-- The mutex, when a goroutine steps. -/
theorem lock_set {ths : List Th} {i : Nat} {t : Th} (h : ths[i]? = some t)
    (hl : ∀ (i : Nat) (t : Th), ths[i]? = some t → t.pc.writes = true → ∀ (j : Nat) (u : Th), ths[j]? = some u → j ≠ i → u.pc = .idle)
    {t' : Th} (hi : ∀ (j : Nat) (u : Th), ths[j]? = some u → j ≠ i → u.pc.writes = true → t'.pc = .idle)
    (hw : t'.pc.writes = true → ∀ (j : Nat) (u : Th), ths[j]? = some u → j ≠ i → u.pc = .idle) :
    ∀ (j : Nat) (u : Th), (ths.set i t')[j]? = some u → u.pc.writes = true →
      ∀ (k : Nat) (v : Th), (ths.set i t')[k]? = some v → k ≠ j → v.pc = .idle := by
  intro j u hj huw k v hk hkj
  rcases get_set_or h hj with ⟨rfl, rfl⟩ | ⟨hji, hj'⟩
  · rcases get_set_or h hk with ⟨rfl, rfl⟩ | ⟨hki, hk'⟩
    · exact absurd rfl hkj
    · exact hw huw k v hk' hki
  · rcases get_set_or h hk with ⟨rfl, rfl⟩ | ⟨hki, hk'⟩
    · exact hi j u hj' hji huw
    · exact hl j u hj' huw k v hk' hkj

/-- Someone on the way: nobody has the mutex for writing. -/
theorem nobody_writes {kinds : KindMap} {c : Conf} (hinv : Inv kinds c) {i : Nat} {t : Th} (h : c.ths[i]? = some t)
    (hne : t.pc ≠ .idle) : ∀ (j : Nat) (u : Th), c.ths[j]? = some u → j ≠ i → u.pc.writes = true → False :=
  fun j u hj hji hu => hne (hinv.lock j u hj hu i t h (Ne.symm hji))

theorem SeriesOk.mono {kinds : KindMap} {pd pd' : String → Nat → List MData} {o o' : Prop} {r0 : List Metric × Nat}
    {rs : List (List Metric × Nat)} {vm : ValuesMap} (h : SeriesOk kinds pd o r0 rs vm) (hpd : ∀ m i, Known kinds r0 m → (pd m i).Perm (pd' m i))
    (ho : o → o') : SeriesOk kinds pd' o' r0 rs vm where
  keys := h.keys
  vals := fun m cs hm hcs => by
    obtain ⟨vs, h1, h2, h3⟩ := h.vals m cs hm hcs
    refine ⟨vs, h1, h2, fun i k v hk hv => ?_⟩
    obtain ⟨h4, ds, h5, h6⟩ := h3 i k v hk hv
    exact ⟨h4, ds, h5, (List.Perm.append_left ds (hpd m i ⟨hm, by rw [hcs]; rfl⟩).symm).trans h6⟩
  stamp := h.stamp.imp id fun ⟨a, b⟩ => ⟨a, fun x => ho (b x)⟩

/-- A step that only moves the goroutine. -/
theorem inv_at {kinds : KindMap} {c : Conf} (hinv : Inv kinds c) {i : Nat} {t : Th} (h : c.ths[i]? = some t) {pc : Pc} {todo : List Op}
    (hp : ∀ n k p r0 rs, c.ptr n k = some p → c.recd n k = r0 :: rs → ∀ m l, Known kinds r0 m →
      (pend p m l t.pc).Perm (pend p m l pc))
    (ho : ∀ n k p r0 rs, c.ptr n k = some p → c.recd n k = r0 :: rs → Owes (Known kinds r0) p t.pc → Owes (Known kinds r0) p pc)
    (hok : ThOk c pc)
    (hi : ∀ (j : Nat) (u : Th), c.ths[j]? = some u → j ≠ i → u.pc.writes = true → pc = .idle)
    (hw : pc.writes = true → ∀ (j : Nat) (u : Th), c.ths[j]? = some u → j ≠ i → u.pc = .idle) :
    Inv kinds (c.at i pc todo) where
  wf := hinv.wf
  wf2 := hinv.wf2
  lock := lock_set h hinv.lock hi hw
  inj := hinv.inj
  bound := hinv.bound
  empty := hinv.empty
  ths := by
    intro u hu
    have hth : ∀ q, ThOk (c.at i pc todo) q = ThOk c q := by
      intro q
      cases q with
      | wlocked op => cases op <;> rfl
      | _ => rfl
    rw [hth]
    rcases mem_set_or h hu with rfl | hu
    · exact hok
    · exact hinv.ths u hu
  series := by
    intro n k p r0 rs hptr hrec
    obtain ⟨vm, hvm, hs⟩ := hinv.series n k p r0 rs hptr hrec
    refine ⟨vm, hvm, hs.mono (fun m l hkn => ?_) ?_⟩
    · have := pend_perm h ⟨pc, todo⟩ p m l (X := []) (by simpa using hp n k p r0 rs hptr hrec m l hkn)
      rw [List.nil_append] at this
      exact this
    · rintro ⟨u, hu, hou⟩
      rcases mem_set_of (t' := ⟨pc, todo⟩) h hu with rfl | hu
      · exact ⟨⟨pc, todo⟩, self_mem_set h, ho n k p r0 rs hptr hrec hou⟩
      · exact ⟨u, hu, hou⟩

theorem pend_perm' {ths : List Th} {i : Nat} {t : Th} (h : ths[i]? = some t) (t' : Th) (p : Nat) (m : String) (l : Nat) {X : List MData}
    (hx : (pend p m l t'.pc).Perm (X ++ pend p m l t.pc)) :
    ((ths.set i t').flatMap fun t => pend p m l t.pc).Perm (X ++ ths.flatMap fun t => pend p m l t.pc) := by
  obtain ⟨a, b, rfl, hs⟩ := set_split h t'
  rw [hs]
  simp only [List.flatMap_append, List.flatMap_cons]
  have h1 := (List.Perm.append_left (a.flatMap fun t => pend p m l t.pc)
    (List.Perm.append_right (b.flatMap fun t => pend p m l t.pc) hx))
  refine h1.trans ?_
  rw [List.append_assoc]
  exact List.perm_append_comm_assoc _ _ _

/-- A new recorder. -/
theorem inv_recorder {kinds : KindMap} {c : Conf} (hinv : Inv kinds c) {i : Nat} {g : Group} {s : List Selector} {r : List Op}
    (h : c.ths[i]? = some ⟨.noRecorder g s, r⟩) (hn : AMap.get c.recs g.name = none) :
    Inv kinds { c.at i (.recorder g s) r with recs := AMap.set c.recs g.name [] } := by
  have hp : ∀ n k, ({ c.at i (.recorder g s) r with recs := AMap.set c.recs g.name [] } : Conf).ptr n k = c.ptr n k := by
    intro n k
    simp only [Conf.ptr, AMap.get_set]
    split
    · rename_i hgn
      subst hgn
      simp [hn]
    · rfl
  have hmono : ∀ n, (AMap.get c.recs n).isSome → (AMap.get (AMap.set c.recs g.name ([] : AMap LabelKeys Nat)) n).isSome := by
    intro n hs
    rw [AMap.get_set]
    split
    · rfl
    · exact hs
  refine ⟨hinv.wf.set _ _, ?_, lock_set h hinv.lock (fun j u hj hji hu => (nobody_writes hinv h (by simp) j u hj hji hu).elim)
    (fun hw => by cases hw), ?_, ?_, ?_, ?_, ?_⟩
  · intro q hq
    rcases mem_set hq with rfl | hq
    · exact AMap.wf_nil
    · exact hinv.wf2 q hq
  · intro n k n' k' p
    rw [hp, hp]
    exact hinv.inj n k n' k' p
  · intro n k p
    rw [hp]
    exact hinv.bound n k p
  · intro n k
    rw [hp]
    exact hinv.empty n k
  · intro u hu
    rcases mem_set_or h hu with rfl | hu
    · simp [ThOk]
    · have := hinv.ths u hu
      revert this
      cases u.pc with
      | wlocked op => cases op <;> exact id
      | recorder g' s' => exact hmono g'.name
      | noSeries g' s' => exact hmono g'.name
      | record g' p ms => rintro ⟨k, h1, h2⟩; exact ⟨k, by rw [hp]; exact h1, h2⟩
      | values g' p m j ms => rintro ⟨⟨k, h1, h2⟩, h3⟩; exact ⟨⟨k, by rw [hp]; exact h1, h2⟩, h3⟩
      | _ => exact id
  · intro n k p r0 rs hptr hrec
    rw [hp] at hptr
    obtain ⟨vm, hvm, hs⟩ := hinv.series n k p r0 rs hptr hrec
    refine ⟨vm, hvm, hs.mono (fun m l hkn => ?_) ?_⟩
    · have := pend_perm h ⟨.recorder g s, r⟩ p m l (X := []) (by simp [pend])
      rw [List.nil_append] at this
      exact this
    · rintro ⟨u, hu, hou⟩
      rcases mem_set_of (t' := ⟨.recorder g s, r⟩) h hu with rfl | hu
      · cases hou
      · exact ⟨u, hu, hou⟩

theorem pending_snoc (ops : List Op) (op : Op) : pending (ops ++ [op]) = (pending ops).step op := by
  simp [pending, List.foldl_append]

theorem valuesOf_snoc (m : String) (rs : List (List Metric × Nat)) (r : List Metric × Nat) :
    valuesOf m (rs ++ [r]) = valuesOf m rs ++ datasOf m r.1 := by
  simp [valuesOf, datasOf, List.flatMap_append, List.filterMap_append]

theorem recd_found (c : Conf) (i : Nat) (g : Group) (s : List Selector) (p : Nat) (r : List Op) (n : String) (k : LabelKeys) :
    (c.found i g s p r).recd n k = if n = g.name ∧ k = getLabelKeys s g.labels then c.recd n k ++ [(g.metrics, g.ts)] else c.recd n k := by
  simp only [Conf.recd, Conf.found, List.map_append, List.map_cons, List.map_nil, pending_snoc, Pending.step]

/-- A record of a series that is there. -/
theorem inv_found {kinds : KindMap} {c : Conf} (hinv : Inv kinds c) {i : Nat} {t : Th} (h : c.ths[i]? = some t) {g : Group}
    {s : List Selector} {p : Nat} {r : List Op} (ht : t.pc = .recorder g s ∨ t.pc = .noSeries g s)
    (hptr : c.ptr g.name (getLabelKeys s g.labels) = some p) : Inv kinds (c.found i g s p r) := by
  have hpt : ∀ n k, (c.found i g s p r).ptr n k = c.ptr n k := fun n k => rfl
  have hne : t.pc ≠ .idle := by rcases ht with h | h <;> rw [h] <;> simp
  have hpn : ∀ q m l, pend q m l t.pc = [] := by intro q m l; rcases ht with h | h <;> rw [h] <;> rfl
  have hno : ∀ K q, ¬ Owes K q t.pc := by intro K q; rcases ht with h | h <;> rw [h] <;> exact id
  have hsub : ∀ n k, ∀ x ∈ c.recd n k, x ∈ (c.found i g s p r).recd n k := by
    intro n k x hx
    rw [recd_found]
    split
    · simp [hx]
    · exact hx
  refine ⟨hinv.wf, hinv.wf2, lock_set h hinv.lock (fun j u hj hji hu => (nobody_writes hinv h hne j u hj hji hu).elim)
    (fun hw => by cases hw), hinv.inj, hinv.bound, ?_, ?_, ?_⟩
  · intro n k
    rw [recd_found]
    split
    · rename_i hnk
      rw [hnk.1, hnk.2, hpt, hptr]
      simp
    · exact hinv.empty n k
  · intro u hu
    rcases mem_set_or h hu with rfl | hu
    · refine ⟨_, hptr, ?_, fun x hx => hx⟩
      rw [recd_found, if_pos ⟨rfl, rfl⟩]
      simp
    · have := hinv.ths u hu
      revert this
      cases u.pc with
      | wlocked op => cases op <;> exact id
      | record g' p' ms => rintro ⟨k, h1, h2, h3⟩; exact ⟨k, h1, hsub _ _ _ h2, h3⟩
      | values g' p' m j ms => rintro ⟨⟨k, h1, h2, h3⟩, h4⟩; exact ⟨⟨k, h1, hsub _ _ _ h2, h3⟩, h4⟩
      | _ => exact id
  · intro n k q r0 rs hq hrec
    rw [recd_found] at hrec
    by_cases hnk : n = g.name ∧ k = getLabelKeys s g.labels
    · obtain ⟨rfl, rfl⟩ := hnk
      rw [if_pos ⟨rfl, rfl⟩] at hrec
      have hqp : q = p := Option.some.inj ((hq.symm.trans (hpt _ _)).trans hptr)
      subst hqp
      cases ho : c.recd g.name (getLabelKeys s g.labels) with
      | nil => rw [(hinv.empty _ _).2 ho] at hptr; cases hptr
      | cons a as =>
        rw [ho, List.cons_append] at hrec
        obtain ⟨rfl, rfl⟩ := List.cons.inj hrec
        obtain ⟨vm, hvm, hs⟩ := hinv.series _ _ q a as hptr ho
        refine ⟨vm, hvm, hs.keys, fun m cs hm hcs => ?_, ?_⟩
        · obtain ⟨vs, h1, h2, h3⟩ := hs.vals m cs hm hcs
          refine ⟨vs, h1, h2, fun l kc v hk hv => ?_⟩
          obtain ⟨h4, ds, h5, h6⟩ := h3 l kc v hk hv
          refine ⟨h4, ds, h5, ?_⟩
          rw [← List.cons_append, valuesOf_snoc]
          have h7 := pend_perm' h ⟨.record g q g.metrics, r⟩ q m l (X := datasOf m g.metrics) (by rw [hpn]; simp [pend])
          refine (List.Perm.append_left ds h7).trans ?_
          refine (List.perm_append_comm_assoc _ _ _).trans ?_
          exact (List.perm_append_comm).trans (List.Perm.append_right _ h6)
        · rcases hs.stamp with ⟨x, hx, h8⟩ | ⟨h8, h9⟩
          · refine .inl ⟨x, ?_, h8⟩
            rw [← List.cons_append]
            exact List.mem_append_left _ hx
          · refine .inr ⟨h8, ?_⟩
            rintro ⟨x, hx, y, hy, hky⟩
            rw [← List.cons_append] at hx
            rcases List.mem_append.1 hx with hx | hx
            · obtain ⟨u, hu, hou⟩ := h9 ⟨x, hx, y, hy, hky⟩
              rcases mem_set_of (t' := ⟨.record g q g.metrics, r⟩) h hu with rfl | hu
              · exact (hno _ _ hou).elim
              · exact ⟨u, hu, hou⟩
            · rw [List.mem_singleton] at hx
              subst hx
              exact ⟨⟨.record g q g.metrics, r⟩, self_mem_set h, rfl, y, hy, hky⟩
    · rw [if_neg hnk] at hrec
      obtain ⟨vm, hvm, hs⟩ := hinv.series n k q r0 rs hq hrec
      have hpq : p ≠ q := by
        rintro rfl
        obtain ⟨h1, h2⟩ := hinv.inj _ _ _ _ _ hptr hq
        exact hnk ⟨h1.symm, h2.symm⟩
      refine ⟨vm, hvm, hs.mono (fun m l hkn => ?_) ?_⟩
      · have := pend_perm h ⟨.record g p g.metrics, r⟩ q m l (X := []) (by rw [hpn]; simp [pend, hpq])
        rw [List.nil_append] at this
        exact this
      · rintro ⟨u, hu, hou⟩
        rcases mem_set_of (t' := ⟨.record g p g.metrics, r⟩) h hu with rfl | hu
        · exact (hno _ _ hou).elim
        · exact ⟨u, hu, hou⟩

/-- The first record of a series. -/
theorem inv_new {kinds : KindMap} {c : Conf} (hinv : Inv kinds c) {i : Nat} {g : Group} {s : List Selector} {r : List Op}
    (h : c.ths[i]? = some ⟨.noSeries g s, r⟩) (hptr : c.ptr g.name (getLabelKeys s g.labels) = none) :
    Inv kinds { c.found i g s c.heap.length r with
        recs := AMap.set c.recs g.name (AMap.set ((AMap.get c.recs g.name).getD []) (getLabelKeys s g.labels) c.heap.length)
        heap := c.heap ++ [newAggValuesMap kinds g.metrics] } := by
  generalize hc' : ({ c.found i g s c.heap.length r with
        recs := AMap.set c.recs g.name (AMap.set ((AMap.get c.recs g.name).getD []) (getLabelKeys s g.labels) c.heap.length)
        heap := c.heap ++ [newAggValuesMap kinds g.metrics] } : Conf) = c'
  have hths : c'.ths = c.ths.set i ⟨.record g c.heap.length g.metrics, r⟩ := by rw [← hc']; rfl
  have hheap : c'.heap = c.heap ++ [newAggValuesMap kinds g.metrics] := by rw [← hc']
  have hrecs : c'.recs = AMap.set c.recs g.name (AMap.set ((AMap.get c.recs g.name).getD []) (getLabelKeys s g.labels) c.heap.length) := by
    rw [← hc']
  have hrecd : ∀ n k, c'.recd n k = if n = g.name ∧ k = getLabelKeys s g.labels then c.recd n k ++ [(g.metrics, g.ts)] else c.recd n k := by
    intro n k
    rw [← hc', ← recd_found c i g s c.heap.length r n k]
    rfl
  have hpt : ∀ n k, c'.ptr n k = if n = g.name ∧ k = getLabelKeys s g.labels then some c.heap.length else c.ptr n k := by
    intro n k
    simp only [Conf.ptr, hrecs, AMap.get_set]
    by_cases hn : g.name = n
    · subst hn
      simp only [if_true, Option.bind_some, AMap.get_set]
      by_cases hk : getLabelKeys s g.labels = k
      · subst hk; simp
      · rw [if_neg hk, if_neg fun hx => hk hx.2.symm]
        cases AMap.get c.recs g.name <;> rfl
    · rw [if_neg hn, if_neg fun hx => hn hx.1.symm]
  clear hc'
  have hlt : ∀ q, q < c.heap.length → c'.heap[q]? = c.heap[q]? := by
    intro q hq
    rw [hheap, List.getElem?_append_left hq]
  have hsub : ∀ n k, ∀ x ∈ c.recd n k, x ∈ c'.recd n k := by
    intro n k x hx
    rw [hrecd]
    split
    · simp [hx]
    · exact hx
  have hold : ∀ n k p, c.ptr n k = some p → c'.ptr n k = some p := by
    intro n k p hp
    rw [hpt]
    split
    · rename_i hnk
      rw [hnk.1, hnk.2, hptr] at hp
      cases hp
    · exact hp
  have hfresh : ∀ t ∈ c.ths, ∀ m l, pend c.heap.length m l t.pc = [] := by
    intro t ht m l
    have := hinv.ths t ht
    revert this
    cases t.pc with
    | record g' p ms =>
      rintro ⟨k, h1, _⟩
      have := hinv.bound _ _ _ h1
      simp only [pend]
      rw [if_neg (by omega)]
    | values g' p m j ms =>
      rintro ⟨⟨k, h1, _⟩, _⟩
      have := hinv.bound _ _ _ h1
      simp only [pend]
      rw [if_neg (by omega)]
    | _ => intro _; rfl
  refine ⟨?_, ?_, ?_, ?_, ?_, ?_, ?_, ?_⟩
  · rw [hrecs]; exact hinv.wf.set _ _
  · intro q hq
    rw [hrecs] at hq
    rcases mem_set hq with rfl | hq
    · refine AMap.WF.set ?_ _ _
      cases hg : AMap.get c.recs g.name with
      | none => exact AMap.wf_nil
      | some x => exact hinv.wf2 _ (AMap.mem_of_get hg)
    · exact hinv.wf2 q hq
  · rw [hths]
    exact lock_set h hinv.lock (fun j u hj hji hu => (nobody_writes hinv h (by simp) j u hj hji hu).elim) (fun hw => by cases hw)
  · intro n k n' k' p h1 h2
    rw [hpt] at h1 h2
    split at h1
    · rename_i hnk
      cases h1
      split at h2
      · rename_i hnk'
        exact ⟨hnk.1.trans hnk'.1.symm, hnk.2.trans hnk'.2.symm⟩
      · exact absurd (hinv.bound _ _ _ h2) (Nat.lt_irrefl _)
    · split at h2
      · cases h2
        exact absurd (hinv.bound _ _ _ h1) (Nat.lt_irrefl _)
      · exact hinv.inj n k n' k' p h1 h2
  · intro n k p h1
    rw [hpt] at h1
    rw [hheap, List.length_append, List.length_singleton]
    split at h1
    · cases h1; omega
    · have := hinv.bound _ _ _ h1; omega
  · intro n k
    rw [hpt, hrecd]
    split
    · simp
    · exact hinv.empty n k
  · intro u hu
    rw [hths] at hu
    rcases mem_set_or h hu with rfl | hu
    · refine ⟨getLabelKeys s g.labels, ?_, ?_, fun x hx => hx⟩
      · rw [hpt, if_pos ⟨rfl, rfl⟩]
      · rw [hrecd, if_pos ⟨rfl, rfl⟩]; simp
    · have := hinv.ths u hu
      revert this
      have hsome : ∀ n, (AMap.get c.recs n).isSome → (AMap.get c'.recs n).isSome := by
        intro n hn
        rw [hrecs, AMap.get_set]
        split
        · rfl
        · exact hn
      cases u.pc with
      | wlocked op => cases op <;> exact id
      | recorder g' s' => exact hsome _
      | noSeries g' s' => exact hsome _
      | record g' p' ms => rintro ⟨k, h1, h2, h3⟩; exact ⟨k, hold _ _ _ h1, hsub _ _ _ h2, h3⟩
      | values g' p' m j ms =>
        rintro ⟨⟨k, h1, h2, h3⟩, h4⟩
        refine ⟨⟨k, hold _ _ _ h1, hsub _ _ _ h2, h3⟩, ?_⟩
        rw [hlt _ (hinv.bound _ _ _ h1)]
        exact h4
      | _ => exact id
  · intro n k q r0 rs hq hrec
    rw [hrecd] at hrec
    rw [hpt] at hq
    by_cases hnk : n = g.name ∧ k = getLabelKeys s g.labels
    · obtain ⟨rfl, rfl⟩ := hnk
      rw [if_pos ⟨rfl, rfl⟩] at hrec hq
      cases hq
      rw [(hinv.empty _ _).1 hptr] at hrec
      obtain ⟨rfl, rfl⟩ := List.cons.inj hrec
      refine ⟨newAggValuesMap kinds g.metrics, by rw [hheap]; simp, rfl, fun m cs hm hcs => ?_, ?_⟩
      · refine ⟨cs.map newAggValue, ?_, by simp, fun l kc v hk hv => ?_⟩
        · rw [get_newAggValuesMap, if_pos hm, hcs]; rfl
        · rw [List.getElem?_map, hk] at hv
          cases hv
          refine ⟨rfl, [], rfl, ?_⟩
          have h7 := pend_perm' h ⟨.record g c.heap.length g.metrics, r⟩ c.heap.length m l (X := datasOf m g.metrics) (by simp [pend])
          have h8 : (c.ths.flatMap fun t => pend c.heap.length m l t.pc) = [] := by
            rw [List.flatMap_eq_nil_iff]
            exact fun t ht => hfresh t ht m l
          rw [h8, List.append_nil] at h7
          simp only [Conf.pend, hths, List.nil_append]
          refine h7.trans ?_
          simp [valuesOf, datasOf]
      · refine .inr ⟨rfl, ?_⟩
        rintro ⟨x, hx, y, hy, hky⟩
        rw [List.mem_singleton] at hx
        subst hx
        refine ⟨⟨.record g c.heap.length g.metrics, r⟩, ?_, rfl, y, hy, hky⟩
        rw [hths]
        exact self_mem_set h
    · rw [if_neg hnk] at hrec hq
      obtain ⟨vm, hvm, hs⟩ := hinv.series n k q r0 rs hq hrec
      have hb := hinv.bound _ _ _ hq
      refine ⟨vm, by rw [hlt _ hb]; exact hvm, hs.mono (fun m l hkn => ?_) ?_⟩
      · have := pend_perm h ⟨.record g c.heap.length g.metrics, r⟩ q m l (X := []) (by
          simp only [pend]
          rw [if_neg (by omega)]
          exact .nil)
        rw [List.nil_append] at this
        simp only [Conf.pend, hths]
        exact this
      · rintro ⟨u, hu, hou⟩
        rw [hths]
        rcases mem_set_of (t' := ⟨.record g c.heap.length g.metrics, r⟩) h hu with rfl | hu
        · cases hou
        · exact ⟨u, hu, hou⟩

theorem keys_set_some {κ α : Type} [DecidableEq κ] {m : AMap κ α} {k : κ} {v w : α} (h : AMap.get m k = some w) :
    AMap.keys (AMap.set m k v) = AMap.keys m := by
  induction m with
  | nil => simp at h
  | cons q t ih =>
    obtain ⟨a, b⟩ := q
    simp only [AMap.get, AMap.set] at h ⊢
    split
    · rename_i hk
      simp_all [AMap.keys]
    · rename_i hk
      rw [if_neg hk] at h
      have := ih h
      simp only [AMap.keys, List.map_cons] at this ⊢
      rw [this]

/-- A step that changes the values of one series. -/
theorem inv_heap {kinds : KindMap} {c : Conf} (hinv : Inv kinds c) {i : Nat} {t : Th} (h : c.ths[i]? = some t) {g : Group} {p : Nat}
    {m : Metric} {j : Nat} {ms : List Metric} (ht : t.pc = .values g p m j ms) {vm vm' : ValuesMap} (hvm : c.heap[p]? = some vm)
    {pc : Pc} {todo : List Op}
    (hlen : ∀ x vs, AMap.get vm.values x = some vs → ∃ vs', AMap.get vm'.values x = some vs' ∧ vs'.length = vs.length)
    (hq : ∀ q x l, q ≠ p → pend q x l pc = []) (hr : pc.writes = false)
    (hok : ThOk { c.at i pc todo with heap := c.heap.set p vm' } pc)
    (hser : ∀ k r0 rs, c.ptr g.name k = some p → c.recd g.name k = r0 :: rs →
      SeriesOk kinds (c.pend p) (∃ t ∈ c.ths, Owes (Known kinds r0) p t.pc) r0 rs vm →
      SeriesOk kinds ((c.at i pc todo).pend p) (∃ t ∈ c.ths.set i ⟨pc, todo⟩, Owes (Known kinds r0) p t.pc) r0 rs vm') :
    Inv kinds { c.at i pc todo with heap := c.heap.set p vm' } := by
  have hpl : p < c.heap.length := (List.getElem?_eq_some_iff.1 hvm).1
  obtain ⟨⟨k₀, hk₀, _⟩, _⟩ : Fly c g p (m :: ms) ∧ ∃ vm vs, c.heap[p]? = some vm ∧ AMap.get vm.values m.name = some vs ∧ j ≤ vs.length := by
    have := hinv.ths t (List.mem_of_getElem? h)
    rw [ht] at this
    exact this
  refine ⟨hinv.wf, hinv.wf2, lock_set h hinv.lock (fun j u hj hji hu => (nobody_writes hinv h (by rw [ht]; simp) j u hj hji hu).elim)
    (fun hw => by rw [hr] at hw; cases hw), hinv.inj, fun n k q hq' => ?_, hinv.empty, ?_, ?_⟩
  · show q < (c.heap.set p vm').length
    rw [List.length_set]
    exact hinv.bound n k q hq'
  · intro u hu
    rcases mem_set_or h hu with rfl | hu
    · exact hok
    · have := hinv.ths u hu
      revert this
      cases u.pc with
      | wlocked op => cases op <;> exact id
      | values g' p' m' j' ms' =>
        rintro ⟨h1, vm1, vs1, h2, h3, h4⟩
        by_cases hp : p = p'
        · subst hp
          rw [hvm] at h2
          cases h2
          obtain ⟨vs', h5, h6⟩ := hlen _ _ h3
          refine ⟨h1, vm', vs', ?_, h5, by omega⟩
          show (c.heap.set p vm')[p]? = _
          rw [List.getElem?_set_self hpl]
        · refine ⟨h1, vm1, vs1, ?_, h3, h4⟩
          show (c.heap.set p vm')[p']? = _
          rw [List.getElem?_set_ne hp]
          exact h2
      | _ => exact id
  · intro n k q r0 rs hptr hrec
    obtain ⟨vm1, hvm1, hs⟩ := hinv.series n k q r0 rs hptr hrec
    by_cases hp : p = q
    · subst hp
      obtain ⟨rfl, rfl⟩ := hinv.inj _ _ _ _ _ hk₀ hptr
      rw [hvm] at hvm1
      cases hvm1
      exact ⟨vm', List.getElem?_set_self hpl, hser _ _ _ hptr hrec hs⟩
    · refine ⟨vm1, ?_, hs.mono (fun x l _ => ?_) ?_⟩
      · show (c.heap.set p vm')[q]? = _
        rw [List.getElem?_set_ne hp]
        exact hvm1
      · have := pend_perm h ⟨pc, todo⟩ q x l (X := []) (by rw [hq q x l (Ne.symm hp), ht]; simp only [pend]; rw [if_neg hp]; exact .nil)
        rw [List.nil_append] at this
        exact this
      · rintro ⟨u, hu, hou⟩
        rcases mem_set_of (t' := ⟨pc, todo⟩) h hu with rfl | hu
        · rw [ht] at hou
          exact (hp hou).elim
        · exact ⟨u, hu, hou⟩

/-- One accumulator takes a value. -/
theorem inv_apply {kinds : KindMap} {c : Conf} (hinv : Inv kinds c) {i : Nat} {g : Group} {p : Nat}
    {m : Metric} {j : Nat} {ms : List Metric} {r : List Op} (h : c.ths[i]? = some ⟨.values g p m j ms, r⟩) {vm : ValuesMap}
    (hvm : c.heap[p]? = some vm) {vs : List AggVal} (hvs : AMap.get vm.values m.name = some vs) {v v' : AggVal}
    (hv : vs[j]? = some v) (hv' : v.apply m.data = some v') :
    Inv kinds { c.at i (.values g p m (j + 1) ms) r with
              heap := c.heap.set p { vm with values := AMap.set vm.values m.name (vs.set j v') } } := by
  have hpl : p < c.heap.length := (List.getElem?_eq_some_iff.1 hvm).1
  have hjl : j < vs.length := (List.getElem?_eq_some_iff.1 hv).1
  have hto := hinv.ths _ (List.mem_of_getElem? h)
  refine inv_heap hinv h rfl hvm ?_ (fun q x l hqp => by simp [pend, Ne.symm hqp]) rfl ⟨hto.1, ?_⟩ ?_
  · intro x ws hx
    by_cases hmx : m.name = x
    · subst hmx
      rw [hvs] at hx
      cases hx
      exact ⟨_, AMap.get_set_self _ _ _, by simp⟩
    · exact ⟨ws, by rw [AMap.get_set_ne _ _ hmx]; exact hx, rfl⟩
  · refine ⟨_, vs.set j v', List.getElem?_set_self hpl, AMap.get_set_self _ _ _, ?_⟩
    rw [List.length_set]
    omega
  · intro k r0 rs hptr hrec hs
    refine ⟨?_, ?_, ?_⟩
    · rw [← hs.keys]
      exact keys_set_some hvs
    · intro x cs hx hcs
      obtain ⟨ws, h1, h2, h3⟩ := hs.vals x cs hx hcs
      by_cases hmx : m.name = x
      · subst hmx
        rw [hvs] at h1
        cases h1
        refine ⟨vs.set j v', AMap.get_set_self _ _ _, by rw [List.length_set]; exact h2, fun l kc w hk hw => ?_⟩
        rw [List.getElem?_set] at hw
        by_cases hjl' : j = l
        · subst hjl'
          rw [if_pos rfl, if_pos hjl] at hw
          cases hw
          obtain ⟨h4, ds, h5, h6⟩ := h3 j kc v hk hv
          simp only [AggVal.apply, Option.map_eq_some_iff] at hv'
          obtain ⟨a, ha, rfl⟩ := hv'
          refine ⟨h4, ds ++ [m.data], ?_, ?_⟩
          · rw [foldApply_append, h5]
            simp [foldApply, ha]
          · have h7 := pend_perm h ⟨.values g p m (j + 1) ms, r⟩ p m.name j (X := [m.data]) (by
              have : ¬ j + 1 ≤ j := by omega
              simp [pend, this])
            refine List.Perm.trans ?_ h6
            rw [List.append_assoc]
            exact List.Perm.append_left _ h7.symm
        · rw [if_neg hjl'] at hw
          obtain ⟨h4, ds, h5, h6⟩ := h3 l kc w hk hw
          refine ⟨h4, ds, h5, ?_⟩
          have h7 := pend_perm h ⟨.values g p m (j + 1) ms, r⟩ p m.name l (X := []) (by
            simp only [pend, if_true, true_and, List.nil_append]
            have : j ≤ l ↔ j + 1 ≤ l := by omega
            simp only [this]
            exact .refl _)
          rw [List.nil_append] at h7
          exact (List.Perm.append_left _ h7.symm).trans h6
      · refine ⟨ws, by rw [AMap.get_set_ne _ _ hmx]; exact h1, h2, fun l kc w hk hw => ?_⟩
        obtain ⟨h4, ds, h5, h6⟩ := h3 l kc w hk hw
        refine ⟨h4, ds, h5, ?_⟩
        have h7 := pend_perm h ⟨.values g p m (j + 1) ms, r⟩ p x l (X := []) (by simp [pend, hmx])
        rw [List.nil_append] at h7
        exact (List.Perm.append_left _ h7.symm).trans h6
    · refine hs.stamp.imp id fun ⟨a, b⟩ => ⟨a, fun _ => ?_⟩
      exact ⟨⟨.values g p m (j + 1) ms, r⟩, self_mem_set h, rfl⟩

/-- The metrics a series has. -/
theorem known_of_get {kinds : KindMap} {pd : String → Nat → List MData} {o : Prop} {r0 : List Metric × Nat}
    {rs : List (List Metric × Nat)} {vm : ValuesMap} (hs : SeriesOk kinds pd o r0 rs vm) (x : String) :
    (AMap.get vm.values x).isSome ↔ Known kinds r0 x := by
  have h1 : (AMap.get vm.values x).isSome ↔ (AMap.get (newAggValuesMap kinds r0.1).values x).isSome := by
    have h2 := AMap.get_eq_none_iff vm.values x
    have h3 := AMap.get_eq_none_iff (newAggValuesMap kinds r0.1).values x
    rw [hs.keys] at h2
    rw [← Option.ne_none_iff_isSome, ← Option.ne_none_iff_isSome, Ne, h2, Ne, h3]
  rw [h1, get_newAggValuesMap]
  simp only [Known]
  by_cases hx : x ∈ r0.1.map (·.name)
  · rw [if_pos hx]; simp [hx]
  · rw [if_neg hx]; simp [hx]

/-- The time of a series is set. -/
theorem inv_stamp {kinds : KindMap} {c : Conf} (hinv : Inv kinds c) {i : Nat} {g : Group} {p : Nat}
    {m : Metric} {j : Nat} {ms : List Metric} {r : List Op} (h : c.ths[i]? = some ⟨.values g p m j ms, r⟩) {vm : ValuesMap}
    (hvm : c.heap[p]? = some vm) {vs : List AggVal} (hvs : AMap.get vm.values m.name = some vs) (hv : vs[j]? = none) :
    Inv kinds { c.at i (.record g p ms) r with heap := c.heap.set p { vm with ts := g.ts } } := by
  have hto := hinv.ths _ (List.mem_of_getElem? h)
  obtain ⟨⟨k₀, hk₀, hin, hms⟩, _⟩ := hto
  have hjl : vs.length ≤ j := List.getElem?_eq_none_iff.1 hv
  refine inv_heap hinv h rfl hvm (fun x ws hx => ⟨ws, hx, rfl⟩) (fun q x l hqp => by simp [pend, Ne.symm hqp]) rfl
    ⟨k₀, hk₀, hin, fun x hx => hms x (List.mem_cons_of_mem _ hx)⟩ ?_
  intro k r0 rs hptr hrec hs
  obtain ⟨_, rfl⟩ := hinv.inj _ _ _ _ _ hk₀ hptr
  refine ⟨hs.keys, ?_, .inl ⟨(g.metrics, g.ts), by rw [← hrec]; exact hin, ⟨m, hms m List.mem_cons_self, ?_⟩, rfl⟩⟩
  · intro x cs hx hcs
    obtain ⟨ws, h1, h2, h3⟩ := hs.vals x cs hx hcs
    refine ⟨ws, h1, h2, fun l kc w hk hw => ?_⟩
    obtain ⟨h4, ds, h5, h6⟩ := h3 l kc w hk hw
    refine ⟨h4, ds, h5, ?_⟩
    have h7 := pend_perm h ⟨.record g p ms, r⟩ p x l (X := []) (by
      simp only [pend, if_true, List.nil_append]
      have : ¬ (m.name = x ∧ j ≤ l) := by
        rintro ⟨rfl, hl⟩
        rw [hvs] at h1
        cases h1
        have := (List.getElem?_eq_some_iff.1 hw).1
        omega
      rw [if_neg this]
      exact .refl _)
    rw [List.nil_append] at h7
    exact (List.Perm.append_left _ h7.symm).trans h6
  · refine (known_of_get hs m.name).1 ?_
    rw [hvs]
    rfl

/-! ### Dumps -/

/-- With the mutex held for writing nothing is under way. -/
theorem quiet {kinds : KindMap} {c : Conf} (hinv : Inv kinds c) {i : Nat} {t : Th} (h : c.ths[i]? = some t)
    (hw : t.pc.writes = true) : (∀ p m l, c.pend p m l = []) ∧ (∀ K p, ¬ ∃ t ∈ c.ths, Owes K p t.pc) ∧
      ∀ u ∈ c.ths, u.pc.writes = true ∨ u.pc = .idle := by
  have hu : ∀ u ∈ c.ths, u.pc.writes = true ∨ u.pc = .idle := by
    intro u hu
    obtain ⟨j, hj⟩ := List.mem_iff_getElem?.1 hu
    by_cases hji : j = i
    · subst hji
      rw [h] at hj
      cases hj
      exact .inl hw
    · exact .inr (hinv.lock i t h hw j u hj hji)
  refine ⟨fun p m l => ?_, ?_, hu⟩
  · rw [Conf.pend, List.flatMap_eq_nil_iff]
    intro u hm
    have := hu u hm
    revert this
    cases u.pc <;> simp [Pc.writes, pend]
  · rintro K p ⟨u, hm, ho⟩
    have := hu u hm
    revert this ho
    cases u.pc <;> simp [Pc.writes, Owes]

/-- A dump leaves the invariant. -/
theorem inv_drop {kinds : KindMap} {c c' : Conf} (hinv : Inv kinds c) {i : Nat} {t : Th} (h : c.ths[i]? = some t)
    (hw : t.pc.writes = true) {todo : List Op} (hths : c'.ths = c.ths.set i ⟨.wdone, todo⟩) (hheap : c'.heap = c.heap)
    (hwf : AMap.WF c'.recs) (hwf2 : ∀ q ∈ c'.recs, AMap.WF q.2)
    (D : String → Bool) (hptr : ∀ n k, c'.ptr n k = if D n then none else c.ptr n k)
    (hrec : ∀ n k, c'.recd n k = if D n then [] else c.recd n k) : Inv kinds c' := by
  obtain ⟨q1, q2, q3⟩ := quiet hinv h hw
  have hold : ∀ n k p, c'.ptr n k = some p → c.ptr n k = some p ∧ D n = false := by
    intro n k p hp
    rw [hptr] at hp
    cases hD : D n with
    | true => simp [hD] at hp
    | false => simp only [hD] at hp; exact ⟨hp, rfl⟩
  refine ⟨hwf, hwf2, ?_, ?_, ?_, ?_, ?_, ?_⟩
  · rw [hths]
    exact lock_set h hinv.lock (fun j u hj hji hu => by
      have := hinv.lock i t h hw j u hj hji
      rw [this] at hu
      cases hu) (fun _ j u hj hji => hinv.lock i t h hw j u hj hji)
  · intro n k n' k' p h1 h2
    exact hinv.inj _ _ _ _ p (hold _ _ _ h1).1 (hold _ _ _ h2).1
  · intro n k p h1
    rw [hheap]
    exact hinv.bound _ _ _ (hold _ _ _ h1).1
  · intro n k
    rw [hptr, hrec]
    cases D n with
    | true => simp
    | false => exact hinv.empty n k
  · intro u hu
    rw [hths] at hu
    rcases mem_set_or h hu with rfl | hu
    · trivial
    · have := q3 u hu
      have h0 := hinv.ths u hu
      revert this h0
      cases u.pc with
      | wlocked op => cases op <;> simp [Pc.writes, ThOk]
      | _ => simp [Pc.writes, ThOk]
  · intro n k p r0 rs h1 h2
    obtain ⟨h1, hD⟩ := hold _ _ _ h1
    rw [hrec, hD] at h2
    obtain ⟨vm, hvm, hs⟩ := hinv.series n k p r0 rs h1 h2
    refine ⟨vm, by rw [hheap]; exact hvm, hs.mono (fun x l _ => ?_) (fun ho => (q2 _ _ ho).elim)⟩
    rw [q1 p x l]
    have := pend_perm' h ⟨.wdone, todo⟩ p x l (X := []) (by
      have := q1 p x l
      rw [Conf.pend, List.flatMap_eq_nil_iff] at this
      rw [this t (List.mem_of_getElem? h)]
      exact .nil)
    rw [List.nil_append] at this
    have e : (c.ths.flatMap fun t => pend p x l t.pc) = [] := q1 p x l
    rw [e] at this
    simp only [Conf.pend, hths]
    exact this.symm

theorem inv_dumpAll {kinds : KindMap} {c : Conf} (hinv : Inv kinds c) {i : Nat} {r : List Op}
    (h : c.ths[i]? = some ⟨.wlocked .dump, r⟩) : (c.dumpAll i r).crashed = true ∨ Inv kinds (c.dumpAll i r) := by
  simp only [Conf.dumpAll]
  split
  · exact .inl rfl
  · refine .inr (inv_drop hinv h rfl (todo := r) rfl rfl ?_ ?_ (fun _ => true) ?_ ?_)
    · have := hinv.wf
      simp only [AMap.WF, AMap.keys, List.map_map] at this ⊢
      exact this
    · intro q hq
      obtain ⟨q', _, rfl⟩ := List.mem_map.1 hq
      exact AMap.wf_nil
    · intro n k
      simp only [Conf.ptr, if_true]
      have := get_mapv c.recs (fun _ => ([] : AMap LabelKeys Nat)) n
      rw [this]
      cases AMap.get c.recs n <;> rfl
    · intro n k
      simp only [Conf.recd, List.map_append, List.map_cons, List.map_nil, pending_snoc, Pending.step, if_true]

theorem inv_dumpOne {kinds : KindMap} {c : Conf} (hinv : Inv kinds c) {i : Nat} {n : String} {r : List Op}
    (h : c.ths[i]? = some ⟨.wlocked (.dumpSingle n), r⟩) : (c.dumpOne i n r).crashed = true ∨ Inv kinds (c.dumpOne i n r) := by
  simp only [Conf.dumpOne]
  split
  · exact .inl rfl
  · refine .inr (inv_drop hinv h rfl (todo := r) rfl rfl ?_ ?_ (fun x => decide (x = n)) ?_ ?_)
    · cases hg : AMap.get c.recs n with
      | none => exact hinv.wf
      | some y => exact hinv.wf.set _ _
    · cases hg : AMap.get c.recs n with
      | none => exact hinv.wf2
      | some y =>
        intro q hq
        rcases mem_set hq with rfl | hq
        · exact AMap.wf_nil
        · exact hinv.wf2 q hq
    · intro x k
      simp only [Conf.ptr]
      cases hg : AMap.get c.recs n with
      | none =>
        by_cases hx : x = n
        · subst hx; simp [hg]
        · simp [hx]
      | some y =>
        simp only [AMap.get_set]
        by_cases hx : x = n
        · subst hx; simp
        · simp [hx, Ne.symm hx]
    · intro x k
      simp only [Conf.recd, List.map_append, List.map_cons, List.map_nil, pending_snoc, Pending.step, decide_eq_true_eq]

/-! ### All steps -/

theorem inv_step {kinds : KindMap} {c : Conf} (hc : c.crashed = true ∨ Inv kinds c) (i : Nat) :
    (step kinds c i).crashed = true ∨ Inv kinds (step kinds c i) := by
  simp only [step]
  split
  · rename_i h
    exact .inl h
  rename_i hcr
  have hinv := hc.resolve_left hcr
  have hnw : c.ths.any (·.pc.writes) ≠ true → ∀ (j : Nat) (u : Th), c.ths[j]? = some u → u.pc.writes = true → False := by
    intro h j u hj hu
    exact h (List.any_eq_true.2 ⟨u, List.mem_of_getElem? hj, hu⟩)
  split
  · exact .inr hinv
  · exact .inr hinv
  · rename_i g s r h
    split
    · exact .inr hinv
    · rename_i hn
      exact .inr (inv_at hinv h (fun _ _ _ _ _ _ _ _ _ _ => .refl _) (fun _ _ _ _ _ _ _ => id) trivial
        (fun j u hj _ hu => (hnw hn j u hj hu).elim) (fun hw => by cases hw))
  · rename_i op r hop h
    split
    · exact .inr hinv
    · rename_i hn
      have hall : ∀ (j : Nat) (u : Th), c.ths[j]? = some u → u.pc = .idle := by
        intro j u hj
        have := fun hx => hn (List.any_eq_true.2 ⟨u, List.mem_of_getElem? hj, hx⟩)
        revert this
        cases u.pc <;> simp [Pc.writes, Pc.reads]
      exact .inr (inv_at hinv h (fun _ _ _ _ _ _ _ _ _ _ => .refl _) (fun _ _ _ _ _ _ _ => id) (by
          cases op with
          | aggregate g s => exact hop g s rfl
          | _ => trivial)
        (fun j u hj _ hu => by rw [hall j u hj] at hu; cases hu) (fun _ j u hj _ => hall j u hj))
  · rename_i g s r h
    have hr := nobody_writes hinv h (by simp)
    split
    · rename_i hs
      exact .inr (inv_at hinv h (fun _ _ _ _ _ _ _ _ _ _ => .refl _) (fun _ _ _ _ _ _ _ => id) hs
        (fun j u hj hji hu => (hr j u hj hji hu).elim) (fun hw => by cases hw))
    · exact .inr (inv_at hinv h (fun _ _ _ _ _ _ _ _ _ _ => .refl _) (fun _ _ _ _ _ _ _ => id) trivial
        (fun j u hj hji hu => (hr j u hj hji hu).elim) (fun hw => by cases hw))
  · rename_i g s r h
    have hr := nobody_writes hinv h (by simp)
    split
    · rename_i hs
      exact .inr (inv_at hinv h (fun _ _ _ _ _ _ _ _ _ _ => .refl _) (fun _ _ _ _ _ _ _ => id) hs
        (fun j u hj hji hu => (hr j u hj hji hu).elim) (fun hw => by cases hw))
    · rename_i hs
      exact .inr (inv_recorder hinv h (by cases hg : AMap.get c.recs g.name with
        | none => rfl
        | some x => rw [hg] at hs; exact absurd rfl hs))
  · rename_i g s r h
    have hr := nobody_writes hinv h (by simp)
    split
    · rename_i p hp
      exact .inr (inv_found hinv h (.inl rfl) hp)
    · exact .inr (inv_at hinv h (fun _ _ _ _ _ _ _ _ _ _ => .refl _) (fun _ _ _ _ _ _ _ => id) (hinv.ths _ (List.mem_of_getElem? h))
        (fun j u hj hji hu => (hr j u hj hji hu).elim) (fun hw => by cases hw))
  · rename_i g s r h
    split
    · rename_i p hp
      exact .inr (inv_found hinv h (.inr rfl) hp)
    · rename_i hp
      exact .inr (inv_new hinv h hp)
  · rename_i g p r h
    have hr := nobody_writes hinv h (by simp)
    refine .inr (inv_at hinv h (fun _ _ _ _ _ _ _ _ _ _ => ?_) (fun _ _ _ _ _ _ _ => ?_) trivial
        (fun j u hj hji hu => (hr j u hj hji hu).elim) (fun hw => by cases hw))
    · simp [pend, datasOf]
    · rintro ⟨_, x, hx, _⟩
      cases hx
  · rename_i g p m ms r h
    have hr := nobody_writes hinv h (by simp)
    have hfly : Fly c g p (m :: ms) := hinv.ths _ (List.mem_of_getElem? h)
    have hfly0 := hfly
    obtain ⟨k₀, hk₀, hin, hms⟩ := hfly0
    split
    · rename_i hs
      obtain ⟨vs, hvs⟩ := Option.isSome_iff_exists.1 hs
      obtain ⟨vm, hvm, hvs⟩ := Option.bind_eq_some_iff.1 hvs
      refine .inr (inv_at hinv h (fun _ _ q _ _ _ _ x l _ => ?_) (fun _ _ _ _ _ _ _ => ?_) ⟨hfly, vm, vs, hvm, hvs, Nat.zero_le _⟩
        (fun j u hj hji hu => (hr j u hj hji hu).elim) (fun hw => by cases hw))
      · simp only [pend, Nat.zero_le, and_true]
        split
        · refine .of_eq ?_
          simp only [datasOf, List.filterMap_cons]
          by_cases hx : m.name = x <;> simp [hx]
        · exact .nil
      · rintro ⟨hp, _⟩
        exact hp
    · rename_i hs
      have hun : ∀ k r0 rs, c.ptr g.name k = some p → c.recd g.name k = r0 :: rs → ¬ Known kinds r0 m.name := by
        intro k r0 rs hp hrec hk
        obtain ⟨vm, hvm, hso⟩ := hinv.series _ _ _ _ _ hp hrec
        rw [← known_of_get hso] at hk
        rw [hvm] at hs
        exact hs hk
      have hkk : ∀ n k r0 rs, c.ptr n k = some p → c.recd n k = r0 :: rs → ¬ Known kinds r0 m.name := by
        intro n k r0 rs hp hrec
        obtain ⟨rfl, _⟩ := hinv.inj _ _ _ _ _ hk₀ hp
        exact hun k r0 rs hp hrec
      refine .inr (inv_at hinv h (fun n k q r0 rs hp hrec x l hkn => ?_) (fun n k q r0 rs hp hrec => ?_)
        ⟨k₀, hk₀, hin, fun x hx => hms x (List.mem_cons_of_mem _ hx)⟩
        (fun j u hj hji hu => (hr j u hj hji hu).elim) (fun hw => by cases hw))
      · simp only [pend]
        split
        · rename_i hpq
          subst hpq
          have hx : m.name ≠ x := by
            rintro rfl
            exact hkk n k r0 rs hp hrec hkn
          refine .of_eq ?_
          simp [datasOf, hx]
        · exact .nil
      · rintro ⟨rfl, x, hx, hkx⟩
        rcases List.mem_cons.1 hx with rfl | hx
        · exact (hkk n k r0 rs hp hrec hkx).elim
        · exact ⟨rfl, x, hx, hkx⟩
  · rename_i g p m j ms r h
    split
    · exact .inr hinv
    · rename_i vm hvm
      split
      · exact .inr hinv
      · rename_i vs hvs
        split
        · rename_i hv
          exact .inr (inv_stamp hinv h hvm hvs hv)
        · rename_i v hv
          split
          · exact .inl rfl
          · rename_i v' hv'
            exact .inr (inv_apply hinv h hvm hvs hv hv')
  · rename_i r h
    exact inv_dumpAll hinv h
  · rename_i n r h
    exact inv_dumpOne hinv h
  · exact .inr hinv
  · rename_i r h
    refine .inr (inv_at hinv h (fun _ _ _ _ _ _ _ _ _ _ => .refl _) (fun _ _ _ _ _ _ _ => id) trivial (fun _ _ _ _ _ => rfl)
      (fun hw => by cases hw))

end Kindling.Agg.Conc
