import Verif.Agg.ConcSeq
/-
C104: theorems about goroutines that use the aggregator at once.
-/
namespace Kindling.Agg.Conc
open Kindling Kindling.Agg

/-! ### Trace -/

/-- The calls in the order in which they took effect. -/
def Conf.ops (c : Conf) : List Op := c.log.map (·.2)

/-- The same calls one after the other: they panic if the execution did; else those up to the last dump dump the same. -/
def Tr (kinds : KindMap) (c : Conf) : Prop :=
  (c.crashed = true → run kinds [] c.ops = none) ∧
  (c.crashed = false → ∃ l1 l2 s o, c.ops = l1 ++ l2 ∧ (∀ op ∈ l2, ∃ g sels, op = .aggregate g sels) ∧
    run kinds [] l1 = some (s, o) ∧ OutSim kinds c.outs o)

theorem OutSim.append {kinds : KindMap} {a b a' b' : List Group} (h : OutSim kinds a b) (h' : OutSim kinds a' b') :
    OutSim kinds (a ++ a') (b ++ b') := by
  obtain ⟨l, h1, h2⟩ := h
  obtain ⟨l', h3, h4⟩ := h'
  exact ⟨l ++ l', h1.append h3, h2.append h4⟩

theorem tr_congr {kinds : KindMap} {c c' : Conf} (h : Tr kinds c) (h1 : c'.log = c.log) (h2 : c'.outs = c.outs)
    (h3 : c'.crashed = c.crashed) : Tr kinds c' := by
  simp only [Tr, Conf.ops, h1, h2, h3]
  exact h

theorem tr_found {kinds : KindMap} {c c' : Conf} (h : Tr kinds c) (hc : c.crashed = false) {i : Nat} {g : Group} {sels : List Selector}
    (h1 : c'.log = c.log ++ [(i, .aggregate g sels)]) (h2 : c'.outs = c.outs) (h3 : c'.crashed = c.crashed) : Tr kinds c' := by
  obtain ⟨l1, l2, s, o, h4, h5, h6, h7⟩ := h.2 hc
  refine ⟨fun hx => (by rw [h3, hc] at hx; cases hx), fun _ => ⟨l1, l2 ++ [.aggregate g sels], s, o, ?_, ?_, h6, by rw [h2]; exact h7⟩⟩
  · simp only [Conf.ops] at h4 ⊢
    rw [h1, List.map_append, h4, List.append_assoc]
    rfl
  · intro op hop
    rcases List.mem_append.1 hop with hop | hop
    · exact h5 op hop
    · exact ⟨g, sels, List.mem_singleton.1 hop⟩

/-- A dump, with the mutex held for writing. -/
theorem tr_dump {kinds : KindMap} {c : Conf} (h : Tr kinds c) (hc : c.crashed = false) (hinv : Inv kinds c)
    (hq : ∀ p m l, c.pend p m l = []) (d : State → Option (State × List Group)) (op : Op) (hop : ∀ s, Agg.step kinds s op = d s)
    (hsim : ∀ {a b : State}, WFSt a → WFSt b → Sim kinds a b → ∀ {a' : State} {gs : List Group}, d a = some (a', gs) →
      ∃ b' hs, d b = some (b', hs) ∧ OutSim kinds gs hs) {c' : Conf} {i : Nat} (h1 : c'.log = c.log ++ [(i, op)])
    (h2 : match d c.deref with
      | none => c'.crashed = true
      | some (_, gs) => c'.crashed = false ∧ c'.outs = c.outs ++ gs) : Tr kinds c' := by
  have hops : c'.ops = c.ops ++ [op] := by simp [Conf.ops, h1]
  obtain ⟨l1, l2, s, o, h4, h5, h6, h7⟩ := h.2 hc
  obtain ⟨s', hs'⟩ := run_some h6 l2 h5 (by rw [← h4]; exact quiet_applied hinv hq)
  rw [← h4] at hs'
  have hrep : Rep kinds s' c.recd := run_rep (rep_init kinds) hs'
  have hs := quiet_sim hinv hq hrep
  have hrun : run kinds [] (c.ops ++ [op]) = (d s').map fun q => (q.1, o ++ q.2) := by
    rw [run_append, hs']
    simp only [Option.bind_some, run_one, hop]
  cases hd : d c.deref with
  | none =>
    rw [hd] at h2
    refine ⟨fun _ => ?_, fun hx => by rw [h2] at hx; cases hx⟩
    rw [hops, hrun]
    cases hd' : d s' with
    | none => rfl
    | some q =>
      obtain ⟨b', hs2, h8, _⟩ := hsim hrep.1 (wf_deref hinv) (sim_symm hs) (a' := q.1) (gs := q.2) hd'
      rw [hd] at h8
      cases h8
  | some q =>
    rw [hd] at h2
    obtain ⟨h8, h9⟩ := h2
    obtain ⟨b', hs2, h10, h11⟩ := hsim (wf_deref hinv) hrep.1 hs (a' := q.1) (gs := q.2) hd
    refine ⟨fun hx => (by rw [h8] at hx; cases hx), fun _ => ⟨c'.ops, [], b', o ++ hs2, by simp, by simp, ?_, ?_⟩⟩
    · rw [hops, hrun, h10]
      rfl
    · rw [h9]
      exact h7.append h11

/-- A panic of an accumulator. -/
theorem tr_panic {kinds : KindMap} {c : Conf} (hinv : Inv kinds c) {i : Nat} {g : Group} {p : Nat} {m : Metric} {j : Nat}
    {ms : List Metric} {r : List Op} (h : c.ths[i]? = some ⟨.values g p m j ms, r⟩) {vm : ValuesMap}
    (hvm : c.heap[p]? = some vm) {vs : List AggVal} (hvs : AMap.get vm.values m.name = some vs) {v : AggVal}
    (hv : vs[j]? = some v) (hn : v.apply m.data = none) : run kinds [] c.ops = none := by
  cases hr : run kinds [] c.ops with
  | none => rfl
  | some q =>
    exfalso
    have hrep : Rep kinds q.1 c.recd := run_rep (rep_init kinds) hr
    obtain ⟨⟨k, hk, hin, _⟩, _⟩ := hinv.ths _ (List.mem_of_getElem? h)
    cases hrec : c.recd g.name k with
    | nil => rw [hrec] at hin; cases hin
    | cons r0 rs =>
      have h1 := hrep.2 g.name k
      rw [hrec] at h1
      obtain ⟨vb, _, hrm⟩ := h1
      obtain ⟨va, hva, hs⟩ := hinv.series _ _ _ _ _ hk hrec
      rw [hvm] at hva
      cases hva
      obtain ⟨hm, hkm⟩ := (known_of_get hs m.name).1 (by rw [hvs]; rfl)
      obtain ⟨cs, hcs⟩ := Option.isSome_iff_exists.1 hkm
      obtain ⟨vs', h1, h2, h3⟩ := hs.vals m.name cs hm hcs
      rw [hvs] at h1
      cases h1
      have hj : j < cs.length := by rw [← h2]; exact (List.getElem?_eq_some_iff.1 hv).1
      have hc : cs[j]? = some cs[j] := List.getElem?_eq_getElem hj
      obtain ⟨_, ds, h5, h6⟩ := h3 j _ v hc hv
      have hap : v.acc.apply m.data = none := by
        simp only [AggVal.apply, Option.map_eq_none_iff] at hn
        exact hn
      by_cases hl : cs[j].kind = .last
      · have hi0 : Acc.init cs[j] = .last 0 := by simp [Acc.init, hl]
        rw [hi0, foldApply_last_any] at h5
        rw [← Option.some.inj h5] at hap
        revert hap
        cases m.data <;> simp [Acc.apply, Acc.merge]
      · have hnl : ∀ x, Acc.init cs[j] ≠ .last x := by
          intro x hx
          revert hx hl
          simp only [Acc.init]
          cases cs[j].kind <;> simp
        have h7 := pend_perm h ⟨.idle, []⟩ p m.name j (X := m.data :: datasOf m.name ms) (by simp [pend])
        have h8 : (ds ++ (m.data :: datasOf m.name ms ++
            ((c.ths.set i ⟨.idle, []⟩).flatMap fun t => pend p m.name j t.pc))).Perm (valuesOf m.name (r0 :: rs)) :=
          (List.Perm.append_left ds h7.symm).trans h6
        have h9 := foldApply_perm h8 (Acc.init cs[j]) hnl
        rw [foldApply_append, h5] at h9
        simp only [Option.bind_some, List.cons_append, foldApply, hap] at h9
        have e := recordMany_evolves hrm m.name
        rw [get_newAggValuesMap, if_pos hm, hcs] at e
        obtain ⟨ws', _, h11⟩ := e
        obtain ⟨w, _, _, h12⟩ := All2.mem_left h11 (List.mem_map.2 ⟨cs[j], List.getElem_mem hj, rfl⟩)
        simp only [newAggValue, ← h9] at h12
        cases h12

theorem tr_step {kinds : KindMap} {c : Conf} (hc : c.crashed = true ∨ Inv kinds c) (h : Tr kinds c) (i : Nat) :
    Tr kinds (step kinds c i) := by
  simp only [step]
  split
  · exact h
  rename_i hcr
  have hinv := hc.resolve_left hcr
  have hcf : c.crashed = false := by simpa using hcr
  split
  · exact h
  · exact h
  · split
    · exact h
    · exact tr_congr h rfl rfl rfl
  · split
    · exact h
    · exact tr_congr h rfl rfl rfl
  · split <;> exact tr_congr h rfl rfl rfl
  · split <;> exact tr_congr h rfl rfl rfl
  · split
    · exact tr_found h hcf rfl rfl rfl
    · exact tr_congr h rfl rfl rfl
  · split
    · exact tr_found h hcf rfl rfl rfl
    · exact tr_found h hcf rfl rfl rfl
  · exact tr_congr h rfl rfl rfl
  · split <;> exact tr_congr h rfl rfl rfl
  · rename_i g p m j ms r hth
    split
    · exact h
    · rename_i vm hvm
      split
      · exact h
      · rename_i vs hvs
        split
        · exact tr_congr h rfl rfl rfl
        · rename_i v hv
          split
          · rename_i hn
            exact ⟨fun _ => tr_panic (c := c) hinv hth hvm hvs hv hn, fun hx => by cases hx⟩
          · exact tr_congr h rfl rfl rfl
  · rename_i r hth
    refine tr_dump h hcf hinv (quiet hinv hth rfl).1 dump .dump (fun _ => rfl) dump_sim (i := i) ?_ ?_
    · simp only [Conf.dumpAll]
      split <;> rfl
    · simp only [Conf.dumpAll]
      cases dump c.deref with
      | none => rfl
      | some q => exact ⟨hcf, rfl⟩
  · rename_i n r hth
    refine tr_dump h hcf hinv (quiet hinv hth rfl).1 (fun s => dumpSingle s n) (.dumpSingle n) (fun _ => rfl)
      (fun ha hb hs _ _ hd => dumpSingle_sim ha hb hs hd) (i := i) ?_ ?_
    · simp only [Conf.dumpOne]
      split <;> rfl
    · simp only [Conf.dumpOne]
      cases dumpSingle c.deref n with
      | none => rfl
      | some q => exact ⟨hcf, rfl⟩
  · exact h
  · exact tr_congr h rfl rfl rfl

/-! ### The order of the calls -/

/-- The call of a goroutine that has not taken effect. -/
def inflight : Pc → List Op
  | .rlocked g s | .noRecorder g s | .recorder g s | .noSeries g s => [.aggregate g s]
  | .wlocked op => [op]
  | _ => []

/-- The calls of goroutine `i`. -/
def logOf (log : List (Nat × Op)) (i : Nat) : List Op := (log.filter fun e => e.1 == i).map (·.2)

/-- The calls in the order in which they took effect are the calls of the goroutines, each goroutine's in its order. -/
structure Prog (progs : List (List Op)) (c : Conf) : Prop where
  each : ∀ i : Nat, (c.ths[i]?).map (fun t => logOf c.log i ++ inflight t.pc ++ t.todo) = progs[i]?
  of : ∀ e ∈ c.log, e.1 < progs.length

theorem logOf_snoc (log : List (Nat × Op)) (i j : Nat) (op : Op) :
    logOf (log ++ [(i, op)]) j = logOf log j ++ if i = j then [op] else [] := by
  by_cases h : i = j
  · subst h; simp [logOf]
  · simp [logOf, h]

theorem prog_set {progs : List (List Op)} {c c' : Conf} (h : Prog progs c) {i : Nat} {t t' : Th} (hi : c.ths[i]? = some t)
    (h1 : c'.ths = c.ths.set i t') {op : List Op} (h2 : c'.log = c.log ++ op.map (i, ·))
    (h3 : op ++ inflight t'.pc ++ t'.todo = inflight t.pc ++ t.todo) : Prog progs c' := by
  have hil : i < c.ths.length := (List.getElem?_eq_some_iff.1 hi).1
  have hlog : ∀ j, logOf c'.log j = logOf c.log j ++ if i = j then op else [] := by
    intro j
    rw [h2]
    simp only [logOf, List.filter_append, List.map_append]
    congr 1
    by_cases hij : i = j
    · subst hij
      simp [List.filter_map, Function.comp_def, List.map_map]
    · simp [List.filter_map, Function.comp_def, hij]
  refine ⟨fun j => ?_, fun e he => ?_⟩
  · rw [h1, List.getElem?_set, hlog]
    by_cases hij : i = j
    · subst hij
      rw [if_pos rfl, if_pos hil, if_pos rfl, ← h.each i, hi]
      simp only [Option.map_some, List.append_assoc] at h3 ⊢
      rw [h3]
    · rw [if_neg hij, if_neg hij, List.append_nil]
      exact h.each j
  · rw [h2] at he
    rcases List.mem_append.1 he with he | he
    · exact h.of e he
    · obtain ⟨x, _, rfl⟩ := List.mem_map.1 he
      have := h.each i
      rw [hi] at this
      exact (List.getElem?_eq_some_iff.1 this.symm).1

theorem prog_step {kinds : KindMap} {progs : List (List Op)} {c : Conf} (h : Prog progs c) (i : Nat) :
    Prog progs (step kinds c i) := by
  simp only [step]
  split
  · exact h
  split
  · exact h
  · exact h
  · rename_i hi
    split
    · exact h
    · exact prog_set h hi rfl (op := []) (by simp [Conf.at]) rfl
  · rename_i hi
    split
    · exact h
    · exact prog_set h hi rfl (op := []) (by simp [Conf.at]) rfl
  · rename_i hi
    split <;> exact prog_set h hi rfl (op := []) (by simp [Conf.at]) rfl
  · rename_i hi
    split <;> exact prog_set h hi rfl (op := []) (by simp [Conf.at]) rfl
  · rename_i g s r hi
    split
    · exact prog_set h hi rfl (op := [.aggregate g s]) rfl rfl
    · exact prog_set h hi rfl (op := []) (by simp [Conf.at]) rfl
  · rename_i g s r hi
    split <;> exact prog_set h hi rfl (op := [.aggregate g s]) rfl rfl
  · rename_i hi
    exact prog_set h hi rfl (op := []) (by simp [Conf.at]) rfl
  · rename_i hi
    split <;> exact prog_set h hi rfl (op := []) (by simp [Conf.at]) rfl
  · rename_i hi
    split
    · exact h
    · split
      · exact h
      · split
        · exact prog_set h hi rfl (op := []) (by simp [Conf.at]) rfl
        · split
          · exact ⟨h.each, h.of⟩
          · exact prog_set h hi rfl (op := []) (by simp [Conf.at]) rfl
  · rename_i r hi
    simp only [Conf.dumpAll]
    split <;> exact prog_set h hi rfl (op := [.dump]) rfl rfl
  · rename_i n r hi
    simp only [Conf.dumpOne]
    split <;> exact prog_set h hi rfl (op := [.dumpSingle n]) rfl rfl
  · exact h
  · rename_i hi
    exact prog_set h hi rfl (op := []) (by simp [Conf.at]) rfl

/-! ### All executions -/

theorem inv_begin (kinds : KindMap) (progs : List (List Op)) : Inv kinds (begin progs) where
  wf := AMap.wf_nil
  wf2 := fun q hq => by cases hq
  lock := by
    intro i t h hw
    simp only [begin, List.getElem?_map, Option.map_eq_some_iff] at h
    obtain ⟨_, _, rfl⟩ := h
    cases hw
  inj := by intro n k n' k' p h; cases h
  bound := by intro n k p h; cases h
  empty := fun n k => by simp [Conf.ptr, begin, Conf.recd, pending]
  ths := by
    intro t ht
    obtain ⟨_, _, rfl⟩ := List.mem_map.1 ht
    trivial
  series := by intro n k p r0 rs h; cases h

theorem tr_begin (kinds : KindMap) (progs : List (List Op)) : Tr kinds (begin progs) :=
  ⟨fun h => (by cases h), fun _ => ⟨[], [], [], [], rfl, by simp, rfl, [], .refl _, .nil⟩⟩

theorem prog_begin (progs : List (List Op)) : Prog progs (begin progs) :=
  ⟨fun i => by
    simp only [begin, List.getElem?_map, Option.map_map, Function.comp_def, inflight, logOf, List.filter_nil,
      List.map_nil, List.nil_append]
    cases progs[i]? <;> rfl, fun e he => by cases he⟩

theorem all_exec (kinds : KindMap) (progs : List (List Op)) (is : List Nat) :
    ((exec kinds (begin progs) is).crashed = true ∨ Inv kinds (exec kinds (begin progs) is)) ∧
      Tr kinds (exec kinds (begin progs) is) ∧ Prog progs (exec kinds (begin progs) is) := by
  induction is using snoc_ind with
  | nil => exact ⟨.inr (inv_begin kinds progs), tr_begin kinds progs, prog_begin progs⟩
  | snoc is i ih =>
    have : exec kinds (begin progs) (is ++ [i]) = step kinds (exec kinds (begin progs) is) i := by
      simp [exec, List.foldl_append]
    rw [this]
    exact ⟨inv_step ih.1 i, tr_step ih.1 ih.2.1 i, prog_step ih.2.2 i⟩

/-! ## C104 Several goroutines at once -/

/-- Every goroutine has made all its calls. -/
def Conf.through (c : Conf) : Prop := ∀ t ∈ c.ths, t.pc = .idle ∧ t.todo = []

/-- C104.  However goroutines that use the aggregator at once interleave, the order in which their calls took effect has the
calls of every goroutine in its order: those that took effect, then the one under way that has not, then those to come. -/
theorem calls_in_program_order (kinds : KindMap) (progs : List (List Op)) (is : List Nat) (i : Nat) {t : Th}
    (ht : (exec kinds (begin progs) is).ths[i]? = some t) :
    progs[i]? = some (logOf (exec kinds (begin progs) is).log i ++ inflight t.pc ++ t.todo) ∧
      ∀ e ∈ (exec kinds (begin progs) is).log, e.1 < progs.length := by
  have h := (all_exec kinds progs is).2.2
  have := h.each i
  rw [ht] at this
  exact ⟨this.symm, h.of⟩

/-- C104.  However goroutines interleave, there is one order of their calls (`calls_in_program_order`) such that the calls, made
one after the other, dump the same groups up to their order, and panic if the goroutines did: no record is lost, none is
counted twice, every dump has all records that took effect before it and none after.  (Missing: the time of a group and the
values of outputs of kind `last`, see `concurrent_records_tear`.) -/
theorem concurrent_calls_have_an_order_partial (kinds : KindMap) (progs : List (List Op)) (is : List Nat) :
    let c := exec kinds (begin progs) is
    (c.crashed = true → run kinds [] c.ops = none) ∧
    (c.crashed = false → ∃ l1 l2 s o, c.ops = l1 ++ l2 ∧ (∀ op ∈ l2, ∃ g sels, op = .aggregate g sels) ∧
      run kinds [] l1 = some (s, o) ∧ OutSim kinds c.outs o) :=
  (all_exec kinds progs is).2.1

theorem flatMap_pend_idle {ths : List Th} (h : ∀ t ∈ ths, t.pc = .idle) (p : Nat) (m : String) (l : Nat) :
    (ths.flatMap fun t => pend p m l t.pc) = [] := by
  rw [List.flatMap_eq_nil_iff]
  intro t ht
  rw [h t ht]
  rfl

/-- C104, when all goroutines are through. -/
theorem finished_calls_have_an_order_partial (kinds : KindMap) (progs : List (List Op)) (is : List Nat)
    (hc : (exec kinds (begin progs) is).crashed = false) (hd : (exec kinds (begin progs) is).through) :
    (∀ i, i < progs.length → progs[i]? = some (logOf (exec kinds (begin progs) is).log i)) ∧
    ∃ s o, run kinds [] (exec kinds (begin progs) is).ops = some (s, o) ∧ OutSim kinds (exec kinds (begin progs) is).outs o := by
  obtain ⟨h1, h2, h3⟩ := all_exec kinds progs is
  generalize exec kinds (begin progs) is = c at *
  constructor
  · intro i hi
    have := h3.each i
    cases ht : c.ths[i]? with
    | none => rw [ht] at this; rw [List.getElem?_eq_getElem hi] at this; cases this
    | some t =>
      rw [ht] at this
      obtain ⟨h4, h5⟩ := hd t (List.mem_of_getElem? ht)
      simp only [Option.map_some, h4, h5, inflight, List.append_nil] at this
      exact this.symm
  · have hinv := h1.resolve_left (by rw [hc]; simp)
    have hq : ∀ p m l, c.pend p m l = [] := flatMap_pend_idle fun t ht => (hd t ht).1
    obtain ⟨l1, l2, s, o, h4, h5, h6, h7⟩ := h2.2 hc
    obtain ⟨s', hs'⟩ := run_some h6 l2 h5 (by rw [← h4]; exact quiet_applied hinv hq)
    exact ⟨s', o, by rw [h4]; exact hs', h7⟩

/-- Non-vacuity: two goroutines record the same new series at once, each seeing that it is not there; one of them dumps.  The
values of both are in the dump. -/
example :
    let kinds : KindMap := fun n => if n = "m" then some [⟨"m_sum", .sum, []⟩, ⟨"m_max", .max, []⟩] else none
    let g (v : Int) : Group := ⟨"net", [], 7, [⟨"m", .int v⟩]⟩
    let c := exec kinds (begin [[.aggregate (g 3) [], .dump], [.aggregate (g 8) []]])
      [0, 1, 0, 1, 0, 1, 0, 1, 0, 1, 0, 1, 1, 0, 0, 1, 1, 1, 0, 0, 0, 0, 0, 0]
    c.crashed = false ∧ c.ths.all (fun t => t.todo.isEmpty && !(t.pc.reads || t.pc.writes)) ∧
      c.outs = [⟨"net", [], 7, [⟨"m_sum", .int 11⟩, ⟨"m_max", .int 8⟩]⟩] := by
  decide

/-! ### Sums and counts -/

/-- The calls of all goroutines, in some order. -/
theorem interleave_perm {log : List (Nat × Op)} : ∀ {progs : List (List Op)}, (∀ i, i < progs.length → progs[i]? = some (logOf log i)) →
    (∀ e ∈ log, e.1 < progs.length) → (log.map (·.2)).Perm progs.flatten := by
  induction log with
  | nil =>
    intro progs h _
    have : progs.flatten = [] := by
      rw [List.flatten_eq_nil_iff]
      intro l hl
      obtain ⟨i, hi⟩ := List.mem_iff_getElem?.1 hl
      have := h i (List.getElem?_eq_some_iff.1 hi).1
      rw [hi] at this
      exact Option.some.inj this
    rw [this]
    exact .nil
  | cons e r ih =>
    intro progs h hof
    obtain ⟨i, op⟩ := e
    have hi : i < progs.length := hof _ List.mem_cons_self
    have h0 := h i hi
    have hl : ∀ j, logOf ((i, op) :: r) j = (if i = j then [op] else []) ++ logOf r j := by
      intro j
      by_cases hij : i = j
      · subst hij; simp [logOf]
      · simp [logOf, hij]
    rw [hl, if_pos rfl] at h0
    obtain ⟨a, b, h1, h2⟩ := set_split h0 (logOf r i)
    have := ih (progs := progs.set i (logOf r i)) (by
      intro j hj
      rw [List.length_set] at hj
      rw [List.getElem?_set]
      by_cases hij : i = j
      · subst hij
        rw [if_pos rfl, if_pos hi]
      · rw [if_neg hij, h j hj, hl, if_neg hij, List.nil_append]) (by
      intro e he
      rw [List.length_set]
      exact hof e (List.mem_cons_of_mem _ he))
    rw [h2] at this
    rw [h1, List.map_cons]
    simp only [List.flatten_append, List.flatten_cons, List.singleton_append, List.cons_append] at this ⊢
    exact (List.Perm.cons op this).trans List.perm_middle.symm

theorem recordedTotal_append (f : MData → Int) (n m : String) (l l' : List Op) :
    recordedTotal f n m (l ++ l') = recordedTotal f n m l + recordedTotal f n m l' := by
  induction l with
  | nil => simp [recordedTotal]
  | cons x r ih => cases x <;> simp [recordedTotal, ih, Int.add_assoc]

theorem recordedTotal_perm (f : MData → Int) (n m : String) {l l' : List Op} (h : l.Perm l') :
    recordedTotal f n m l = recordedTotal f n m l' := by
  induction h with
  | nil => rfl
  | cons x _ ih => cases x <;> simp [recordedTotal, ih]
  | swap x y l => cases x <;> cases y <;> simp [recordedTotal] <;> omega
  | trans _ _ ih1 ih2 => exact ih1.trans ih2

theorem observedTotal_perm (n o : String) {l l' : List Group} (h : l.Perm l') : observedTotal n o l = observedTotal n o l' := by
  induction h with
  | nil => rfl
  | cons x _ ih => simp [observedTotal, ih]
  | swap x y l => simp only [observedTotal]; omega
  | trans _ _ ih1 ih2 => exact ih1.trans ih2

theorem observedTotal_sim {kinds : KindMap} (n : String) {o : String} (ho : ¬ LastOut kinds o) {gs hs : List Group} (h : OutSim kinds gs hs) :
    observedTotal n o gs = observedTotal n o hs := by
  obtain ⟨l, hp, hl⟩ := h
  rw [← observedTotal_perm n o hp]
  clear hp
  induction hl with
  | nil => rfl
  | @cons a b as bs hg _ ih =>
    obtain ⟨h1, _, h3⟩ := hg
    simp only [observedTotal, ih, h1]
    have : ∀ (f : MData → Int), metricsTotal f o a.metrics = metricsTotal f o b.metrics := by
      intro f
      clear ih
      generalize a.metrics = x at h3
      generalize b.metrics = y at h3
      induction h3 with
      | nil => rfl
      | @cons u v us vs hx _ ih2 =>
        simp only [metricsTotal, ih2, hx.1]
        congr 1
        by_cases hv : v.name = o
        · rcases hx.2 with hd | hd
          · rw [hd]
          · rw [hx.1, hv] at hd
            exact absurd hd ho
        · rw [if_neg hv, if_neg hv]
    rw [this]

theorem not_last_of_output {kinds : KindMap} {m o : String} {k : Kind} (hc : OutputOf kinds m o k) (hk : k ≠ .last) :
    ¬ LastOut kinds o := by
  rintro ⟨m', cs, h1, c, h2, h3, h4⟩
  by_cases hm : m' = m
  · subst hm
    obtain ⟨cs', c', h5, h6, h7⟩ := hc.conf
    rw [h1] at h5
    cases h5
    have : c ∈ cs.filter (fun c => c.outputName = o) := List.mem_filter.2 ⟨h2, by simpa using h3⟩
    rw [h6, List.mem_singleton] at this
    subst this
    exact hk (h7.symm.trans h4)
  · exact hc.others m' cs hm h1 c h2 h3

theorem conserved_aux {kinds : KindMap} {name m o : String} {k : Kind} (hc : OutputOf kinds m o k) (hk : k = .sum ∨ k = .count)
    (progs : List (List Op)) (is : List Nat)
    (hm : ∀ p ∈ progs, ∀ g sels, Op.aggregate g sels ∈ p → g.name = name → m ∈ g.metrics.map (·.name))
    (hcr : (exec kinds (begin progs) is).crashed = false) (hd : (exec kinds (begin progs) is).through)
    (hl : ∃ l, (exec kinds (begin progs) is).ops = l ++ [.dump]) :
    observedTotal name o (exec kinds (begin progs) is).outs = recordedTotal (kindContrib k) name m progs.flatten := by
  obtain ⟨h1, s, out, h2, h3⟩ := finished_calls_have_an_order_partial kinds progs is hcr hd
  have hof := (all_exec kinds progs is).2.2.of
  have hperm := interleave_perm h1 hof
  obtain ⟨l, hl⟩ := hl
  rw [hl] at h2
  have hmem : ∀ op, op ∈ l → ∃ p ∈ progs, op ∈ p := by
    intro op hop
    have : op ∈ (exec kinds (begin progs) is).ops := by rw [hl]; simp [hop]
    exact List.mem_flatten.1 ((hperm.mem_iff (a := op)).1 this)
  have key := sum_conserved_partial.run_total_aux hc hk l (fun g sels hg hn => by
    obtain ⟨p, hp, hgp⟩ := hmem _ hg
    exact hm p hp g sels hgp hn) h2
  rw [observedTotal_sim name (not_last_of_output hc (by rcases hk with rfl | rfl <;> simp)) h3, key]
  rw [← recordedTotal_perm _ name m hperm]
  have : (exec kinds (begin progs) is).log.map (·.2) = l ++ [.dump] := hl
  rw [this, recordedTotal_append]
  simp [recordedTotal]

/-- C104 / C01 (`sum`), for goroutines that use the aggregator at once: when they are through and a dump came last, the values of
a `sum` output over all dumps of all goroutines add up to what all of them recorded.  (Missing: records that lack the metric,
as in `sum_conserved_partial`.) -/
theorem concurrent_sum_conserved_partial {kinds : KindMap} {name m o : String} (hc : OutputOf kinds m o .sum)
    (progs : List (List Op)) (is : List Nat)
    (hm : ∀ p ∈ progs, ∀ g sels, Op.aggregate g sels ∈ p → g.name = name → m ∈ g.metrics.map (·.name))
    (hcr : (exec kinds (begin progs) is).crashed = false) (hd : (exec kinds (begin progs) is).through)
    (hl : ∃ l, (exec kinds (begin progs) is).ops = l ++ [.dump]) :
    observedTotal name o (exec kinds (begin progs) is).outs = recordedTotal sumContrib name m progs.flatten :=
  conserved_aux hc (.inl rfl) progs is hm hcr hd hl

/-- C104 / C01 (`count`): the same for the number of recorded values. -/
theorem concurrent_count_conserved_partial {kinds : KindMap} {name m o : String} (hc : OutputOf kinds m o .count)
    (progs : List (List Op)) (is : List Nat)
    (hm : ∀ p ∈ progs, ∀ g sels, Op.aggregate g sels ∈ p → g.name = name → m ∈ g.metrics.map (·.name))
    (hcr : (exec kinds (begin progs) is).crashed = false) (hd : (exec kinds (begin progs) is).through)
    (hl : ∃ l, (exec kinds (begin progs) is).ops = l ++ [.dump]) :
    observedTotal name o (exec kinds (begin progs) is).outs = recordedTotal countContrib name m progs.flatten :=
  conserved_aux hc (.inr rfl) progs is hm hcr hd hl

/-- Non-vacuity: two goroutines, three records, two dumps; one dump falls between the records of the other goroutine. -/
example :
    let kinds : KindMap := fun n => if n = "m" then some [⟨"m_sum", .sum, []⟩] else none
    let g (v : Int) : Group := ⟨"net", [], 7, [⟨"m", .int v⟩]⟩
    let progs : List (List Op) := [[.aggregate (g 3) [], .aggregate (g 5) [], .dump], [.dump, .aggregate (g 8) []]]
    let is := List.replicate 9 0 ++ List.replicate 3 1 ++ [0, 1, 0, 1, 0, 1, 0, 1, 0, 1, 0, 1, 0, 1, 0, 1, 0, 1] ++ List.replicate 9 0
    OutputOf kinds "m" "m_sum" .sum ∧ (exec kinds (begin progs) is).crashed = false ∧
      (exec kinds (begin progs) is).ths.all (fun t => t.todo.isEmpty && !(t.pc.reads || t.pc.writes)) ∧
      ((exec kinds (begin progs) is).log.map (·.1) = [0, 1, 0, 1, 0]) ∧
      observedTotal "net" "m_sum" (exec kinds (begin progs) is).outs = 16 ∧
      (exec kinds (begin progs) is).outs.map (fun g => g.metrics) = [[⟨"m_sum", .int 3⟩], [⟨"m_sum", .int 13⟩]] := by
  refine ⟨⟨⟨_, _, by simp; rfl, by simp; rfl, rfl⟩, ?_⟩, by decide, by decide, by decide, by decide, by decide⟩
  intro m' cs hm h
  simp [hm] at h

/-- C104: goroutines that record integers never panic, however they interleave. -/
theorem concurrent_ints_never_panic (kinds : KindMap) (progs : List (List Op)) (is : List Nat)
    (hint : ∀ p ∈ progs, ∀ g sels, Op.aggregate g sels ∈ p → ∀ x ∈ g.metrics, ∃ v, x.data = .int v) :
    (exec kinds (begin progs) is).crashed = false := by
  obtain ⟨_, h2, h3⟩ := all_exec kinds progs is
  generalize exec kinds (begin progs) is = c at *
  cases hc : c.crashed with
  | false => rfl
  | true =>
    have := h2.1 hc
    have hs := int_history_never_panics (kinds := kinds) c.ops (by
      intro g sels hg
      obtain ⟨⟨i, op⟩, he, rfl⟩ := List.mem_map.1 hg
      have hi := h3.of _ he
      have hp := h3.each i
      rw [List.getElem?_eq_getElem hi] at hp
      cases ht : c.ths[i]? with
      | none => rw [ht] at hp; cases hp
      | some t =>
        rw [ht] at hp
        refine hint progs[i] (List.getElem_mem hi) g sels ?_
        rw [← Option.some.inj hp]
        refine List.mem_append_left _ (List.mem_append_left _ ?_)
        exact List.mem_map.2 ⟨(i, .aggregate g sels), List.mem_filter.2 ⟨he, by simp⟩, rfl⟩)
    rw [this] at hs
    cases hs

/-! ### Times and values of kind `last` -/

/-- A record of a series. -/
def Recorded (ops : List Op) (n : String) (k : LabelKeys) (h : Group) : Prop :=
  ∃ sels, Op.aggregate h sels ∈ ops ∧ h.name = n ∧ getLabelKeys sels h.labels = k

/-- Specification: nothing comes from nowhere.  A group that has metrics has the time of a record of its series; every metric is
a configured output, and the value of one of kind `last` is zero or was recorded for the series. -/
def Sourced (kinds : KindMap) (ops : List Op) (g : Group) : Prop :=
  ∃ k, g.labels = getLabels k ∧ (g.metrics ≠ [] → ∃ h, Recorded ops g.name k h ∧ h.ts = g.ts) ∧
    ∀ x ∈ g.metrics, ∃ m cs c, kinds m = some cs ∧ c ∈ cs ∧ c.outputName = x.name ∧
      (c.kind = .last → x.data = .int 0 ∨ ∃ h y, Recorded ops g.name k h ∧ y ∈ h.metrics ∧ y.name = m ∧ y.data = x.data)

theorem pending_recorded (ops : List Op) : ∀ {n : String} {k : LabelKeys} {r : List Metric × Nat}, r ∈ pending ops n k →
    ∃ h, Recorded ops n k h ∧ h.metrics = r.1 ∧ h.ts = r.2 := by
  induction ops using snoc_ind with
  | nil => intro n k r hr; simp [pending] at hr
  | snoc t op ih =>
    intro n k r hr
    have old : r ∈ pending t n k → ∃ h, Recorded (t ++ [op]) n k h ∧ h.metrics = r.1 ∧ h.ts = r.2 := by
      intro hx
      obtain ⟨h, ⟨sels, h1, h2⟩, h3⟩ := ih hx
      exact ⟨h, ⟨sels, by simp [h1], h2⟩, h3⟩
    rw [pending_snoc] at hr
    cases op with
    | aggregate g sels =>
      simp only [Pending.step] at hr
      split at hr
      · rename_i hnk
        rcases List.mem_append.1 hr with hr | hr
        · exact old hr
        · rw [List.mem_singleton] at hr
          subst hr
          exact ⟨g, ⟨sels, by simp, hnk.1.symm, hnk.2.symm⟩, rfl, rfl⟩
      · exact old hr
    | dump => cases hr
    | dumpSingle x =>
      simp only [Pending.step] at hr
      split at hr
      · cases hr
      · exact old hr

theorem group_sourced {kinds : KindMap} {c : Conf} (hinv : Inv kinds c) (hq : ∀ p m l, c.pend p m l = [])
    (ho : ∀ K p, ¬ ∃ t ∈ c.ths, Owes K p t.pc) {e : (String × LabelKeys) × ValuesMap} (he : lookup c.deref e.1.1 e.1.2 = some e.2)
    {g : Group} (hg : groupOf e = some g) : Sourced kinds c.ops g := by
  obtain ⟨⟨n, k⟩, vm⟩ := e
  simp only [lookup_deref] at he
  simp only [groupOf, Option.map_eq_some_iff] at hg
  obtain ⟨ms, hms, rfl⟩ := hg
  cases hp : c.ptr n k with
  | none => rw [hp] at he; cases he
  | some p =>
    rw [hp] at he
    cases hrec : c.recd n k with
    | nil => rw [(hinv.empty n k).2 hrec] at hp; cases hp
    | cons r0 rs =>
      obtain ⟨va, hva, hs⟩ := hinv.series n k p r0 rs hp hrec
      simp only [Option.map_some, hva, Option.getD_some, Option.some.injEq] at he
      subst he
      have hrd : ∀ r ∈ r0 :: rs, ∃ h, Recorded c.ops n k h ∧ h.metrics = r.1 ∧ h.ts = r.2 := by
        intro r hr
        rw [← hrec] at hr
        exact pending_recorded c.ops hr
      have hwa : AMap.WF va.values := by
        rw [AMap.WF, hs.keys]
        exact wf_new kinds r0.1
      simp only [ValuesMap.getAll, Option.map_eq_some_iff] at hms
      obtain ⟨ll, hll, rfl⟩ := hms
      have hin : ∀ x ∈ ll.flatten, ∃ m vs v, AMap.get va.values m = some vs ∧ v ∈ vs ∧ v.get = some x := by
        intro x hx
        obtain ⟨l, hl, hxl⟩ := List.mem_flatten.1 hx
        obtain ⟨⟨m, vs⟩, hmv, hl2⟩ := (mapOpt_mem hll).1 hl
        obtain ⟨v, hv, hvx⟩ := (mapOpt_mem hl2).1 hxl
        exact ⟨m, vs, v, AMap.get_of_mem hwa hmv, hv, hvx⟩
      refine ⟨k, rfl, ?_, ?_⟩
      · intro hne
        obtain ⟨x, hx⟩ := List.exists_mem_of_ne_nil _ hne
        obtain ⟨m, vs, v, h1, _, _⟩ := hin x hx
        have hkn := (known_of_get hs m).1 (by rw [h1]; rfl)
        rcases hs.stamp with ⟨r, hr, _, ht⟩ | ⟨_, hb⟩
        · obtain ⟨h, h2, _, h4⟩ := hrd r hr
          exact ⟨h, h2, h4.trans ht.symm⟩
        · obtain ⟨y, hy, hym⟩ := List.mem_map.1 hkn.1
          exact (ho _ _ (hb ⟨r0, List.mem_cons_self, y, hy, by rw [hym]; exact hkn⟩)).elim
      · intro x hx
        obtain ⟨m, vs, v, h1, h2, h3⟩ := hin x hx
        obtain ⟨hm, hkm⟩ := (known_of_get hs m).1 (by rw [h1]; rfl)
        obtain ⟨cs, hcs⟩ := Option.isSome_iff_exists.1 hkm
        obtain ⟨vs', h4, h5, h6⟩ := hs.vals m cs hm hcs
        rw [h1] at h4
        cases h4
        obtain ⟨j, hj⟩ := List.mem_iff_getElem?.1 h2
        have hjl : j < cs.length := by rw [← h5]; exact (List.getElem?_eq_some_iff.1 hj).1
        obtain ⟨h7, ds, h8, h9⟩ := h6 j cs[j] v (List.getElem?_eq_getElem hjl) hj
        rw [hq, List.append_nil] at h9
        simp only [AggVal.get, Option.map_eq_some_iff] at h3
        obtain ⟨d, hd, rfl⟩ := h3
        refine ⟨m, cs, cs[j], hcs, List.getElem_mem hjl, h7.symm, fun hl => ?_⟩
        have hi0 : Acc.init cs[j] = .last 0 := by simp [Acc.init, hl]
        rw [hi0, foldApply_last_any] at h8
        rw [← Option.some.inj h8] at hd
        simp only [Acc.get, Option.some.injEq] at hd
        cases hlast : (ds.filterMap asInt).getLast? with
        | none => rw [hlast] at hd; exact .inl hd.symm
        | some y =>
          rw [hlast] at hd
          right
          have hy := List.mem_of_getLast? hlast
          obtain ⟨z, hz, hzy⟩ := List.mem_filterMap.1 hy
          have hzi : z = .int y := by
            cases z <;> simp only [asInt, Option.some.injEq] at hzy
            · rw [hzy]
            · cases hzy
            · cases hzy
          subst hzi
          have hzv := (h9.mem_iff (a := .int y)).1 hz
          simp only [valuesOf] at hzv
          obtain ⟨w, hw, hwz⟩ := List.mem_filterMap.1 hzv
          obtain ⟨r, hr, hwr⟩ := List.mem_flatMap.1 hw
          split at hwz
          · rename_i hwn
            obtain ⟨h, h10, h11, _⟩ := hrd r hr
            exact ⟨h, w, h10, by rw [h11]; exact hwr, hwn, (Option.some.inj hwz).trans hd⟩
          · cases hwz

theorem sourced_mono {kinds : KindMap} {ops ops' : List Op} (hs : ∀ op ∈ ops, op ∈ ops') {g : Group} (h : Sourced kinds ops g) :
    Sourced kinds ops' g := by
  have hr : ∀ {n k h}, Recorded ops n k h → Recorded ops' n k h := fun ⟨s, h1, h2⟩ => ⟨s, hs _ h1, h2⟩
  obtain ⟨k, h1, h2, h3⟩ := h
  refine ⟨k, h1, fun hn => ?_, fun x hx => ?_⟩
  · obtain ⟨h, h4, h5⟩ := h2 hn
    exact ⟨h, hr h4, h5⟩
  · obtain ⟨m, cs, c, h4, h5, h6, h7⟩ := h3 x hx
    refine ⟨m, cs, c, h4, h5, h6, fun hl => (h7 hl).imp id ?_⟩
    rintro ⟨h, y, h8, h9⟩
    exact ⟨h, y, hr h8, h9⟩

theorem sourced_step {kinds : KindMap} {c : Conf} (hc : c.crashed = true ∨ Inv kinds c) (h : ∀ g ∈ c.outs, Sourced kinds c.ops g)
    (i : Nat) : ∀ g ∈ (step kinds c i).outs, Sourced kinds (step kinds c i).ops g := by
  have hsame : ∀ c' : Conf, c'.outs = c.outs → (∃ l, c'.log = c.log ++ l) → ∀ g ∈ c'.outs, Sourced kinds c'.ops g := by
    intro c' h1 h2 g hg
    obtain ⟨l, h2⟩ := h2
    rw [h1] at hg
    refine sourced_mono ?_ (h g hg)
    intro op hop
    simp only [Conf.ops, h2, List.map_append]
    exact List.mem_append_left _ hop
  have hnil : ∃ l, c.log = c.log ++ l := ⟨[], by simp⟩
  simp only [step]
  split
  · exact h
  rename_i hcr
  have hinv := hc.resolve_left hcr
  have hdump : ∀ (c' : Conf) (gs : List Group), (∀ g ∈ gs, Sourced kinds c.ops g) → c'.outs = c.outs ++ gs →
      (∃ l, c'.log = c.log ++ l) → ∀ g ∈ c'.outs, Sourced kinds c'.ops g := by
    intro c' gs h0 h1 h2 g hg
    obtain ⟨l, h2⟩ := h2
    rw [h1] at hg
    refine sourced_mono (ops := c.ops) ?_ ?_
    · intro op hop
      simp only [Conf.ops, h2, List.map_append]
      exact List.mem_append_left _ hop
    · rcases List.mem_append.1 hg with hg | hg
      · exact h g hg
      · exact h0 g hg
  split
  · exact h
  · exact h
  · split
    · exact h
    · exact hsame _ rfl hnil
  · split
    · exact h
    · exact hsame _ rfl hnil
  · split <;> exact hsame _ rfl hnil
  · split <;> exact hsame _ rfl hnil
  · split
    · exact hsame _ rfl ⟨_, rfl⟩
    · exact hsame _ rfl hnil
  · split <;> exact hsame _ rfl ⟨_, rfl⟩
  · exact hsame _ rfl hnil
  · split <;> exact hsame _ rfl hnil
  · split
    · exact h
    · split
      · exact h
      · split
        · exact hsame _ rfl hnil
        · split <;> exact hsame _ rfl hnil
  · rename_i r hth
    obtain ⟨q1, q2, _⟩ := quiet hinv hth rfl
    simp only [Conf.dumpAll]
    split
    · exact hsame _ rfl ⟨_, rfl⟩
    · rename_i st' gs hd
      refine hdump _ gs ?_ rfl ⟨_, rfl⟩
      intro g hg
      have hx : mapOpt groupOf (seriesOf c.deref) = some gs := by rw [← dump_series, hd]; rfl
      obtain ⟨e, he, hge⟩ := (mapOpt_mem hx).1 hg
      exact group_sourced hinv q1 q2 ((mem_seriesOf (wf_deref hinv) e).1 he) hge
  · rename_i n r hth
    obtain ⟨q1, q2, _⟩ := quiet hinv hth rfl
    simp only [Conf.dumpOne]
    split
    · exact hsame _ rfl ⟨_, rfl⟩
    · rename_i st' gs hd
      refine hdump _ gs ?_ rfl ⟨_, rfl⟩
      intro g hg
      have hx : mapOpt groupOf (((AMap.get c.deref n).getD []).map fun q => ((n, q.1), q.2)) = some gs := by
        rw [← dumpSingle_series, hd]; rfl
      obtain ⟨e, he, hge⟩ := (mapOpt_mem hx).1 hg
      refine group_sourced hinv q1 q2 ?_ hge
      obtain ⟨q, hq, rfl⟩ := List.mem_map.1 he
      simp only [lookup]
      cases hget : AMap.get c.deref n with
      | none => rw [hget] at hq; cases hq
      | some r =>
        rw [hget] at hq
        exact AMap.get_of_mem ((wf_deref hinv).2 _ (AMap.mem_of_get hget)) hq
  · exact h
  · exact hsame _ rfl hnil

/-- C104: whatever goroutines do at once, every dumped group with metrics has the time of one record of its series, and the value
of an output of kind `last` is zero or was recorded for the series. -/
theorem dumped_groups_have_sources (kinds : KindMap) (progs : List (List Op)) (is : List Nat) :
    ∀ g ∈ (exec kinds (begin progs) is).outs, Sourced kinds (exec kinds (begin progs) is).ops g := by
  induction is using snoc_ind with
  | nil => intro g hg; cases hg
  | snoc is i ih =>
    have : exec kinds (begin progs) (is ++ [i]) = step kinds (exec kinds (begin progs) is) i := by
      simp [exec, List.foldl_append]
    rw [this]
    exact sourced_step (all_exec kinds progs is).1 ih i

/-! ### Torn records -/

/-- C104, the other side: the time of a series is stored by itself after its accumulators (agg_values.go:116), so two
goroutines that record the same series at once can leave the value of one with the time of the other; made one after the
other, in any order their goroutines allow, the calls never dump such a group. -/
theorem concurrent_records_tear (v1 v2 : Int) (t1 t2 : Nat) :
    let kinds : KindMap := fun n => if n = "m" then some [⟨"m", .last, []⟩] else none
    let a : Op := .aggregate ⟨"net", [], t1, [⟨"m", .int v1⟩]⟩ []
    let b : Op := .aggregate ⟨"net", [], t2, [⟨"m", .int v2⟩]⟩ []
    (∃ is, (exec kinds (begin [[a], [b, .dump]]) is).outs = [⟨"net", [], t1, [⟨"m", .int v2⟩]⟩] ∧
      (exec kinds (begin [[a], [b, .dump]]) is).through) ∧
    (v1 ≠ v2 → t1 ≠ t2 → ∀ ops ∈ [[a, b, .dump], [b, a, .dump], [b, .dump, a]], ∀ s o, run kinds [] ops = some (s, o) →
      ⟨"net", [], t1, [⟨"m", .int v2⟩]⟩ ∉ o) := by
  intro kinds a b
  have hk : getLabels (getLabelKeys [] []) = [] := by decide
  have hx : ∃ r h l, exec kinds (begin [[a], [b, .dump]]) [0, 0, 0, 0, 0, 0, 0, 1, 1, 1, 1, 1, 1, 1, 0, 0, 1, 1, 1] =
      ⟨r, h, [⟨.idle, []⟩, ⟨.idle, []⟩], l, [⟨"net", [], t1, [⟨"m", .int v2⟩]⟩], false⟩ := by
    simp [exec, step, begin, kinds, a, b, Conf.at, Conf.found, Conf.ptr, AMap.get, AMap.set, Pc.writes, Pc.reads, newAggValuesMap,
      newAggValue, Acc.init, AggVal.apply, Acc.apply, Acc.calculate, Conf.dumpAll, Conf.deref, dump, mapOpt, Recorder.dump,
      ValuesMap.getAll, AggVal.get, Acc.get, hk]
  obtain ⟨r, h, l, hx⟩ := hx
  refine ⟨⟨_, by rw [hx], ?_⟩, ?_⟩
  · intro t ht
    rw [hx] at ht
    simp only [List.mem_cons, List.not_mem_nil, or_false] at ht
    rcases ht with rfl | rfl <;> exact ⟨rfl, rfl⟩
  · intro hv ht ops hops s o hr
    simp only [List.mem_cons, List.not_mem_nil, or_false] at hops
    rcases hops with rfl | rfl | rfl
    · have : run kinds [] [a, b, .dump] = some ([("net", [])], [⟨"net", [], t2, [⟨"m", .int v2⟩]⟩]) := rfl
      rw [this] at hr
      simp only [Option.some.injEq, Prod.mk.injEq] at hr
      rw [← hr.2]
      simp [ht]
    · have : run kinds [] [b, a, .dump] = some ([("net", [])], [⟨"net", [], t1, [⟨"m", .int v1⟩]⟩]) := rfl
      rw [this] at hr
      simp only [Option.some.injEq, Prod.mk.injEq] at hr
      rw [← hr.2]
      simp [Ne.symm hv]
    · have : ∃ s, run kinds [] [b, .dump, a] = some (s, [⟨"net", [], t2, [⟨"m", .int v2⟩]⟩]) := ⟨_, rfl⟩
      obtain ⟨s', hs'⟩ := this
      rw [hs'] at hr
      simp only [Option.some.injEq, Prod.mk.injEq] at hr
      rw [← hr.2]
      simp [ht]

/-! ### The mutex -/

/-- C104: while a goroutine dumps, all others are between two calls. -/
theorem dumps_exclude_all (kinds : KindMap) (progs : List (List Op)) (is : List Nat)
    (hc : (exec kinds (begin progs) is).crashed = false) (i : Nat) (t : Th)
    (ht : (exec kinds (begin progs) is).ths[i]? = some t) (hw : t.pc.writes = true) (j : Nat) (u : Th)
    (hu : (exec kinds (begin progs) is).ths[j]? = some u) (hj : j ≠ i) : u.pc = .idle :=
  ((all_exec kinds progs is).1.resolve_left (by rw [hc]; simp)).lock i t ht hw j u hu hj

theorem step_moves {c c' : Conf} {i : Nat} {t t' : Th} (h : c.ths[i]? = some t) (h1 : c'.ths = c.ths.set i t') (hne : t' ≠ t) :
    c' ≠ c := by
  rintro rfl
  have hi : i < c'.ths.length := (List.getElem?_eq_some_iff.1 h).1
  have : (c'.ths.set i t')[i]? = some t' := List.getElem?_set_self hi
  rw [← h1, h] at this
  exact hne (Option.some.inj this).symm

/-- A goroutine in a call can step. -/
theorem busy_steps {kinds : KindMap} {c : Conf} (hinv : Inv kinds c) (hc : c.crashed = false) {i : Nat} {t : Th}
    (h : c.ths[i]? = some t) (hb : t.pc ≠ .idle) : step kinds c i ≠ c := by
  have hok := hinv.ths t (List.mem_of_getElem? h)
  obtain ⟨pc, r⟩ := t
  simp only [step, hc, h, Bool.false_eq_true, if_false]
  cases pc with
  | idle => exact absurd rfl hb
  | rlocked g s =>
    simp only
    split <;> exact step_moves h rfl (by simp)
  | noRecorder g s =>
    simp only
    split <;> exact step_moves h rfl (by simp)
  | recorder g s =>
    simp only
    split <;> exact step_moves h rfl (by simp)
  | noSeries g s =>
    simp only
    split <;> exact step_moves h rfl (by simp)
  | record g p ms =>
    cases ms with
    | nil => exact step_moves h rfl (by simp)
    | cons m ms =>
      simp only
      split
      · exact step_moves h rfl (by simp)
      · refine step_moves h rfl ?_
        intro he
        injection he with he
        injection he with _ _ he
        exact absurd (congrArg List.length he) (by simp)
  | values g p m j ms =>
    obtain ⟨_, vm, vs, h1, h2, _⟩ := hok
    simp only [h1, h2]
    split
    · exact step_moves h rfl (by simp)
    · split
      · intro he
        have := congrArg Conf.crashed he
        simp [hc] at this
      · refine step_moves h rfl ?_
        intro he
        injection he with he
        injection he with _ _ _ he
        omega
  | wlocked op =>
    cases op with
    | aggregate g s => exact hok.elim
    | dump =>
      simp only [Conf.dumpAll]
      split <;> exact step_moves h rfl (by simp)
    | dumpSingle n =>
      simp only [Conf.dumpOne]
      split <;> exact step_moves h rfl (by simp)
  | wdone => exact step_moves h rfl (by simp)

/-- C104: goroutines that use the aggregator never wait for each other for ever: as long as one of them is not through, one of
them can step. -/
theorem aggregator_never_stuck (kinds : KindMap) (progs : List (List Op)) (is : List Nat)
    (hc : (exec kinds (begin progs) is).crashed = false) (hn : ¬ (exec kinds (begin progs) is).through) :
    ∃ i, step kinds (exec kinds (begin progs) is) i ≠ exec kinds (begin progs) is := by
  have hinv := (all_exec kinds progs is).1.resolve_left (by rw [hc]; simp)
  generalize exec kinds (begin progs) is = c at *
  by_cases hb : ∃ (i : Nat) (t : Th), c.ths[i]? = some t ∧ t.pc ≠ .idle
  · obtain ⟨i, t, h, hb⟩ := hb
    exact ⟨i, busy_steps hinv hc h hb⟩
  · have hidle : ∀ t ∈ c.ths, t.pc = .idle := by
      intro t ht
      obtain ⟨i, hi⟩ := List.mem_iff_getElem?.1 ht
      exact Classical.byContradiction fun hx => hb ⟨i, t, hi, hx⟩
    have hx : ∃ t ∈ c.ths, t.todo ≠ [] := by
      refine Classical.byContradiction fun hx => hn fun t ht => ⟨hidle t ht, ?_⟩
      exact Classical.byContradiction fun hy => hx ⟨t, ht, hy⟩
    obtain ⟨⟨pc, todo⟩, ht, htd⟩ := hx
    obtain ⟨i, hi⟩ := List.mem_iff_getElem?.1 ht
    have hpc : pc = .idle := hidle _ ht
    subst hpc
    have hany : c.ths.any (·.pc.writes) = false := by
      rw [List.any_eq_false]
      intro u hu
      rw [hidle u hu]
      simp [Pc.writes]
    have hany2 : c.ths.any (fun t => t.pc.writes || t.pc.reads) = false := by
      rw [List.any_eq_false]
      intro u hu
      rw [hidle u hu]
      simp [Pc.writes, Pc.reads]
    refine ⟨i, ?_⟩
    cases todo with
    | nil => exact absurd rfl htd
    | cons op r =>
      cases op <;> simp only [step, hc, hi, hany, hany2, Bool.false_eq_true, if_false] <;> exact step_moves hi rfl (by simp)

end Kindling.Agg.Conc
