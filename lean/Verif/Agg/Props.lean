import Verif.Agg.Series
/-
C01, C02, C03, C04: property theorems about the aggregator.
-/
namespace Kindling.Agg
open Kindling

/-! ## C01 Conservation -/

/-- C01 (`sum`).  Take any history of Aggregate / Dump / DumpSingle calls that ends with a Dump and
does not crash.  If the configuration produces output `o` from metric `m` with kind `sum` (and from
nothing else) and every record of group `name` carries `m`, then the values of `o` over all dumped
series of the group add up to exactly the values recorded.  (Missing: without the condition that every record
carries `m` the claim is false, `sum_not_conserved_when_metric_appears_later`.) -/
theorem sum_conserved_partial {kinds : KindMap} {name m o : String} (hc : OutputOf kinds m o .sum)
    (ops : List Op) (hm : ∀ g sels, Op.aggregate g sels ∈ ops → g.name = name → m ∈ g.metrics.map (·.name))
    {st : State} {out : List Group} (h : run kinds [] (ops ++ [.dump]) = some (st, out)) :
    observedTotal name o out = recordedTotal sumContrib name m ops := by
  have key := run_total_aux hc (Or.inl rfl) ops hm h
  simpa [kindContrib] using key
where
  run_total_aux {kinds : KindMap} {name m o : String} {k : Kind} (hc : OutputOf kinds m o k)
      (hk : k = .sum ∨ k = .count) (ops : List Op)
      (hm : ∀ g sels, Op.aggregate g sels ∈ ops → g.name = name → m ∈ g.metrics.map (·.name))
      {st : State} {out : List Group} (h : run kinds [] (ops ++ [.dump]) = some (st, out)) :
      observedTotal name o out = recordedTotal (kindContrib k) name m ops := by
    have hrec : ∀ ops : List Op, recordedTotal (kindContrib k) name m (ops ++ [.dump]) =
        recordedTotal (kindContrib k) name m ops := by
      intro ops
      induction ops with
      | nil => rfl
      | cons x r ih => cases x <;> simp [recordedTotal, ih]
    have hsplit : ∀ (ops : List Op) (s0 : State) (out : List Group), run kinds s0 (ops ++ [.dump]) = some (st, out) →
        ∃ s1 o1 o2, run kinds s0 ops = some (s1, o1) ∧ dump s1 = some (st, o2) ∧ out = o1 ++ o2 := by
      intro ops
      induction ops with
      | nil =>
        intro s0 out h
        simp only [List.nil_append, run, step] at h
        split at h
        · simp at h
        · rename_i s o ho
          simp only [Option.map_some, List.append_nil, Option.some.injEq, Prod.mk.injEq] at h
          obtain ⟨rfl, rfl⟩ := h
          exact ⟨s0, [], _, rfl, ho, rfl⟩
      | cons x r ih =>
        intro s0 out h
        simp only [List.cons_append, run] at h
        split at h
        · simp at h
        · rename_i s o hs
          simp only [Option.map_eq_some_iff, Prod.mk.injEq] at h
          obtain ⟨⟨s2, o2⟩, h2, rfl, rfl⟩ := h
          obtain ⟨s1, a, b, e1, e2, rfl⟩ := ih s _ h2
          exact ⟨s1, o ++ a, b, by simp [run, hs, e1], e2, by simp⟩
    obtain ⟨s1, o1, o2, e1, e2, rfl⟩ := hsplit ops [] _ h
    have hgood : GoodSt name m o k [] := fun p hp => by simp at hp
    obtain ⟨t1, g1⟩ := run_tot hk hc hm hgood e1
    obtain ⟨t2, _, _⟩ := dump_tot g1 e2
    rw [observedTotal_append, t2]
    simpa [stTot] using t1

/-- C01 (`count`): same for kind `count`; what is conserved is the number of recorded values
(missing: the same). -/
theorem count_conserved_partial {kinds : KindMap} {name m o : String} (hc : OutputOf kinds m o .count)
    (ops : List Op) (hm : ∀ g sels, Op.aggregate g sels ∈ ops → g.name = name → m ∈ g.metrics.map (·.name))
    {st : State} {out : List Group} (h : run kinds [] (ops ++ [.dump]) = some (st, out)) :
    observedTotal name o out = recordedTotal countContrib name m ops := by
  have key := sum_conserved_partial.run_total_aux hc (Or.inr rfl) ops hm h
  simpa [kindContrib] using key

/-- Non-vacuity of `sum_conserved_partial`: a history with two series, two dumps. -/
example :
    let kinds : KindMap := fun n => if n = "m" then some [⟨"m_sum", .sum, []⟩, ⟨"m_avg", .avg, []⟩] else none
    let g (v : Int) : Group := ⟨"net", [("pod", .str [])], 7, [⟨"m", .int v⟩]⟩
    let ops : List Op := [.aggregate (g 3) [⟨"pod", .string⟩], .dump, .aggregate (g (-5)) [⟨"pod", .string⟩]]
    (run kinds [] (ops ++ [.dump])).isSome = true ∧ recordedTotal sumContrib "net" "m" ops = -2 := by
  decide

/-- The hypothesis "every record carries `m`" is needed: when the first record of a series lacks a
metric, later values of this metric are dropped (value_recorder.go:26-27 documents this), so full
conservation is false of the code. -/
theorem sum_not_conserved_when_metric_appears_later :
    ∃ (kinds : KindMap) (ops : List Op) (st : State) (out : List Group),
      run kinds [] (ops ++ [.dump]) = some (st, out) ∧ OutputOf kinds "m" "m" .sum ∧
      recordedTotal sumContrib "net" "m" ops = 5 ∧ observedTotal "net" "m" out = 0 := by
  refine ⟨fun n => if n = "m" then some [⟨"m", .sum, []⟩] else none,
    [.aggregate ⟨"net", [], 0, []⟩ [], .aggregate ⟨"net", [], 0, [⟨"m", .int 5⟩]⟩ []], _, _, rfl, ?_, ?_, ?_⟩
  · refine ⟨⟨_, _, by simp; rfl, by simp; rfl, rfl⟩, ?_⟩
    intro m' cs hm h; simp [hm] at h
  · decide
  · decide

/-! ## C02 Each dumped series equals its aggregation function -/

/-- Specification: what a configured output should report for recorded integers `vs`. -/
def specInt (c : KindConfig) (vs : List Int) : MData :=
  match c.kind with
  | .sum => .int vs.sum
  | .count => .int vs.length
  | .last => .int (vs.getLast?.getD 0)
  | .avg => .int (vs.sum.tdiv vs.length)
  | .max => .int (vs.max?.getD 0)
  | .histogram => .hist ⟨vs.sum, vs.length, c.bounds, c.bounds.map (fun b => vs.countP (· ≤ b))⟩

theorem foldl_max_eq {a : Int} {vs : List Int} (hne : vs ≠ []) :
    vs.foldl max a = max a (vs.max?.getD 0) := by
  cases vs with
  | nil => exact absurd rfl hne
  | cons v r =>
    simp only [List.foldl_cons, List.max?_cons', Option.getD_some]
    clear hne
    induction r generalizing a v with
    | nil => rfl
    | cons w t ih =>
      simp only [List.foldl_cons]
      rw [show max (max a v) w = max a (max v w) by omega, ih]

theorem init_spec {c : KindConfig} {vs : List Int} (hne : vs ≠ [])
    (hmax : c.kind = .max → 0 ≤ vs.max?.getD 0) {acc : Acc}
    (h : foldApply (Acc.init c) (vs.map .int) = some acc) : acc.get = some (specInt c vs) := by
  unfold Acc.init at h
  split at h <;> rename_i hk
  · rw [foldApply_sum] at h; simp only [Option.some.injEq] at h; subst h; simp [Acc.get, specInt, hk]
  · rw [foldApply_max] at h; simp only [Option.some.injEq] at h; subst h
    have := hmax hk
    rw [foldl_max_eq hne]
    simp only [Acc.get, specInt, hk]; congr 2; omega
  · rw [foldApply_avg] at h; simp only [Option.some.injEq] at h; subst h
    have : vs.length ≠ 0 := by simpa using hne
    simp only [Acc.get, specInt, hk, Int.zero_add]
    rw [if_neg (by omega)]
  · rw [foldApply_last] at h; simp only [Option.some.injEq] at h; subst h; simp [Acc.get, specInt, hk]
  · rw [foldApply_count] at h; simp only [Option.some.injEq] at h; subst h; simp [Acc.get, specInt, hk]
  · have e : List.replicate c.bounds.length 0 = c.bounds.map (fun _ => 0) := by
      simp [List.map_const']
    rw [e, foldApply_hist] at h; simp only [Option.some.injEq] at h; subst h
    simp [Acc.get, specInt, hk]

/-- What a dumped group must look like for the series `(name, key)` given the records since its last
dump: name and labels of the series; for every configured metric that the first record carried and
whose values are all integers, each configured output with the specified value. -/
def Describes (kinds : KindMap) (recs : List (List Metric × Nat)) (nk : String × LabelKeys) (g : Group) : Prop :=
  g.name = nk.1 ∧ g.labels = getLabels nk.2 ∧
  ∀ r0 rs, recs = r0 :: rs → ∀ m cs c vs, m ∈ r0.1.map (·.name) → kinds m = some cs → c ∈ cs →
    valuesOf m recs = vs.map MData.int → (c.kind = .max → 0 ≤ vs.max?.getD 0) →
    ⟨c.outputName, specInt c vs⟩ ∈ g.metrics

theorem describe_series {kinds : KindMap} {r0 : List Metric × Nat} {rs : List (List Metric × Nat)}
    {vm : ValuesMap} {ms : List Metric} {n : String} {k : LabelKeys}
    (hrm : recordMany (newAggValuesMap kinds r0.1) (r0 :: rs) = some vm) (hms : vm.getAll = some ms) :
    Describes kinds (r0 :: rs) (n, k) ⟨n, getLabels k, vm.ts, ms⟩ := by
  refine ⟨rfl, rfl, ?_⟩
  intro r0' rs' hrecs m cs c vs hm hk hc hvs hmax
  cases hrecs
  have hev := recordMany_evolves hrm m
  rw [get_newAggValuesMap, if_pos hm, hk] at hev
  simp only [Option.map_some] at hev
  obtain ⟨vs', hvs', hE⟩ := hev
  rw [hvs] at hE
  have hcm : newAggValue c ∈ cs.map newAggValue := List.mem_map.2 ⟨c, hc, rfl⟩
  obtain ⟨v', hv'mem, hname, hfold⟩ := All2.mem_left hE hcm
  have hne : vs ≠ [] := by
    rintro rfl
    simp only [List.map_nil, valuesOf, List.flatMap_cons, List.filterMap_append,
      List.append_eq_nil_iff, List.filterMap_eq_nil_iff] at hvs
    obtain ⟨x, hx, rfl⟩ := List.mem_map.1 hm
    have := hvs.1 x hx
    simp at this
  have hget : v'.acc.get = some (specInt c vs) := init_spec hne hmax hfold
  have hg' : v'.get = some ⟨c.outputName, specInt c vs⟩ := by
    simp only [AggVal.get, hget, Option.map_some, Option.some.injEq, Metric.mk.injEq, and_true]
    rw [hname]; rfl
  simp only [ValuesMap.getAll, Option.map_eq_some_iff] at hms
  obtain ⟨ll, hll, rfl⟩ := hms
  obtain ⟨y, hy, hyy⟩ := mapOpt_some hll (AMap.mem_of_get hvs')
  obtain ⟨z, hz, hzz⟩ := mapOpt_some hyy hv'mem
  rw [hg'] at hzz; cases hzz
  exact List.mem_flatten.2 ⟨y, hy, hz⟩

/-- A Dump returns one group per series with pending records; whatever holds of the group made from
the records of one series holds of each of them. -/
theorem dump_series_of {kinds : KindMap}
    {D : List (List Metric × Nat) → String × LabelKeys → Group → Prop}
    (hD : ∀ r0 rs vm ms n k, recordMany (newAggValuesMap kinds r0.1) (r0 :: rs) = some vm → vm.getAll = some ms →
      D (r0 :: rs) (n, k) ⟨n, getLabels k, vm.ts, ms⟩) (ops : List Op) {st st' : State} {out gs : List Group}
    (h : run kinds [] ops = some (st, out)) (hd : dump st = some (st', gs)) :
    ∃ ks : List (String × LabelKeys), ks.Nodup ∧
      (∀ nk, nk ∈ ks ↔ pending ops nk.1 nk.2 ≠ []) ∧
      All2 (fun nk g => D (pending ops nk.1 nk.2) nk g) ks gs := by
  have hrep : Rep kinds st (pending ops) := run_rep (rep_init kinds) h
  obtain ⟨⟨hw1, hw2⟩, hr⟩ := hrep
  simp only [dump, Option.map_eq_some_iff, Prod.mk.injEq] at hd
  obtain ⟨l, hl, hst', rfl⟩ := hd
  clear hst'
  -- one group of a recorder
  have hone : ∀ (n : String) (k : LabelKeys) (vm : ValuesMap) (ms : List Metric),
      lookup st n k = some vm → vm.getAll = some ms →
      D (pending ops n k) (n, k) ⟨n, getLabels k, vm.ts, ms⟩ := by
    intro n k vm ms hvm hms
    have := hr n k
    cases hp : pending ops n k with
    | nil => simp only [hp] at this; rw [hvm] at this; simp at this
    | cons r0 rs =>
      simp only [hp] at this
      obtain ⟨vm', hv', hrm⟩ := this
      rw [hvm] at hv'; cases hv'
      exact hD _ _ _ _ _ _ hrm hms
  -- the groups of one recorder
  have hrecd : ∀ (n : String) (r : Recorder) (gs : List Group), AMap.get st n = some r →
      Recorder.dump n r = some gs →
      All2 (fun nk g => D (pending ops nk.1 nk.2) nk g) (r.map (fun p => (n, p.1))) gs := by
    intro n r gs hget hdump
    have hwr := hw2 _ (AMap.mem_of_get hget)
    have : ∀ p ∈ r, lookup st n p.1 = some p.2 := by
      intro p hp
      simp only [lookup, hget, Option.bind_some]
      exact AMap.get_of_mem hwr hp
    clear hget hwr
    simp only [Recorder.dump] at hdump
    induction r generalizing gs with
    | nil => simp [mapOpt] at hdump; subst hdump; exact .nil
    | cons p t ih =>
      obtain ⟨y, ys, h1, h2, rfl⟩ := mapOpt_cons_eq_some.1 hdump
      simp only [Option.map_eq_some_iff] at h1
      obtain ⟨ms, hms, rfl⟩ := h1
      refine .cons ?_ (ih ys h2 (fun q hq => this q (by simp [hq])))
      exact hone n p.1 p.2 ms (this p (by simp)) hms
  refine ⟨st.flatMap (fun p => p.2.map (fun q => (p.1, q.1))), ?_, ?_, ?_⟩
  · -- keys are distinct
    clear hr hone hrecd hl h
    induction st with
    | nil => simp
    | cons p t ih =>
      have ht : AMap.WF t := by
        simp only [AMap.WF, AMap.keys, List.map_cons, List.nodup_cons] at hw1 ⊢; exact hw1.2
      simp only [List.flatMap_cons]
      rw [List.nodup_append]
      refine ⟨?_, ih ht (fun q hq => hw2 q (by simp [hq])), ?_⟩
      · have := hw2 p (by simp)
        simp only [AMap.WF, AMap.keys] at this
        have h2 : (p.2.map (·.1)).map (fun k => (p.1, k)) = p.2.map (fun q => (p.1, q.1)) := by
          simp [List.map_map, Function.comp_def]
        rw [← h2]
        exact List.Pairwise.map _ (fun a b hab hc => hab (Prod.mk.inj hc).2) this
      · intro a ha b hb hab
        subst hab
        obtain ⟨q, _, rfl⟩ := List.mem_map.1 ha
        obtain ⟨p', hp', hb'⟩ := List.mem_flatMap.1 hb
        obtain ⟨q', _, he⟩ := List.mem_map.1 hb'
        simp only [Prod.mk.injEq] at he
        simp only [AMap.WF, AMap.keys, List.map_cons, List.nodup_cons] at hw1
        exact hw1.1 (List.mem_map.2 ⟨p', hp', he.1⟩)
  · intro nk
    have hl' : pending ops nk.1 nk.2 ≠ [] ↔ ∃ vm, lookup st nk.1 nk.2 = some vm := by
      have := hr nk.1 nk.2
      cases hp : pending ops nk.1 nk.2 with
      | nil => simp only [hp] at this; simp [this]
      | cons a b =>
        simp only [hp] at this
        obtain ⟨vm, hv, _⟩ := this
        simp [hv]
    rw [hl']
    constructor
    · intro hmem
      obtain ⟨p, hp, hq'⟩ := List.mem_flatMap.1 hmem
      obtain ⟨q, hq, rfl⟩ := List.mem_map.1 hq'
      refine ⟨q.2, ?_⟩
      simp only [lookup, AMap.get_of_mem hw1 hp, Option.bind_some]
      exact AMap.get_of_mem (hw2 p hp) hq
    · rintro ⟨vm, hvm⟩
      simp only [lookup, Option.bind_eq_some_iff] at hvm
      obtain ⟨r, hr', hk⟩ := hvm
      exact List.mem_flatMap.2 ⟨(nk.1, r), AMap.mem_of_get hr', List.mem_map.2 ⟨_, AMap.mem_of_get hk, rfl⟩⟩
  · have hgets : ∀ p ∈ st, AMap.get st p.1 = some p.2 := fun p hp => AMap.get_of_mem hw1 hp
    clear hw1 hw2 hr hone h
    generalize hst : st = st0 at hl ⊢
    have hsub : ∀ p ∈ st0, AMap.get st p.1 = some p.2 := by rw [← hst]; exact hgets
    clear hst hgets
    induction st0 generalizing l with
    | nil => simp [mapOpt] at hl; subst hl; exact .nil
    | cons p t ih =>
      obtain ⟨y, ys, h1, h2, rfl⟩ := mapOpt_cons_eq_some.1 hl
      simp only [List.flatMap_cons, List.flatten_cons]
      exact (hrecd p.1 p.2 y (hsub p (by simp)) h1).append (ih ys h2 (fun q hq => hsub q (by simp [hq])))

/-- C02 / C04.  After any history, a Dump returns exactly one group per series with records since its
last dump, and this group carries the specified aggregate of exactly these records.
Partial only in the `max` kind, which is claimed when the largest value is not negative:
see `max_of_negative_values_is_zero`. -/
theorem dump_series_values_partial {kinds : KindMap} (ops : List Op) {st st' : State} {out gs : List Group}
    (h : run kinds [] ops = some (st, out)) (hd : dump st = some (st', gs)) :
    ∃ ks : List (String × LabelKeys), ks.Nodup ∧
      (∀ nk, nk ∈ ks ↔ pending ops nk.1 nk.2 ≠ []) ∧
      All2 (fun nk g => Describes kinds (pending ops nk.1 nk.2) nk g) ks gs :=
  dump_series_of (fun _ _ _ _ _ _ hrm hms => describe_series hrm hms) ops h hd

/-- Non-vacuity: a history of two records of one series, dumped. -/
example :
    let kinds : KindMap := fun n => if n = "m" then some [⟨"m_max", .max, []⟩, ⟨"m_avg", .avg, []⟩] else none
    let g (v : Int) : Group := ⟨"net", [], 7, [⟨"m", .int v⟩]⟩
    ∃ st st' out, run kinds [] [.aggregate (g 3) [], .aggregate (g 8) []] = some (st, out) ∧
      dump st = some (st', [⟨"net", [], 7, [⟨"m_max", .int 8⟩, ⟨"m_avg", .int 5⟩]⟩]) := by
  refine ⟨_, _, _, rfl, rfl⟩

/-- The code violates C02 for kind `max`: the accumulator starts at 0 (agg_values.go:172-176), so the
maximum of negative values is reported as 0. -/
theorem max_of_negative_values_is_zero :
    ∃ (kinds : KindMap) (ops : List Op) (st st' : State) (out gs : List Group),
      run kinds [] ops = some (st, out) ∧ dump st = some (st', gs) ∧
      kinds "m" = some [⟨"m_max", .max, []⟩] ∧
      (∀ n k, n = "net" → pending ops n k ≠ [] → valuesOf "m" (pending ops n k) = [.int (-5), .int (-2)]) ∧
      ∃ g ∈ gs, g.metrics = [⟨"m_max", .int 0⟩] := by
  refine ⟨fun n => if n = "m" then some [⟨"m_max", .max, []⟩] else none,
    [.aggregate ⟨"net", [], 0, [⟨"m", .int (-5)⟩]⟩ [], .aggregate ⟨"net", [], 0, [⟨"m", .int (-2)⟩]⟩ []],
    _, _, _, _, rfl, rfl, by simp, ?_, ⟨_, List.mem_singleton.2 rfl, rfl⟩⟩
  intro n k hn hp
  simp only [pending, List.foldl_cons, List.foldl_nil, Pending.step] at hp ⊢
  subst hn
  by_cases hk : k = getLabelKeys [] []
  · subst hk; simp [valuesOf]
  · simp [hk] at hp

/-- C02: integer records alone never crash the aggregator: every history whose metrics are integers
and whose configured kinds are arbitrary runs to completion. -/
theorem int_history_never_panics {kinds : KindMap} (ops : List Op)
    (hint : ∀ g sels, Op.aggregate g sels ∈ ops → ∀ x ∈ g.metrics, ∃ v, x.data = .int v) :
    (run kinds [] ops).isSome := by
  -- invariant: every average has a positive count
  let accOk : Acc → Prop := fun a => match a with | .avg _ c => 0 < c | _ => True
  let vmOk : ValuesMap → Prop := fun vm => ∀ p ∈ vm.values, ∀ v ∈ p.2, accOk v.acc
  let stOk : State → Prop := fun st => ∀ p ∈ st, ∀ q ∈ p.2, vmOk q.2
  have accWeak : ∀ (a : Acc) (v : Int), (match a with | .avg _ c => 0 ≤ c | _ => True) → accOk (a.calculate v) := by
    intro a v h
    cases a <;> simp_all [accOk, Acc.calculate]
    omega
  have mapApply : ∀ (vs : List AggVal) (v : Int), ∃ vs',
      mapOpt (fun x => AggVal.apply x (.int v)) vs = some vs' ∧
      ((∀ x ∈ vs, (match x.acc with | .avg _ c => 0 ≤ c | _ => True)) → ∀ x ∈ vs', accOk x.acc) := by
    intro vs v
    have := mapOpt_isSome (f := fun x => AggVal.apply x (.int v)) (l := vs)
      (by intro x _; simp [AggVal.apply, Acc.apply])
    obtain ⟨vs', hvs'⟩ := Option.isSome_iff_exists.1 this
    refine ⟨vs', hvs', ?_⟩
    intro hw x hx
    obtain ⟨y, hy, he⟩ := (mapOpt_mem hvs').1 hx
    simp only [AggVal.apply, Acc.apply, Option.map_some, Option.some.injEq] at he
    subst he
    exact accWeak _ _ (hw y hy)
  have okWeak : ∀ a : Acc, accOk a → (match a with | .avg _ c => 0 ≤ c | _ => True) := by
    intro a h; cases a <;> simp_all [accOk]; omega
  -- weak invariant used between creation and the first value
  let weak : List AggVal → Prop := fun vs => ∀ x ∈ vs, (match x.acc with | .avg _ c => 0 ≤ c | _ => True)
  have recAll : ∀ (ms : List Metric) (vm : ValuesMap) (ts : Nat), (∀ x ∈ ms, ∃ v, x.data = .int v) →
      (∀ p ∈ vm.values, weak p.2 ∧ ((∀ v ∈ p.2, accOk v.acc) ∨ p.1 ∈ ms.map (·.name))) →
      AMap.WF vm.values → ∃ vm', vm.recordAll ms ts = some vm' ∧ vmOk vm' ∧ AMap.WF vm'.values := by
    intro ms
    induction ms with
    | nil =>
      intro vm ts _ h hw
      refine ⟨vm, rfl, ?_, hw⟩
      intro p hp v hv
      rcases (h p hp).2 with h | h
      · exact h v hv
      · simp at h
    | cons x r ih =>
      intro vm ts hi h hw
      obtain ⟨v, hv⟩ := hi x (by simp)
      simp only [ValuesMap.recordAll, ValuesMap.calculate, hv]
      cases hget : AMap.get vm.values x.name with
      | none =>
        simp only
        refine ih vm ts (fun y hy => hi y (by simp [hy])) ?_ hw
        intro p hp
        refine ⟨(h p hp).1, ?_⟩
        rcases (h p hp).2 with h' | h'
        · exact Or.inl h'
        · simp only [List.map_cons, List.mem_cons] at h'
          rcases h' with h' | h'
          · exfalso
            have := AMap.get_of_mem hw (k := p.1) (v := p.2) hp
            rw [h', hget] at this; simp at this
          · exact Or.inr h'
      | some vs =>
        obtain ⟨vs', e1, e2⟩ := mapApply vs v
        simp only [e1]
        have hok := e2 ((h _ (AMap.mem_of_get hget)).1)
        refine ih _ ts (fun y hy => hi y (by simp [hy])) ?_ (hw.set _ _)
        intro p hp
        have hpk := AMap.get_of_mem (hw.set x.name vs') (k := p.1) (v := p.2) hp
        by_cases hpn : x.name = p.1
        · rw [AMap.get_set, if_pos hpn] at hpk
          simp only [Option.some.injEq] at hpk
          rw [← hpk]
          exact ⟨fun y hy => okWeak _ (hok y hy), Or.inl hok⟩
        · rw [AMap.get_set_ne _ _ hpn] at hpk
          have hmem := AMap.mem_of_get hpk
          refine ⟨(h p hmem).1, ?_⟩
          rcases (h p hmem).2 with h' | h'
          · exact Or.inl h'
          · simp only [List.map_cons, List.mem_cons] at h'
            rcases h' with h' | h'
            · exact absurd h'.symm hpn
            · exact Or.inr h'
  have newOk : ∀ (ms : List Metric), AMap.WF (newAggValuesMap kinds ms).values ∧
      ∀ p ∈ (newAggValuesMap kinds ms).values, weak p.2 ∧ p.1 ∈ ms.map (·.name) := by
    intro ms
    have gen : ∀ (all ms : List Metric) (acc : AMap String (List AggVal)), (∀ x ∈ ms, x ∈ all) →
        AMap.WF acc → (∀ p ∈ acc, weak p.2 ∧ p.1 ∈ all.map (·.name)) →
        let res := ms.foldl (fun acc m => match kinds m.name with
          | none => acc
          | some cs => AMap.set acc m.name (cs.map newAggValue)) acc
        AMap.WF res ∧ ∀ p ∈ res, weak p.2 ∧ p.1 ∈ all.map (·.name) := by
      intro all ms
      induction ms with
      | nil => intro acc _ hw h; exact ⟨hw, h⟩
      | cons x r ih =>
        intro acc hsub hw h
        simp only [List.foldl_cons]
        cases hx : kinds x.name with
        | none => exact ih acc (fun y hy => hsub y (by simp [hy])) hw h
        | some cs =>
          refine ih _ (fun y hy => hsub y (by simp [hy])) (hw.set _ _) ?_
          intro p hp
          rcases mem_set hp with rfl | hp
          · refine ⟨?_, List.mem_map.2 ⟨x, hsub x (by simp), rfl⟩⟩
            intro y hy
            obtain ⟨c, _, rfl⟩ := List.mem_map.1 hy
            simp only [newAggValue, Acc.init]
            cases c.kind <;> simp
          · exact h p hp
    exact gen ms ms [] (fun _ h => h) AMap.wf_nil (by simp)
  let stOk2 : State → Prop := fun st => ∀ p ∈ st, ∀ q ∈ p.2, vmOk q.2 ∧ AMap.WF q.2.values
  have getAllOk : ∀ vm, vmOk vm → vm.getAll.isSome := by
    intro vm h
    have : (mapOpt (fun p => mapOpt AggVal.get p.2) vm.values).isSome := by
      apply mapOpt_isSome
      intro p hp
      apply mapOpt_isSome
      intro v hv
      have hv' := h p hp v hv
      simp only [AggVal.get, Option.isSome_map]
      cases hacc : v.acc <;> simp only [hacc, accOk] at hv' <;> simp [Acc.get]
      omega
    simpa [ValuesMap.getAll] using this
  have dumpOk : ∀ n (r : Recorder), (∀ q ∈ r, vmOk q.2) → (Recorder.dump n r).isSome := by
    intro n r h
    apply mapOpt_isSome
    intro q hq
    simpa using getAllOk _ (h q hq)
  have main : ∀ (ops : List Op) (st : State),
      (∀ g sels, Op.aggregate g sels ∈ ops → ∀ x ∈ g.metrics, ∃ v, x.data = .int v) →
      stOk2 st → (run kinds st ops).isSome := by
    intro ops
    induction ops with
    | nil => intro st _ _; rfl
    | cons op r ih =>
      intro st hi hst
      have hi' : ∀ g sels, Op.aggregate g sels ∈ r → ∀ x ∈ g.metrics, ∃ v, x.data = .int v :=
        fun g s hgs => hi g s (by simp [hgs])
      simp only [run]
      cases op with
      | aggregate g sels =>
        have hig := hi g sels (by simp)
        have : ∃ vm', (Recorder.loadOrNew kinds ((AMap.get st g.name).getD []) (getLabelKeys sels g.labels)
            g.metrics).recordAll g.metrics g.ts = some vm' ∧ vmOk vm' ∧ AMap.WF vm'.values := by
          simp only [Recorder.loadOrNew]
          cases hget : AMap.get ((AMap.get st g.name).getD []) (getLabelKeys sels g.labels) with
          | none =>
            obtain ⟨w, e⟩ := newOk g.metrics
            exact recAll _ _ _ hig (fun p hp => ⟨(e p hp).1, Or.inr (e p hp).2⟩) w
          | some vm =>
            have hvm : vmOk vm ∧ AMap.WF vm.values := by
              cases hg2 : AMap.get st g.name with
              | none => simp [hg2] at hget
              | some rr =>
                simp only [hg2, Option.getD_some] at hget
                exact hst _ (AMap.mem_of_get hg2) _ (AMap.mem_of_get hget)
            exact recAll _ _ _ hig (fun p hp => ⟨fun y hy => okWeak _ (hvm.1 p hp y hy), Or.inl (hvm.1 p hp)⟩) hvm.2
        obtain ⟨vm', e1, e2, e3⟩ := this
        have hs : step kinds st (.aggregate g sels) = some (AMap.set st g.name
            (AMap.set ((AMap.get st g.name).getD []) (getLabelKeys sels g.labels) vm'), []) := by
          simp only [step, aggregate, Recorder.record]; rw [e1]; rfl
        rw [hs]
        simp only [Option.isSome_map]
        refine ih _ hi' ?_
        intro p hp q hq
        rcases mem_set hp with rfl | hp
        · rcases mem_set hq with rfl | hq
          · exact ⟨e2, e3⟩
          · cases hg2 : AMap.get st g.name with
            | none => simp [hg2] at hq
            | some rr =>
              simp only [hg2, Option.getD_some] at hq
              exact hst _ (AMap.mem_of_get hg2) _ hq
        · exact hst p hp q hq
      | dump =>
        have hs : (mapOpt (fun p => Recorder.dump p.1 p.2) st).isSome := by
          apply mapOpt_isSome
          intro p hp
          exact dumpOk _ _ (fun q hq => (hst p hp q hq).1)
        obtain ⟨l, hl⟩ := Option.isSome_iff_exists.1 hs
        simp only [step, dump, hl, Option.map_some, Option.isSome_map]
        refine ih _ hi' ?_
        intro p hp q hq
        obtain ⟨x, _, rfl⟩ := List.mem_map.1 hp
        simp at hq
      | dumpSingle n =>
        simp only [step, dumpSingle]
        cases hget : AMap.get st n with
        | none => simp only [Option.isSome_map]; exact ih st hi' hst
        | some rr =>
          have hs := dumpOk n rr (fun q hq => (hst _ (AMap.mem_of_get hget) q hq).1)
          obtain ⟨l, hl⟩ := Option.isSome_iff_exists.1 hs
          simp only [hl, Option.map_some, Option.isSome_map]
          refine ih _ hi' ?_
          intro p hp q hq
          rcases mem_set hp with rfl | hp
          · simp at hq
          · exact hst p hp q hq
  exact main ops [] hint (fun p hp => by simp at hp)

/-- A metric without data configured as `avg` makes the next Dump crash (integer division by zero,
agg_values.go:238), so the hypothesis of `int_history_never_panics` cannot be dropped. -/
theorem avg_without_value_panics :
    ∃ (kinds : KindMap) (ops : List Op), run kinds [] ops = none := by
  refine ⟨fun _ => some [⟨"a", .avg, []⟩], [.aggregate ⟨"g", [], 0, [⟨"m", .none⟩]⟩ [], .dump], ?_⟩
  decide

end Kindling.Agg
