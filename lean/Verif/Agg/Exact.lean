import Verif.Agg.HistProps
/-
C02: a dumped series carries exactly the configured outputs of the metrics of its first record, for
any mixture of integer and histogram values, and the time of its last record.
-/
namespace Kindling.Agg
open Kindling

/-- The integer of a datum, if it is one. -/
def asInt : MData → Option Int
  | .int v => some v
  | _ => none

/-- Specification: what a configured output reports for any list of recorded data.  A histogram
counts in a sum, a count and an average by its own sum and count; it is ignored by last and max
(agg_values.go:196-198, 266-268).  `max` is claimed when the largest value is not negative;
`histogram` when every recorded histogram has the configured boundaries. -/
def Reports (c : KindConfig) (ds : List MData) (d : MData) : Prop :=
  match c.kind with
  | .sum => d = .int (ds.map sumContrib).sum
  | .count => d = .int (ds.map countContrib).sum
  | .avg => d = .int ((ds.map sumContrib).sum.tdiv (ds.map countContrib).sum) ∧ (ds.map countContrib).sum ≠ 0
  | .last => d = .int ((ds.filterMap asInt).getLast?.getD 0)
  | .max => 0 ≤ (ds.filterMap asInt).max?.getD 0 → d = .int ((ds.filterMap asInt).max?.getD 0)
  | .histogram => ∀ vss, All2 (Carries c.bounds) ds vss → d = .hist (histOf c.bounds vss.flatten)

theorem foldApply_sum_any (a : Int) (ds : List MData) :
    foldApply (.sum a) ds = some (.sum (a + (ds.map sumContrib).sum)) := by
  induction ds generalizing a with
  | nil => simp [foldApply]
  | cons d r ih => cases d <;> simp [foldApply, Acc.apply, Acc.calculate, Acc.merge, ih, sumContrib, Int.add_assoc]

theorem foldApply_count_any (a : Int) (ds : List MData) :
    foldApply (.count a) ds = some (.count (a + (ds.map countContrib).sum)) := by
  induction ds generalizing a with
  | nil => simp [foldApply]
  | cons d r ih => cases d <;> simp [foldApply, Acc.apply, Acc.calculate, Acc.merge, ih, countContrib, Int.add_assoc]

theorem foldApply_avg_any (a c : Int) (ds : List MData) :
    foldApply (.avg a c) ds = some (.avg (a + (ds.map sumContrib).sum) (c + (ds.map countContrib).sum)) := by
  induction ds generalizing a c with
  | nil => simp [foldApply]
  | cons d r ih =>
    cases d <;> simp [foldApply, Acc.apply, Acc.calculate, Acc.merge, ih, countContrib, sumContrib, Int.add_assoc]

theorem foldApply_last_any (a : Int) (ds : List MData) :
    foldApply (.last a) ds = some (.last ((ds.filterMap asInt).getLast?.getD a)) := by
  induction ds generalizing a with
  | nil => simp [foldApply]
  | cons d r ih =>
    cases d <;> simp only [foldApply, Acc.apply, Acc.calculate, Acc.merge, ih, asInt, List.filterMap_cons]
    rename_i v
    cases hr : r.filterMap asInt with
    | nil => simp
    | cons x t =>
      rw [List.getLast?_cons_cons]
      cases h : (x :: t).getLast? with
      | none => simp at h
      | some y => rfl

theorem foldApply_max_any (a : Int) (ds : List MData) :
    foldApply (.max a) ds = some (.max ((ds.filterMap asInt).foldl max a)) := by
  induction ds generalizing a with
  | nil => simp [foldApply]
  | cons d r ih =>
    cases d <;> simp only [foldApply, Acc.apply, Acc.calculate, Acc.merge, ih, asInt, List.filterMap_cons,
      List.foldl_cons]
    congr 3; split <;> omega

/-- The accumulator of a configured output reports what the specification says. -/
theorem acc_reports {c : KindConfig} {ds : List MData} {acc : Acc} {d : MData}
    (h : foldApply (Acc.init c) ds = some acc) (hg : acc.get = some d) : Reports c ds d := by
  obtain ⟨o, k, bounds⟩ := c
  cases k <;> simp only [Reports, Acc.init] at *
  · rw [foldApply_sum_any] at h; cases h; simp only [Acc.get, Option.some.injEq] at hg; rw [← hg]; simp
  · rw [foldApply_max_any] at h; cases h; simp only [Acc.get, Option.some.injEq] at hg; rw [← hg]
    intro hm
    by_cases hne : ds.filterMap asInt = []
    · simp [hne]
    · rw [foldl_max_eq hne]; congr 1; omega
  · rw [foldApply_avg_any] at h; cases h
    simp only [Acc.get, Int.zero_add] at hg
    split at hg
    · simp at hg
    · rename_i hc; simp only [Option.some.injEq] at hg; exact ⟨hg.symm, hc⟩
  · rw [foldApply_last_any] at h; cases h; simp only [Acc.get, Option.some.injEq] at hg; exact hg.symm
  · rw [foldApply_count_any] at h; cases h; simp only [Acc.get, Option.some.injEq] at hg; rw [← hg]; simp
  · intro vss hv
    have := histogram_of_all_values o bounds ds vss hv
    simp only [Acc.init] at this
    rw [this] at h; cases h; simp only [Acc.get, Option.some.injEq] at hg; exact hg.symm

/-! ### Which metrics a series has -/

theorem wf_new (kinds : KindMap) (ms : List Metric) : AMap.WF (newAggValuesMap kinds ms).values := by
  have : ∀ (ms : List Metric) (acc : AMap String (List AggVal)), AMap.WF acc →
      AMap.WF (ms.foldl (fun acc m => match kinds m.name with
        | none => acc
        | some cs => AMap.set acc m.name (cs.map newAggValue)) acc) := by
    intro ms
    induction ms with
    | nil => intro acc h; exact h
    | cons x r ih =>
      intro acc h
      simp only [List.foldl_cons]
      apply ih
      split
      · exact h
      · exact h.set _ _
  exact this ms [] (by simp)

theorem calculate_wf {vm vm' : ValuesMap} {x : Metric} {ts : Nat} (hw : AMap.WF vm.values)
    (h : vm.calculate x ts = some vm') : AMap.WF vm'.values := by
  simp only [ValuesMap.calculate] at h
  split at h
  · cases h; exact hw
  · split at h
    · simp at h
    · cases h; exact hw.set _ _

theorem recordAll_wf {ms : List Metric} {vm vm' : ValuesMap} {ts : Nat} (hw : AMap.WF vm.values)
    (h : vm.recordAll ms ts = some vm') : AMap.WF vm'.values := by
  induction ms generalizing vm with
  | nil => simp only [ValuesMap.recordAll, Option.some.injEq] at h; subst h; exact hw
  | cons x r ih =>
    simp only [ValuesMap.recordAll] at h
    split at h
    · simp at h
    · rename_i vm1 h1
      exact ih (calculate_wf hw h1) h

theorem recordMany_wf {rs : List (List Metric × Nat)} {vm vm' : ValuesMap} (hw : AMap.WF vm.values)
    (h : recordMany vm rs = some vm') : AMap.WF vm'.values := by
  induction rs generalizing vm with
  | nil => simp only [recordMany, Option.some.injEq] at h; subst h; exact hw
  | cons x r ih =>
    simp only [recordMany] at h
    split at h
    · simp at h
    · rename_i vm1 h1
      exact ih (recordAll_wf hw h1) h

/-! ### The time of a series -/

/-- A record touches a series when it carries one of the metrics `known`. -/
def Touches (known : String → Bool) (r : List Metric × Nat) : Bool := r.1.any (fun x => known x.name)

theorem calculate_ts {vm vm' : ValuesMap} {x : Metric} {ts : Nat} (h : vm.calculate x ts = some vm') :
    vm'.ts = (if (AMap.get vm.values x.name).isSome then ts else vm.ts) ∧
    ∀ m, (AMap.get vm'.values m).isSome = (AMap.get vm.values m).isSome := by
  simp only [ValuesMap.calculate] at h
  split at h
  · rename_i hn; cases h; simp [hn]
  · rename_i vs hvs
    split at h
    · simp at h
    · cases h
      refine ⟨by simp [hvs], fun m => ?_⟩
      by_cases he : x.name = m
      · subst he; simp [hvs]
      · simp [AMap.get_set_ne _ _ he]

theorem recordAll_ts {ms : List Metric} {vm vm' : ValuesMap} {ts : Nat} (h : vm.recordAll ms ts = some vm') :
    vm'.ts = (if ms.any (fun x => (AMap.get vm.values x.name).isSome) then ts else vm.ts) ∧
    ∀ m, (AMap.get vm'.values m).isSome = (AMap.get vm.values m).isSome := by
  induction ms generalizing vm with
  | nil => simp only [ValuesMap.recordAll, Option.some.injEq] at h; subst h; simp
  | cons x r ih =>
    simp only [ValuesMap.recordAll] at h
    split at h
    · simp at h
    · rename_i vm1 h1
      obtain ⟨t1, k1⟩ := calculate_ts h1
      obtain ⟨t2, k2⟩ := ih h
      refine ⟨?_, fun m => by rw [k2, k1]⟩
      rw [t2, t1]
      simp only [k1, List.any_cons]
      by_cases hx : (AMap.get vm.values x.name).isSome = true <;> simp [hx]

theorem recordMany_ts {known : String → Bool} {rs : List (List Metric × Nat)} {vm vm' : ValuesMap}
    (hk : ∀ m, (AMap.get vm.values m).isSome = known m) (h : recordMany vm rs = some vm') :
    vm'.ts = ((rs.filter (Touches known)).getLast?.map (·.2)).getD vm.ts := by
  induction rs generalizing vm with
  | nil => simp only [recordMany, Option.some.injEq] at h; subst h; simp
  | cons x r ih =>
    simp only [recordMany] at h
    split at h
    · simp at h
    · rename_i vm1 h1
      obtain ⟨t1, k1⟩ := recordAll_ts h1
      rw [ih (fun m => by rw [k1, hk]) h, t1]
      simp only [hk, List.filter_cons]
      have : (x.1.any fun y => known y.name) = Touches known x := rfl
      rw [this]
      cases hx : Touches known x with
      | false => simp
      | true =>
        simp only [if_true]
        cases hr : r.filter (Touches known) with
        | nil => simp
        | cons y t =>
          rw [List.getLast?_cons_cons]
          cases hl : (y :: t).getLast? with
          | none => simp at hl
          | some z => rfl

/-! ### The dumped group -/

/-- The dumped group of a series, exactly: its name and labels; the time of its last record that
carried a metric of the series; and, for the metrics named in its first record that are configured —
each once — the configured outputs in order, each reporting what it should about all recorded data
of the metric, and nothing else. -/
def Exact (kinds : KindMap) (recs : List (List Metric × Nat)) (nk : String × LabelKeys) (g : Group) : Prop :=
  g.name = nk.1 ∧ g.labels = getLabels nk.2 ∧
  ∃ names : List String, names.Nodup ∧
    (∀ m, m ∈ names ↔ (∃ r, recs.head? = some r ∧ m ∈ r.1.map (·.name)) ∧ (kinds m).isSome) ∧
    g.ts = ((recs.filter (fun r => r.1.any (fun x => x.name ∈ names))).getLast?.map (·.2)).getD 0 ∧
    ∃ outs : List (List Metric), g.metrics = outs.flatten ∧
      All2 (fun m out => All2 (fun c x => x.name = c.outputName ∧ Reports c (valuesOf m recs) x.data)
        ((kinds m).getD []) out) names outs

theorem exact_series {kinds : KindMap} {r0 : List Metric × Nat} {rs : List (List Metric × Nat)}
    {vm : ValuesMap} {ms : List Metric} {n : String} {k : LabelKeys}
    (hrm : recordMany (newAggValuesMap kinds r0.1) (r0 :: rs) = some vm) (hms : vm.getAll = some ms) :
    Exact kinds (r0 :: rs) (n, k) ⟨n, getLabels k, vm.ts, ms⟩ := by
  have hw : AMap.WF vm.values := recordMany_wf (wf_new kinds r0.1) hrm
  have hev := recordMany_evolves hrm
  have hmem : ∀ m, m ∈ AMap.keys vm.values ↔ m ∈ r0.1.map (·.name) ∧ (kinds m).isSome := by
    intro m
    have e := hev m
    rw [get_newAggValuesMap] at e
    by_cases hm : m ∈ r0.1.map (·.name)
    · rw [if_pos hm] at e
      cases hk : kinds m with
      | none =>
        simp only [hk, Option.map_none] at e
        simp [(AMap.get_eq_none_iff _ _).1 e]
      | some cs =>
        simp only [hk, Option.map_some] at e
        obtain ⟨vs', h', _⟩ := e
        have : m ∈ AMap.keys vm.values := by
          refine Decidable.by_contra fun hn => ?_
          rw [(AMap.get_eq_none_iff _ _).2 hn] at h'; simp at h'
        simp [this, hm]
    · rw [if_neg hm] at e
      simp only [] at e
      simp [(AMap.get_eq_none_iff _ _).1 e, hm]
  refine ⟨rfl, rfl, AMap.keys vm.values, hw, ?_, ?_, ?_⟩
  · intro m; rw [hmem]; simp
  · have hk : ∀ m, (AMap.get (newAggValuesMap kinds r0.1).values m).isSome =
        decide (m ∈ AMap.keys vm.values) := by
      intro m
      rw [get_newAggValuesMap, Bool.eq_iff_iff, decide_eq_true_iff, hmem]
      by_cases hm : m ∈ r0.1.map (·.name)
      · rw [if_pos hm]; simp [hm]
      · rw [if_neg hm]; simp [hm]
    have := recordMany_ts hk hrm
    simp only [this]
    rfl
  · simp only [ValuesMap.getAll, Option.map_eq_some_iff] at hms
    obtain ⟨ll, hll, rfl⟩ := hms
    refine ⟨ll, rfl, ?_⟩
    have h2 := mapOpt_all2 hll
    have h3 : All2 (fun (p : String × List AggVal) out =>
        All2 (fun c x => x.name = c.outputName ∧ Reports c (valuesOf p.1 (r0 :: rs)) x.data)
          ((kinds p.1).getD []) out) vm.values ll := by
      refine h2.imp fun p out hp hout hpo => ?_
      have hgp := AMap.get_of_mem hw hp
      have hin := (hmem p.1).1 (List.mem_map.2 ⟨p, hp, rfl⟩)
      have e := hev p.1
      rw [get_newAggValuesMap, if_pos hin.1] at e
      obtain ⟨cs, hcs⟩ := Option.isSome_iff_exists.1 hin.2
      simp only [hcs, Option.map_some] at e
      obtain ⟨vs', h', hE⟩ := e
      rw [hgp] at h'; cases h'
      simp only [hcs, Option.getD_some]
      clear hgp hin hcs hp hout
      generalize hp2 : p.2 = l at hpo hE
      clear hp2
      induction cs generalizing l out with
      | nil =>
        simp only [List.map_nil] at hE; cases hE
        simp only [mapOpt, Option.some.injEq] at hpo; subst hpo; exact .nil
      | cons c t ih =>
        simp only [List.map_cons] at hE
        cases hE with
        | @cons _ b _ bs' hh ht =>
          obtain ⟨y, ys, h1, h4, rfl⟩ := mapOpt_cons_eq_some.1 hpo
          refine .cons ?_ (ih _ _ h4 ht)
          simp only [AggVal.get, Option.map_eq_some_iff] at h1
          obtain ⟨d, hd, rfl⟩ := h1
          exact ⟨hh.1, acc_reports hh.2 hd⟩
    simp only [AMap.keys]
    clear h2 hll
    generalize vm.values = l at h3
    induction h3 with
    | nil => exact .nil
    | cons h _ ih => exact .cons h ih

/-- C02 / C04, for all recorded data.  After any history, a Dump returns exactly one group per series
with records since its last dump, and this group is exactly as configured (`Exact`).
(Missing: `max` over negative values, see `max_of_negative_values_is_zero`; histograms with
other boundaries, see `histogram_other_boundaries_merged`.) -/
theorem dump_series_exact_partial {kinds : KindMap} (ops : List Op) {st st' : State} {out gs : List Group}
    (h : run kinds [] ops = some (st, out)) (hd : dump st = some (st', gs)) :
    ∃ ks : List (String × LabelKeys), ks.Nodup ∧
      (∀ nk, nk ∈ ks ↔ pending ops nk.1 nk.2 ≠ []) ∧
      All2 (fun nk g => Exact kinds (pending ops nk.1 nk.2) nk g) ks gs :=
  dump_series_of (fun _ _ _ _ _ _ hrm hms => exact_series hrm hms) ops h hd

/-- Non-vacuity: an integer and a histogram recorded into sum, average and histogram, one series. -/
example :
    let kinds : KindMap := fun n => if n = "m" then
      some [⟨"m_sum", .sum, []⟩, ⟨"m_avg", .avg, []⟩, ⟨"m_h", .histogram, [10]⟩] else none
    let g (d : MData) (t : Nat) : Group := ⟨"net", [], t, [⟨"m", d⟩, ⟨"x", .int 1⟩]⟩
    ∃ st st' out, run kinds [] [.aggregate (g (.int 3) 7) [], .aggregate (g (.hist ⟨17, 3, [10], [2]⟩) 9) []]
        = some (st, out) ∧
      dump st = some (st', [⟨"net", [], 9,
        [⟨"m_sum", .int 20⟩, ⟨"m_avg", .int 5⟩, ⟨"m_h", .hist ⟨20, 4, [10], [3]⟩⟩]⟩]) := by
  refine ⟨_, _, _, rfl, rfl⟩

/-! ### The key of a series -/

/-- The key always has 37 entries: those of the first 37 selectors, then blank ones
(label_key.go:31-59). -/
theorem label_keys_shape (sels : List Selector) (l : Labels) :
    (getLabelKeys sels l).length = 37 ∧
    ∀ i, i < 37 → (getLabelKeys sels l)[i]? =
      some (match sels[i]? with
        | some s => keyOf l s
        | none => ⟨"", [], .unset⟩) := by
  have hlen : (getLabelKeys sels l).length = 37 := by
    simp only [getLabelKeys, maxLabelKeySize, List.length_append, List.length_map, List.length_take,
      List.length_replicate]
    omega
  refine ⟨hlen, fun i hi => ?_⟩
  simp only [getLabelKeys, maxLabelKeySize, List.getElem?_append, List.length_map, List.length_take]
  split
  · rename_i h
    have : i < sels.length := by omega
    simp [List.getElem?_eq_getElem this, hi]
  · rename_i h
    have h1 : sels.length ≤ i := by omega
    rw [List.getElem?_eq_none h1, List.getElem?_replicate, if_pos (by omega)]
    rfl

example : (getLabelKeys [⟨"pod", .string⟩] [("pod", .str (bs "p"))])[0]? = some ⟨"pod", bs "p", .string⟩ ∧
    (getLabelKeys [⟨"pod", .string⟩] [("pod", .str (bs "p"))])[1]? = some ⟨"", [], .unset⟩ := by
  constructor <;> rfl

end Kindling.Agg
