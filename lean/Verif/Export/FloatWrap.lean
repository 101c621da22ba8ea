import Verif.Export.Float
/-
C116 without the bound: what the Prometheus exporter serves after any history, however large the totals.  The code is that of
`Verif.Export.Float` (collector/pkg/component/consumer/exporter/prometheusexporter) and `Verif.Agg.Machine`
(collector/pkg/aggregator/defaultaggregator); nothing is defined here.
-/
namespace Kindling.Export.FloatWrap
open Kindling Kindling.Agg Kindling.Export.Sanitize Kindling.Export.Prom

theorem crun_append (kinds : KindMap) (ex : Int) (a b : List COp) (st : CState) :
    Machine.crun kinds ex st (a ++ b) =
      (Machine.crun kinds ex st a).bind (fun p => (Machine.crun kinds ex p.1 b).map (fun q => (q.1, p.2 ++ q.2))) := by
  induction a generalizing st with
  | nil => simp [Machine.crun]
  | cons op r ih =>
    simp only [List.cons_append, Machine.crun]
    cases Machine.cstep kinds ex st op with
    | none => rfl
    | some p =>
      simp only [ih]
      cases Machine.crun kinds ex p.1 r with
      | none => rfl
      | some q => simp only [Option.bind_some, Option.map_some, Option.map_map, Function.comp_def, List.append_assoc]

theorem exportAll_crun (st : CState) (now : Int) (rs : List Adapted) :
    (Float.exportAll st now rs).map (fun s => (s, ([] : List Group))) =
      Machine.crun promKinds promExpiration st ((rs.filter (·.isMetric)).map (fun r => .record ⟨"", r.labels, r.ts, r.metrics⟩ now)) := by
  induction rs generalizing st with
  | nil => rfl
  | cons r rs ih =>
    simp only [Float.exportAll]
    by_cases h : r.isMetric = true
    · simp only [h, if_true, List.filter_cons_of_pos, List.map_cons, Machine.crun, Machine.cstep]
      cases Machine.caggregate promKinds st ⟨"", r.labels, r.ts, r.metrics⟩ now with
      | none => rfl
      | some s =>
        simp only [Option.map_some, ← ih s, Option.map_map, Function.comp_def, List.nil_append]
    · simp only [h, Bool.false_eq_true, if_false, List.filter_cons_of_neg, not_false_eq_true]
      exact ih st

theorem prun_crun {t : Tables} {valid : List Nat → List (String × Bytes) → Bool} {net : Group → List Adapted}
    {ops : List POp} {st st' : CState} {out : List Sample} (h : Float.prun t valid net st ops = some (st', out)) :
    ∃ gs, Machine.crun promKinds promExpiration st (ops.flatMap (recordsOf net)) = some (st', gs) := by
  induction ops generalizing st out with
  | nil =>
    simp only [Float.prun, Option.some.injEq, Prod.mk.injEq] at h
    obtain ⟨rfl, _⟩ := h
    exact ⟨[], rfl⟩
  | cons op ops ih =>
    simp only [Float.prun] at h
    cases hs : Float.pstep t valid net st op with
    | none => simp [hs] at h
    | some p =>
      obtain ⟨s1, o1⟩ := p
      simp only [hs, Option.map_eq_some_iff, Prod.mk.injEq] at h
      obtain ⟨q, hq, rfl, _⟩ := h
      obtain ⟨gs, hgs⟩ := ih hq
      rw [List.flatMap_cons, crun_append]
      cases op with
      | consume g now =>
        simp only [Float.pstep, Option.map_eq_some_iff, Prod.mk.injEq] at hs
        obtain ⟨s, hs, rfl, _⟩ := hs
        have := exportAll_crun st now (adapt net g)
        rw [hs] at this
        refine ⟨[] ++ gs, ?_⟩
        simp only [recordsOf]
        rw [← this]
        simp only [Option.map_some, Option.bind_some]
        rw [hgs]; rfl
      | collect now =>
        simp only [Float.pstep, Float.collect] at hs
        cases hd : Machine.cdump promExpiration st now with
        | none => simp [hd] at hs
        | some p =>
          obtain ⟨s2, g2⟩ := p
          simp only [hd, Option.map_eq_some_iff, Prod.mk.injEq] at hs
          obtain ⟨_, _, rfl, _⟩ := hs
          refine ⟨(g2 ++ []) ++ gs, ?_⟩
          simp only [recordsOf, Machine.crun, Machine.cstep, hd, Option.map_some, Option.bind_some]
          rw [hgs]; rfl

/-- The state of the exporter after any history: every live label set holds what was recorded for it, in 64 bits. -/
theorem live_wrapped {t : Tables} {valid : List Nat → List (String × Bytes) → Bool} {net : Group → List Adapted}
    {ops : List POp} {st1 : CState} {out : List Sample} (h : Float.prun t valid net [] ops = some (st1, out)) {k : LabelKeys} {r0 : CRec}
    {rs : List CRec} (hl : live net ops k = r0 :: rs) :
    ∃ st e, st1 = Machine.wrapC st ∧ clookup st "" k = some e ∧
      recordMany (newAggValuesMap (withDefault promKinds) r0.1) (plain (r0 :: rs)) = some e.vm ∧ e.vm.ts = lastTs (r0 :: rs) := by
  obtain ⟨gs', hg'⟩ := prun_crun h
  obtain ⟨st, gs, hg, rfl, -⟩ := Machine.cumulative_refines _ hg'
  have hr := (crun_rep (crep_init promKinds) hg).2 "" k
  simp only [live, cpending] at hl
  simp only [hl] at hr
  obtain ⟨e, h1, h2, _⟩ := hr
  exact ⟨st, e, rfl, h1, h2, recordMany_ts (r0 :: rs) h2⟩

/-- A collection hands out every series that is there. -/
theorem dump_has {st st2 : CState} {now ex : Int} {gs : List Group} (hd : Machine.cdump ex (Machine.wrapC st) now = some (st2, gs))
    {n : String} {k : LabelKeys} {e : EVM} (he : clookup st n k = some e) :
    ∃ ms, Machine.vmGetAll (Machine.wrapVm e.vm) = some ms ∧ ⟨n, getLabels k, e.vm.ts, ms⟩ ∈ gs := by
  simp only [Machine.cdump, Option.map_eq_some_iff, Prod.mk.injEq] at hd
  obtain ⟨l, hl, _, rfl⟩ := hd
  simp only [clookup, Option.bind_eq_some_iff] at he
  obtain ⟨r, hr, he⟩ := he
  have hr' : AMap.get (Machine.wrapC st) n = some (Machine.wrapCRec r) := by rw [Machine.wrapC, Machine.mapv_get, hr]; rfl
  have he' : AMap.get (Machine.wrapCRec r) k = some (Machine.wrapEvm e) := by rw [Machine.wrapCRec, Machine.mapv_get, he]; rfl
  obtain ⟨y, hy, hyy⟩ := mapOpt_some hl (AMap.mem_of_get hr')
  simp only [Machine.crecDump] at hyy
  obtain ⟨g, hg, hgg⟩ := mapOpt_some hyy (AMap.mem_of_get he')
  simp only [Option.map_eq_some_iff] at hgg
  obtain ⟨ms, hms, rfl⟩ := hgg
  exact ⟨ms, hms, List.mem_flatten.2 ⟨y, hy, hg⟩⟩

theorem exported_wrapped {t : Tables} {valid : List Nat → List (String × Bytes) → Bool} {net : Group → List Adapted}
    {ops : List POp} {st st' : CState} {out ss : List Sample} {now : Int}
    (h : Float.prun t valid net [] ops = some (st, out)) (hc : Float.collect t valid st now = some (st', ss)) {k : LabelKeys} {r0 : CRec}
    {rs : List CRec} (hl : live net ops k = r0 :: rs) {m : String} (hm : m ∈ r0.1.map (·.name)) {cs : List KindConfig} {c : KindConfig}
    (hw : withDefault promKinds m = some cs) (hcs : c ∈ cs) {acc : Acc} {d : MData}
    (hf : foldApply (Acc.init c) (valuesOf m (plain (r0 :: rs))) = some acc) (hd : Machine.get (Machine.wrap acc) = some d) :
    ∃ y, Float.sampleOf t valid (labelText (getLabels k)) (lastTs (r0 :: rs) / 1000) ⟨c.outputName, d⟩ = some y ∧ ∀ s ∈ y, s ∈ ss := by
  obtain ⟨s0, e, rfl, he, hrm, hts⟩ := live_wrapped h hl
  unfold Float.collect at hc
  cases hdump : Machine.cdump promExpiration (Machine.wrapC s0) now with
  | none => simp [hdump] at hc
  | some p =>
    obtain ⟨s2, gs⟩ := p
    simp only [hdump, Option.map_eq_some_iff, Prod.mk.injEq] at hc
    obtain ⟨ll, hll, _, rfl⟩ := hc
    obtain ⟨ms, hms, hg⟩ := dump_has hdump he
    obtain ⟨y, hy, hyy⟩ := mapOpt_some hll hg
    simp only [Float.groupSamples, Option.map_eq_some_iff] at hyy
    obtain ⟨ys, hys, rfl⟩ := hyy
    have hev := recordMany_evolves hrm m
    rw [get_newAggValuesMap, if_pos hm, hw] at hev
    simp only [Option.map_some] at hev
    obtain ⟨vs', hvs', hE⟩ := hev
    obtain ⟨v', hv'mem, hname, hfold⟩ := All2.mem_left hE (List.mem_map.2 ⟨c, hcs, rfl⟩ : newAggValue c ∈ cs.map newAggValue)
    have hacc : v'.acc = acc := by
      have h1 : foldApply (Acc.init c) (valuesOf m (plain (r0 :: rs))) = some v'.acc := hfold
      rw [hf] at h1
      exact (Option.some.inj h1).symm
    have hget : Machine.getVal (Machine.wrapVal v') = some ⟨c.outputName, d⟩ := by
      simp only [Machine.getVal, Machine.wrapVal, hacc, hd, Option.map_some, hname]
      rfl
    have hvs'' : AMap.get (Machine.wrapVm e.vm).values m = some (vs'.map Machine.wrapVal) := by
      have : AMap.get (Machine.wrapVm e.vm).values m = (AMap.get e.vm.values m).map (·.map Machine.wrapVal) := Machine.mapv_get _ _ _
      rw [this, hvs']; rfl
    simp only [Machine.vmGetAll, Option.map_eq_some_iff] at hms
    obtain ⟨l2, hl2, rfl⟩ := hms
    obtain ⟨a, ha, haa⟩ := mapOpt_some hl2 (AMap.mem_of_get hvs'')
    obtain ⟨z, hz, hzz⟩ := mapOpt_some haa (List.mem_map.2 ⟨v', hv'mem, rfl⟩)
    rw [hget] at hzz
    cases hzz
    obtain ⟨w, hw', hww⟩ := mapOpt_some hys (List.mem_flatten.2 ⟨a, ha, hz⟩)
    rw [hts] at hww
    exact ⟨w, hww, fun s hs => List.mem_flatten.2 ⟨_, hy, List.mem_flatten.2 ⟨w, hw', hs⟩⟩⟩

/-- C116, however large the total: every metric of a live label set that is not specially configured is exported as the float nearest to
the total of everything recorded for it while the label set was alive, reduced to 64 bits. -/
theorem counter_wraps {t : Tables} {valid : List Nat → List (String × Bytes) → Bool} {net : Group → List Adapted}
    {ops : List POp} {st st' : CState} {out ss : List Sample} {now : Int}
    (h : Float.prun t valid net [] ops = some (st, out)) (hc : Float.collect t valid st now = some (st', ss)) {k : LabelKeys} {r0 : CRec}
    {rs : List CRec} (hl : live net ops k = r0 :: rs) {m : String} (hm : m ∈ r0.1.map (·.name))
    (hk : m ≠ rttName ∧ m ≠ topoHist ∧ m ≠ entityHist) {n : List Nat} (hn : sanitize t (runes m) true = .ok n)
    (hv : valid n (labelText (getLabels k)) = true) :
    .counter n (labelText (getLabels k)) (Float.f64 ((total (valuesOf m (plain (r0 :: rs)))).bmod (2 ^ 64))) (lastTs (r0 :: rs) / 1000) ∈ ss := by
  have hw : withDefault promKinds m = some [⟨m, .sum, []⟩] := by
    simp [withDefault, promKinds, hk.1, hk.2.1, hk.2.2]
  obtain ⟨y, hy, hsub⟩ := exported_wrapped h hc hl hm hw (List.mem_singleton.2 rfl) (foldApply_total 0 _) rfl
  simp only [Float.sampleOf, hn, hv, if_true, Option.some.injEq, Int.zero_add] at hy
  subst hy
  exact hsub _ (List.mem_singleton.2 rfl)

/-- C116: the round-trip time is exported as the float nearest to the last recorded value, whatever else was recorded. -/
theorem rtt_float {t : Tables} {valid : List Nat → List (String × Bytes) → Bool} {net : Group → List Adapted}
    {ops : List POp} {st st' : CState} {out ss : List Sample} {now : Int}
    (h : Float.prun t valid net [] ops = some (st, out)) (hc : Float.collect t valid st now = some (st', ss)) {k : LabelKeys} {r0 : CRec}
    {rs : List CRec} (hl : live net ops k = r0 :: rs) (hm : rttName ∈ r0.1.map (·.name)) {vs : List Int} {v : Int}
    (hvs : valuesOf rttName (plain (r0 :: rs)) = (vs ++ [v]).map MData.int)
    {n : List Nat} (hn : sanitize t (runes rttName) true = .ok n) (hv : valid n (labelText (getLabels k)) = true) :
    .counter n (labelText (getLabels k)) (Float.f64 v) (lastTs (r0 :: rs) / 1000) ∈ ss := by
  have hw : withDefault promKinds rttName = some [⟨rttName, .last, []⟩] := by decide
  have hf : foldApply (Acc.init ⟨rttName, .last, []⟩) (valuesOf rttName (plain (r0 :: rs))) = some (.last v) := by
    rw [hvs, show Acc.init ⟨rttName, .last, []⟩ = .last 0 from rfl, foldApply_last]; simp
  obtain ⟨y, hy, hsub⟩ := exported_wrapped h hc hl hm hw (List.mem_singleton.2 rfl) hf rfl
  simp only [Float.sampleOf, hn, hv, if_true, Option.some.injEq] at hy
  subst hy
  exact hsub _ (List.mem_singleton.2 rfl)

/-- C116, however large the sum: the request time histograms are exported with the count and the counts at the boundaries reduced to 64
bits without a sign, and the float nearest to the sum reduced to 64 bits with one. -/
theorem histogram_wraps {t : Tables} {valid : List Nat → List (String × Bytes) → Bool} {net : Group → List Adapted}
    {ops : List POp} {st st' : CState} {out ss : List Sample} {now : Int}
    (h : Float.prun t valid net [] ops = some (st, out)) (hc : Float.collect t valid st now = some (st', ss)) {k : LabelKeys} {r0 : CRec}
    {rs : List CRec} (hl : live net ops k = r0 :: rs) {m : String} (hm : m ∈ r0.1.map (·.name)) (hk : m = topoHist ∨ m = entityHist)
    {vss : List (List Int)} (hvs : All2 (Carries promBounds) (valuesOf m (plain (r0 :: rs))) vss)
    {n : List Nat} (hn : sanitize t (runes m) true = .ok n) (hv : valid n (labelText (getLabels k)) = true) :
    ∃ b, .hist n (labelText (getLabels k)) (vss.flatten.length % 2 ^ 64) (Float.f64 (vss.flatten.sum.bmod (2 ^ 64))) b
        (lastTs (r0 :: rs) / 1000) ∈ ss ∧
      ∀ x, AMap.get b x = if x ∈ promBounds then some (vss.flatten.countP (· ≤ x) % 2 ^ 64) else none := by
  have hw : withDefault promKinds m = some [⟨m, .histogram, promBounds⟩] := by
    rcases hk with rfl | rfl <;> decide
  have hf := histogram_of_all_values m promBounds _ vss hvs
  obtain ⟨y, hy, hsub⟩ := exported_wrapped h hc hl hm hw (List.mem_singleton.2 rfl) hf rfl
  obtain ⟨b, hb, hx⟩ := bucketMap_get (fun b => vss.flatten.countP (· ≤ b) % 2 ^ 64) promBounds []
  rw [← Float.bucketMap_exact _ _ _ Float.bounds_exact] at hb
  have hb' : Float.bucketMap promBounds ((promBounds.map (fun b => vss.flatten.countP (· ≤ b))).map Machine.u64) [] = some b := by
    rw [List.map_map]; exact hb
  simp only [Float.sampleOf, Machine.wrapHist, histOf, hb', hn, hv, if_true, Option.some.injEq] at hy
  subst hy
  refine ⟨b, hsub _ (List.mem_singleton.2 rfl), ?_⟩
  intro x
  rw [hx x, AMap.get_nil]

/-- Finding: a counter whose total lies between 2^63 and 2^64 is exported as a negative number, whatever history led there. -/
theorem counter_negative {t : Tables} {valid : List Nat → List (String × Bytes) → Bool} {net : Group → List Adapted}
    {ops : List POp} {st st' : CState} {out ss : List Sample} {now : Int}
    (h : Float.prun t valid net [] ops = some (st, out)) (hc : Float.collect t valid st now = some (st', ss)) {k : LabelKeys} {r0 : CRec}
    {rs : List CRec} (hl : live net ops k = r0 :: rs) {m : String} (hm : m ∈ r0.1.map (·.name))
    (hk : m ≠ rttName ∧ m ≠ topoHist ∧ m ≠ entityHist) {n : List Nat} (hn : sanitize t (runes m) true = .ok n)
    (hv : valid n (labelText (getLabels k)) = true) (h0 : 2 ^ 63 ≤ total (valuesOf m (plain (r0 :: rs))))
    (h1 : total (valuesOf m (plain (r0 :: rs))) < 2 ^ 64) :
    ∃ x ts, x < 0 ∧ .counter n (labelText (getLabels k)) x ts ∈ ss := by
  refine ⟨_, _, ?_, counter_wraps h hc hl hm hk hn hv⟩
  have e : (total (valuesOf m (plain (r0 :: rs)))).bmod (2 ^ 64) ≤ -1 := by
    rw [Int.bmod_def]; split <;> omega
  have h2 := Float.f64_spec.2.1 _ _ e
  rw [Float.f64_spec.1 (-1) (by decide)] at h2
  omega

/-- The hypotheses hold, and the counter does fall below zero. -/
example : ∃ k r0 rs, getLabelsKeys (Float.took 1).labels = .ok k ∧
    live (fun _ => []) [.consume (Float.took (2 ^ 62)) 0, .collect 1, .consume (Float.took (2 ^ 62)) 2] k = r0 :: rs ∧
    "duration" ∈ r0.1.map (·.name) ∧ total (valuesOf "duration" (plain (r0 :: rs))) = 2 ^ 63 ∧
    sanitize ascii (runes "duration") true = .ok (runes "duration") := by
  refine ⟨_, ([⟨"duration", .int (2 ^ 62)⟩], 5000, 0), [([⟨"duration", .int (2 ^ 62)⟩], 5000, 2)], rfl, ?_, ?_, ?_, ?_⟩ <;>
    decide +kernel

/-- The hypotheses of `rtt_float`, past the bound of `Float.floats_exported`; those of `histogram_wraps` are met by `Prom.demo`. -/
example : ∃ k r0 rs, getLabelsKeys (rtt 9).labels = .ok k ∧
    live (fun _ => []) [.consume (rtt (2 ^ 63 - 1)) 0, .collect 1, .consume (rtt 9) 2] k = r0 :: rs ∧ rttName ∈ r0.1.map (·.name) ∧
    valuesOf rttName (plain (r0 :: rs)) = (([2 ^ 63 - 1] : List Int) ++ [9]).map MData.int := by
  refine ⟨_, ([⟨rttName, .int (2 ^ 63 - 1)⟩], 5000, 0), [([⟨rttName, .int 9⟩], 5000, 2)], rfl, ?_, ?_, ?_⟩ <;> decide +kernel

end Kindling.Export.FloatWrap
