import Verif.Agg.Props
/-
Model of collector/pkg/aggregator/defaultaggregator/cumulative_aggregator.go and C05.

Simplifications: times are integers (nanoseconds); the zero `time.Time` of a series that was never
updated is `none` and lies before every other time.  Each exported call is one atomic step.
-/
namespace Kindling.Agg
open Kindling

/-- cumulative_aggregator.go:97-100 `expiredValuesMap`. -/
structure EVM where
  vm : ValuesMap
  update : Option Int
deriving DecidableEq, Repr

/-- cumulative_aggregator.go:118-138: metrics without configuration get one `sum` output under their
own name. -/
def withDefault (kinds : KindMap) : KindMap := fun m =>
  match kinds m with
  | some cs => some cs
  | none => some [⟨m, .sum, []⟩]

/-- cumulative_aggregator.go:118-138 `newExpiredAggValuesMapWithDefaultSumKind`. -/
def newEVM (kinds : KindMap) (ms : List Metric) : EVM :=
  { vm := newAggValuesMap (withDefault kinds) ms, update := none }

/-- cumulative_aggregator.go:102-116 `calculateWithExpired` (same body as agg_values.go:104-117 plus
the update time). -/
def EVM.calculate (e : EVM) (m : Metric) (ts : Nat) (now : Int) : Option EVM :=
  match AMap.get e.vm.values m.name with
  | none => some e
  | some _ => (e.vm.calculate m ts).map (fun vm => { vm := vm, update := some now })

/-- cumulative_aggregator.go:34-36: all metrics of a record. -/
def EVM.recordAll (e : EVM) : List Metric → Nat → Int → Option EVM
  | [], _, _ => some e
  | m :: ms, ts, now => match e.calculate m ts now with
    | none => none
    | some e' => e'.recordAll ms ts now

abbrev CRecorder := AMap LabelKeys EVM
abbrev CState := AMap String CRecorder

/-- cumulative_aggregator.go:25-37 `RecordWithDefaultSumKindAgg`. -/
def CRecorder.record (kinds : KindMap) (r : CRecorder) (key : LabelKeys) (ms : List Metric) (ts : Nat) (now : Int) :
    Option CRecorder :=
  ((match AMap.get r key with | some e => e | none => newEVM kinds ms).recordAll ms ts now).map
    (fun e => AMap.set r key e)

/-- cumulative_aggregator.go:59-72 `AggregatorWithAllLabelsAndMetric`; `none` is a panic. -/
def caggregate (kinds : KindMap) (st : CState) (g : Group) (now : Int) : Option CState :=
  match getLabelsKeys g.labels with
  | .ok key =>
    (((AMap.get st g.name).getD []).record kinds key g.metrics g.ts now).map (fun r => AMap.set st g.name r)
  | _ => none

/-- cumulative_aggregator.go:48: `expirationTime.After(update)`. -/
def expiredAt (limit : Int) (update : Option Int) : Bool :=
  match update with
  | none => true
  | some u => decide (u < limit)

/-- cumulative_aggregator.go:44-57 `removeExpired`. -/
def CRecorder.removeExpired (r : CRecorder) (limit : Int) : CRecorder :=
  r.filter (fun p => !expiredAt limit p.2.update)

/-- value_recorder.go:44-54 `dump` on the embedded recorder. -/
def CRecorder.dump (name : String) (r : CRecorder) : Option (List Group) :=
  mapOpt (fun p => p.2.vm.getAll.map (fun ms => ⟨name, getLabels p.1, p.2.vm.ts, ms⟩)) r

/-- cumulative_aggregator.go:74-87 `DumpAndRemoveExpired`: dump everything, then drop expired series. -/
def cdump (expiration : Int) (st : CState) (now : Int) : Option (CState × List Group) :=
  (mapOpt (fun p => CRecorder.dump p.1 p.2) st).map
    (fun gs => (st.map (fun p => (p.1, p.2.removeExpired (now - expiration))), gs.flatten))

inductive COp where
  | record (g : Group) (now : Int)
  | dump (now : Int)

def cstep (kinds : KindMap) (expiration : Int) (st : CState) : COp → Option (CState × List Group)
  | .record g now => (caggregate kinds st g now).map (fun s => (s, []))
  | .dump now => cdump expiration st now

def crun (kinds : KindMap) (expiration : Int) : CState → List COp → Option (CState × List Group)
  | st, [] => some (st, [])
  | st, op :: ops => match cstep kinds expiration st op with
    | none => none
    | some (st', out) => (crun kinds expiration st' ops).map (fun p => (p.1, out ++ p.2))

/-! ## Specification -/

/-- One record of a series: metrics, timestamp, arrival time. -/
abbrev CRec := List Metric × Nat × Int

abbrev CPending := String → LabelKeys → List CRec

/-- Arrival time of the last record that carries a metric of the first one. -/
def lastUpdate : List CRec → Option Int
  | [] => none
  | r0 :: rs => (r0 :: rs).foldl (fun u r => if r.1.any (fun x => r0.1.any (fun y => y.name = x.name)) then some r.2.2 else u) none

/-- Records of each live series: a record extends its series, a dump at time `now` forgets the series
not updated for longer than the expiration. -/
def CPending.step (expiration : Int) (A : CPending) : COp → CPending
  | .record g now => fun n k =>
      if n = g.name ∧ getLabelsKeys g.labels = .ok k then A n k ++ [(g.metrics, g.ts, now)] else A n k
  | .dump now => fun n k => if expiredAt (now - expiration) (lastUpdate (A n k)) then [] else A n k

def cpending (expiration : Int) (ops : List COp) : CPending :=
  ops.foldl (CPending.step expiration) (fun _ _ => [])

def plain (rs : List CRec) : List (List Metric × Nat) := rs.map (fun r => (r.1, r.2.1))

/-! ## Helper lemmas -/

theorem keys_calculate {vm vm' : ValuesMap} {x : Metric} {ts : Nat} (h : vm.calculate x ts = some vm') (m : String) :
    (AMap.get vm'.values m).isSome = (AMap.get vm.values m).isSome := by
  have := calculate_evolves h m
  cases hg : AMap.get vm.values m with
  | none => simp only [hg] at this; simp [this]
  | some vs => simp only [hg] at this; obtain ⟨vs', h', _⟩ := this; simp [h']

theorem evm_recordAll {e e' : EVM} {ms : List Metric} {ts : Nat} {now : Int} (h : e.recordAll ms ts now = some e') :
    e.vm.recordAll ms ts = some e'.vm ∧
      e'.update = (if ms.any (fun x => (AMap.get e.vm.values x.name).isSome) then some now else e.update) := by
  induction ms generalizing e with
  | nil => simp only [EVM.recordAll, Option.some.injEq] at h; subst h; simp [ValuesMap.recordAll]
  | cons x r ih =>
    simp only [EVM.recordAll, EVM.calculate] at h
    cases hg : AMap.get e.vm.values x.name with
    | none =>
      simp only [hg] at h
      obtain ⟨h1, h2⟩ := ih h
      have hc : e.vm.calculate x ts = some e.vm := by simp [ValuesMap.calculate, hg]
      refine ⟨by simp [ValuesMap.recordAll, hc, h1], ?_⟩
      rw [h2]; simp [hg]
    | some vs =>
      simp only [hg] at h
      cases hc : e.vm.calculate x ts with
      | none => simp [hc] at h
      | some vm1 =>
        simp only [hc, Option.map_some] at h
        obtain ⟨h1, h2⟩ := ih h
        refine ⟨by simp [ValuesMap.recordAll, hc, h1], ?_⟩
        rw [h2]
        simp only [hg, List.any_cons, Option.isSome_some, Bool.true_or, ↓reduceIte, ite_self]

def clookup (st : CState) (n : String) (k : LabelKeys) : Option EVM :=
  (AMap.get st n).bind (fun r => AMap.get r k)

def CWF (st : CState) : Prop := AMap.WF st ∧ ∀ p ∈ st, AMap.WF p.2

/-- The state holds exactly the accumulated records of the live series. -/
def CRep (kinds : KindMap) (st : CState) (A : CPending) : Prop :=
  CWF st ∧ ∀ n k, match A n k with
    | [] => clookup st n k = none
    | r :: rs => ∃ e, clookup st n k = some e ∧
        recordMany (newAggValuesMap (withDefault kinds) r.1) (plain (r :: rs)) = some e.vm ∧
        e.update = lastUpdate (r :: rs)

theorem clookup_set (st : CState) (n : String) (r : CRecorder) (n' : String) (k' : LabelKeys) :
    clookup (AMap.set st n r) n' k' = if n = n' then AMap.get r k' else clookup st n' k' := by
  simp only [clookup, AMap.get_set]; split <;> simp

theorem names_recordMany {kinds : KindMap} {r : List Metric} {rs : List (List Metric × Nat)} {vm : ValuesMap}
    (h : recordMany (newAggValuesMap (withDefault kinds) r) rs = some vm) (m : String) :
    (AMap.get vm.values m).isSome = r.any (fun y => y.name = m) := by
  have := recordMany_evolves h m
  rw [get_newAggValuesMap] at this
  have hd : ∃ cs, withDefault kinds m = some cs := by
    simp only [withDefault]; split <;> exact ⟨_, rfl⟩
  obtain ⟨cs, hcs⟩ := hd
  by_cases hm : m ∈ r.map (·.name)
  · simp only [hm, ↓reduceIte, hcs, Option.map_some] at this
    obtain ⟨vs', h', _⟩ := this
    obtain ⟨x, hx, rfl⟩ := List.mem_map.1 hm
    simp only [h', Option.isSome_some]
    symm; rw [List.any_eq_true]; exact ⟨x, hx, by simp⟩
  · simp only [hm, ↓reduceIte] at this
    simp only [this, Option.isSome_none]
    symm; rw [List.any_eq_false]
    intro x hx hxm
    simp only [decide_eq_true_eq] at hxm
    exact hm (List.mem_map.2 ⟨x, hx, hxm⟩)

theorem lastUpdate_snoc (r0 : CRec) (rs : List CRec) (r : CRec) :
    lastUpdate (r0 :: rs ++ [r]) =
      if r.1.any (fun x => r0.1.any (fun y => y.name = x.name)) then some r.2.2 else lastUpdate (r0 :: rs) := by
  simp [lastUpdate, List.foldl_append]

theorem cstep_rep {kinds : KindMap} {ex : Int} {st st' : CState} {A : CPending} {op : COp} {out : List Group}
    (h : CRep kinds st A) (hs : cstep kinds ex st op = some (st', out)) : CRep kinds st' (A.step ex op) := by
  obtain ⟨hw, hrep⟩ := h
  cases op with
  | record g now =>
    simp only [cstep, caggregate, Option.map_eq_some_iff, Prod.mk.injEq] at hs
    obtain ⟨a, hs, rfl, rfl⟩ := hs
    split at hs
    · rename_i key hkey
      simp only [CRecorder.record, Option.map_map, Option.map_eq_some_iff, Function.comp_apply] at hs
      obtain ⟨e', h1, rfl⟩ := hs
      have hwr : AMap.WF ((AMap.get st g.name).getD []) := by
        cases hget : AMap.get st g.name with
        | none => exact AMap.wf_nil
        | some r => exact hw.2 _ (AMap.mem_of_get hget)
      have hwset : CWF (AMap.set st g.name (AMap.set ((AMap.get st g.name).getD []) key e')) := by
        refine ⟨hw.1.set _ _, ?_⟩
        intro p hp
        rcases mem_set hp with rfl | hp
        · exact hwr.set _ _
        · exact hw.2 p hp
      refine ⟨hwset, ?_⟩
      intro n k
      have hl : AMap.get ((AMap.get st g.name).getD []) k = clookup st g.name k := by
        simp only [clookup]; cases AMap.get st g.name <;> simp
      by_cases hnk : n = g.name ∧ key = k
      · obtain ⟨rfl, rfl⟩ := hnk
        have hr := hrep g.name key
        simp only [CPending.step, hkey, and_self, ↓reduceIte, clookup_set, AMap.get_set_self]
        rw [hl] at h1
        cases hA : A g.name key with
        | nil =>
          simp only [hA] at hr
          simp only [hr] at h1
          obtain ⟨e1, e2⟩ := evm_recordAll h1
          refine ⟨e', rfl, ?_, ?_⟩
          · simpa [plain, recordMany, newEVM] using by rw [newEVM] at e1; simp only at e1; rw [e1]
          · rw [e2]
            have hnm : ∀ m, (AMap.get (newEVM kinds g.metrics).vm.values m).isSome = g.metrics.any (fun y => y.name = m) := by
              intro m
              exact names_recordMany (rs := []) rfl m
            simp only [hnm, lastUpdate, List.foldl_cons, List.foldl_nil]
            rfl
        | cons r rs =>
          simp only [hA] at hr
          obtain ⟨e, hv, hrm, hup⟩ := hr
          simp only [hv] at h1
          obtain ⟨e1, e2⟩ := evm_recordAll h1
          refine ⟨e', rfl, ?_, ?_⟩
          · have : plain (r :: (rs ++ [(g.metrics, g.ts, now)])) = plain (r :: rs) ++ [(g.metrics, g.ts)] := by
              simp [plain]
            refine (congrArg (recordMany _) this).trans ?_
            rw [recordMany_append hrm]; exact e1
          · refine e2.trans (Eq.trans ?_ (lastUpdate_snoc r rs (g.metrics, g.ts, now)).symm)
            rw [hup]
            simp only [names_recordMany hrm]
      · have hr := hrep n k
        have hne : ¬(n = g.name ∧ getLabelsKeys g.labels = .ok k) := by
          rintro ⟨e1, e2⟩; rw [hkey] at e2; cases e2; exact hnk ⟨e1, rfl⟩
        simp only [CPending.step, hne, ↓reduceIte, clookup_set]
        by_cases hn : g.name = n
        · subst hn
          have hk : key ≠ k := fun e => hnk ⟨rfl, e⟩
          simp only [↓reduceIte, AMap.get_set_ne _ _ hk, hl]
          exact hr
        · simp only [hn, ↓reduceIte]; exact hr
    · simp at hs
  | dump now =>
    simp only [cstep, cdump, Option.map_eq_some_iff, Prod.mk.injEq] at hs
    obtain ⟨l, _, rfl, _⟩ := hs
    have hkeys : AMap.keys (st.map (fun p => (p.1, p.2.removeExpired (now - ex)))) = AMap.keys st := by
      simp [AMap.keys, Function.comp_def]
    refine ⟨⟨?_, ?_⟩, ?_⟩
    · rw [AMap.WF, hkeys]; exact hw.1
    · intro p hp
      obtain ⟨q, hq, rfl⟩ := List.mem_map.1 hp
      exact wf_filter (hw.2 q hq) _
    · intro n k
      have hr := hrep n k
      have hlk : clookup (st.map (fun p => (p.1, p.2.removeExpired (now - ex)))) n k =
          match clookup st n k with
          | none => none
          | some e => if expiredAt (now - ex) e.update then none else some e := by
        simp only [clookup, get_mapv st (fun r : CRecorder => r.removeExpired (now - ex))]
        cases hget : AMap.get st n with
        | none => rfl
        | some r =>
          simp only [Option.map_some, Option.bind_some, CRecorder.removeExpired]
          rw [get_filter (hw.2 _ (AMap.mem_of_get hget))]
          cases AMap.get r k with
          | none => rfl
          | some e => simp only; cases expiredAt (now - ex) e.update <;> simp
      simp only [CPending.step]
      cases hA : A n k with
      | nil =>
        simp only [hA] at hr
        simp only [ite_self, hlk, hr]
      | cons r rs =>
        simp only [hA] at hr
        obtain ⟨e, hv, hrm, hup⟩ := hr
        rw [hlk, hv]
        simp only [hup]
        by_cases hx : expiredAt (now - ex) (lastUpdate (r :: rs))
        · simp [hx]
        · simp only [hx, Bool.false_eq_true, ↓reduceIte]
          exact ⟨e, rfl, hrm, hup⟩

theorem crun_rep {kinds : KindMap} {ex : Int} {ops : List COp} {st st' : CState} {A : CPending} {out : List Group}
    (h : CRep kinds st A) (hs : crun kinds ex st ops = some (st', out)) :
    CRep kinds st' (ops.foldl (CPending.step ex) A) := by
  induction ops generalizing st A out with
  | nil => simp only [crun, Option.some.injEq, Prod.mk.injEq] at hs; obtain ⟨rfl, _⟩ := hs; exact h
  | cons op r ih =>
    simp only [crun] at hs
    split at hs
    · simp at hs
    · rename_i st1 o1 h1
      simp only [Option.map_eq_some_iff, Prod.mk.injEq] at hs
      obtain ⟨⟨st2, gs2⟩, hrun, rfl, rfl⟩ := hs
      exact ih (cstep_rep h h1) hrun

theorem crep_init (kinds : KindMap) : CRep kinds [] (fun _ _ => []) :=
  ⟨⟨AMap.wf_nil, by simp⟩, fun _ _ => rfl⟩

/-! ## C05 -/

/-- C05: after any history, a series is tracked iff it has live records (recorded, and never left
without update for longer than the expiration at a dump since), and it then holds exactly the
accumulation of all of them, not only of those since the last dump.  (Missing: histories that panic, which is
what a record of more than 37 labels does, `cumulative_panics_beyond_37_labels`.) -/
theorem cumulative_tracks_live_series_partial {kinds : KindMap} {ex : Int} (ops : List COp) {st : CState} {out : List Group}
    (h : crun kinds ex [] ops = some (st, out)) (n : String) (k : LabelKeys) :
    (clookup st n k).isSome = !(cpending ex ops n k).isEmpty ∧
    ∀ e, clookup st n k = some e → e.update = lastUpdate (cpending ex ops n k) ∧
      ∀ ms, e.vm.getAll = some ms →
        Describes (withDefault kinds) (plain (cpending ex ops n k)) (n, k) ⟨n, getLabels k, e.vm.ts, ms⟩ := by
  have hrep := (crun_rep (crep_init kinds) h).2 n k
  show _ = !(ops.foldl (CPending.step ex) (fun _ _ => []) n k).isEmpty ∧ ∀ e, _ →
    _ = lastUpdate (ops.foldl (CPending.step ex) (fun _ _ => []) n k) ∧ ∀ ms, _ →
    Describes (withDefault kinds) (plain (ops.foldl (CPending.step ex) (fun _ _ => []) n k)) _ _
  cases hA : ops.foldl (CPending.step ex) (fun _ _ => []) n k with
  | nil => simp only [hA] at hrep; simp [hrep]
  | cons r rs =>
    simp only [hA] at hrep
    obtain ⟨e, hv, hrm, hup⟩ := hrep
    refine ⟨by simp [hv], ?_⟩
    intro e' he'
    rw [hv] at he'; cases he'
    refine ⟨hup, ?_⟩
    intro ms hms
    exact describe_series hrm hms

/-- C05: `DumpAndRemoveExpired` at time `now` removes exactly the series whose last update is older
than the expiration and leaves all others untouched. -/
theorem dump_removes_exactly_expired {kinds : KindMap} {ex now : Int} (ops : List COp) {st st' : CState}
    {out gs : List Group} (h : crun kinds ex [] ops = some (st, out)) (hd : cdump ex st now = some (st', gs))
    (n : String) (k : LabelKeys) (e : EVM) (he : clookup st n k = some e) :
    clookup st' n k = (match e.update with
      | none => none
      | some u => if u < now - ex then none else some e) := by
  have hw := (crun_rep (crep_init kinds) h).1
  simp only [cdump, Option.map_eq_some_iff, Prod.mk.injEq] at hd
  obtain ⟨l, _, rfl, _⟩ := hd
  simp only [clookup, get_mapv st (fun r : CRecorder => r.removeExpired (now - ex))] at he ⊢
  cases hget : AMap.get st n with
  | none => simp [hget] at he
  | some r =>
    simp only [hget, Option.bind_some] at he
    simp only [Option.map_some, Option.bind_some, CRecorder.removeExpired]
    rw [get_filter (hw.2 _ (AMap.mem_of_get hget)), he]
    simp only [expiredAt]
    cases e.update with
    | none => rfl
    | some u => by_cases hu : u < now - ex <;> simp [hu]

/-- C05: every tracked series is exported by every dump, including the one that expires it. -/
theorem cumulative_dump_exports_all {kinds : KindMap} {ex now : Int} (ops : List COp) {st st' : CState}
    {out gs : List Group} (_h : crun kinds ex [] ops = some (st, out)) (hd : cdump ex st now = some (st', gs))
    (n : String) (k : LabelKeys) (e : EVM) (he : clookup st n k = some e) :
    ∃ ms, e.vm.getAll = some ms ∧ ⟨n, getLabels k, e.vm.ts, ms⟩ ∈ gs := by
  simp only [cdump, Option.map_eq_some_iff, Prod.mk.injEq] at hd
  obtain ⟨l, hl, _, rfl⟩ := hd
  simp only [clookup, Option.bind_eq_some_iff] at he
  obtain ⟨r, hr, he⟩ := he
  obtain ⟨y, hy, hyy⟩ := mapOpt_some hl (AMap.mem_of_get hr)
  simp only [CRecorder.dump] at hyy
  obtain ⟨z, hz, hzz⟩ := mapOpt_some hyy (AMap.mem_of_get he)
  simp only [Option.map_eq_some_iff] at hzz
  obtain ⟨ms, hms, rfl⟩ := hzz
  exact ⟨ms, hms, List.mem_flatten.2 ⟨y, hy, hz⟩⟩

/-- Non-vacuity: a series survives a dump while fresh, keeps its total, and is gone after the
expiration (10) has passed. -/
example :
    let g (v : Int) : Group := ⟨"net", [], 7, [⟨"m", .int v⟩]⟩
    let ops : List COp := [.record (g 3) 0, .dump 5, .record (g 4) 8, .dump 18]
    (∃ st out, crun (fun _ => none) 10 [] ops = some (st, out) ∧ out.length = 2 ∧
      ((AMap.get st "net").map List.length) = some 1) ∧
    (∃ st out, crun (fun _ => none) 10 [] (ops ++ [.dump 19]) = some (st, out) ∧
      ((AMap.get st "net").map List.length) = some 0) := by
  refine ⟨⟨_, _, rfl, by decide, by decide⟩, ⟨_, _, rfl, by decide⟩⟩

/-- A label set with more than 37 entries crashes the cumulative aggregator (label_key.go:112-124
indexes a 37-element array without a bound check). -/
theorem cumulative_panics_beyond_37_labels (kinds : KindMap) (st : CState) (g : Group) (now : Int)
    (h : 37 < g.labels.length) : caggregate kinds st g now = none := by
  have : maxLabelKeySize < g.labels.length := h
  simp [caggregate, getLabelsKeys, this]

end Kindling.Agg
