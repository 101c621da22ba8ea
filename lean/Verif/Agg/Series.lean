import Verif.Agg.Conserve
/- Helper lemmas: the aggregator state refines "records since the last dump, per series". -/
namespace Kindling.Agg
open Kindling

/-! ### Specification: what has been recorded for a series since it was last dumped -/

/-- Records (metrics, timestamp) of each series since its last dump, oldest first. -/
abbrev Pending := String → LabelKeys → List (List Metric × Nat)

def Pending.step (A : Pending) : Op → Pending
  | .aggregate g sels => fun n k =>
      if n = g.name ∧ k = getLabelKeys sels g.labels then A n k ++ [(g.metrics, g.ts)] else A n k
  | .dump => fun _ _ => []
  | .dumpSingle m => fun n k => if n = m then [] else A n k

/-- Records pending after a history. -/
def pending (ops : List Op) : Pending := ops.foldl Pending.step (fun _ _ => [])

/-- All values recorded under metric name `m`, in order. -/
def valuesOf (m : String) (recs : List (List Metric × Nat)) : List MData :=
  (recs.flatMap (·.1)).filterMap (fun x => if x.name = m then some x.data else none)

/-- Fold a list of values into an accumulator. -/
def foldApply : Acc → List MData → Option Acc
  | a, [] => some a
  | a, d :: ds => match a.apply d with
    | none => none
    | some a' => foldApply a' ds

theorem foldApply_append (a : Acc) (xs ys : List MData) :
    foldApply a (xs ++ ys) = (foldApply a xs).bind (fun b => foldApply b ys) := by
  induction xs generalizing a with
  | nil => simp [foldApply]
  | cons x r ih => simp only [List.cons_append, foldApply]; split <;> simp [ih]

/-- Accumulators of a metric after the values `ds`. -/
def Evolves (ds : List MData) (vs vs' : List AggVal) : Prop :=
  All2 (fun v v' => v'.name = v.name ∧ foldApply v.acc ds = some v'.acc) vs vs'

theorem Evolves.refl (vs : List AggVal) : Evolves [] vs vs := by
  induction vs with
  | nil => exact All2.nil
  | cons v r ih => exact All2.cons ⟨rfl, rfl⟩ ih

theorem Evolves.trans {xs ys : List MData} {a b c : List AggVal} (h1 : Evolves xs a b) (h2 : Evolves ys b c) :
    Evolves (xs ++ ys) a c := by
  induction h1 generalizing c with
  | nil => cases h2; exact All2.nil
  | cons h _ ih =>
    cases h2 with
    | cons h' t' =>
      refine All2.cons ⟨by rw [h'.1, h.1], ?_⟩ (ih t')
      rw [foldApply_append, h.2]; simpa using h'.2

theorem Evolves.one {d : MData} {vs vs' : List AggVal}
    (h : mapOpt (fun v => AggVal.apply v d) vs = some vs') : Evolves [d] vs vs' := by
  induction vs generalizing vs' with
  | nil => simp [mapOpt] at h; subst h; exact All2.nil
  | cons v r ih =>
    obtain ⟨y, ys, h1, h2, rfl⟩ := mapOpt_cons_eq_some.1 h
    refine All2.cons ⟨apply_name h1, ?_⟩ (ih h2)
    simp only [AggVal.apply, Option.map_eq_some_iff] at h1
    obtain ⟨a, ha, rfl⟩ := h1
    simp [foldApply, ha]

def datasOf (m : String) (ms : List Metric) : List MData :=
  ms.filterMap (fun x => if x.name = m then some x.data else none)

/-- How the values of each metric evolve. -/
def ValEvolves (ds : String → List MData) (a b : AMap String (List AggVal)) : Prop :=
  ∀ m, match AMap.get a m with
    | none => AMap.get b m = none
    | some vs => ∃ vs', AMap.get b m = some vs' ∧ Evolves (ds m) vs vs'

theorem ValEvolves.trans {d1 d2 : String → List MData} {a b c : AMap String (List AggVal)}
    (h1 : ValEvolves d1 a b) (h2 : ValEvolves d2 b c) : ValEvolves (fun m => d1 m ++ d2 m) a c := by
  intro m
  have e1 := h1 m
  have e2 := h2 m
  cases ha : AMap.get a m with
  | none => simp only [ha] at e1; simp only [e1] at e2; simpa using e2
  | some vs =>
    simp only [ha] at e1
    obtain ⟨vs', h', ev⟩ := e1
    simp only [h'] at e2
    obtain ⟨vs'', h'', ev'⟩ := e2
    exact ⟨vs'', h'', ev.trans ev'⟩

theorem calculate_evolves {vm vm' : ValuesMap} {x : Metric} {ts : Nat} (h : vm.calculate x ts = some vm') :
    ValEvolves (fun m => datasOf m [x]) vm.values vm'.values := by
  intro m
  simp only [ValuesMap.calculate] at h
  split at h
  · rename_i hn
    simp only [Option.some.injEq] at h; subst h
    cases hm : AMap.get vm.values m with
    | none => simp
    | some vs =>
      have : x.name ≠ m := by rintro rfl; simp [hn] at hm
      refine ⟨vs, rfl, ?_⟩
      simp [datasOf, this, Evolves.refl]
  · rename_i vs hvs
    split at h
    · simp at h
    · rename_i vs' hvs'
      simp only [Option.some.injEq] at h; subst h
      by_cases he : x.name = m
      · subst he
        simp only [hvs]
        exact ⟨vs', by simp, by simpa [datasOf] using Evolves.one hvs'⟩
      · simp only [AMap.get_set_ne _ _ he]
        cases hm : AMap.get vm.values m with
        | none => simp
        | some ws => exact ⟨ws, rfl, by simp [datasOf, he, Evolves.refl]⟩

theorem valEvolves_refl (a : AMap String (List AggVal)) : ValEvolves (fun _ => []) a a := by
  intro m
  cases AMap.get a m with
  | none => rfl
  | some vs => exact ⟨vs, rfl, Evolves.refl vs⟩

theorem recordAll_evolves {vm vm' : ValuesMap} {ms : List Metric} {ts : Nat}
    (h : vm.recordAll ms ts = some vm') : ValEvolves (fun m => datasOf m ms) vm.values vm'.values := by
  induction ms generalizing vm with
  | nil =>
    simp only [ValuesMap.recordAll, Option.some.injEq] at h; subst h
    simpa [datasOf] using valEvolves_refl vm.values
  | cons x r ih =>
    simp only [ValuesMap.recordAll] at h
    split at h
    · simp at h
    · rename_i vm1 h1
      have := (calculate_evolves h1).trans (ih h)
      have he : (fun m => datasOf m [x] ++ datasOf m r) = (fun m => datasOf m (x :: r)) := by
        funext m; simp only [datasOf, List.filterMap_cons, List.filterMap_nil]; split <;> simp
      rw [he] at this; exact this

/-- Several records in a row. -/
def recordMany : ValuesMap → List (List Metric × Nat) → Option ValuesMap
  | vm, [] => some vm
  | vm, r :: rs => match vm.recordAll r.1 r.2 with
    | none => none
    | some vm' => recordMany vm' rs

theorem recordMany_append {vm vm' : ValuesMap} {rs : List (List Metric × Nat)} {r : List Metric × Nat}
    (h : recordMany vm rs = some vm') : recordMany vm (rs ++ [r]) = vm'.recordAll r.1 r.2 := by
  induction rs generalizing vm with
  | nil =>
    simp only [recordMany, Option.some.injEq] at h; subst h
    simp only [List.nil_append, recordMany]; split <;> simp_all
  | cons x t ih =>
    simp only [recordMany] at h
    simp only [List.cons_append, recordMany]
    split at h
    · simp at h
    · exact ih h

theorem recordMany_evolves {vm vm' : ValuesMap} {rs : List (List Metric × Nat)}
    (h : recordMany vm rs = some vm') : ValEvolves (fun m => valuesOf m rs) vm.values vm'.values := by
  induction rs generalizing vm with
  | nil =>
    simp only [recordMany, Option.some.injEq] at h; subst h
    simpa [valuesOf] using valEvolves_refl vm.values
  | cons x t ih =>
    simp only [recordMany] at h
    split at h
    · simp at h
    · rename_i vm1 h1
      have := (recordAll_evolves h1).trans (ih h)
      simpa [valuesOf, datasOf, List.flatMap_cons, List.filterMap_append] using this

theorem get_newAggValuesMap (kinds : KindMap) (ms : List Metric) (m : String) :
    AMap.get (newAggValuesMap kinds ms).values m =
      if m ∈ ms.map (·.name) then (kinds m).map (fun cs => cs.map newAggValue) else none := by
  have key : ∀ (ms : List Metric) (acc : AMap String (List AggVal)),
      AMap.get (ms.foldl (fun acc m => match kinds m.name with
        | none => acc
        | some cs => AMap.set acc m.name (cs.map newAggValue)) acc) m =
      if m ∈ ms.map (·.name) ∧ (kinds m).isSome then (kinds m).map (fun cs => cs.map newAggValue)
      else AMap.get acc m := by
    intro ms
    induction ms with
    | nil => intro acc; simp
    | cons x r ih =>
      intro acc
      simp only [List.foldl_cons, ih, List.map_cons, List.mem_cons]
      cases hx : kinds x.name with
      | none =>
        by_cases he : m = x.name
        · subst he; simp [hx]
        · simp [he]
      | some cx =>
        by_cases he : m = x.name
        · subst he; simp [hx]
        · simp [he, AMap.get_set_ne _ _ (Ne.symm he)]
  refine (key ms []).trans ?_
  simp only [AMap.get_nil]
  cases kinds m <;> simp

/-! ### Well-formed maps -/

def WFSt (st : State) : Prop := AMap.WF st ∧ ∀ p ∈ st, AMap.WF p.2

def lookup (st : State) (n : String) (k : LabelKeys) : Option ValuesMap :=
  (AMap.get st n).bind (fun r => AMap.get r k)

/-- The state holds exactly the accumulated pending records. -/
def Rep (kinds : KindMap) (st : State) (A : Pending) : Prop :=
  WFSt st ∧ ∀ n k, match A n k with
    | [] => lookup st n k = none
    | r :: rs => ∃ vm, lookup st n k = some vm ∧ recordMany (newAggValuesMap kinds r.1) (r :: rs) = some vm

theorem lookup_set (st : State) (n : String) (r : Recorder) (n' : String) (k' : LabelKeys) :
    lookup (AMap.set st n r) n' k' = if n = n' then AMap.get r k' else lookup st n' k' := by
  simp only [lookup, AMap.get_set]; split <;> simp

theorem WFSt.set {st : State} (h : WFSt st) {n : String} {r : Recorder} (hr : AMap.WF r) :
    WFSt (AMap.set st n r) := by
  refine ⟨h.1.set n r, ?_⟩
  intro p hp
  rcases mem_set hp with rfl | hp
  · exact hr
  · exact h.2 p hp

theorem step_rep {kinds : KindMap} {st st' : State} {A : Pending} {op : Op} {out : List Group}
    (h : Rep kinds st A) (hs : step kinds st op = some (st', out)) : Rep kinds st' (A.step op) := by
  obtain ⟨hw, hrep⟩ := h
  cases op with
  | aggregate g sels =>
    simp only [step, aggregate, Recorder.record, Recorder.loadOrNew, Option.map_map, Option.map_eq_some_iff, Function.comp_apply,
      Prod.mk.injEq] at hs
    obtain ⟨vm', h1, rfl, rfl⟩ := hs
    have hwr : AMap.WF ((AMap.get st g.name).getD []) := by
      cases hget : AMap.get st g.name with
      | none => exact AMap.wf_nil
      | some r => exact hw.2 _ (AMap.mem_of_get hget)
    refine ⟨hw.set (hwr.set _ _), ?_⟩
    intro n k
    have hl : AMap.get ((AMap.get st g.name).getD []) k = lookup st g.name k := by
      simp only [lookup]; cases AMap.get st g.name <;> simp
    by_cases hnk : n = g.name ∧ k = getLabelKeys sels g.labels
    · obtain ⟨rfl, rfl⟩ := hnk
      have hr := hrep g.name (getLabelKeys sels g.labels)
      simp only [Pending.step, and_self, ↓reduceIte, lookup_set, AMap.get_set_self]
      rw [hl] at h1
      cases hA : A g.name (getLabelKeys sels g.labels) with
      | nil =>
        simp only [hA] at hr
        simp only [hr] at h1
        simp [recordMany, h1]
      | cons r rs =>
        simp only [hA] at hr
        obtain ⟨vm, hv, hrm⟩ := hr
        simp only [hv] at h1
        simp only [List.cons_append]
        refine ⟨vm', rfl, ?_⟩
        rw [← List.cons_append, recordMany_append hrm]; exact h1
    · have hr := hrep n k
      simp only [Pending.step, hnk, ↓reduceIte, lookup_set]
      by_cases hn : g.name = n
      · subst hn
        have hk : getLabelKeys sels g.labels ≠ k := fun e => hnk ⟨rfl, e.symm⟩
        simp only [↓reduceIte, AMap.get_set_ne _ _ hk, hl]
        exact hr
      · simp only [hn, ↓reduceIte]; exact hr
  | dump =>
    simp only [step, dump, Option.map_eq_some_iff, Prod.mk.injEq] at hs
    obtain ⟨l, _, rfl, _⟩ := hs
    have hkeys : AMap.keys (st.map (fun p => (p.1, ([] : Recorder)))) = AMap.keys st := by
      simp [AMap.keys, Function.comp_def]
    refine ⟨⟨?_, ?_⟩, ?_⟩
    · rw [AMap.WF, hkeys]; exact hw.1
    · intro p hp
      obtain ⟨q, _, rfl⟩ := List.mem_map.1 hp
      exact AMap.wf_nil
    · intro n k
      simp only [Pending.step, lookup]
      cases hget : AMap.get (st.map (fun p => (p.1, ([] : Recorder)))) n with
      | none => rfl
      | some r =>
        have := AMap.mem_of_get hget
        obtain ⟨q, _, hq⟩ := List.mem_map.1 this
        simp only [Prod.mk.injEq] at hq
        simp [← hq.2]
  | dumpSingle m =>
    simp only [step, dumpSingle] at hs
    split at hs
    · rename_i hn
      simp only [Option.some.injEq, Prod.mk.injEq] at hs
      obtain ⟨rfl, _⟩ := hs
      refine ⟨hw, ?_⟩
      intro n k
      simp only [Pending.step]
      by_cases he : n = m
      · subst he; simp [lookup, hn]
      · simp only [he, ↓reduceIte]; exact hrep n k
    · simp only [Option.map_eq_some_iff, Prod.mk.injEq] at hs
      obtain ⟨l, _, rfl, _⟩ := hs
      refine ⟨hw.set AMap.wf_nil, ?_⟩
      intro n k
      simp only [Pending.step, lookup_set]
      by_cases he : n = m
      · subst he; simp
      · simp only [he, Ne.symm he, ↓reduceIte]; exact hrep n k

theorem run_rep {kinds : KindMap} {ops : List Op} {st st' : State} {A : Pending} {out : List Group}
    (h : Rep kinds st A) (hs : run kinds st ops = some (st', out)) :
    Rep kinds st' (ops.foldl Pending.step A) := by
  induction ops generalizing st A out with
  | nil => simp only [run, Option.some.injEq, Prod.mk.injEq] at hs; obtain ⟨rfl, _⟩ := hs; exact h
  | cons op r ih =>
    simp only [run] at hs
    split at hs
    · simp at hs
    · rename_i st1 o1 h1
      simp only [Option.map_eq_some_iff, Prod.mk.injEq] at hs
      obtain ⟨⟨st2, gs2⟩, hrun, rfl, rfl⟩ := hs
      exact ih (step_rep h h1) hrun

theorem rep_init (kinds : KindMap) : Rep kinds [] (fun _ _ => []) :=
  ⟨⟨AMap.wf_nil, by simp⟩, fun _ _ => rfl⟩

/-! ### Accumulated values -/

theorem foldApply_sum (a : Int) (vs : List Int) :
    foldApply (.sum a) (vs.map .int) = some (.sum (a + vs.sum)) := by
  induction vs generalizing a with
  | nil => simp [foldApply]
  | cons v r ih => simp [foldApply, Acc.apply, Acc.calculate, ih, Int.add_assoc]

theorem foldApply_count (a : Int) (vs : List Int) :
    foldApply (.count a) (vs.map .int) = some (.count (a + vs.length)) := by
  induction vs generalizing a with
  | nil => simp [foldApply]
  | cons v r ih => simp [foldApply, Acc.apply, Acc.calculate, ih]; omega

theorem foldApply_avg (a c : Int) (vs : List Int) :
    foldApply (.avg a c) (vs.map .int) = some (.avg (a + vs.sum) (c + vs.length)) := by
  induction vs generalizing a c with
  | nil => simp [foldApply]
  | cons v r ih => simp [foldApply, Acc.apply, Acc.calculate, ih]; omega

theorem foldApply_last (a : Int) (vs : List Int) :
    foldApply (.last a) (vs.map .int) = some (.last (vs.getLast?.getD a)) := by
  induction vs generalizing a with
  | nil => simp [foldApply]
  | cons v r ih =>
    simp only [List.map_cons, foldApply, Acc.apply, Acc.calculate, ih]
    cases r <;> simp [List.getLast?_cons_cons]
    rename_i x t
    cases h : (x :: t).getLast? <;> simp_all

theorem foldApply_max (a : Int) (vs : List Int) :
    foldApply (.max a) (vs.map .int) = some (.max (vs.foldl max a)) := by
  induction vs generalizing a with
  | nil => simp [foldApply]
  | cons v r ih =>
    simp only [List.map_cons, foldApply, Acc.apply, Acc.calculate, ih, List.foldl_cons]
    congr 3; split <;> omega

theorem bumpBuckets_map (v : Int) (bounds : List Int) (f : Int → Nat) :
    bumpBuckets v bounds (bounds.map f) = bounds.map (fun b => if v ≤ b then f b + 1 else f b) := by
  induction bounds with
  | nil => rfl
  | cons b r ih => simp [bumpBuckets, ih]

theorem foldApply_hist (s : Int) (c : Nat) (bounds : List Int) (f : Int → Nat) (vs : List Int) :
    foldApply (.hist ⟨s, c, bounds, bounds.map f⟩) (vs.map .int) =
      some (.hist ⟨s + vs.sum, c + vs.length, bounds, bounds.map (fun b => f b + vs.countP (· ≤ b))⟩) := by
  induction vs generalizing s c f with
  | nil => simp [foldApply]
  | cons v r ih =>
    simp only [List.map_cons, foldApply, Acc.apply, Acc.calculate, bumpBuckets_map, ih]
    simp only [List.sum_cons, List.length_cons, Option.some.injEq, Acc.hist.injEq, Hist.mk.injEq, true_and]
    refine ⟨by omega, by omega, ?_⟩
    apply List.map_congr_left
    intro b _
    rw [List.countP_cons]
    split <;> simp_all <;> omega

end Kindling.Agg
