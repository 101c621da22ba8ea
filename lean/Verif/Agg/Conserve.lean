import Verif.Agg.Model
/- Helper lemmas for the conservation theorems. -/
namespace Kindling.Agg
open Kindling

/-! ### Specification vocabulary -/

/-- What one recorded value adds to a `sum` metric: its value, or a histogram's sum. -/
def sumContrib : MData → Int
  | .int v => v
  | .hist h => h.sum
  | .none => 0

/-- What one recorded value adds to a `count` metric: one, or a histogram's count. -/
def countContrib : MData → Int
  | .int _ => 1
  | .hist h => h.count
  | .none => 0

/-- Total of contributions of the metrics called `m` in a metric list. -/
def metricsTotal (c : MData → Int) (m : String) : List Metric → Int
  | [] => 0
  | x :: r => (if x.name = m then c x.data else 0) + metricsTotal c m r

/-- Total handed to `Aggregate` for metric `m` of group `name` during a history. -/
def recordedTotal (c : MData → Int) (name m : String) : List Op → Int
  | [] => 0
  | .aggregate g _ :: r => (if g.name = name then metricsTotal c m g.metrics else 0) + recordedTotal c name m r
  | _ :: r => recordedTotal c name m r

/-- Total of an output metric `o` over the groups called `name` in dumped output. -/
def observedTotal (name o : String) : List Group → Int
  | [] => 0
  | g :: r => (if g.name = name then
      metricsTotal (fun d => match d with | .int v => v | _ => 0) o g.metrics else 0) + observedTotal name o r

/-! ### Potential of a state -/

def accNum : Acc → Int
  | .sum v => v
  | .count v => v
  | _ => 0

def isKind (k : Kind) : Acc → Prop
  | .sum _ => k = .sum
  | .count _ => k = .count
  | _ => False

def kindContrib : Kind → MData → Int
  | .sum => sumContrib
  | .count => countContrib
  | _ => fun _ => 0

def noName (o : String) (vs : List AggVal) : Prop := ∀ v ∈ vs, v.name ≠ o

/-- Exactly one accumulator is called `o` and it is of kind `k`. -/
def Uniq (o : String) (k : Kind) : List AggVal → Prop
  | [] => False
  | v :: r => (v.name = o ∧ isKind k v.acc ∧ noName o r) ∨ (v.name ≠ o ∧ Uniq o k r)

def tot (o : String) : List AggVal → Int
  | [] => 0
  | v :: r => (if v.name = o then accNum v.acc else 0) + tot o r

def vmTot (o : String) : AMap String (List AggVal) → Int
  | [] => 0
  | p :: r => tot o p.2 + vmTot o r

def recTot (o : String) : Recorder → Int
  | [] => 0
  | p :: r => vmTot o p.2.values + recTot o r

def stTot (name o : String) : State → Int
  | [] => 0
  | p :: r => (if p.1 = name then recTot o p.2 else 0) + stTot name o r

theorem tot_noName {o : String} {vs : List AggVal} (h : noName o vs) : tot o vs = 0 := by
  induction vs with
  | nil => rfl
  | cons v r ih =>
    have h1 : v.name ≠ o := h v (by simp)
    have h2 : noName o r := fun x hx => h x (by simp [hx])
    simp [tot, h1, ih h2]

theorem apply_name {v v' : AggVal} {d : MData} (h : v.apply d = some v') : v'.name = v.name := by
  simp only [AggVal.apply, Option.map_eq_some_iff] at h
  obtain ⟨a, _, rfl⟩ := h; rfl

theorem noName_apply {o : String} {vs vs' : List AggVal} {d : MData} (h : noName o vs)
    (ha : mapOpt (fun v => AggVal.apply v d) vs = some vs') : noName o vs' := by
  intro v' hv'
  obtain ⟨v, hv, he⟩ := (mapOpt_mem ha).1 hv'
  rw [apply_name he]; exact h v hv

theorem apply_num {k : Kind} {a a' : Acc} {d : MData} (hk : isKind k a) (h : a.apply d = some a') :
    isKind k a' ∧ accNum a' = accNum a + kindContrib k d := by
  cases a <;> simp only [isKind] at hk <;> subst hk <;> cases d <;>
    simp only [Acc.apply, Acc.calculate, Acc.merge, Option.some.injEq] at h <;>
    subst h <;> simp [isKind, accNum, kindContrib, sumContrib, countContrib]

theorem uniq_apply {o : String} {k : Kind} {vs vs' : List AggVal} {d : MData} (h : Uniq o k vs)
    (ha : mapOpt (fun v => AggVal.apply v d) vs = some vs') :
    Uniq o k vs' ∧ tot o vs' = tot o vs + kindContrib k d := by
  induction vs generalizing vs' with
  | nil => simp [Uniq] at h
  | cons v r ih =>
    obtain ⟨y, ys, h1, h2, rfl⟩ := mapOpt_cons_eq_some.1 ha
    have hn := apply_name h1
    simp only [AggVal.apply, Option.map_eq_some_iff] at h1
    obtain ⟨a, ha', rfl⟩ := h1
    rcases h with ⟨hv, hk, hr⟩ | ⟨hv, hr⟩
    · have hnn := noName_apply hr h2
      obtain ⟨e1, e2⟩ := apply_num hk ha'
      refine ⟨Or.inl ⟨hv, e1, hnn⟩, ?_⟩
      simp [tot, hv, e2, tot_noName hnn, tot_noName hr]
    · obtain ⟨e1, e2⟩ := ih hr h2
      refine ⟨Or.inr ⟨hv, e1⟩, ?_⟩
      simp [tot, hv, e2]

theorem vmTot_set {o : String} {vm : AMap String (List AggVal)} {k : String} {vs vs' : List AggVal}
    (h : AMap.get vm k = some vs) : vmTot o (AMap.set vm k vs') = vmTot o vm - tot o vs + tot o vs' := by
  induction vm with
  | nil => simp at h
  | cons p r ih =>
    obtain ⟨a, b⟩ := p
    simp only [AMap.get] at h
    simp only [AMap.set]
    split at h
    · simp_all [vmTot]; omega
    · simp_all [vmTot]; omega

/-- Shape of the values map of a series of group `name`: the metric `m` carries exactly one
accumulator called `o`, no other metric does. -/
def Good (m o : String) (k : Kind) (vm : AMap String (List AggVal)) : Prop :=
  (∃ vs, AMap.get vm m = some vs) ∧
  ∀ p ∈ vm, if p.1 = m then Uniq o k p.2 else noName o p.2

theorem mem_set {α κ : Type} [DecidableEq κ] {m : AMap κ α} {k : κ} {v : α} {p : κ × α}
    (h : p ∈ AMap.set m k v) : p = (k, v) ∨ p ∈ m := by
  induction m with
  | nil => simp [AMap.set] at h; exact Or.inl h
  | cons q r ih =>
    obtain ⟨a, b⟩ := q
    simp only [AMap.set] at h
    split at h
    · rcases List.mem_cons.1 h with h | h
      · subst_vars; exact Or.inl rfl
      · exact Or.inr (by simp [h])
    · rcases List.mem_cons.1 h with h | h
      · exact Or.inr (by simp [h])
      · rcases ih h with h | h
        · exact Or.inl h
        · exact Or.inr (by simp [h])

theorem calculate_good {m o : String} {k : Kind} {vm vm' : ValuesMap} {x : Metric} {ts : Nat}
    (hg : Good m o k vm.values) (h : vm.calculate x ts = some vm') :
    Good m o k vm'.values ∧
      vmTot o vm'.values = vmTot o vm.values + (if x.name = m then kindContrib k x.data else 0) := by
  simp only [ValuesMap.calculate] at h
  split at h
  · rename_i hn
    simp only [Option.some.injEq] at h; subst h
    refine ⟨hg, ?_⟩
    split
    · rename_i he; subst he
      obtain ⟨⟨vs, hvs⟩, _⟩ := hg
      simp [hn] at hvs
    · simp
  · rename_i vs hvs
    split at h
    · simp at h
    · rename_i vs' hvs'
      simp only [Option.some.injEq] at h; subst h
      have hmem := AMap.mem_of_get hvs
      have hP := hg.2 _ hmem
      by_cases he : x.name = m
      · subst he
        simp only [↓reduceIte] at hP
        obtain ⟨e1, e2⟩ := uniq_apply hP hvs'
        refine ⟨⟨⟨vs', by simp⟩, ?_⟩, ?_⟩
        · intro p hp
          rcases mem_set hp with rfl | hp
          · simpa using e1
          · exact hg.2 p hp
        · simp only [↓reduceIte]; rw [vmTot_set hvs, e2]; omega
      · simp only [he, ↓reduceIte] at hP ⊢
        have hnn := noName_apply hP hvs'
        refine ⟨⟨?_, ?_⟩, ?_⟩
        · obtain ⟨ws, hws⟩ := hg.1
          exact ⟨ws, by rw [AMap.get_set_ne _ _ he]; exact hws⟩
        · intro p hp
          rcases mem_set hp with rfl | hp
          · simpa [he] using hnn
          · exact hg.2 p hp
        · rw [vmTot_set hvs, tot_noName hnn, tot_noName hP]; omega

theorem recordAll_good {m o : String} {k : Kind} {ms : List Metric} {vm vm' : ValuesMap} {ts : Nat}
    (hg : Good m o k vm.values) (h : vm.recordAll ms ts = some vm') :
    Good m o k vm'.values ∧
      vmTot o vm'.values = vmTot o vm.values + metricsTotal (kindContrib k) m ms := by
  induction ms generalizing vm with
  | nil => simp only [ValuesMap.recordAll, Option.some.injEq] at h; subst h; simp [hg, metricsTotal]
  | cons x r ih =>
    simp only [ValuesMap.recordAll] at h
    split at h
    · simp at h
    · rename_i vm1 h1
      obtain ⟨g1, e1⟩ := calculate_good hg h1
      obtain ⟨g2, e2⟩ := ih g1 h
      refine ⟨g2, ?_⟩
      rw [e2, e1, metricsTotal]; omega

/-- The configuration produces output `o` exactly once, from metric `m`, with kind `k`. -/
structure OutputOf (kinds : KindMap) (m o : String) (k : Kind) : Prop where
  conf : ∃ cs c, kinds m = some cs ∧ cs.filter (fun c => c.outputName = o) = [c] ∧ c.kind = k
  others : ∀ m' cs, m' ≠ m → kinds m' = some cs → ∀ c ∈ cs, c.outputName ≠ o

theorem uniq_new {o : String} {k : Kind} (hk : k = .sum ∨ k = .count) {cs : List KindConfig} {c : KindConfig}
    (h : cs.filter (fun c => c.outputName = o) = [c]) (hc : c.kind = k) :
    Uniq o k (cs.map newAggValue) ∧ tot o (cs.map newAggValue) = 0 := by
  induction cs with
  | nil => simp at h
  | cons x r ih =>
    simp only [List.filter_cons] at h
    split at h
    · rename_i hx
      simp only [decide_eq_true_eq] at hx
      simp only [List.cons.injEq, List.filter_eq_nil_iff, decide_eq_true_eq] at h
      obtain ⟨rfl, hr⟩ := h
      have hnn : noName o (r.map newAggValue) := by
        intro v hv
        obtain ⟨y, hy, rfl⟩ := List.mem_map.1 hv
        exact hr y hy
      have h1 : isKind k (newAggValue x).acc ∧ accNum (newAggValue x).acc = 0 := by
        rcases hk with rfl | rfl <;> simp [newAggValue, Acc.init, hc, isKind, accNum]
      refine ⟨Or.inl ⟨hx, h1.1, hnn⟩, ?_⟩
      simp [tot, h1.2, tot_noName hnn]
    · rename_i hx
      simp only [decide_eq_true_eq] at hx
      obtain ⟨e1, e2⟩ := ih h
      refine ⟨Or.inr ⟨hx, e1⟩, ?_⟩
      simp only [List.map_cons, tot, e2]
      simp [newAggValue, hx]

theorem new_good {kinds : KindMap} {m o : String} {k : Kind} (hk : k = .sum ∨ k = .count)
    (hc : OutputOf kinds m o k) {ms : List Metric} (hm : m ∈ ms.map (·.name)) :
    Good m o k (newAggValuesMap kinds ms).values ∧ vmTot o (newAggValuesMap kinds ms).values = 0 := by
  obtain ⟨cs, c, hcs, hf, hck⟩ := hc.conf
  obtain ⟨u1, u2⟩ := uniq_new hk hf hck
  have key : ∀ (ms : List Metric) (acc : AMap String (List AggVal)),
      (∀ p ∈ acc, (if p.1 = m then Uniq o k p.2 else noName o p.2) ∧ tot o p.2 = 0) →
      vmTot o acc = 0 →
      ((∃ vs, AMap.get acc m = some vs) ∨ m ∈ ms.map (·.name)) →
      let res := ms.foldl (fun acc m => match kinds m.name with
        | none => acc
        | some cs => AMap.set acc m.name (cs.map newAggValue)) acc
      Good m o k res ∧ vmTot o res = 0 := by
    intro ms
    induction ms with
    | nil =>
      intro acc h1 h2 h3
      simp only [List.map_nil, List.not_mem_nil, or_false] at h3
      exact ⟨⟨h3, fun p hp => (h1 p hp).1⟩, h2⟩
    | cons x r ih =>
      intro acc h1 h2 h3
      simp only [List.foldl_cons]
      cases hx : kinds x.name with
      | none =>
        refine ih acc h1 h2 ?_
        rcases h3 with h3 | h3
        · exact Or.inl h3
        · simp only [List.map_cons, List.mem_cons] at h3
          rcases h3 with h3 | h3
          · subst h3; rw [hx] at hcs; simp at hcs
          · exact Or.inr h3
      | some cx =>
        have hfresh : (if x.name = m then Uniq o k (cx.map newAggValue) else noName o (cx.map newAggValue)) ∧
            tot o (cx.map newAggValue) = 0 := by
          by_cases he : x.name = m
          · have : cx = cs := by rw [he, hcs] at hx; exact (Option.some.inj hx).symm
            subst this; simp [he, u1, u2]
          · have hnn : noName o (cx.map newAggValue) := by
              intro v hv
              obtain ⟨y, hy, rfl⟩ := List.mem_map.1 hv
              exact hc.others x.name cx he hx y hy
            simp [he, hnn, tot_noName hnn]
        refine ih _ ?_ ?_ ?_
        · intro p hp
          rcases mem_set hp with rfl | hp
          · exact hfresh
          · exact h1 p hp
        · cases hga : AMap.get acc x.name with
          | none =>
            have : ∀ (acc : AMap String (List AggVal)) vs, AMap.get acc x.name = none →
                vmTot o (AMap.set acc x.name vs) = vmTot o acc + tot o vs := by
              intro acc vs hn
              induction acc with
              | nil => simp [AMap.set, vmTot]
              | cons q t ih2 =>
                obtain ⟨a, b⟩ := q
                simp only [AMap.get] at hn
                split at hn
                · simp at hn
                · rename_i hne
                  simp only [AMap.set, hne, ↓reduceIte, vmTot, ih2 hn]; omega
            rw [this _ _ hga, h2, hfresh.2]; rfl
          | some vs =>
            rw [vmTot_set hga, h2, hfresh.2, (h1 _ (AMap.mem_of_get hga)).2]; rfl
        · by_cases he : x.name = m
          · left; subst he; exact ⟨_, AMap.get_set_self _ _ _⟩
          · rcases h3 with ⟨vs, h3⟩ | h3
            · left; exact ⟨vs, by rw [AMap.get_set_ne _ _ he]; exact h3⟩
            · simp only [List.map_cons, List.mem_cons] at h3
              rcases h3 with h3 | h3
              · exact absurd h3.symm he
              · exact Or.inr h3
  exact key ms [] (by simp) rfl (Or.inr hm)

theorem recTot_set_some {o : String} {r : Recorder} {k : LabelKeys} {vm vm' : ValuesMap}
    (h : AMap.get r k = some vm) :
    recTot o (AMap.set r k vm') = recTot o r - vmTot o vm.values + vmTot o vm'.values := by
  induction r with
  | nil => simp at h
  | cons p t ih =>
    obtain ⟨a, b⟩ := p
    simp only [AMap.get] at h
    simp only [AMap.set]
    split at h
    · simp_all [recTot]; omega
    · simp_all [recTot]; omega

theorem recTot_set_none {o : String} {r : Recorder} {k : LabelKeys} {vm' : ValuesMap}
    (h : AMap.get r k = none) :
    recTot o (AMap.set r k vm') = recTot o r + vmTot o vm'.values := by
  induction r with
  | nil => simp [AMap.set, recTot]
  | cons p t ih =>
    obtain ⟨a, b⟩ := p
    simp only [AMap.get] at h
    simp only [AMap.set]
    split at h
    · simp at h
    · simp_all [recTot]; omega

def GoodRec (m o : String) (k : Kind) (r : Recorder) : Prop := ∀ p ∈ r, Good m o k p.2.values

theorem record_good {kinds : KindMap} {m o : String} {k : Kind} (hk : k = .sum ∨ k = .count)
    (hc : OutputOf kinds m o k) {r r' : Recorder} {key : LabelKeys} {ms : List Metric} {ts : Nat}
    (hm : m ∈ ms.map (·.name)) (hg : GoodRec m o k r)
    (h : r.record kinds key ms ts = some r') :
    GoodRec m o k r' ∧ recTot o r' = recTot o r + metricsTotal (kindContrib k) m ms := by
  simp only [Recorder.record, Recorder.loadOrNew, Option.map_eq_some_iff] at h
  obtain ⟨vm', h1, rfl⟩ := h
  cases hget : AMap.get r key with
  | none =>
    simp only [hget] at h1
    obtain ⟨g0, e0⟩ := new_good hk hc hm
    obtain ⟨g1, e1⟩ := recordAll_good g0 h1
    refine ⟨?_, ?_⟩
    · intro p hp
      rcases mem_set hp with rfl | hp
      · exact g1
      · exact hg p hp
    · rw [recTot_set_none hget, e1, e0]; omega
  | some vm =>
    simp only [hget] at h1
    obtain ⟨g1, e1⟩ := recordAll_good (hg _ (AMap.mem_of_get hget)) h1
    refine ⟨?_, ?_⟩
    · intro p hp
      rcases mem_set hp with rfl | hp
      · exact g1
      · exact hg p hp
    · rw [recTot_set_some hget, e1]; simp only; omega

def GoodSt (name m o : String) (k : Kind) (st : State) : Prop :=
  ∀ p ∈ st, p.1 = name → GoodRec m o k p.2

theorem stTot_set {name o : String} {st : State} {n : String} {r' : Recorder} :
    stTot name o (AMap.set st n r') =
      stTot name o st + (if n = name then recTot o r' - recTot o ((AMap.get st n).getD []) else 0) := by
  induction st with
  | nil => simp [AMap.set, stTot, recTot]
  | cons p t ih =>
    obtain ⟨a, b⟩ := p
    simp only [AMap.set, AMap.get]
    split
    · subst_vars; simp only [stTot, Option.getD_some]; split <;> omega
    · simp only [stTot, ih]; split <;> omega

theorem aggregate_good {kinds : KindMap} {name m o : String} {k : Kind} (hk : k = .sum ∨ k = .count)
    (hc : OutputOf kinds m o k) {st st' : State} {g : Group} {sels : List Selector}
    (hm : g.name = name → m ∈ g.metrics.map (·.name)) (hg : GoodSt name m o k st)
    (h : aggregate kinds st g sels = some st') :
    GoodSt name m o k st' ∧
      stTot name o st' = stTot name o st + (if g.name = name then metricsTotal (kindContrib k) m g.metrics else 0) := by
  simp only [aggregate, Option.map_eq_some_iff] at h
  obtain ⟨r', h1, rfl⟩ := h
  by_cases hn : g.name = name
  · have hgr : GoodRec m o k ((AMap.get st g.name).getD []) := by
      cases hget : AMap.get st g.name with
      | none => intro p hp; simp at hp
      | some r => exact hg _ (AMap.mem_of_get hget) hn
    obtain ⟨g1, e1⟩ := record_good hk hc (hm hn) hgr h1
    refine ⟨?_, ?_⟩
    · intro p hp hpn
      rcases mem_set hp with rfl | hp
      · exact g1
      · exact hg p hp hpn
    · rw [stTot_set, e1]; simp [hn]; omega
  · refine ⟨?_, ?_⟩
    · intro p hp hpn
      rcases mem_set hp with rfl | hp
      · exact absurd hpn hn
      · exact hg p hp hpn
    · rw [stTot_set]; simp [hn]

/-! ### Dumped output carries the potential -/

theorem metricsTotal_append (c : MData → Int) (m : String) (a b : List Metric) :
    metricsTotal c m (a ++ b) = metricsTotal c m a + metricsTotal c m b := by
  induction a with
  | nil => simp [metricsTotal]
  | cons x r ih => simp only [List.cons_append, metricsTotal, ih]; omega

theorem observedTotal_append (name o : String) (a b : List Group) :
    observedTotal name o (a ++ b) = observedTotal name o a + observedTotal name o b := by
  induction a with
  | nil => simp [observedTotal]
  | cons x r ih => simp only [List.cons_append, observedTotal, ih]; omega

def intOf : MData → Int := fun d => match d with | .int v => v | _ => 0

theorem get_tot_noName {o : String} {vs : List AggVal} {ms : List Metric} (hn : noName o vs)
    (h : mapOpt AggVal.get vs = some ms) : metricsTotal intOf o ms = 0 := by
  induction vs generalizing ms with
  | nil => simp [mapOpt] at h; subst h; rfl
  | cons v r ih =>
    obtain ⟨y, ys, h1, h2, rfl⟩ := mapOpt_cons_eq_some.1 h
    simp only [AggVal.get, Option.map_eq_some_iff] at h1
    obtain ⟨d, _, rfl⟩ := h1
    have h1 : v.name ≠ o := hn v (by simp)
    have h2' : noName o r := fun x hx => hn x (by simp [hx])
    simp [metricsTotal, h1, ih h2' h2]

theorem get_tot_uniq {o : String} {k : Kind} {vs : List AggVal} {ms : List Metric} (hu : Uniq o k vs)
    (h : mapOpt AggVal.get vs = some ms) : metricsTotal intOf o ms = tot o vs := by
  induction vs generalizing ms with
  | nil => simp [Uniq] at hu
  | cons v r ih =>
    obtain ⟨y, ys, h1, h2, rfl⟩ := mapOpt_cons_eq_some.1 h
    simp only [AggVal.get, Option.map_eq_some_iff] at h1
    obtain ⟨d, hd, rfl⟩ := h1
    rcases hu with ⟨hv, hk, hr⟩ | ⟨hv, hr⟩
    · simp only [metricsTotal, tot, hv, ↓reduceIte, get_tot_noName hr h2, tot_noName hr]
      cases hacc : v.acc <;> rw [hacc] at hk hd <;> simp only [isKind] at hk <;>
        simp only [Acc.get, Option.some.injEq] at hd <;> subst hd <;> simp [intOf, accNum]
    · simp [metricsTotal, tot, hv, ih hr h2]

theorem getAll_tot {m o : String} {k : Kind} {vm : ValuesMap} {ms : List Metric}
    (hg : ∀ p ∈ vm.values, if p.1 = m then Uniq o k p.2 else noName o p.2)
    (h : vm.getAll = some ms) : metricsTotal intOf o ms = vmTot o vm.values := by
  simp only [ValuesMap.getAll, Option.map_eq_some_iff] at h
  obtain ⟨l, hl, rfl⟩ := h
  revert hg hl
  generalize vm.values = vals
  intro hg hl
  induction vals generalizing l with
  | nil => simp [mapOpt] at hl; subst hl; rfl
  | cons p r ih =>
    obtain ⟨y, ys, h1, h2, rfl⟩ := mapOpt_cons_eq_some.1 hl
    have hp := hg p (by simp)
    simp only [List.flatten_cons, metricsTotal_append, vmTot]
    rw [ih ys (fun q hq => hg q (by simp [hq])) h2]
    split at hp
    · rw [get_tot_uniq hp h1]
    · rw [get_tot_noName hp h1, tot_noName hp]

theorem recDump_tot {name m o : String} {k : Kind} {r : Recorder} {gs : List Group} {n : String}
    (hg : n = name → GoodRec m o k r) (h : Recorder.dump n r = some gs) :
    observedTotal name o gs = if n = name then recTot o r else 0 := by
  simp only [Recorder.dump] at h
  induction r generalizing gs with
  | nil => simp [mapOpt] at h; subst h; simp [observedTotal, recTot]
  | cons p t ih =>
    obtain ⟨y, ys, h1, h2, rfl⟩ := mapOpt_cons_eq_some.1 h
    simp only [Option.map_eq_some_iff] at h1
    obtain ⟨ms, hms, rfl⟩ := h1
    have := ih (fun hn q hq => hg hn q (by simp [hq])) h2
    simp only [observedTotal, this]
    by_cases hn : n = name
    · have := getAll_tot (hg hn p (by simp)).2 hms
      simp only [hn, ↓reduceIte, recTot]
      rw [← this]; rfl
    · simp [hn]

theorem dump_tot {name m o : String} {k : Kind} {st st' : State} {gs : List Group}
    (hg : GoodSt name m o k st) (h : dump st = some (st', gs)) :
    observedTotal name o gs = stTot name o st ∧ GoodSt name m o k st' ∧ stTot name o st' = 0 := by
  simp only [dump, Option.map_eq_some_iff, Prod.mk.injEq] at h
  obtain ⟨l, hl, rfl, rfl⟩ := h
  refine ⟨?_, ?_, ?_⟩
  · induction st generalizing l with
    | nil => simp [mapOpt] at hl; subst hl; rfl
    | cons p t ih =>
      obtain ⟨y, ys, h1, h2, rfl⟩ := mapOpt_cons_eq_some.1 hl
      simp only [List.flatten_cons, observedTotal_append, stTot]
      rw [ih (fun q hq => hg q (by simp [hq])) ys h2, recDump_tot (hg p (by simp)) h1]
  · intro p hp _
    obtain ⟨q, _, rfl⟩ := List.mem_map.1 hp
    intro x hx; simp at hx
  · clear hl hg
    induction st with
    | nil => rfl
    | cons p t ih => simp [stTot, recTot, ih]

theorem dumpSingle_tot {name m o : String} {k : Kind} {st st' : State} {gs : List Group} {n : String}
    (hg : GoodSt name m o k st) (h : dumpSingle st n = some (st', gs)) :
    observedTotal name o gs + stTot name o st' = stTot name o st ∧ GoodSt name m o k st' := by
  simp only [dumpSingle] at h
  split at h
  · simp only [Option.some.injEq, Prod.mk.injEq] at h
    obtain ⟨rfl, rfl⟩ := h
    exact ⟨by simp [observedTotal], hg⟩
  · rename_i r hr
    simp only [Option.map_eq_some_iff, Prod.mk.injEq] at h
    obtain ⟨l, hl, rfl, rfl⟩ := h
    refine ⟨?_, ?_⟩
    · rw [recDump_tot (fun hn => hg _ (AMap.mem_of_get hr) hn) hl, stTot_set, hr]
      simp only [Option.getD_some, recTot]
      split <;> omega
    · intro p hp hpn
      rcases mem_set hp with rfl | hp
      · intro x hx; simp at hx
      · exact hg p hp hpn

theorem run_tot {kinds : KindMap} {name m o : String} {k : Kind} (hk : k = .sum ∨ k = .count)
    (hc : OutputOf kinds m o k) {ops : List Op} {st st' : State} {gs : List Group}
    (hm : ∀ g sels, Op.aggregate g sels ∈ ops → g.name = name → m ∈ g.metrics.map (·.name))
    (hg : GoodSt name m o k st) (h : run kinds st ops = some (st', gs)) :
    observedTotal name o gs + stTot name o st' = stTot name o st + recordedTotal (kindContrib k) name m ops ∧
      GoodSt name m o k st' := by
  induction ops generalizing st gs with
  | nil =>
    simp only [run, Option.some.injEq, Prod.mk.injEq] at h
    obtain ⟨rfl, rfl⟩ := h
    exact ⟨by simp [observedTotal, recordedTotal], hg⟩
  | cons op r ih =>
    simp only [run] at h
    split at h
    · simp at h
    · rename_i st1 out hstep
      simp only [Option.map_eq_some_iff, Prod.mk.injEq] at h
      obtain ⟨⟨st2, gs2⟩, hrun, rfl, rfl⟩ := h
      have hm' : ∀ g sels, Op.aggregate g sels ∈ r → g.name = name → m ∈ g.metrics.map (·.name) :=
        fun g s hgs => hm g s (by simp [hgs])
      rw [observedTotal_append]
      cases op with
      | aggregate g sels =>
        simp only [step, Option.map_eq_some_iff, Prod.mk.injEq] at hstep
        obtain ⟨a, ha, rfl, rfl⟩ := hstep
        obtain ⟨g1, e1⟩ := aggregate_good hk hc (hm g sels (by simp)) hg ha
        obtain ⟨e2, g2⟩ := ih hm' g1 hrun
        refine ⟨?_, g2⟩
        simp only [observedTotal, recordedTotal] at *; omega
      | dump =>
        obtain ⟨e0, g1, e1⟩ := dump_tot hg hstep
        obtain ⟨e2, g2⟩ := ih hm' g1 hrun
        refine ⟨?_, g2⟩
        simp only [recordedTotal] at *; omega
      | dumpSingle n =>
        obtain ⟨e1, g1⟩ := dumpSingle_tot hg hstep
        obtain ⟨e2, g2⟩ := ih hm' g1 hrun
        refine ⟨?_, g2⟩
        simp only [recordedTotal] at *; omega

end Kindling.Agg
