import Verif.Agg.Conc
/-
C104: what several goroutines that use the aggregator at once dump, compared with the same calls one after the other.
-/
namespace Kindling.Agg.Conc
open Kindling Kindling.Agg

/-! ### Dumping a list of series -/

theorem mapOpt_perm {α β : Type} {f : α → Option β} {l l' : List α} (hp : l.Perm l') : ∀ {ys : List β}, mapOpt f l = some ys →
    ∃ ys', mapOpt f l' = some ys' ∧ ys.Perm ys' := by
  induction hp with
  | nil => intro ys h; exact ⟨ys, h, .refl _⟩
  | cons x _ ih =>
    intro ys h
    obtain ⟨z, zs, h1, h2, rfl⟩ := mapOpt_cons_eq_some.1 h
    obtain ⟨zs', h3, h4⟩ := ih h2
    exact ⟨z :: zs', mapOpt_cons_eq_some.2 ⟨z, zs', h1, h3, rfl⟩, h4.cons _⟩
  | swap x y l =>
    intro ys h
    obtain ⟨z, zs, h1, h2, rfl⟩ := mapOpt_cons_eq_some.1 h
    obtain ⟨w, ws, h3, h4, rfl⟩ := mapOpt_cons_eq_some.1 h2
    exact ⟨w :: z :: ws, mapOpt_cons_eq_some.2 ⟨w, _, h3, mapOpt_cons_eq_some.2 ⟨z, ws, h1, h4, rfl⟩, rfl⟩, .swap _ _ _⟩
  | trans _ _ ih1 ih2 =>
    intro ys h
    obtain ⟨zs, h1, h2⟩ := ih1 h
    obtain ⟨ws, h3, h4⟩ := ih2 h1
    exact ⟨ws, h3, h2.trans h4⟩

theorem mapOpt_rel {α β γ δ : Type} {f : α → Option β} {g : γ → Option δ} {R : α → γ → Prop} {S : β → δ → Prop} {l : List α}
    {l' : List γ} (h : All2 R l l') (hs : ∀ a c, R a c → ∀ b, f a = some b → ∃ d, g c = some d ∧ S b d) :
    ∀ {ys}, mapOpt f l = some ys → ∃ zs, mapOpt g l' = some zs ∧ All2 S ys zs := by
  induction h with
  | nil => intro ys hy; simp only [mapOpt, Option.some.injEq] at hy; subst hy; exact ⟨[], rfl, .nil⟩
  | cons hr _ ih =>
    intro ys hy
    obtain ⟨b, bs, h1, h2, rfl⟩ := mapOpt_cons_eq_some.1 hy
    obtain ⟨d, h3, h4⟩ := hs _ _ hr b h1
    obtain ⟨ds, h5, h6⟩ := ih h2
    exact ⟨d :: ds, mapOpt_cons_eq_some.2 ⟨d, ds, h3, h5, rfl⟩, .cons h4 h6⟩

theorem mapOpt_append' {α β : Type} (f : α → Option β) (l l' : List α) :
    mapOpt f (l ++ l') = (mapOpt f l).bind fun a => (mapOpt f l').map (a ++ ·) := by
  induction l with
  | nil => simp [mapOpt]
  | cons x r ih =>
    simp only [List.cons_append, mapOpt, ih]
    cases f x with
    | none => rfl
    | some y => cases mapOpt f r <;> cases mapOpt f l' <;> rfl

theorem mapOpt_flat {α β γ : Type} (f : α → Option (List γ)) (g : β → Option γ) (h : α → List β) (l : List α)
    (e : ∀ a ∈ l, f a = mapOpt g (h a)) : (mapOpt f l).map List.flatten = mapOpt g (l.flatMap h) := by
  induction l with
  | nil => rfl
  | cons x r ih =>
    have := ih fun a ha => e a (List.mem_cons_of_mem _ ha)
    rw [List.flatMap_cons, mapOpt_append', ← this, ← e x List.mem_cons_self]
    simp only [mapOpt]
    cases f x with
    | none => rfl
    | some y => cases mapOpt f r <;> rfl

/-- The dumped group of a series. -/
def groupOf (e : (String × LabelKeys) × ValuesMap) : Option Group :=
  e.2.getAll.map fun ms => ⟨e.1.1, getLabels e.1.2, e.2.ts, ms⟩

/-- All series. -/
def seriesOf (st : State) : List ((String × LabelKeys) × ValuesMap) := st.flatMap fun p => p.2.map fun q => ((p.1, q.1), q.2)

theorem recorder_dump (n : String) (r : Recorder) : r.dump n = mapOpt groupOf (r.map fun q => ((n, q.1), q.2)) := by
  simp only [Recorder.dump]
  induction r with
  | nil => rfl
  | cons x t ih => simp only [List.map_cons, mapOpt, ih]; rfl

theorem dump_series (st : State) : (dump st).map (·.2) = mapOpt groupOf (seriesOf st) := by
  rw [seriesOf, ← mapOpt_flat (fun p => Recorder.dump p.1 p.2) groupOf _ st (fun a _ => recorder_dump a.1 a.2), dump]
  cases mapOpt (fun p => Recorder.dump p.1 p.2) st <;> rfl

theorem dumpSingle_series (st : State) (n : String) :
    (dumpSingle st n).map (·.2) = mapOpt groupOf (((AMap.get st n).getD []).map fun q => ((n, q.1), q.2)) := by
  simp only [dumpSingle]
  cases AMap.get st n with
  | none => rfl
  | some r =>
    simp only [Option.getD_some, ← recorder_dump]
    cases r.dump n <;> rfl

theorem mem_seriesOf {st : State} (hw : WFSt st) (e : (String × LabelKeys) × ValuesMap) :
    e ∈ seriesOf st ↔ lookup st e.1.1 e.1.2 = some e.2 := by
  obtain ⟨⟨n, k⟩, vm⟩ := e
  simp only [seriesOf, List.mem_flatMap, List.mem_map, lookup, Option.bind_eq_some_iff]
  constructor
  · rintro ⟨p, hp, q, hq, he⟩
    simp only [Prod.mk.injEq] at he
    obtain ⟨⟨rfl, rfl⟩, rfl⟩ := he
    exact ⟨p.2, AMap.get_of_mem hw.1 hp, AMap.get_of_mem (hw.2 p hp) hq⟩
  · rintro ⟨r, h1, h2⟩
    exact ⟨(n, r), AMap.mem_of_get h1, (k, vm), AMap.mem_of_get h2, rfl⟩

theorem nodup_seriesOf {st : State} (hw : WFSt st) : ((seriesOf st).map (·.1)).Nodup := by
  obtain ⟨hw1, hw2⟩ := hw
  simp only [seriesOf, List.map_flatMap, List.map_map, Function.comp_def]
  induction st with
  | nil => simp
  | cons p t ih =>
    have ht : AMap.WF t := by
      simp only [AMap.WF, AMap.keys, List.map_cons, List.nodup_cons] at hw1 ⊢; exact hw1.2
    simp only [List.flatMap_cons]
    rw [List.nodup_append]
    refine ⟨?_, ih ht (fun q hq => hw2 q (by simp [hq])), ?_⟩
    · have := hw2 p (by simp)
      simp only [AMap.WF, AMap.keys] at this
      have h2 : (p.2.map (·.1)).map (fun k => (p.1, k)) = p.2.map (fun q => (p.1, q.1)) := by
        simp [List.map_map, Function.comp_def]
      rw [← h2]
      exact List.Pairwise.map _ (fun a b hab hc => hab (Prod.mk.inj hc).2) this
    · intro a ha b hb hab
      subst hab
      obtain ⟨q, _, rfl⟩ := List.mem_map.1 ha
      obtain ⟨p', hp', hb'⟩ := List.mem_flatMap.1 hb
      obtain ⟨q', _, he⟩ := List.mem_map.1 hb'
      simp only [Prod.mk.injEq] at he
      simp only [AMap.WF, AMap.keys, List.map_cons, List.nodup_cons] at hw1
      exact hw1.1 (List.mem_map.2 ⟨p', hp', he.1⟩)

/-- Two lists of series with the same keys and related values, up to the order. -/
theorem pair_up {κ α β : Type} [DecidableEq κ] {R : α → β → Prop} {la : List (κ × α)} {lb : List (κ × β)}
    (ha : (la.map (·.1)).Nodup) (hb : (lb.map (·.1)).Nodup) (h1 : ∀ p ∈ la, ∃ b, (p.1, b) ∈ lb ∧ R p.2 b)
    (h2 : ∀ q ∈ lb, ∃ a, (q.1, a) ∈ la) : ∃ l, l.Perm lb ∧ All2 (fun p q => p.1 = q.1 ∧ R p.2 q.2) la l := by
  have hx : ∃ l, All2 (fun p q => (p.1 = q.1 ∧ R p.2 q.2) ∧ q ∈ lb) la l := by
    clear ha h2
    induction la with
    | nil => exact ⟨[], .nil⟩
    | cons p t ih =>
      obtain ⟨l, hl⟩ := ih fun q hq => h1 q (List.mem_cons_of_mem _ hq)
      obtain ⟨b, hb1, hb2⟩ := h1 p List.mem_cons_self
      exact ⟨(p.1, b) :: l, .cons ⟨⟨rfl, hb2⟩, hb1⟩ hl⟩
  obtain ⟨l, hl⟩ := hx
  have hkeys : l.map (·.1) = la.map (·.1) := by
    clear ha h1 h2
    induction hl with
    | nil => rfl
    | cons h _ ih => simp only [List.map_cons, ih, h.1.1]
  refine ⟨l, ?_, hl.imp fun _ _ _ _ h => h.1⟩
  have hln : l.Nodup := by
    have : (l.map (·.1)).Nodup := by rw [hkeys]; exact ha
    exact List.Pairwise.of_map (fun p => p.1) (fun a b hab he => hab (by rw [he])) this
  have hbn : lb.Nodup :=
    List.Pairwise.of_map (fun p => p.1) (fun a b hab he => hab (by rw [he])) hb
  rw [List.perm_ext_iff_of_nodup hln hbn]
  intro q
  constructor
  · intro hq
    obtain ⟨a, _, ha⟩ := hl.mem_right hq
    exact ha.2
  · intro hq
    obtain ⟨a, haq⟩ := h2 q hq
    have : q.1 ∈ l.map (·.1) := by
      rw [hkeys]
      exact List.mem_map.2 ⟨_, haq, rfl⟩
    obtain ⟨q', hq', he⟩ := List.mem_map.1 this
    obtain ⟨_, _, hin⟩ := hl.mem_right hq'
    have : q' = q := by
      have e1 := AMap.get_of_mem (m := lb) hb (k := q'.1) (v := q'.2) hin.2
      have e2 := AMap.get_of_mem (m := lb) hb (k := q.1) (v := q.2) hq
      rw [he, e2] at e1
      exact Prod.ext he (Option.some.inj e1).symm
    rw [← this]
    exact hq'

/-! ### Same contents but for `last` -/

/-- An output of kind `last`. -/
def LastOut (kinds : KindMap) (o : String) : Prop := ∃ m cs, kinds m = some cs ∧ ∃ k ∈ cs, k.outputName = o ∧ k.kind = .last

/-- Specification: the same dumped group but for the time and the values of outputs of kind `last`. -/
def GSim (kinds : KindMap) (g h : Group) : Prop :=
  g.name = h.name ∧ g.labels = h.labels ∧
    All2 (fun x y => x.name = y.name ∧ (x.data = y.data ∨ LastOut kinds x.name)) g.metrics h.metrics

/-- Specification: the same groups in some order. -/
def OutSim (kinds : KindMap) (gs hs : List Group) : Prop := ∃ l, l.Perm hs ∧ All2 (GSim kinds) gs l

def ValSim (kinds : KindMap) (v w : AggVal) : Prop :=
  v.name = w.name ∧ (v.acc = w.acc ∨ LastOut kinds v.name ∧ (∃ x, v.acc = .last x) ∧ ∃ y, w.acc = .last y)

def VSim (kinds : KindMap) (a b : ValuesMap) : Prop :=
  All2 (fun p q => p.1 = q.1 ∧ All2 (ValSim kinds) p.2 q.2) a.values b.values

def VmRel (kinds : KindMap) (a b : ValuesMap) : Prop := VSim kinds a b ∧ VSim kinds b a

/-- Two aggregators with the same series. -/
def Sim (kinds : KindMap) (a b : State) : Prop :=
  ∀ n k, match lookup a n k with
    | none => lookup b n k = none
    | some va => ∃ vb, lookup b n k = some vb ∧ VmRel kinds va vb

theorem valSim_symm {kinds : KindMap} {v w : AggVal} (h : ValSim kinds v w) : ValSim kinds w v :=
  ⟨h.1.symm, h.2.imp Eq.symm fun ⟨a, b, c⟩ => ⟨by rw [← h.1]; exact a, c, b⟩⟩

theorem all2_flip {α β : Type} {R : α → β → Prop} {S : β → α → Prop} {l : List α} {l' : List β} (h : All2 R l l')
    (f : ∀ a b, R a b → S b a) : All2 S l' l := by
  induction h with
  | nil => exact .nil
  | cons h1 _ ih => exact .cons (f _ _ h1) ih

theorem vsim_symm {kinds : KindMap} {a b : ValuesMap} (h : VSim kinds a b) : VSim kinds b a :=
  all2_flip h fun _ _ hx => ⟨hx.1.symm, all2_flip hx.2 fun _ _ => valSim_symm⟩

theorem getAll_sim {kinds : KindMap} {a b : ValuesMap} (h : VSim kinds a b) {ms : List Metric} (hm : a.getAll = some ms) :
    ∃ ms', b.getAll = some ms' ∧ All2 (fun x y => x.name = y.name ∧ (x.data = y.data ∨ LastOut kinds x.name)) ms ms' := by
  simp only [ValuesMap.getAll, Option.map_eq_some_iff] at hm ⊢
  obtain ⟨ll, hll, rfl⟩ := hm
  obtain ⟨ll', h1, h2⟩ := mapOpt_rel (g := fun p : String × List AggVal => mapOpt AggVal.get p.2)
    (S := All2 fun x y : Metric => x.name = y.name ∧ (x.data = y.data ∨ LastOut kinds x.name)) h (by
      intro p q hpq ys hys
      refine mapOpt_rel hpq.2 ?_ hys
      intro v w hvw x hx
      simp only [AggVal.get, Option.map_eq_some_iff] at hx ⊢
      obtain ⟨d, hd, rfl⟩ := hx
      rcases hvw.2 with he | ⟨hl, ⟨x, hx⟩, y, hy⟩
      · exact ⟨_, ⟨d, by rw [← he]; exact hd, rfl⟩, hvw.1, .inl rfl⟩
      · exact ⟨_, ⟨.int y, by rw [hy]; rfl, rfl⟩, hvw.1, .inr hl⟩) hll
  refine ⟨ll'.flatten, ⟨ll', h1, rfl⟩, ?_⟩
  clear h1 hll
  induction h2 with
  | nil => exact .nil
  | cons hx _ ih => simp only [List.flatten_cons]; exact hx.append ih

theorem groupOf_sim {kinds : KindMap} {e f : (String × LabelKeys) × ValuesMap} (h : e.1 = f.1 ∧ VmRel kinds e.2 f.2) {g : Group}
    (hg : groupOf e = some g) : ∃ g', groupOf f = some g' ∧ GSim kinds g g' := by
  simp only [groupOf, Option.map_eq_some_iff] at hg ⊢
  obtain ⟨ms, hms, rfl⟩ := hg
  obtain ⟨ms', h1, h2⟩ := getAll_sim h.2.1 hms
  exact ⟨_, ⟨ms', h1, rfl⟩, by rw [h.1], by rw [h.1], h2⟩

theorem sim_symm {kinds : KindMap} {a b : State} (h : Sim kinds a b) : Sim kinds b a := by
  intro n k
  have := h n k
  cases ha : lookup a n k with
  | none => rw [ha] at this; simp only [] at this; rw [this]
  | some va =>
    rw [ha] at this
    obtain ⟨vb, hb, hr⟩ := this
    rw [hb]
    exact ⟨va, rfl, hr.2, hr.1⟩

/-- Lists of series of two aggregators with the same contents are dumped alike. -/
theorem series_sim {kinds : KindMap} {la lb : List ((String × LabelKeys) × ValuesMap)} (ha : (la.map (·.1)).Nodup)
    (hb : (lb.map (·.1)).Nodup) (h1 : ∀ p ∈ la, ∃ b, (p.1, b) ∈ lb ∧ VmRel kinds p.2 b) (h2 : ∀ q ∈ lb, ∃ a, (q.1, a) ∈ la)
    {gs : List Group} (hg : mapOpt groupOf la = some gs) : ∃ hs, mapOpt groupOf lb = some hs ∧ OutSim kinds gs hs := by
  obtain ⟨l, hp, hl⟩ := pair_up ha hb h1 h2
  obtain ⟨ys, h3, h4⟩ := mapOpt_rel hl (fun a c hac b hb => groupOf_sim hac hb) hg
  obtain ⟨hs, h5, h6⟩ := mapOpt_perm hp h3
  exact ⟨hs, h5, ys, h6, h4⟩

theorem dump_sim {kinds : KindMap} {a b : State} (hwa : WFSt a) (hwb : WFSt b) (h : Sim kinds a b) {a' : State} {gs : List Group}
    (hd : dump a = some (a', gs)) : ∃ b' hs, dump b = some (b', hs) ∧ OutSim kinds gs hs := by
  have hg : mapOpt groupOf (seriesOf a) = some gs := by rw [← dump_series, hd]; rfl
  obtain ⟨hs, h1, h2⟩ := series_sim (nodup_seriesOf hwa) (nodup_seriesOf hwb) (fun p hp => by
    rw [mem_seriesOf hwa] at hp
    have := h p.1.1 p.1.2
    rw [hp] at this
    obtain ⟨vb, hb, hr⟩ := this
    exact ⟨vb, (mem_seriesOf hwb _).2 hb, hr⟩) (fun q hq => by
    rw [mem_seriesOf hwb] at hq
    have := sim_symm h q.1.1 q.1.2
    rw [hq] at this
    obtain ⟨va, hva, _⟩ := this
    exact ⟨va, (mem_seriesOf hwa _).2 hva⟩) hg
  rw [← dump_series, Option.map_eq_some_iff] at h1
  obtain ⟨⟨b', hs'⟩, h3, rfl⟩ := h1
  exact ⟨b', hs', h3, h2⟩

theorem dumpSingle_sim {kinds : KindMap} {a b : State} (hwa : WFSt a) (hwb : WFSt b) (h : Sim kinds a b) {n : String} {a' : State}
    {gs : List Group} (hd : dumpSingle a n = some (a', gs)) :
    ∃ b' hs, dumpSingle b n = some (b', hs) ∧ OutSim kinds gs hs := by
  have hg : mapOpt groupOf (((AMap.get a n).getD []).map fun q => ((n, q.1), q.2)) = some gs := by
    rw [← dumpSingle_series, hd]; rfl
  have hnd : ∀ {st : State}, WFSt st → (((((AMap.get st n).getD []).map fun q => ((n, q.1), q.2)) :
      List ((String × LabelKeys) × ValuesMap)).map (·.1)).Nodup := by
    intro st hw
    have hwr : AMap.WF ((AMap.get st n).getD []) := by
      cases hget : AMap.get st n with
      | none => exact AMap.wf_nil
      | some r => exact hw.2 _ (AMap.mem_of_get hget)
    simp only [AMap.WF, AMap.keys] at hwr
    have h2 : (((AMap.get st n).getD []).map (·.1)).map (fun k => (n, k)) =
        (((AMap.get st n).getD []).map fun q => ((n, q.1), q.2)).map (·.1) := by
      simp [List.map_map, Function.comp_def]
    rw [← h2]
    exact List.Pairwise.map _ (fun a b hab hc => hab (Prod.mk.inj hc).2) hwr
  have hmem : ∀ {st : State}, WFSt st → ∀ e : (String × LabelKeys) × ValuesMap,
      e ∈ (((AMap.get st n).getD []).map fun q => ((n, q.1), q.2)) ↔ e.1.1 = n ∧ lookup st n e.1.2 = some e.2 := by
    rintro st hw ⟨⟨n', k⟩, vm⟩
    simp only [List.mem_map, Prod.mk.injEq, lookup]
    cases hget : AMap.get st n with
    | none => simp
    | some r =>
      have hwr := hw.2 _ (AMap.mem_of_get hget)
      simp only [Option.getD_some, Option.bind_some]
      constructor
      · rintro ⟨q, hq, ⟨rfl, rfl⟩, rfl⟩
        exact ⟨rfl, AMap.get_of_mem hwr hq⟩
      · rintro ⟨rfl, hk⟩
        exact ⟨(k, vm), AMap.mem_of_get hk, ⟨rfl, rfl⟩, rfl⟩
  obtain ⟨hs, h1, h2⟩ := series_sim (hnd hwa) (hnd hwb) (fun p hp => by
    rw [hmem hwa] at hp
    have := h n p.1.2
    rw [hp.2] at this
    obtain ⟨vb, hb, hr⟩ := this
    exact ⟨vb, (hmem hwb _).2 ⟨hp.1, hb⟩, hr⟩) (fun q hq => by
    rw [hmem hwb] at hq
    have := sim_symm h n q.1.2
    rw [hq.2] at this
    obtain ⟨va, hva, _⟩ := this
    exact ⟨va, (hmem hwa _).2 ⟨hq.1, hva⟩⟩) hg
  rw [← dumpSingle_series, Option.map_eq_some_iff] at h1
  obtain ⟨⟨b', hs'⟩, h3, rfl⟩ := h1
  exact ⟨b', hs', h3, h2⟩

/-! ### Calls one after the other -/

theorem run_append (kinds : KindMap) (s : State) (l1 l2 : List Op) :
    run kinds s (l1 ++ l2) = (run kinds s l1).bind fun p => (run kinds p.1 l2).map fun q => (q.1, p.2 ++ q.2) := by
  induction l1 generalizing s with
  | nil => simp [run]
  | cons op r ih =>
    simp only [List.cons_append, run]
    cases Agg.step kinds s op with
    | none => rfl
    | some p =>
      simp only [ih]
      cases run kinds p.1 r with
      | none => rfl
      | some q => cases h : run kinds q.1 l2 <;> simp [h]

theorem run_one (kinds : KindMap) (s : State) (op : Op) : run kinds s [op] = Agg.step kinds s op := by
  simp only [run]
  cases Agg.step kinds s op with
  | none => rfl
  | some p => simp

theorem calculate_keys {vm vm' : ValuesMap} {x : Metric} {ts : Nat} (h : vm.calculate x ts = some vm') :
    AMap.keys vm'.values = AMap.keys vm.values := by
  simp only [ValuesMap.calculate] at h
  split at h
  · cases h; rfl
  · rename_i vs hvs
    split at h
    · cases h
    · cases h; exact keys_set_some hvs

theorem recordAll_keys {vm vm' : ValuesMap} {ms : List Metric} {ts : Nat} (h : vm.recordAll ms ts = some vm') :
    AMap.keys vm'.values = AMap.keys vm.values := by
  induction ms generalizing vm with
  | nil => simp only [ValuesMap.recordAll, Option.some.injEq] at h; subst h; rfl
  | cons x r ih =>
    simp only [ValuesMap.recordAll] at h
    split at h
    · cases h
    · rename_i vm1 h1
      rw [ih h, calculate_keys h1]

theorem recordMany_keys {vm vm' : ValuesMap} {rs : List (List Metric × Nat)} (h : recordMany vm rs = some vm') :
    AMap.keys vm'.values = AMap.keys vm.values := by
  induction rs generalizing vm with
  | nil => simp only [recordMany, Option.some.injEq] at h; subst h; rfl
  | cons x r ih =>
    simp only [recordMany] at h
    split at h
    · cases h
    · rename_i vm1 h1
      rw [ih h, recordAll_keys h1]

theorem foldApply_prefix {a : Acc} {xs ys : List MData} (h : (foldApply a (xs ++ ys)).isSome) : (foldApply a xs).isSome := by
  rw [foldApply_append] at h
  cases hx : foldApply a xs with
  | none => rw [hx] at h; cases h
  | some b => rfl

theorem calculate_some {vm : ValuesMap} {x : Metric} {ts : Nat}
    (h : ∀ vs, AMap.get vm.values x.name = some vs → ∀ v ∈ vs, (v.acc.apply x.data).isSome) : (vm.calculate x ts).isSome := by
  simp only [ValuesMap.calculate]
  split
  · rfl
  · rename_i vs hvs
    have : (mapOpt (fun v => AggVal.apply v x.data) vs).isSome := by
      refine mapOpt_isSome fun v hv => ?_
      have := h vs hvs v hv
      simp only [AggVal.apply]
      cases ha : v.acc.apply x.data with
      | none => rw [ha] at this; cases this
      | some b => rfl
    split
    · rename_i hn
      rw [hn] at this
      cases this
    · rfl

theorem recordAll_some {ms : List Metric} : ∀ {vm : ValuesMap} {ts : Nat},
    (∀ m vs, AMap.get vm.values m = some vs → ∀ v ∈ vs, (foldApply v.acc (datasOf m ms)).isSome) → (vm.recordAll ms ts).isSome := by
  induction ms with
  | nil => intro vm ts _; rfl
  | cons x r ih =>
    intro vm ts h
    have hd : ∀ m, datasOf m (x :: r) = datasOf m [x] ++ datasOf m r := by
      intro m
      simp only [datasOf, List.filterMap_cons, List.filterMap_nil]
      split <;> simp
    have h1 : (vm.calculate x ts).isSome := by
      refine calculate_some fun vs hvs v hv => ?_
      have := h _ vs hvs v hv
      rw [hd] at this
      have := foldApply_prefix this
      simp only [datasOf, List.filterMap_cons, if_true, List.filterMap_nil, foldApply] at this
      cases ha : v.acc.apply x.data with
      | none => rw [ha] at this; cases this
      | some b => rfl
    simp only [ValuesMap.recordAll]
    cases hc : vm.calculate x ts with
    | none => rw [hc] at h1; cases h1
    | some vm1 =>
      refine ih fun m ws hws w hw => ?_
      have e := calculate_evolves hc m
      cases hg : AMap.get vm.values m with
      | none => rw [hg] at e; simp only [] at e; rw [e] at hws; cases hws
      | some vs =>
        rw [hg] at e
        obtain ⟨vs', h2, h3⟩ := e
        rw [hws] at h2
        cases h2
        obtain ⟨v, hv, _, hf⟩ := All2.mem_right h3 hw
        have := h m vs hg v hv
        rw [hd, foldApply_append, hf] at this
        exact this

theorem recordMany_some {rs : List (List Metric × Nat)} : ∀ {vm : ValuesMap},
    (∀ m vs, AMap.get vm.values m = some vs → ∀ v ∈ vs, (foldApply v.acc (valuesOf m rs)).isSome) → (recordMany vm rs).isSome := by
  induction rs with
  | nil => intro vm _; rfl
  | cons x r ih =>
    intro vm h
    have hd : ∀ m, valuesOf m (x :: r) = datasOf m x.1 ++ valuesOf m r := by
      intro m
      simp [valuesOf, datasOf, List.flatMap_cons, List.filterMap_append]
    have h1 : (vm.recordAll x.1 x.2).isSome := by
      refine recordAll_some fun m vs hvs v hv => ?_
      have := h _ vs hvs v hv
      rw [hd] at this
      exact foldApply_prefix this
    simp only [recordMany]
    cases hc : vm.recordAll x.1 x.2 with
    | none => rw [hc] at h1; cases h1
    | some vm1 =>
      refine ih fun m ws hws w hw => ?_
      have e := recordAll_evolves hc m
      cases hg : AMap.get vm.values m with
      | none => rw [hg] at e; simp only [] at e; rw [e] at hws; cases hws
      | some vs =>
        rw [hg] at e
        obtain ⟨vs', h2, h3⟩ := e
        rw [hws] at h2
        cases h2
        obtain ⟨v, hv, _, hf⟩ := All2.mem_right h3 hw
        have := h m vs hg v hv
        rw [hd, foldApply_append, hf] at this
        exact this

/-- Every series can take its records one after the other. -/
def Applied (kinds : KindMap) (A : Pending) : Prop :=
  ∀ n k r0 rs, A n k = r0 :: rs → (recordMany (newAggValuesMap kinds r0.1) (r0 :: rs)).isSome

theorem aggregate_some {kinds : KindMap} {s : State} {A : Pending} (hr : Rep kinds s A) {g : Group} {sels : List Selector}
    (h : Applied kinds (A.step (.aggregate g sels))) : ∃ s', Agg.step kinds s (.aggregate g sels) = some (s', []) := by
  have h1 := h g.name (getLabelKeys sels g.labels)
  simp only [Pending.step, and_self, ↓reduceIte] at h1
  have h2 := hr.2 g.name (getLabelKeys sels g.labels)
  have hl : AMap.get ((AMap.get s g.name).getD []) (getLabelKeys sels g.labels) = lookup s g.name (getLabelKeys sels g.labels) := by
    simp only [lookup]; cases AMap.get s g.name <;> simp
  have key : (((((AMap.get s g.name).getD []) : Recorder).loadOrNew kinds (getLabelKeys sels g.labels) g.metrics).recordAll g.metrics g.ts).isSome := by
    simp only [Recorder.loadOrNew, hl]
    cases hA : A g.name (getLabelKeys sels g.labels) with
    | nil =>
      rw [hA] at h1 h2
      simp only [] at h2
      rw [h2]
      have := h1 _ _ rfl
      simp only [recordMany] at this
      simp only []
      split at this
      · cases this
      · rename_i hx; rw [hx]; rfl
    | cons r rs =>
      rw [hA] at h1 h2
      obtain ⟨vm, hv, hrm⟩ := h2
      rw [hv]
      have := h1 r (rs ++ [(g.metrics, g.ts)]) rfl
      rw [← List.cons_append, recordMany_append hrm] at this
      exact this
  obtain ⟨vm', hvm'⟩ := Option.isSome_iff_exists.1 key
  simp only [Agg.step, aggregate, Recorder.record, hvm', Option.map_some]
  exact ⟨_, rfl⟩

/-- Calls of `Aggregate` alone, after a history that runs. -/
theorem run_some {kinds : KindMap} {l1 : List Op} {s : State} {o : List Group} (h1 : run kinds [] l1 = some (s, o)) (l2 : List Op)
    (h2 : ∀ op ∈ l2, ∃ g sels, op = .aggregate g sels) (ha : Applied kinds (pending (l1 ++ l2))) :
    ∃ s', run kinds [] (l1 ++ l2) = some (s', o) := by
  induction l2 using snoc_ind with
  | nil => rw [List.append_nil]; exact ⟨s, h1⟩
  | snoc t op ih =>
    obtain ⟨g, sels, rfl⟩ := h2 op (by simp)
    have hp : pending (l1 ++ (t ++ [.aggregate g sels])) = (pending (l1 ++ t)).step (.aggregate g sels) := by
      rw [← List.append_assoc, pending_snoc]
    obtain ⟨s', hs'⟩ := ih (fun op hop => h2 op (by simp [hop])) (by
      intro n k r0 rs hrec
      have := ha n k
      rw [hp] at this
      simp only [Pending.step, hrec] at this
      split at this
      · have hx := this r0 (rs ++ [(g.metrics, g.ts)]) rfl
        cases hy : recordMany (newAggValuesMap kinds r0.1) (r0 :: rs) with
        | some v => rfl
        | none =>
          exfalso
          have hnone : ∀ (xs : List (List Metric × Nat)) (vm : ValuesMap) (y : List Metric × Nat), recordMany vm xs = none →
              recordMany vm (xs ++ [y]) = none := by
            intro xs
            induction xs with
            | nil => intro vm y h; cases h
            | cons z zs ih =>
              intro vm y h
              simp only [List.cons_append, recordMany] at h ⊢
              split
              · rfl
              · rename_i vm1 h1
                rw [h1] at h
                exact ih _ _ h
          rw [← List.cons_append, hnone _ _ _ hy] at hx
          cases hx
      · exact this r0 rs rfl)
    have hrep : Rep kinds s' (pending (l1 ++ t)) := run_rep (rep_init kinds) hs'
    obtain ⟨s'', hs''⟩ := aggregate_some hrep (g := g) (sels := sels) (by rw [← hp]; exact ha)
    refine ⟨s'', ?_⟩
    rw [← List.append_assoc, run_append, hs']
    simp only [Option.bind_some, run_one, hs'', Option.map_some, List.append_nil]

/-! ### A quiet aggregator -/

theorem all2_of_keys {α β : Type} {R : α → β → Prop} {a : List (String × α)} {b : List (String × β)}
    (hk : a.map (·.1) = b.map (·.1)) (h : ∀ p ∈ a, ∀ q ∈ b, p.1 = q.1 → R p.2 q.2) : All2 (fun p q => p.1 = q.1 ∧ R p.2 q.2) a b := by
  induction a generalizing b with
  | nil =>
    cases b with
    | nil => exact .nil
    | cons _ _ => cases hk
  | cons p t ih =>
    cases b with
    | nil => cases hk
    | cons q u =>
      simp only [List.map_cons, List.cons.injEq] at hk
      exact .cons ⟨hk.1, h p List.mem_cons_self q List.mem_cons_self hk.1⟩
        (ih hk.2 fun x hx y hy => h x (List.mem_cons_of_mem _ hx) y (List.mem_cons_of_mem _ hy))

theorem all2_of_get {α β : Type} {R : α → β → Prop} {a : List α} {b : List β} (hl : a.length = b.length)
    (h : ∀ (i : Nat) (x : α) (y : β), a[i]? = some x → b[i]? = some y → R x y) : All2 R a b := by
  induction a generalizing b with
  | nil =>
    cases b with
    | nil => exact .nil
    | cons _ _ => cases hl
  | cons x t ih =>
    cases b with
    | nil => cases hl
    | cons y u =>
      refine .cons (h 0 x y rfl rfl) (ih (by simpa using hl) fun i a b ha hb => h (i + 1) a b (by simpa using ha) (by simpa using hb))

theorem all2_get {α β : Type} {R : α → β → Prop} {a : List α} {b : List β} (h : All2 R a b) : ∀ {i : Nat} {x : α} {y : β},
    a[i]? = some x → b[i]? = some y → R x y := by
  induction h with
  | nil => intro i x y hx; simp at hx
  | cons hr _ ih =>
    intro i x y hx hy
    cases i with
    | zero => simp only [List.getElem?_cons_zero, Option.some.injEq] at hx hy; subst hx; subst hy; exact hr
    | succ i => exact ih (by simpa using hx) (by simpa using hy)

/-- The values of a series with nothing under way can be recorded one after the other. -/
theorem SeriesOk.applied {kinds : KindMap} {pd : String → Nat → List MData} {o : Prop} {r0 : List Metric × Nat}
    {rs : List (List Metric × Nat)} {vm : ValuesMap} (hs : SeriesOk kinds pd o r0 rs vm) (hpd : ∀ m i, pd m i = []) :
    (recordMany (newAggValuesMap kinds r0.1) (r0 :: rs)).isSome := by
  refine recordMany_some fun m ws hws w hw => ?_
  rw [get_newAggValuesMap] at hws
  split at hws
  · rename_i hm
    rw [Option.map_eq_some_iff] at hws
    obtain ⟨cs, hcs, rfl⟩ := hws
    obtain ⟨kc, hkc, rfl⟩ := List.mem_map.1 hw
    obtain ⟨l, hl⟩ := List.mem_iff_getElem?.1 hkc
    obtain ⟨vs, h1, h2, h3⟩ := hs.vals m cs hm hcs
    have hll : l < vs.length := by rw [h2]; exact (List.getElem?_eq_some_iff.1 hl).1
    obtain ⟨_, ds, h5, h6⟩ := h3 l kc vs[l] hl (List.getElem?_eq_getElem hll)
    rw [hpd, List.append_nil] at h6
    simp only [newAggValue]
    by_cases hk : kc.kind = .last
    · have : Acc.init kc = .last 0 := by simp [Acc.init, hk]
      rw [this, foldApply_last_any]
      rfl
    · rw [← foldApply_perm h6 (Acc.init kc) (by
        intro v hv
        revert hv hk
        simp only [Acc.init]
        cases kc.kind <;> simp), h5]
      rfl
  · cases hws

theorem SeriesOk.sim {kinds : KindMap} {pd : String → Nat → List MData} {o : Prop} {r0 : List Metric × Nat}
    {rs : List (List Metric × Nat)} {va vb : ValuesMap} (hs : SeriesOk kinds pd o r0 rs va) (hpd : ∀ m i, pd m i = [])
    (hr : recordMany (newAggValuesMap kinds r0.1) (r0 :: rs) = some vb) : VmRel kinds va vb := by
  have hkb := recordMany_keys hr
  have hwb : AMap.WF vb.values := recordMany_wf (wf_new kinds r0.1) hr
  have hwa : AMap.WF va.values := by
    rw [AMap.WF, hs.keys]
    exact wf_new kinds r0.1
  have hev := recordMany_evolves hr
  have key : VSim kinds va vb := by
    refine all2_of_keys (hs.keys.trans hkb.symm) ?_
    rintro ⟨m, vs⟩ hp ⟨m', ws⟩ hq rfl
    simp only at hp hq ⊢
    have ga := AMap.get_of_mem hwa hp
    have gb := AMap.get_of_mem hwb hq
    obtain ⟨hm, hkm⟩ := (known_of_get hs m).1 (by rw [ga]; rfl)
    obtain ⟨cs, hcs⟩ := Option.isSome_iff_exists.1 hkm
    obtain ⟨vs', h1, h2, h3⟩ := hs.vals m cs hm hcs
    rw [ga] at h1
    cases h1
    have e := hev m
    rw [get_newAggValuesMap, if_pos hm, hcs] at e
    obtain ⟨ws', h4, h5⟩ := e
    rw [gb] at h4
    cases h4
    have hlen := All2.length h5
    rw [List.length_map] at hlen
    refine all2_of_get (h2.trans hlen) fun i v w hv hw => ?_
    have hi : i < cs.length := by rw [← h2]; exact (List.getElem?_eq_some_iff.1 hv).1
    have hc : cs[i]? = some cs[i] := List.getElem?_eq_getElem hi
    obtain ⟨h6, ds, h7, h8⟩ := h3 i _ v hc hv
    obtain ⟨h9, h10⟩ := all2_get h5 (i := i) (x := newAggValue cs[i]) (by rw [List.getElem?_map, hc]; rfl) hw
    rw [hpd, List.append_nil] at h8
    refine ⟨h6.trans h9.symm, ?_⟩
    by_cases hk : cs[i].kind = .last
    · have hi0 : Acc.init cs[i] = .last 0 := by simp [Acc.init, hk]
      rw [hi0, foldApply_last_any] at h7
      simp only [newAggValue, hi0] at h10
      rw [foldApply_last_any] at h10
      exact .inr ⟨⟨m, cs, hcs, cs[i], List.getElem_mem hi, h6.symm, hk⟩, ⟨_, (Option.some.inj h7).symm⟩,
        ⟨_, (Option.some.inj h10).symm⟩⟩
    · have := foldApply_perm h8 (Acc.init cs[i]) (by
        intro v hv
        revert hv hk
        simp only [Acc.init]
        cases cs[i].kind <;> simp)
      rw [h7] at this
      simp only [newAggValue] at h10
      exact .inl (Option.some.inj (this.trans h10))
  exact ⟨key, vsim_symm key⟩

theorem wf_deref {kinds : KindMap} {c : Conf} (hinv : Inv kinds c) : WFSt c.deref := by
  constructor
  · have := hinv.wf
    simp only [AMap.WF, AMap.keys, Conf.deref, List.map_map, Function.comp_def] at this ⊢
    exact this
  · intro p hp
    obtain ⟨q, hq, rfl⟩ := List.mem_map.1 hp
    have := hinv.wf2 q hq
    simp only [AMap.WF, AMap.keys, List.map_map, Function.comp_def] at this ⊢
    exact this

theorem lookup_deref (c : Conf) (n : String) (k : LabelKeys) :
    lookup c.deref n k = (c.ptr n k).map fun p => (c.heap[p]?).getD ⟨[], 0⟩ := by
  simp only [lookup, Conf.deref, Conf.ptr]
  rw [get_mapv c.recs (fun r : AMap LabelKeys Nat => (r.map fun x => (x.1, (c.heap[x.2]?).getD ⟨[], 0⟩) : Recorder))]
  cases AMap.get c.recs n with
  | none => rfl
  | some r =>
    simp only [Option.map_some, Option.bind_some]
    exact get_mapv r (fun x => (c.heap[x]?).getD ⟨[], 0⟩) k

/-- With the mutex held for writing the aggregator has what the calls one after the other leave. -/
theorem quiet_sim {kinds : KindMap} {c : Conf} (hinv : Inv kinds c) (hq : ∀ p m l, c.pend p m l = []) {s : State}
    (hr : Rep kinds s c.recd) : Sim kinds c.deref s := by
  intro n k
  rw [lookup_deref]
  have h1 := hr.2 n k
  cases hp : c.ptr n k with
  | none =>
    rw [(hinv.empty n k).1 hp] at h1
    exact h1
  | some p =>
    cases hrec : c.recd n k with
    | nil => rw [(hinv.empty n k).2 hrec] at hp; cases hp
    | cons r0 rs =>
      rw [hrec] at h1
      obtain ⟨vb, hvb, hrm⟩ := h1
      obtain ⟨va, hva, hs⟩ := hinv.series n k p r0 rs hp hrec
      simp only [Option.map_some, hva, Option.getD_some]
      exact ⟨vb, hvb, hs.sim (hq p) hrm⟩

theorem quiet_applied {kinds : KindMap} {c : Conf} (hinv : Inv kinds c) (hq : ∀ p m l, c.pend p m l = []) :
    Applied kinds c.recd := by
  intro n k r0 rs hrec
  cases hp : c.ptr n k with
  | none => rw [(hinv.empty n k).1 hp] at hrec; cases hrec
  | some p =>
    obtain ⟨va, _, hs⟩ := hinv.series n k p r0 rs hp hrec
    exact hs.applied (hq p)

end Kindling.Agg.Conc
