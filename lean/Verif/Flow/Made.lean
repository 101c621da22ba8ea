import Verif.Net.Pool
import Verif.Flow.Counted
/-
From the records of the network analyzer (Verif/Net/Pool.lean) to what Prometheus counts (Verif/Flow/Counted.lean): the
records the analyzer hands on are what the theorems there ask for, however often they went through the pool.
-/
namespace Kindling.Flow.Made
open Kindling Kindling.Agg Kindling.Export.Prom Kindling.Flow.Count Kindling.Flow.Counted
open Kindling.Net.Pool (V Act vstep vrun vinit created metricNames Reached says abs records_are_values Edit)
open Kindling.Model.Attr (Val upd)

/-- The integer metrics a group always has. -/
def Measured (x : Net.Pool.Group) : Prop :=
  (∀ k v, x.metrics k = some v → ∃ n, v = .int n) ∧ ∀ k ∈ metricNames, ∃ v, x.metrics k = some v

theorem measured_created (now : Nat) : Measured (created now) := by
  constructor
  · intro k v h
    simp only [created] at h
    split at h
    · cases h; exact ⟨0, rfl⟩
    · cases h
  · intro k hk
    exact ⟨.int 0, by simp only [created, hk, ↓reduceIte]⟩

theorem measured_reset {x : Net.Pool.Group} (h : Measured x) : Measured x.reset := by
  constructor
  · intro k v hv
    simp only [Net.Pool.Group.reset, Net.Pool.zeroed, Option.map_eq_some_iff] at hv
    obtain ⟨w, hw, rfl⟩ := hv
    obtain ⟨n, rfl⟩ := h.1 k w hw
    exact ⟨0, rfl⟩
  · intro k hk
    obtain ⟨v, hv⟩ := h.2 k hk
    exact ⟨Val.zero v.ty, by simp only [Net.Pool.Group.reset, Net.Pool.zeroed, hv, Option.map_some]⟩

theorem measured_edit {x y : Net.Pool.Group} {e : Edit} (h : Measured x) (he : e.apply x = some y) : Measured y := by
  cases e with
  | label k v =>
    simp only [Edit.apply] at he
    split at he
    · cases he; exact h
    · split at he
      · cases he; exact h
      · cases he
  | put k v => cases he; exact h
  | remove k => cases he; exact h
  | name n => cases he; exact h
  | time t => cases he; exact h
  | metric k n =>
    cases he
    constructor
    · intro j v hv
      simp only [upd] at hv
      split at hv
      · cases hv; exact ⟨n, rfl⟩
      · exact h.1 j v hv
    · intro j hj
      by_cases e : j = k
      · exact ⟨.int n, by simp [upd, e]⟩
      · obtain ⟨v, hv⟩ := h.2 j hj
        exact ⟨v, by simp [upd, e, hv]⟩

theorem measured_set {gs : List Net.Pool.Group} {i : Nat} {y : Net.Pool.Group} (h : ∀ x ∈ gs, Measured x) (hy : Measured y) :
    ∀ x ∈ gs.set i y, Measured x := fun x hx => (List.mem_or_eq_of_mem_set hx).elim (h x) (fun e => e ▸ hy)

theorem measured_step {s s' : V} {a : Act} (h : ∀ x ∈ s.groups, Measured x) (hs : vstep s a = some s') : ∀ x ∈ s'.groups, Measured x := by
  cases a with
  | get g i now =>
    cases i with
    | none =>
      simp only [vstep, Option.some.injEq] at hs
      subst hs
      intro x hx
      rcases List.mem_append.1 hx with hx | hx
      · exact h x hx
      · rw [List.mem_singleton.1 hx]; exact measured_created now
    | some i =>
      simp only [vstep] at hs
      split at hs <;> cases hs
      exact h
  | parse g => cases hs; exact h
  | attr g m k v =>
    simp only [vstep] at hs
    split at hs
    · split at hs <;> cases hs
      exact h
    · cases hs
  | edit g i e =>
    simp only [vstep] at hs
    split at hs
    · split at hs
      · rename_i x hx
        simp only [Option.map_eq_some_iff] at hs
        obtain ⟨y, hy, rfl⟩ := hs
        exact measured_set h (measured_edit (h x (List.mem_of_getElem? hx)) hy)
      · cases hs
    · cases hs
  | merge g i m =>
    simp only [vstep] at hs
    split at hs
    · split at hs
      · rename_i x f hx hf
        cases hs
        exact measured_set h (h x (List.mem_of_getElem? hx))
      · cases hs
    · cases hs
  | signal g i =>
    simp only [vstep] at hs
    split at hs
    · split at hs
      · rename_i x hx
        cases hs
        intro y hy
        rcases List.mem_append.1 hy with hy | hy
        · exact h y hy
        · rw [List.mem_singleton.1 hy]; exact h x (List.mem_of_getElem? hx)
      · cases hs
    · cases hs
  | free g i =>
    simp only [vstep] at hs
    split at hs
    · split at hs
      · rename_i x hx
        cases hs
        exact measured_set h (measured_reset (h x (List.mem_of_getElem? hx)))
      · cases hs
    · cases hs
  | gc i =>
    simp only [vstep] at hs
    split at hs <;> cases hs
    exact h

/-- C119.  Every record of the analyzer has all its metrics, and nothing but integers, at any time and whatever it was used
for before. -/
theorem always_measured {s : Net.Pool.S} (hr : Reached s) {i : Nat} {x : Net.Pool.Group} (hx : says s i = some x) : Measured x := by
  obtain ⟨acts, h⟩ := hr
  have hv := records_are_values acts
  rw [h] at hv
  have key : ∀ (acts : List Act) (s s' : V), (∀ x ∈ s.groups, Measured x) → vrun s acts = some s' → ∀ x ∈ s'.groups, Measured x := by
    intro acts
    induction acts with
    | nil => intro s s' h hs; cases hs; exact h
    | cons a as ih =>
      intro s s' h hs
      simp only [vrun] at hs
      split at hs
      · cases hs
      · rename_i s1 h1
        exact ih s1 s' (measured_step h h1) hs
  exact key acts vinit _ (fun x hx => by cases hx) hv.symm x (List.mem_of_getElem? hx)

/-- The group is the record as the next consumer sees it: the metrics in some order, each name once (data_group.go:47-54
changes a metric in place), and the labels by name. -/
structure Is (x : Net.Pool.Group) (g : Group) : Prop where
  name : g.name = x.name
  once : (g.metrics.map (·.name)).Nodup
  metrics : ∀ k, (∃ m ∈ g.metrics, m.name = k) ↔ (x.metrics k).isSome = true
  values : ∀ m ∈ g.metrics, ∀ n, x.metrics m.name = some (.int n) → m.data = .int n

/-- C119.  What the analyzer hands to the processor is one request with one duration, and integers. -/
theorem analyzer_records {s : Net.Pool.S} (hr : Reached s) {i : Nat} {x : Net.Pool.Group} (hx : says s i = some x) {g : Group} (hg : Is x g) :
    OneRequest g ∧ ∀ m ∈ g.metrics, ∃ v, m.data = .int v := by
  obtain ⟨h1, h2⟩ := always_measured hr hx
  have hint : ∀ m ∈ g.metrics, ∃ v, m.data = .int v := by
    intro m hm
    obtain ⟨v, hv⟩ := Option.isSome_iff_exists.1 ((hg.metrics m.name).1 ⟨m, hm, rfl⟩)
    obtain ⟨n, rfl⟩ := h1 _ _ hv
    exact ⟨n, hg.values m hm n hv⟩
  refine ⟨?_, hint⟩
  obtain ⟨v, hv⟩ := h2 "request_total_time" (by decide)
  obtain ⟨m, hm, hn⟩ := (hg.metrics "request_total_time").2 (by rw [hv]; rfl)
  obtain ⟨n, hd⟩ := hint m hm
  obtain ⟨a, b, he⟩ := List.append_of_mem hm
  refine ⟨a, b, n, ?_, ?_⟩
  · rw [he, ← hd, ← hn]
  · intro y hy hyn
    have hnd := hg.once
    rw [he, List.map_append, List.map_cons, hn] at hnd
    rw [List.nodup_append, List.nodup_cons] at hnd
    rcases List.mem_append.1 hy with hy | hy
    · exact hnd.2.2 _ (List.mem_map.2 ⟨y, hy, rfl⟩) _ (List.mem_cons_self ..) hyn
    · exact hnd.2.1.1 (hyn ▸ List.mem_map.2 ⟨y, hy, rfl⟩)

/-- The records come from the analyzer: each is a record it holds at some time. -/
def FromAnalyzer (is : List In) : Prop := ∀ g sampled now, In.record g sampled now ∈ is → g.labels.Int64 ∧
  ∃ s i x, Reached s ∧ says s i = some x ∧ x.name = Net.Pool.netName ∧ Is x g

/-- C119.  From the analyzer to the scrape: nothing panics, and the first scrape shows the number of requests of every
series. -/
theorem analyzer_to_scrape {cfg : Export.Adapter.Cfg} {is : List In} {nows : Nat → Int} (hf : FromAnalyzer is)
    (hs : ∀ now, In.scrape now ∉ is) {t : Export.Sanitize.Tables} (ht : ∀ c, 97 ≤ c → c ≤ 122 → t.letter c = true)
    {valid : List Nat → List (String × Bytes) → Bool} (now : Int) :
    ∃ st ops ps out ps' ss, calls builtin [] ((is ++ [In.tick nows]).flatMap evOf) = some (st, ops) ∧
      prun t valid (promNet cfg) [] ops = some (ps, out) ∧ collect t valid ps now = some (ps', ss) ∧
      ∀ K, (∀ n, valid n (labelText (getLabels K)) = true) →
        (is.countP (isReceived cfg K) ≠ 0 →
          ∃ ts, .counter (runes "kindling_entity_request_total") (labelText (getLabels K)) (is.countP (isReceived cfg K)) ts ∈ ss) ∧
        (is.countP (isSent cfg K) + is.countP (isOutside cfg K) ≠ 0 →
          ∃ ts, .counter (runes "kindling_topology_request_total") (labelText (getLabels K))
            (is.countP (isSent cfg K) + is.countP (isOutside cfg K) : Nat) ts ∈ ss) := by
  refine first_scrape_exact ?_ ?_ hs ht now
  · intro g sm nw hm
    rcases List.mem_append.1 hm with hm | hm
    · obtain ⟨hl, s, i, x, h1, h2, h3, h4⟩ := hf g sm nw hm
      refine ⟨?_, fun _ => ⟨hl, (analyzer_records h1 h2 h4).1⟩⟩
      rw [h4.name, h3]
      decide
    · simp at hm
  · intro g sm nw hm
    rcases List.mem_append.1 hm with hm | hm
    · obtain ⟨hl, s, i, x, h1, h2, h3, h4⟩ := hf g sm nw hm
      exact (analyzer_records h1 h2 h4).2
    · simp at hm

/-- A record of the pool. -/
theorem one_record : ∃ s, Reached s ∧ ∃ x g, says s 0 = some x ∧ x.name = Net.Pool.netName ∧ Is x g ∧ g.metrics.length = 7 ∧ g.labels = [] := by
  obtain ⟨s1, h1⟩ : ∃ s1, Net.Pool.run Net.Pool.init [.get 1 none 3, .edit 1 0 (.metric "request_total_time" 12)] = some s1 := by
    have : (Net.Pool.run Net.Pool.init [.get 1 none 3, .edit 1 0 (.metric "request_total_time" 12)]).isSome = true := by
      have := records_are_values [.get 1 none 3, .edit 1 0 (.metric "request_total_time" 12)]
      have hv : (vrun vinit [.get 1 none 3, .edit 1 0 (.metric "request_total_time" 12)]).isSome = true := rfl
      rw [← this, Option.isSome_map] at hv
      exact hv
    exact Option.isSome_iff_exists.1 this
  have hv := records_are_values [.get 1 none 3, .edit 1 0 (.metric "request_total_time" 12)]
  rw [h1] at hv
  have hs : says s1 0 = some ({ created 3 with metrics := upd (created 3).metrics "request_total_time" (some (.int 12)) }) := by
    have : (some (abs s1)).bind (fun v => v.groups[0]?) = _ := congrArg (fun o => Option.bind o (fun v : V => v.groups[0]?)) hv
    exact this
  refine ⟨s1, ⟨_, h1⟩, _, ⟨Net.Pool.netName, [], 3, metricNames.map (fun k => ⟨k, .int (if k = "request_total_time" then 12 else 0)⟩)⟩, hs, rfl, ⟨rfl, by decide, ?_, ?_⟩, rfl, rfl⟩
  · intro k
    have : (∃ m ∈ metricNames.map (fun k => (⟨k, .int (if k = "request_total_time" then 12 else 0)⟩ : Metric)), m.name = k) ↔ k ∈ metricNames :=
      ⟨fun ⟨m, hm, hk⟩ => by obtain ⟨a, ha, rfl⟩ := List.mem_map.1 hm; exact hk ▸ ha, fun hk => ⟨_, List.mem_map.2 ⟨k, hk, rfl⟩, rfl⟩⟩
    rw [this]
    by_cases e : k = "request_total_time"
    · subst e; simp [upd]; decide
    · simp only [upd, e, ↓reduceIte, created]
      by_cases hk : k ∈ metricNames <;> simp [hk]
  · intro m hm n hn
    obtain ⟨k, hk, rfl⟩ := List.mem_map.1 hm
    by_cases e : k = "request_total_time"
    · subst e; simp [upd] at hn; simp [hn]
    · simp [upd, e, created, hk] at hn; simp [e, ← hn]

end Kindling.Flow.Made
