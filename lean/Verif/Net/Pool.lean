import Verif.Net.Record
/-
The records that are used again and again, by all the goroutines at once.

datagroup_pool.go, data_group.go, `distributeRecords` (network_analyzer.go:480-492) and
`ReceiveDataGroupAsSignal` (send_trigger.go:25-58).  A goroutine takes a record out of the pool,
writes into it, merges the parser's attributes, hands it to the consumers and puts it back; the
consumer of the CPU analyzer keeps a clone of it.  The values are behind pointers and nothing is
locked: what a goroutine reads in its record, and what a clone says later, depends on nobody else
having a pointer to the same value.  The memory is that of `Model/Attr.lean`, so a record is two
maps of pointers (labels and metrics), a name and a time.

Simplified: an action is one call on one record or map, and the actions of different goroutines
come in any order; `sync.Pool` gives out any record that is in it, or a new one, and may forget
records (`gc`); a record that a goroutine neither frees nor uses again (the early `return nil` of
`parseMultipleRequests`) just stays with it.  Metrics are integers, as in all records of this pool.
-/
namespace Kindling.Net.Pool
open Kindling.Model.Attr (Val Ty VMap Spec upd emptyV slive)
open Kindling.Net.Record (Info)

/-- `model.DataGroup` (data_group.go:11-16); labels and metrics are numbers of maps in the memory. -/
structure Rec where
  name : String
  ts : Nat
  labels : Nat
  metrics : Nat
deriving DecidableEq

/-- Everything: the memory, all records ever made, the maps of the parsers (`none`: merged, nobody
uses it), what is in the pool, who holds which record and which parser's map, and the clones that
the CPU analyzer keeps (`sampleMap`, `traceChan`). -/
structure S where
  mem : Model.Attr.St
  recs : List Rec
  parsers : List (Option Nat)
  pool : List Nat
  held : List (Nat × Nat)
  own : List (Nat × Nat)
  kept : List Nat

/-- The name of a record in the pool (constnames/const.go:35). -/
def netName : String := "net_request_metric_group"

/-- The metrics of a new record (datagroup_pool.go:13-21). -/
def metricNames : List String := ["connect_time", "request_sent_time", "waiting_ttfb_time", "content_download_time",
  "request_total_time", "request_io", "response_io"]

/-- What a holder does to a record: `UpdateAdd...Value`, `Add...Value`, `RemoveAttribute`,
`UpdateAddIntMetric` (data_group.go:47-54: a new pointer either way) and the two fields. -/
inductive Edit where
  | label (k : String) (v : Val)
  | put (k : String) (v : Val)
  | remove (k : String)
  | metric (k : String) (n : Int)
  | name (n : String)
  | time (t : Nat)
deriving DecidableEq

/-- The operations of an edit on the memory. -/
def Edit.ops (r : Rec) : Edit → List Model.Attr.Op
  | .label k v => [.updateAdd r.labels k v]
  | .put k v => [.add r.labels k v]
  | .remove k => [.remove r.labels k]
  | .metric k n => [.add r.metrics k (.int n)]
  | .name _ => []
  | .time _ => []

/-- And on the record itself. -/
def Edit.fields (r : Rec) : Edit → Rec
  | .name n => { r with name := n }
  | .time t => { r with ts := t }
  | _ => r

/-- One action; the first number is the goroutine. -/
inductive Act where
  /-- `pool.Get()`: a record of the pool, or a new one made at some time -/
  | get (g : Nat) (i : Option Nat) (now : Nat)
  /-- `NewAttributeMap` of a parser -/
  | parse (g : Nat)
  /-- `Add...Value` of a parser -/
  | attr (g m : Nat) (k : String) (v : Val)
  | edit (g i : Nat) (e : Edit)
  /-- `labels.Merge(attributes)` (network_analyzer.go:718, 776); the parser's map is not used again -/
  | merge (g i m : Nat)
  /-- `data.Clone()` (send_trigger.go:43), kept by the CPU analyzer -/
  | signal (g i : Nat)
  /-- `dataGroupPool.Free(record)` (network_analyzer.go:489) -/
  | free (g i : Nat)
  /-- the garbage collector empties a `sync.Pool` -/
  | gc (i : Nat)
deriving DecidableEq

/-- `createDataGroup` (datagroup_pool.go:12-24): two new maps, the second with the metrics. -/
def createOps (n : Nat) : List Model.Attr.Op := .new :: .new :: metricNames.map (fun k => .add (n + 1) k (.int 0))

/-- The step of an action; `none`: it panics, or the goroutine has no such record or map. -/
def step (s : S) : Act → Option S
  | .get g none now => (Model.Attr.run s.mem (createOps s.mem.maps.length)).map (fun m =>
      { s with mem := m, recs := s.recs ++ [⟨netName, now, s.mem.maps.length, s.mem.maps.length + 1⟩],
               held := s.held ++ [(g, s.recs.length)] })
  | .get g (some i) _ => if i ∈ s.pool then some { s with pool := s.pool.erase i, held := s.held ++ [(g, i)] } else none
  | .parse g => (Model.Attr.run s.mem [.new]).map (fun m =>
      { s with mem := m, parsers := s.parsers ++ [some s.mem.maps.length], own := s.own ++ [(g, s.parsers.length)] })
  | .attr g m k v => if (g, m) ∈ s.own then
      match s.parsers[m]? with
      | some (some j) => (Model.Attr.run s.mem [.add j k v]).map (fun h => { s with mem := h })
      | _ => none
    else none
  | .edit g i e => if (g, i) ∈ s.held then
      match s.recs[i]? with
      | some r => (Model.Attr.run s.mem (e.ops r)).map (fun h => { s with mem := h, recs := s.recs.set i (e.fields r) })
      | none => none
    else none
  | .merge g i m => if (g, i) ∈ s.held ∧ (g, m) ∈ s.own then
      match s.recs[i]?, s.parsers[m]? with
      | some r, some (some j) => (Model.Attr.run s.mem [.mergeDrop r.labels j]).map (fun h =>
          { s with mem := h, parsers := s.parsers.set m none, own := s.own.erase (g, m) })
      | _, _ => none
    else none
  | .signal g i => if (g, i) ∈ s.held then
      match s.recs[i]? with
      | some r => (Model.Attr.run s.mem [.clone r.labels, .clone r.metrics]).map (fun h =>
          { s with mem := h, recs := s.recs ++ [⟨r.name, r.ts, s.mem.maps.length, s.mem.maps.length + 1⟩],
                   kept := s.kept ++ [s.recs.length] })
      | none => none
    else none
  | .free g i => if (g, i) ∈ s.held then
      match s.recs[i]? with
      | some r => (Model.Attr.run s.mem [.reset r.metrics, .reset r.labels]).map (fun h =>
          { s with mem := h, recs := s.recs.set i { r with name := netName, ts := 0 },
                   held := s.held.erase (g, i), pool := s.pool ++ [i] })
      | none => none
    else none
  | .gc i => if i ∈ s.pool then some { s with pool := s.pool.erase i } else none

def init : S := ⟨Model.Attr.init, [], [], [], [], [], []⟩

def run (s : S) : List Act → Option S
  | [] => some s
  | a :: as => match step s a with
    | none => none
    | some s' => run s' as

/-! ### Specification: records without memory

Every record is a value of its own, and so is every parser's map. -/

structure Group where
  name : String
  ts : Nat
  labels : VMap
  metrics : VMap

def Edit.apply (x : Group) : Edit → Option Group
  | .label k v => match x.labels k with
    | none => some { x with labels := upd x.labels k (some v) }
    | some w => if w.ty = v.ty then some { x with labels := upd x.labels k (some v) } else none
  | .put k v => some { x with labels := upd x.labels k (some v) }
  | .remove k => some { x with labels := upd x.labels k none }
  | .metric k n => some { x with metrics := upd x.metrics k (some (.int n)) }
  | .name n => some { x with name := n }
  | .time t => some { x with ts := t }

def zeroed (f : VMap) : VMap := fun k => (f k).map (fun v => Val.zero v.ty)

def Group.reset (x : Group) : Group := ⟨netName, 0, zeroed x.labels, zeroed x.metrics⟩

def created (now : Nat) : Group := ⟨netName, now, emptyV, fun k => if k ∈ metricNames then some (.int 0) else none⟩

structure V where
  groups : List Group
  parsers : List (Option VMap)
  pool : List Nat
  held : List (Nat × Nat)
  own : List (Nat × Nat)
  kept : List Nat

def vstep (s : V) : Act → Option V
  | .get g none now => some { s with groups := s.groups ++ [created now], held := s.held ++ [(g, s.groups.length)] }
  | .get g (some i) _ => if i ∈ s.pool then some { s with pool := s.pool.erase i, held := s.held ++ [(g, i)] } else none
  | .parse g => some { s with parsers := s.parsers ++ [some emptyV], own := s.own ++ [(g, s.parsers.length)] }
  | .attr g m k v => if (g, m) ∈ s.own then
      match s.parsers[m]? with
      | some (some f) => some { s with parsers := s.parsers.set m (some (upd f k (some v))) }
      | _ => none
    else none
  | .edit g i e => if (g, i) ∈ s.held then
      match s.groups[i]? with
      | some x => (e.apply x).map (fun y => { s with groups := s.groups.set i y })
      | none => none
    else none
  | .merge g i m => if (g, i) ∈ s.held ∧ (g, m) ∈ s.own then
      match s.groups[i]?, s.parsers[m]? with
      | some x, some (some f) => some { s with groups := s.groups.set i { x with labels := fun k => (f k).or (x.labels k) },
                                               parsers := s.parsers.set m none, own := s.own.erase (g, m) }
      | _, _ => none
    else none
  | .signal g i => if (g, i) ∈ s.held then
      match s.groups[i]? with
      | some x => some { s with groups := s.groups ++ [x], kept := s.kept ++ [s.groups.length] }
      | none => none
    else none
  | .free g i => if (g, i) ∈ s.held then
      match s.groups[i]? with
      | some x => some { s with groups := s.groups.set i x.reset, held := s.held.erase (g, i), pool := s.pool ++ [i] }
      | none => none
    else none
  | .gc i => if i ∈ s.pool then some { s with pool := s.pool.erase i } else none

def vinit : V := ⟨[], [], [], [], [], []⟩

def vrun (s : V) : List Act → Option V
  | [] => some s
  | a :: as => match vstep s a with
    | none => none
    | some s' => vrun s' as

/-- What a record says. -/
def groupOf (A : Spec) (r : Rec) : Group :=
  ⟨r.name, r.ts, (slive A r.labels).getD emptyV, (slive A r.metrics).getD emptyV⟩

def abs (s : S) : V :=
  ⟨s.recs.map (groupOf (Model.Attr.abs s.mem)), s.parsers.map (fun x => x.bind (slive (Model.Attr.abs s.mem))),
    s.pool, s.held, s.own, s.kept⟩

/-! ### The memory of a record is its own -/

/-- Whose a map is. -/
inductive Owner where
  | lab (i : Nat)
  | met (i : Nat)
  | par (m : Nat)

structure Owned (own : Nat → Owner) (A : Spec) (recs : List Rec) (parsers : List (Option Nat)) : Prop where
  lab : ∀ i r, recs[i]? = some r → own r.labels = .lab i ∧ ∃ f, slive A r.labels = some f
  met : ∀ i r, recs[i]? = some r → own r.metrics = .met i ∧ ∃ f, slive A r.metrics = some f
  par : ∀ m j, parsers[m]? = some (some j) → own j = .par m ∧ ∃ f, slive A j = some f

structure Inv (s : S) : Prop where
  sep : Model.Attr.Sep s.mem
  own : ∃ own, Owned own (Model.Attr.abs s.mem) s.recs s.parsers

theorem run_refines (ops : List Model.Attr.Op) : ∀ (σ : Model.Attr.St), Model.Attr.Sep σ →
    (Model.Attr.run σ ops = none ∧ Model.Attr.srun (Model.Attr.abs σ) ops = none) ∨
    ∃ σ', Model.Attr.run σ ops = some σ' ∧ Model.Attr.Sep σ' ∧ Model.Attr.srun (Model.Attr.abs σ) ops = some (Model.Attr.abs σ') := by
  induction ops with
  | nil => intro σ h; exact Or.inr ⟨σ, rfl, h, rfl⟩
  | cons o os ih =>
    intro σ h
    rcases Model.Attr.step_refines h o with ⟨h1, h2⟩ | ⟨σ', h1, h2, h3⟩
    · left; simp only [Model.Attr.run, Model.Attr.srun, h1, h2, and_self]
    · rcases ih σ' h2 with ⟨g1, g2⟩ | ⟨σ2, g1, g2, g3⟩
      · left; simp only [Model.Attr.run, Model.Attr.srun, h1, h3, g1, g2, and_self]
      · right; refine ⟨σ2, ?_, g2, ?_⟩
        · simp only [Model.Attr.run, h1, g1]
        · simp only [Model.Attr.srun, h3, g3]

theorem slive_lt {A : Spec} {j : Nat} {f : VMap} (h : slive A j = some f) : j < A.length := by
  unfold slive at h
  by_cases hj : j < A.length
  · exact hj
  · rw [List.getElem?_eq_none (by omega)] at h; cases h

theorem slive_set' {A : Spec} {i j : Nat} {x : Option VMap} (hi : i < A.length) :
    slive (A.set i x) j = if i = j then x else slive A j := by
  unfold slive
  by_cases h : i = j
  · subst h; rw [if_pos rfl, List.getElem?_set_self hi]; rfl
  · rw [if_neg h, List.getElem?_set_ne h]

theorem slive_app {A B : Spec} {j : Nat} (h : j < A.length) : slive (A ++ B) j = slive A j := by
  unfold slive; rw [List.getElem?_append_left h]

theorem length_abs (σ : Model.Attr.St) : (Model.Attr.abs σ).length = σ.maps.length := by simp [Model.Attr.abs]

/-- Two memories that agree on the maps of a record give it the same meaning. -/
theorem groupOf_congr {A A' : Spec} {r : Rec} (h1 : slive A' r.labels = slive A r.labels)
    (h2 : slive A' r.metrics = slive A r.metrics) : groupOf A' r = groupOf A r := by
  simp only [groupOf, h1, h2]

theorem map_set_groups {A A' : Spec} {recs : List Rec} {i : Nat} {r r2 : Rec} (hi : recs[i]? = some r)
    (h : ∀ (j : Nat) r', j ≠ i → recs[j]? = some r' → groupOf A' r' = groupOf A r') :
    (recs.set i r2).map (groupOf A') = (recs.map (groupOf A)).set i (groupOf A' r2) := by
  have hlt : i < recs.length := (List.getElem?_eq_some_iff.mp hi).1
  apply List.ext_getElem?
  intro j
  rw [List.getElem?_map]
  by_cases hj : i = j
  · subst hj
    rw [List.getElem?_set_self hlt, List.getElem?_set_self (by simpa using hlt)]; rfl
  · rw [List.getElem?_set_ne hj, List.getElem?_set_ne hj, List.getElem?_map]
    cases hr : recs[j]? with
    | none => rfl
    | some r' => simp only [Option.map_some]; rw [h j r' (Ne.symm hj) hr]

theorem map_groups {A A' : Spec} {recs : List Rec}
    (h : ∀ (j : Nat) r', recs[j]? = some r' → groupOf A' r' = groupOf A r') : recs.map (groupOf A') = recs.map (groupOf A) := by
  apply List.map_congr_left
  intro r hr
  obtain ⟨j, hj⟩ := List.getElem?_of_mem hr
  exact h j r hj

theorem map_parsers {A A' : Spec} {ps : List (Option Nat)}
    (h : ∀ (m j : Nat), ps[m]? = some (some j) → slive A' j = slive A j) :
    ps.map (fun x => x.bind (slive A')) = ps.map (fun x => x.bind (slive A)) := by
  apply List.map_congr_left
  intro x hx
  obtain ⟨m, hm⟩ := List.getElem?_of_mem hx
  cases x with
  | none => rfl
  | some j => exact h m j hm

theorem map_set_parsers {A A' : Spec} {ps : List (Option Nat)} {m : Nat} {y : Option Nat} (hm : m < ps.length)
    (h : ∀ (m' j : Nat), m' ≠ m → ps[m']? = some (some j) → slive A' j = slive A j) :
    (ps.set m y).map (fun x => x.bind (slive A')) = (ps.map (fun x => x.bind (slive A))).set m (y.bind (slive A')) := by
  apply List.ext_getElem?
  intro j
  rw [List.getElem?_map]
  by_cases hj : m = j
  · subst hj
    rw [List.getElem?_set_self hm, List.getElem?_set_self (by simpa using hm)]; rfl
  · rw [List.getElem?_set_ne hj, List.getElem?_set_ne hj, List.getElem?_map]
    cases hr : ps[j]? with
    | none => rfl
    | some x =>
      cases x with
      | none => rfl
      | some q => simp only [Option.map_some, Option.bind_some]; rw [h j q (Ne.symm hj) hr]

/-- Keeping the owners when maps stay alive. -/
theorem Owned.mono {own : Nat → Owner} {A A' : Spec} {recs : List Rec} {ps : List (Option Nat)}
    (h : Owned own A recs ps) (hl : ∀ j f, slive A j = some f → ∃ f', slive A' j = some f') : Owned own A' recs ps :=
  ⟨fun i r hr => ⟨(h.lab i r hr).1, (h.lab i r hr).2.elim fun f hf => hl _ f hf⟩,
   fun i r hr => ⟨(h.met i r hr).1, (h.met i r hr).2.elim fun f hf => hl _ f hf⟩,
   fun m j hj => ⟨(h.par m j hj).1, (h.par m j hj).2.elim fun f hf => hl _ f hf⟩⟩

/-- Changing the fields of a record keeps the owners. -/
theorem Owned.fields {own : Nat → Owner} {A : Spec} {recs : List Rec} {ps : List (Option Nat)}
    (h : Owned own A recs ps) {i : Nat} {r r2 : Rec} (hi : recs[i]? = some r) (h1 : r2.labels = r.labels)
    (h2 : r2.metrics = r.metrics) : Owned own A (recs.set i r2) ps := by
  have hlt : i < recs.length := (List.getElem?_eq_some_iff.mp hi).1
  have key : ∀ (j : Nat) (r' : Rec), (recs.set i r2)[j]? = some r' → ∃ r0 : Rec, recs[j]? = some r0 ∧ r'.labels = r0.labels ∧ r'.metrics = r0.metrics := by
    intro j r' hj
    by_cases hij : i = j
    · subst hij
      rw [List.getElem?_set_self hlt] at hj
      cases hj; exact ⟨r, hi, h1, h2⟩
    · rw [List.getElem?_set_ne hij] at hj; exact ⟨r', hj, rfl, rfl⟩
  refine ⟨fun j r' hj => ?_, fun j r' hj => ?_, h.par⟩
  · obtain ⟨r0, e, e1, _⟩ := key j r' hj; rw [e1]; exact h.lab j r0 e
  · obtain ⟨r0, e, _, e2⟩ := key j r' hj; rw [e2]; exact h.met j r0 e

/-- A memory in which only one map changed. -/
theorem set_alive {A : Spec} {i : Nat} (hi : i < A.length) {f : VMap} :
    ∀ j f0, slive A j = some f0 → ∃ f', slive (A.set i (some f)) j = some f' := by
  intro j f0 h
  rw [slive_set' hi]
  by_cases e : i = j
  · exact ⟨f, by rw [if_pos e]⟩
  · exact ⟨f0, by rw [if_neg e]; exact h⟩

section Refine
variable {own : Nat → Owner} {A : Spec} {recs : List Rec} {ps : List (Option Nat)}

theorem Owned.lab_ne_lab (h : Owned own A recs ps) {i j : Nat} {r r' : Rec} (hi : recs[i]? = some r) (hj : recs[j]? = some r')
    (hne : j ≠ i) : r.labels ≠ r'.labels := by
  intro e
  have h1 := (h.lab i r hi).1
  have h2 := (h.lab j r' hj).1
  rw [e, h2] at h1; cases h1; exact hne rfl

theorem Owned.met_ne_met (h : Owned own A recs ps) {i j : Nat} {r r' : Rec} (hi : recs[i]? = some r) (hj : recs[j]? = some r')
    (hne : j ≠ i) : r.metrics ≠ r'.metrics := by
  intro e
  have h1 := (h.met i r hi).1
  have h2 := (h.met j r' hj).1
  rw [e, h2] at h1; cases h1; exact hne rfl

theorem Owned.lab_ne_met (h : Owned own A recs ps) {i j : Nat} {r r' : Rec} (hi : recs[i]? = some r) (hj : recs[j]? = some r') :
    r.labels ≠ r'.metrics := by
  intro e
  have h1 := (h.lab i r hi).1
  have h2 := (h.met j r' hj).1
  rw [e, h2] at h1; cases h1

theorem Owned.lab_ne_par (h : Owned own A recs ps) {i m j : Nat} {r : Rec} (hi : recs[i]? = some r) (hm : ps[m]? = some (some j)) :
    r.labels ≠ j := by
  intro e
  have h1 := (h.lab i r hi).1
  have h2 := (h.par m j hm).1
  rw [e, h2] at h1; cases h1

theorem Owned.met_ne_par (h : Owned own A recs ps) {i m j : Nat} {r : Rec} (hi : recs[i]? = some r) (hm : ps[m]? = some (some j)) :
    r.metrics ≠ j := by
  intro e
  have h1 := (h.met i r hi).1
  have h2 := (h.par m j hm).1
  rw [e, h2] at h1; cases h1

theorem Owned.par_ne_par (h : Owned own A recs ps) {m m' j j' : Nat} (hm : ps[m]? = some (some j)) (hm' : ps[m']? = some (some j'))
    (hne : m' ≠ m) : j ≠ j' := by
  intro e
  have h1 := (h.par m j hm).1
  have h2 := (h.par m' j' hm').1
  rw [e, h2] at h1; cases h1; exact hne rfl

/-- Writing the labels of a record changes that record and nothing else. -/
theorem set_labels (h : Owned own A recs ps) {i : Nat} {r : Rec} (hi : recs[i]? = some r) (f : VMap) :
    (recs.set i r).map (groupOf (A.set r.labels (some f))) =
      (recs.map (groupOf A)).set i { groupOf A r with labels := f } ∧
    ps.map (fun x => x.bind (slive (A.set r.labels (some f)))) = ps.map (fun x => x.bind (slive A)) ∧
    Owned own (A.set r.labels (some f)) (recs.set i r) ps := by
  have hlt : r.labels < A.length := (h.lab i r hi).2.elim fun _ => slive_lt
  refine ⟨?_, ?_, (h.mono (set_alive hlt)).fields hi rfl rfl⟩
  · rw [map_set_groups hi (A := A)]
    · congr 1
      simp only [groupOf, slive_set' hlt, if_true, if_neg (h.lab_ne_met hi hi), Option.getD_some]
    · intro j r' hj hr'
      apply groupOf_congr
      · rw [slive_set' hlt, if_neg (h.lab_ne_lab hi hr' hj)]
      · rw [slive_set' hlt, if_neg (h.lab_ne_met hi hr')]
  · apply map_parsers
    intro m j hm
    rw [slive_set' hlt, if_neg (h.lab_ne_par hi hm)]

/-- And so for the metrics. -/
theorem set_metrics (h : Owned own A recs ps) {i : Nat} {r : Rec} (hi : recs[i]? = some r) (f : VMap) :
    (recs.set i r).map (groupOf (A.set r.metrics (some f))) =
      (recs.map (groupOf A)).set i { groupOf A r with metrics := f } ∧
    ps.map (fun x => x.bind (slive (A.set r.metrics (some f)))) = ps.map (fun x => x.bind (slive A)) ∧
    Owned own (A.set r.metrics (some f)) (recs.set i r) ps := by
  have hlt : r.metrics < A.length := (h.met i r hi).2.elim fun _ => slive_lt
  refine ⟨?_, ?_, (h.mono (set_alive hlt)).fields hi rfl rfl⟩
  · rw [map_set_groups hi (A := A)]
    · congr 1
      simp only [groupOf, slive_set' hlt, if_true, if_neg (Ne.symm (h.lab_ne_met hi hi)), Option.getD_some]
    · intro j r' hj hr'
      apply groupOf_congr
      · rw [slive_set' hlt, if_neg (Ne.symm (h.lab_ne_met hr' hi))]
      · rw [slive_set' hlt, if_neg (h.met_ne_met hi hr' hj)]
  · apply map_parsers
    intro m j hm
    rw [slive_set' hlt, if_neg (h.met_ne_par hi hm)]

/-- A new record on two maps at the end of the memory. -/
theorem new_record (h : Owned own A recs ps) (l m : VMap) (n : String) (t : Nat) :
    (recs ++ [Rec.mk n t A.length (A.length + 1)]).map (groupOf (A ++ [some l, some m])) = recs.map (groupOf A) ++ [⟨n, t, l, m⟩] ∧
    ps.map (fun x => x.bind (slive (A ++ [some l, some m]))) = ps.map (fun x => x.bind (slive A)) ∧
    ∃ own', Owned own' (A ++ [some l, some m]) (recs ++ [Rec.mk n t A.length (A.length + 1)]) ps := by
  have e1 : slive (A ++ [some l, some m]) A.length = some l := by simp [slive]
  have e2 : slive (A ++ [some l, some m]) (A.length + 1) = some m := by simp [slive]
  refine ⟨?_, ?_, ?_⟩
  · rw [List.map_append]
    congr 1
    · apply map_groups
      intro j r' hr'
      exact groupOf_congr (slive_app ((h.lab j r' hr').2.elim fun _ => slive_lt)) (slive_app ((h.met j r' hr').2.elim fun _ => slive_lt))
    · simp only [List.map_cons, List.map_nil, groupOf, e1, e2, Option.getD_some]
  · apply map_parsers
    intro m' j hm
    exact slive_app ((h.par m' j hm).2.elim fun _ => slive_lt)
  · refine ⟨fun j => if j = A.length then .lab recs.length else if j = A.length + 1 then .met recs.length else own j, ?_, ?_, ?_⟩
    · intro i r hr
      by_cases hi : i < recs.length
      · rw [List.getElem?_append_left hi] at hr
        obtain ⟨o, f, hf⟩ := h.lab i r hr
        have := slive_lt hf
        rw [if_neg (by omega), if_neg (by omega)]
        exact ⟨o, f, by rw [slive_app this, hf]⟩
      · rw [List.getElem?_append_right (by omega)] at hr
        have hi0 : i - recs.length = 0 := by
          by_cases hz : i - recs.length = 0
          · exact hz
          · rw [List.getElem?_eq_none (by simp; omega)] at hr; cases hr
        rw [hi0] at hr
        simp only [List.getElem?_cons_zero, Option.some.injEq] at hr
        subst hr
        have : i = recs.length := by omega
        subst this
        exact ⟨by simp, l, e1⟩
    · intro i r hr
      by_cases hi : i < recs.length
      · rw [List.getElem?_append_left hi] at hr
        obtain ⟨o, f, hf⟩ := h.met i r hr
        have := slive_lt hf
        rw [if_neg (by omega), if_neg (by omega)]
        exact ⟨o, f, by rw [slive_app this, hf]⟩
      · rw [List.getElem?_append_right (by omega)] at hr
        have hi0 : i - recs.length = 0 := by
          by_cases hz : i - recs.length = 0
          · exact hz
          · rw [List.getElem?_eq_none (by simp; omega)] at hr; cases hr
        rw [hi0] at hr
        simp only [List.getElem?_cons_zero, Option.some.injEq] at hr
        subst hr
        have : i = recs.length := by omega
        subst this
        exact ⟨by simp, m, e2⟩
    · intro m' j hm
      obtain ⟨o, f, hf⟩ := h.par m' j hm
      have := slive_lt hf
      rw [if_neg (by omega), if_neg (by omega)]
      exact ⟨o, f, by rw [slive_app this, hf]⟩

end Refine

/-- `createDataGroup` in the memory. -/
theorem srun_create (A : Spec) :
    Model.Attr.srun A (createOps A.length) = some (A ++ [some emptyV, some (created 0).metrics]) := by
  have key : ∀ (ks : List String) (f : VMap),
      Model.Attr.srun (A ++ [some emptyV, some f]) (ks.map (fun k => Model.Attr.Op.add (A.length + 1) k (.int 0))) =
        some (A ++ [some emptyV, some (fun k => if k ∈ ks then some (Val.int 0) else f k)]) := by
    intro ks
    induction ks with
    | nil => intro f; simp [Model.Attr.srun]
    | cons k ks ih =>
      intro f
      have e1 : slive (A ++ [some emptyV, some f]) (A.length + 1) = some f := by simp [slive]
      have e2 : (A ++ [some emptyV, some f]).set (A.length + 1) (some (upd f k (some (.int 0)))) =
          A ++ [some emptyV, some (upd f k (some (.int 0)))] := by simp
      simp only [List.map_cons, Model.Attr.srun, Model.Attr.sstep, e1, e2]
      rw [ih]
      have e3 : (fun k' => if k' ∈ ks then some (Val.int 0) else upd f k (some (Val.int 0)) k') =
          (fun k' => if k' ∈ k :: ks then some (Val.int 0) else f k') := by
        funext k'
        simp only [List.mem_cons, upd]
        by_cases h1 : k' = k
        · simp [h1]
        · simp [h1]
      rw [e3]
  have := key metricNames emptyV
  simp only [createOps, Model.Attr.srun, Model.Attr.sstep, List.append_assoc, List.cons_append, List.nil_append]
  rw [this]
  rfl

theorem getElem?_groups (A : Spec) (recs : List Rec) (i : Nat) :
    (recs.map (groupOf A))[i]? = (recs[i]?).map (groupOf A) := List.getElem?_map

theorem set_self {α : Type} {l : List α} {i : Nat} {a : α} (h : l[i]? = some a) : l.set i a = l := by
  obtain ⟨hlt, rfl⟩ := List.getElem?_eq_some_iff.mp h
  exact List.set_getElem_self hlt

/-- Every action does to the records what it does to values. -/
theorem step_refines {s : S} (hs : Inv s) (a : Act) :
    (step s a = none ∧ vstep (abs s) a = none) ∨ ∃ s', step s a = some s' ∧ Inv s' ∧ vstep (abs s) a = some (abs s') := by
  obtain ⟨hsep, own, hown⟩ := hs
  have hlen := length_abs s.mem
  cases a with
  | get g i now =>
    cases i with
    | none =>
      rcases run_refines (createOps s.mem.maps.length) s.mem hsep with ⟨_, h2⟩ | ⟨σ', h1, h2, h3⟩
      · rw [← hlen, srun_create] at h2; cases h2
      · right
        rw [← hlen, srun_create] at h3
        have e : Model.Attr.abs σ' = Model.Attr.abs s.mem ++ [some emptyV, some (created 0).metrics] := (Option.some.inj h3).symm
        obtain ⟨k1, k2, own', k3⟩ := new_record hown emptyV (created 0).metrics netName now
        refine ⟨_, (by simp only [step, h1, Option.map_some]; rfl), ⟨(by exact h2), own', ?_⟩, ?_⟩
        · simp only [e, ← hlen]; exact k3
        · simp only [vstep, abs, e, ← hlen, k1, k2, List.length_map]; rfl
    | some i =>
      by_cases hi : i ∈ s.pool
      · right
        exact ⟨_, (by simp only [step, if_pos hi]; rfl), (by exact ⟨hsep, own, hown⟩), by simp only [vstep, abs, hi, if_true]⟩
      · left
        exact ⟨by simp only [step, if_neg hi], by simp only [vstep, abs, hi, if_false]⟩
  | parse g =>
    rcases run_refines [.new] s.mem hsep with ⟨_, h2⟩ | ⟨σ', h1, h2, h3⟩
    · simp [Model.Attr.srun, Model.Attr.sstep] at h2
    · right
      have e : Model.Attr.abs σ' = Model.Attr.abs s.mem ++ [some emptyV] := by
        simpa [Model.Attr.srun, Model.Attr.sstep] using h3.symm
      have ha : ∀ j f, slive (Model.Attr.abs s.mem) j = some f → slive (Model.Attr.abs σ') j = some f :=
        fun j f hf => by rw [e, slive_app (slive_lt hf)]; exact hf
      have hr : s.recs.map (groupOf (Model.Attr.abs σ')) = s.recs.map (groupOf (Model.Attr.abs s.mem)) := map_groups
        (fun j r' hr' => by
          obtain ⟨_, f, hf⟩ := hown.lab j r' hr'
          obtain ⟨_, f', hf'⟩ := hown.met j r' hr'
          exact groupOf_congr (by rw [ha _ _ hf, hf]) (by rw [ha _ _ hf', hf']))
      have hp : s.parsers.map (fun x => x.bind (slive (Model.Attr.abs σ'))) =
          s.parsers.map (fun x => x.bind (slive (Model.Attr.abs s.mem))) := map_parsers
        (fun m j hm => by obtain ⟨_, f, hf⟩ := hown.par m j hm; rw [ha _ _ hf, hf])
      have hn : slive (Model.Attr.abs σ') s.mem.maps.length = some emptyV := by rw [e, ← hlen]; simp [slive]
      refine ⟨_, (by simp only [step, h1, Option.map_some]; rfl), ⟨(by exact h2), fun j => if j = s.mem.maps.length then .par s.parsers.length else own j, ?_, ?_, ?_⟩, ?_⟩
      · intro i r hr
        obtain ⟨o, f, hf⟩ := hown.lab i r hr
        have := slive_lt hf
        simp only
        rw [if_neg (by omega)]
        exact ⟨o, f, ha _ _ hf⟩
      · intro i r hr
        obtain ⟨o, f, hf⟩ := hown.met i r hr
        have := slive_lt hf
        simp only
        rw [if_neg (by omega)]
        exact ⟨o, f, ha _ _ hf⟩
      · intro m j hm
        simp only at hm
        by_cases hl : m < s.parsers.length
        · rw [List.getElem?_append_left hl] at hm
          obtain ⟨o, f, hf⟩ := hown.par m j hm
          have := slive_lt hf
          simp only
          rw [if_neg (by omega)]
          exact ⟨o, f, ha _ _ hf⟩
        · rw [List.getElem?_append_right (by omega)] at hm
          have hz : m - s.parsers.length = 0 := by
            by_cases hz : m - s.parsers.length = 0
            · exact hz
            · rw [List.getElem?_eq_none (by simp; omega)] at hm; cases hm
          rw [hz] at hm
          simp only [List.getElem?_cons_zero, Option.some.injEq] at hm
          subst hm
          have : m = s.parsers.length := by omega
          subst this
          exact ⟨by simp, _, hn⟩
      · simp only [vstep, abs, hr, List.map_append, hp, List.map_cons, List.map_nil, Option.bind_some, hn, List.length_map]
  | attr g m k v =>
    by_cases hm : (g, m) ∈ s.own
    · cases hp : s.parsers[m]? with
      | none =>
        left
        exact ⟨by simp only [step, if_pos hm, hp], by simp only [vstep, abs, hm, if_true, List.getElem?_map, hp, Option.map_none]⟩
      | some x =>
        cases x with
        | none =>
          left
          exact ⟨by simp only [step, if_pos hm, hp],
            by simp only [vstep, abs, hm, if_true, List.getElem?_map, hp, Option.map_some, Option.bind_none]⟩
        | some j =>
          obtain ⟨o, f, hf⟩ := hown.par m j hp
          have hlt := slive_lt hf
          have hml : m < s.parsers.length := (List.getElem?_eq_some_iff.mp hp).1
          rcases run_refines [.add j k v] s.mem hsep with ⟨_, h2⟩ | ⟨σ', h1, h2, h3⟩
          · simp [Model.Attr.srun, Model.Attr.sstep, hf] at h2
          · right
            have e : Model.Attr.abs σ' = (Model.Attr.abs s.mem).set j (some (upd f k (some v))) := by
              simpa [Model.Attr.srun, Model.Attr.sstep, hf] using h3.symm
            refine ⟨_, (by simp only [step, if_pos hm, hp, h1, Option.map_some]; rfl), ⟨(by exact h2), own, ?_⟩, ?_⟩
            · simp only [e]; exact hown.mono (set_alive hlt)
            · have hr : s.recs.map (groupOf (Model.Attr.abs σ')) = s.recs.map (groupOf (Model.Attr.abs s.mem)) := map_groups
                (fun i r' hr' => by
                  apply groupOf_congr
                  · rw [e, slive_set' hlt, if_neg (Ne.symm (hown.lab_ne_par hr' hp))]
                  · rw [e, slive_set' hlt, if_neg (Ne.symm (hown.met_ne_par hr' hp))])
              have hps := map_set_parsers (A := Model.Attr.abs s.mem) (A' := Model.Attr.abs σ') (ps := s.parsers) (m := m) (y := some j) hml
                (fun m' j' hne hm' => by rw [e, slive_set' hlt, if_neg (hown.par_ne_par hp hm' hne)])
              rw [set_self hp] at hps
              simp only [vstep, abs, hm, if_true, List.getElem?_map, hp, Option.map_some, Option.bind_some, hf, hr, hps]
              rw [show slive (Model.Attr.abs σ') j = some (upd f k (some v)) by rw [e, slive_set' hlt, if_pos rfl]]
    · left
      exact ⟨by simp only [step, if_neg hm], by simp only [vstep, abs, hm, if_false]⟩
  | edit g i e =>
    by_cases hi : (g, i) ∈ s.held
    · cases hr : s.recs[i]? with
      | none =>
        left
        exact ⟨by simp only [step, if_pos hi, hr], by simp only [vstep, abs, hi, if_true, List.getElem?_map, hr, Option.map_none]⟩
      | some r =>
        obtain ⟨_, fl, hl⟩ := hown.lab i r hr
        obtain ⟨_, fm, hme⟩ := hown.met i r hr
        have hg : groupOf (Model.Attr.abs s.mem) r = ⟨r.name, r.ts, fl, fm⟩ := by simp only [groupOf, hl, hme, Option.getD_some]
        -- an edit that writes labels
        have lab : ∀ f σ', Model.Attr.run s.mem (e.ops r) = some σ' → Model.Attr.Sep σ' →
            Model.Attr.abs σ' = (Model.Attr.abs s.mem).set r.labels (some f) → e.fields r = r →
            e.apply ⟨r.name, r.ts, fl, fm⟩ = some ⟨r.name, r.ts, f, fm⟩ →
            ∃ s', step s (.edit g i e) = some s' ∧ Inv s' ∧ vstep (abs s) (.edit g i e) = some (abs s') := by
          intro f σ' h1 h2 he hf ha
          obtain ⟨k1, k2, k3⟩ := set_labels hown hr f
          refine ⟨_, (by simp only [step, if_pos hi, hr, h1, Option.map_some]; rfl), ⟨(by exact h2), own, ?_⟩, ?_⟩
          · simp only [he, hf]; exact k3
          · simp only [vstep, abs, hi, if_true, List.getElem?_map, hr, Option.map_some, hg, ha, he, hf, k1, k2]
        have same : ∀ r2, e.fields r = r2 → r2.labels = r.labels → r2.metrics = r.metrics → e.ops r = [] →
            e.apply ⟨r.name, r.ts, fl, fm⟩ = some (groupOf (Model.Attr.abs s.mem) r2) →
            ∃ s', step s (.edit g i e) = some s' ∧ Inv s' ∧ vstep (abs s) (.edit g i e) = some (abs s') := by
          intro r2 hf e1 e2 ho ha
          have k1 := map_set_groups (A := Model.Attr.abs s.mem) (A' := Model.Attr.abs s.mem) (r2 := r2) hr (fun _ _ _ _ => rfl)
          refine ⟨_, (by simp only [step, if_pos hi, hr, ho, Model.Attr.run, Option.map_some]; rfl), ⟨(by exact hsep), own, ?_⟩, ?_⟩
          · simp only [hf]; exact hown.fields hr e1 e2
          · simp only [vstep, abs, hi, if_true, List.getElem?_map, hr, Option.map_some, hg, ha, hf, k1]
        cases e with
        | label k v =>
          rcases run_refines [.updateAdd r.labels k v] s.mem hsep with ⟨h1, h2⟩ | ⟨σ', h1, h2, h3⟩
          · left
            simp only [Model.Attr.srun, Model.Attr.sstep, hl] at h2
            refine ⟨by simp only [step, if_pos hi, hr, Edit.ops, h1, Option.map_none], ?_⟩
            simp only [vstep, abs, hi, if_true, List.getElem?_map, hr, Option.map_some, hg, Edit.apply]
            cases hk : fl k with
            | none => rw [hk] at h2; simp at h2
            | some w =>
              rw [hk] at h2
              by_cases ht : w.ty = v.ty
              · simp [ht] at h2
              · simp [ht]
          · right
            simp only [Model.Attr.srun, Model.Attr.sstep, hl] at h3
            cases hk : fl k with
            | none =>
              rw [hk] at h3
              simp only [Option.some.injEq] at h3
              exact lab _ σ' h1 h2 h3.symm rfl (by simp only [Edit.apply, hk])
            | some w =>
              rw [hk] at h3
              by_cases ht : w.ty = v.ty
              · simp only [ht, if_true, Option.some.injEq] at h3
                exact lab _ σ' h1 h2 h3.symm rfl (by simp only [Edit.apply, hk, ht, if_true])
              · simp [ht] at h3
        | put k v =>
          rcases run_refines [.add r.labels k v] s.mem hsep with ⟨h1, h2⟩ | ⟨σ', h1, h2, h3⟩
          · simp [Model.Attr.srun, Model.Attr.sstep, hl] at h2
          · right
            simp only [Model.Attr.srun, Model.Attr.sstep, hl, Option.some.injEq] at h3
            exact lab _ σ' h1 h2 h3.symm rfl (by simp only [Edit.apply])
        | remove k =>
          rcases run_refines [.remove r.labels k] s.mem hsep with ⟨h1, h2⟩ | ⟨σ', h1, h2, h3⟩
          · simp [Model.Attr.srun, Model.Attr.sstep, hl] at h2
          · right
            simp only [Model.Attr.srun, Model.Attr.sstep, hl, Option.some.injEq] at h3
            exact lab _ σ' h1 h2 h3.symm rfl (by simp only [Edit.apply])
        | metric k n =>
          rcases run_refines [.add r.metrics k (.int n)] s.mem hsep with ⟨h1, h2⟩ | ⟨σ', h1, h2, h3⟩
          · simp [Model.Attr.srun, Model.Attr.sstep, hme] at h2
          · right
            simp only [Model.Attr.srun, Model.Attr.sstep, hme, Option.some.injEq] at h3
            obtain ⟨k1, k2, k3⟩ := set_metrics hown hr (upd fm k (some (.int n)))
            refine ⟨_, (by simp only [step, if_pos hi, hr, Edit.ops, h1, Option.map_some]; rfl), ⟨(by exact h2), own, ?_⟩, ?_⟩
            · simp only [← h3, Edit.fields]; exact k3
            · simp only [vstep, abs, hi, if_true, List.getElem?_map, hr, Option.map_some, hg, Edit.apply, ← h3, Edit.fields, k1, k2]
        | name n => exact Or.inr (same { r with name := n } rfl rfl rfl rfl (by simp only [Edit.apply, groupOf, hl, hme, Option.getD_some]))
        | time t => exact Or.inr (same { r with ts := t } rfl rfl rfl rfl (by simp only [Edit.apply, groupOf, hl, hme, Option.getD_some]))
    · left
      exact ⟨by simp only [step, if_neg hi], by simp only [vstep, abs, hi, if_false]⟩
  | merge g i m =>
    by_cases hc : (g, i) ∈ s.held ∧ (g, m) ∈ s.own
    · cases hr : s.recs[i]? with
      | none =>
        left
        exact ⟨by simp only [step, if_pos hc, hr], by simp only [vstep, abs, hc, and_self, if_true, List.getElem?_map, hr, Option.map_none]⟩
      | some r =>
        cases hp : s.parsers[m]? with
        | none =>
          left
          exact ⟨by simp only [step, if_pos hc, hr, hp],
            by simp only [vstep, abs, hc, and_self, if_true, List.getElem?_map, hr, hp, Option.map_none, Option.map_some]⟩
        | some x =>
          cases x with
          | none =>
            left
            exact ⟨by simp only [step, if_pos hc, hr, hp],
              by simp only [vstep, abs, hc, and_self, if_true, List.getElem?_map, hr, hp, Option.map_some, Option.bind_none]⟩
          | some j =>
            obtain ⟨_, f, hf⟩ := hown.par m j hp
            obtain ⟨_, fl, hl⟩ := hown.lab i r hr
            obtain ⟨_, fm, hme⟩ := hown.met i r hr
            have hg : groupOf (Model.Attr.abs s.mem) r = ⟨r.name, r.ts, fl, fm⟩ := by simp only [groupOf, hl, hme, Option.getD_some]
            have hlt := slive_lt hl
            have hjt := slive_lt hf
            have hml : m < s.parsers.length := (List.getElem?_eq_some_iff.mp hp).1
            have hne := hown.lab_ne_par hr hp
            rcases run_refines [.mergeDrop r.labels j] s.mem hsep with ⟨_, h2⟩ | ⟨σ', h1, h2, h3⟩
            · simp [Model.Attr.srun, Model.Attr.sstep, hf, hl, hne] at h2
            · right
              have e : Model.Attr.abs σ' = ((Model.Attr.abs s.mem).set r.labels (some (fun k => (f k).or (fl k)))).set j none := by
                simpa [Model.Attr.srun, Model.Attr.sstep, hf, hl, hne] using h3.symm
              have hat : ∀ q, slive (Model.Attr.abs σ') q = if j = q then none else if r.labels = q then some (fun k => (f k).or (fl k))
                  else slive (Model.Attr.abs s.mem) q := by
                intro q
                rw [e, slive_set' (by simpa using hjt)]
                by_cases h : j = q
                · rw [if_pos h, if_pos h]
                · rw [if_neg h, if_neg h, slive_set' hlt]
              refine ⟨_, (by simp only [step, if_pos hc, hr, hp, h1, Option.map_some]; rfl), ⟨(by exact h2), own, ?_, ?_, ?_⟩, ?_⟩
              · intro i' r' hr'
                obtain ⟨o, f', hf'⟩ := hown.lab i' r' hr'
                refine ⟨o, ?_⟩
                simp only [hat]
                rw [if_neg (Ne.symm (hown.lab_ne_par hr' hp))]
                split
                · exact ⟨_, rfl⟩
                · exact ⟨f', hf'⟩
              · intro i' r' hr'
                obtain ⟨o, f', hf'⟩ := hown.met i' r' hr'
                refine ⟨o, f', ?_⟩
                simp only [hat]
                rw [if_neg (Ne.symm (hown.met_ne_par hr' hp)), if_neg (hown.lab_ne_met hr hr')]
                exact hf'
              · intro m' j' hm'
                by_cases hmm : m = m'
                · subst hmm
                  rw [List.getElem?_set_self hml] at hm'
                  cases hm'
                · rw [List.getElem?_set_ne hmm] at hm'
                  obtain ⟨o, f', hf'⟩ := hown.par m' j' hm'
                  refine ⟨o, f', ?_⟩
                  simp only [hat]
                  rw [if_neg (hown.par_ne_par hp hm' (Ne.symm hmm)), if_neg (hown.lab_ne_par hr hm')]
                  exact hf'
              · have hrs := map_set_groups (A := Model.Attr.abs s.mem) (A' := Model.Attr.abs σ') (r2 := r) hr
                  (fun i' r' hi' hr' => by
                    apply groupOf_congr
                    · rw [hat, if_neg (Ne.symm (hown.lab_ne_par hr' hp)), if_neg (hown.lab_ne_lab hr hr' hi')]
                    · rw [hat, if_neg (Ne.symm (hown.met_ne_par hr' hp)), if_neg (hown.lab_ne_met hr hr')])
                rw [set_self hr] at hrs
                have hps := map_set_parsers (A := Model.Attr.abs s.mem) (A' := Model.Attr.abs σ') (ps := s.parsers) (m := m) (y := none) hml
                  (fun m' j' hn hm' => by rw [hat, if_neg (hown.par_ne_par hp hm' hn), if_neg (hown.lab_ne_par hr hm')])
                have hgr : groupOf (Model.Attr.abs σ') r = ⟨r.name, r.ts, fun k => (f k).or (fl k), fm⟩ := by
                  simp only [groupOf, hat, if_neg (Ne.symm hne), if_true, if_neg (Ne.symm (hown.met_ne_par hr hp)),
                    if_neg (hown.lab_ne_met hr hr), hme, Option.getD_some]
                simp only [vstep, abs, hc, and_self, if_true, List.getElem?_map, hr, hp, Option.map_some, Option.bind_some, hf, hg, hrs, hps, hgr,
                  Option.bind_none]
    · left
      exact ⟨by simp only [step, if_neg hc], by simp only [vstep, abs, hc, if_false]⟩
  | signal g i =>
    by_cases hi : (g, i) ∈ s.held
    · cases hr : s.recs[i]? with
      | none =>
        left
        exact ⟨by simp only [step, if_pos hi, hr], by simp only [vstep, abs, hi, if_true, List.getElem?_map, hr, Option.map_none]⟩
      | some r =>
        obtain ⟨_, fl, hl⟩ := hown.lab i r hr
        obtain ⟨_, fm, hme⟩ := hown.met i r hr
        have hg : groupOf (Model.Attr.abs s.mem) r = ⟨r.name, r.ts, fl, fm⟩ := by simp only [groupOf, hl, hme, Option.getD_some]
        have hl2 : slive (Model.Attr.abs s.mem ++ [some fl]) r.metrics = some fm := by rw [slive_app (slive_lt hme)]; exact hme
        rcases run_refines [.clone r.labels, .clone r.metrics] s.mem hsep with ⟨_, h2⟩ | ⟨σ', h1, h2, h3⟩
        · simp [Model.Attr.srun, Model.Attr.sstep, hl, hl2] at h2
        · right
          have e : Model.Attr.abs σ' = Model.Attr.abs s.mem ++ [some fl, some fm] := by
            simpa [Model.Attr.srun, Model.Attr.sstep, hl, hl2] using h3.symm
          obtain ⟨k1, k2, own', k3⟩ := new_record hown fl fm r.name r.ts
          refine ⟨_, (by simp only [step, if_pos hi, hr, h1, Option.map_some]; rfl), ⟨(by exact h2), own', ?_⟩, ?_⟩
          · simp only [e, ← hlen]; exact k3
          · simp only [vstep, abs, hi, if_true, List.getElem?_map, hr, Option.map_some, hg, e, ← hlen, k1, k2, List.length_map]
    · left
      exact ⟨by simp only [step, if_neg hi], by simp only [vstep, abs, hi, if_false]⟩
  | free g i =>
    by_cases hi : (g, i) ∈ s.held
    · cases hr : s.recs[i]? with
      | none =>
        left
        exact ⟨by simp only [step, if_pos hi, hr], by simp only [vstep, abs, hi, if_true, List.getElem?_map, hr, Option.map_none]⟩
      | some r =>
        obtain ⟨_, fl, hl⟩ := hown.lab i r hr
        obtain ⟨_, fm, hme⟩ := hown.met i r hr
        have hg : groupOf (Model.Attr.abs s.mem) r = ⟨r.name, r.ts, fl, fm⟩ := by simp only [groupOf, hl, hme, Option.getD_some]
        have hmt := slive_lt hme
        have hlt := slive_lt hl
        have hl2 : slive ((Model.Attr.abs s.mem).set r.metrics (some (zeroed fm))) r.labels = some fl := by
          rw [slive_set' hmt, if_neg (Ne.symm (hown.lab_ne_met hr hr))]; exact hl
        rcases run_refines [.reset r.metrics, .reset r.labels] s.mem hsep with ⟨_, h2⟩ | ⟨σ', h1, h2, h3⟩
        · simp only [Model.Attr.srun, Model.Attr.sstep, hme] at h2
          rw [show (fun k => (fm k).map (fun v => Val.zero v.ty)) = zeroed fm from rfl] at h2
          simp [hl2] at h2
        · right
          have e : Model.Attr.abs σ' = ((Model.Attr.abs s.mem).set r.metrics (some (zeroed fm))).set r.labels (some (zeroed fl)) := by
            simp only [Model.Attr.srun, Model.Attr.sstep, hme] at h3
            rw [show (fun k => (fm k).map (fun v => Val.zero v.ty)) = zeroed fm from rfl] at h3
            simp only [hl2, Option.some.injEq] at h3
            exact h3.symm
          have hat : ∀ q, slive (Model.Attr.abs σ') q = if r.labels = q then some (zeroed fl) else if r.metrics = q then some (zeroed fm)
              else slive (Model.Attr.abs s.mem) q := by
            intro q
            rw [e, slive_set' (by simpa using hlt)]
            by_cases h : r.labels = q
            · rw [if_pos h, if_pos h]
            · rw [if_neg h, if_neg h, slive_set' hmt]
          have halive : ∀ q f, slive (Model.Attr.abs s.mem) q = some f → ∃ f', slive (Model.Attr.abs σ') q = some f' := by
            intro q f hq
            rw [hat]
            split
            · exact ⟨_, rfl⟩
            · split
              · exact ⟨_, rfl⟩
              · exact ⟨f, hq⟩
          refine ⟨_, (by simp only [step, if_pos hi, hr, h1, Option.map_some]; rfl), ⟨(by exact h2), own, ?_⟩, ?_⟩
          · exact (hown.mono halive).fields hr rfl rfl
          · have hrs := map_set_groups (A := Model.Attr.abs s.mem) (A' := Model.Attr.abs σ') (r2 := { r with name := netName, ts := 0 }) hr
              (fun i' r' hi' hr' => by
                apply groupOf_congr
                · rw [hat, if_neg (hown.lab_ne_lab hr hr' hi'), if_neg (Ne.symm (hown.lab_ne_met hr' hr))]
                · rw [hat, if_neg (hown.lab_ne_met hr hr'), if_neg (hown.met_ne_met hr hr' hi')])
            have hps := map_parsers (A := Model.Attr.abs s.mem) (A' := Model.Attr.abs σ') (ps := s.parsers)
              (fun m' j' hm' => by rw [hat, if_neg (hown.lab_ne_par hr hm'), if_neg (hown.met_ne_par hr hm')])
            have hgr : groupOf (Model.Attr.abs σ') { r with name := netName, ts := 0 } = Group.reset ⟨r.name, r.ts, fl, fm⟩ := by
              simp only [groupOf, hat, if_true, if_neg (hown.lab_ne_met hr hr), Option.getD_some, Group.reset]
            simp only [vstep, abs, hi, if_true, List.getElem?_map, hr, Option.map_some, hg, hrs, hps, hgr]
    · left
      exact ⟨by simp only [step, if_neg hi], by simp only [vstep, abs, hi, if_false]⟩
  | gc i =>
    by_cases hi : i ∈ s.pool
    · right
      exact ⟨_, (by simp only [step, if_pos hi]; rfl), (by exact ⟨hsep, own, hown⟩), by simp only [vstep, abs, hi, if_true]⟩
    · left
      exact ⟨by simp only [step, if_neg hi], by simp only [vstep, abs, hi, if_false]⟩

theorem inv_init : Inv init :=
  ⟨Model.Attr.sep_init, fun _ => .lab 0, ⟨by simp [init], by simp [init], by simp [init]⟩⟩

/-- Whatever the goroutines do in whatever order, the records in memory are what records that share
nothing would be; and the one panics exactly when the other does. -/
theorem records_are_values (acts : List Act) :
    (run init acts).map abs = vrun vinit acts := by
  have : ∀ (s : S), Inv s → (run s acts).map abs = vrun (abs s) acts := by
    induction acts with
    | nil => intro s _; rfl
    | cons a as ih =>
      intro s hs
      rcases step_refines hs a with ⟨h1, h2⟩ | ⟨s', h1, h2, h3⟩
      · simp only [run, vrun, h1, h2, Option.map_none]
      · simp only [run, vrun, h1, h3]; exact ih s' h2
  exact this init inv_init

/-! ### Who has what -/

theorem inv_run {s s' : S} (hs : Inv s) {acts : List Act} (h : run s acts = some s') : Inv s' := by
  induction acts generalizing s with
  | nil => cases h; exact hs
  | cons a as ih =>
    rcases step_refines hs a with ⟨h1, _⟩ | ⟨s1, h1, h2, _⟩
    · simp only [run, h1] at h; cases h
    · simp only [run, h1] at h; exact ih h2 h

/-- A record as the pool has it: nothing but zero values. -/
def Blank (x : Group) : Prop :=
  x.name = netName ∧ (∀ k v, x.labels k = some v → v = Val.zero v.ty) ∧ ∀ k v, x.metrics k = some v → v = Val.zero v.ty

theorem zeroed_zero (f : VMap) (k : String) (v : Val) (h : zeroed f k = some v) : v = Val.zero v.ty := by
  simp only [zeroed, Option.map_eq_some_iff] at h
  obtain ⟨w, _, rfl⟩ := h
  cases w <;> rfl

theorem blank_reset (x : Group) : Blank x.reset := ⟨rfl, zeroed_zero _, zeroed_zero _⟩

theorem blank_created (now : Nat) : Blank (created now) := by
  refine ⟨rfl, fun k v h => by simp [created, emptyV] at h, fun k v h => ?_⟩
  simp only [created] at h
  split at h
  · cases h; rfl
  · cases h

/-- Every record that is out is in one place only, and the pool is blank. -/
structure Tidy (s : V) : Prop where
  once : (s.pool ++ s.held.map (·.2) ++ s.kept).Nodup
  known : ∀ i ∈ s.pool ++ s.held.map (·.2) ++ s.kept, i < s.groups.length
  blank : ∀ i ∈ s.pool, ∀ x, s.groups[i]? = some x → Blank x

theorem tidy_init : Tidy vinit := ⟨by simp [vinit], by simp [vinit], by simp [vinit]⟩

theorem map_erase_perm {l : List (Nat × Nat)} {g i : Nat} (h : (g, i) ∈ l) :
    (l.map (·.2)).Perm (i :: (l.erase (g, i)).map (·.2)) := by
  have := (List.perm_cons_erase h).map (fun p : Nat × Nat => p.2)
  simpa using this

theorem tidy_step {s s' : V} (hs : Tidy s) {a : Act} (h : vstep s a = some s') : Tidy s' := by
  obtain ⟨h1, h2, h3⟩ := hs
  have hset : ∀ i y, (g : Nat) → (g, i) ∈ s.held → ∀ j ∈ s.pool, ∀ x, (s.groups.set i y)[j]? = some x → Blank x := by
    intro i y g hi j hj x hx
    by_cases e : i = j
    · subst e
      exfalso
      rw [List.append_assoc, List.nodup_append] at h1
      exact h1.2.2 i hj i (List.mem_append_left _ (List.mem_map.mpr ⟨_, hi, rfl⟩)) rfl
    · rw [List.getElem?_set_ne e] at hx; exact h3 j hj x hx
  cases a with
  | get g i now =>
    cases i with
    | none =>
      simp only [vstep, Option.some.injEq] at h
      subst h
      have hperm : (s.pool ++ (s.held ++ [(g, s.groups.length)]).map (·.2) ++ s.kept).Perm
          (s.groups.length :: (s.pool ++ s.held.map (·.2) ++ s.kept)) := by
        simp only [List.map_append, List.map_cons, List.map_nil, List.append_assoc, List.cons_append, List.nil_append]
        rw [← List.append_assoc, ← List.append_assoc]
        exact List.perm_middle
      refine ⟨?_, ?_, ?_⟩
      · rw [hperm.nodup_iff, List.nodup_cons]
        exact ⟨fun hc => by have := h2 _ hc; omega, h1⟩
      · intro i hi
        simp only [List.length_append, List.length_cons, List.length_nil]
        rcases List.mem_cons.mp (hperm.mem_iff.mp hi) with rfl | hi
        · omega
        · have := h2 i hi; omega
      · intro i hi x hx
        simp only at hi hx
        have hlt := h2 i (List.mem_append_left _ (List.mem_append_left _ hi))
        rw [List.getElem?_append_left hlt] at hx
        exact h3 i hi x hx
    | some i =>
      by_cases hi : i ∈ s.pool
      · simp only [vstep, if_pos hi, Option.some.injEq] at h
        subst h
        have hperm : (s.pool.erase i ++ (s.held ++ [(g, i)]).map (·.2) ++ s.kept).Perm
            (s.pool ++ s.held.map (·.2) ++ s.kept) := by
          have e := List.perm_cons_erase hi
          simp only [List.map_append, List.map_cons, List.map_nil, List.append_assoc, List.cons_append, List.nil_append]
          refine List.Perm.trans ?_ (List.Perm.append_right _ e.symm)
          rw [← List.append_assoc]
          refine List.perm_middle.trans ?_
          rw [List.append_assoc]; exact List.Perm.refl _
        refine ⟨hperm.nodup_iff.mpr h1, fun j hj => h2 j (hperm.mem_iff.mp hj), ?_⟩
        intro j hj x hx
        exact h3 j (List.mem_of_mem_erase hj) x hx
      · simp only [vstep, if_neg hi] at h; cases h
  | parse g =>
    simp only [vstep, Option.some.injEq] at h
    subst h; exact ⟨h1, h2, h3⟩
  | attr g m k v =>
    simp only [vstep] at h
    split at h
    · split at h
      · cases h; exact ⟨h1, h2, h3⟩
      · cases h
    · cases h
  | edit g i e =>
    by_cases hi : (g, i) ∈ s.held
    · simp only [vstep, if_pos hi] at h
      split at h
      · simp only [Option.map_eq_some_iff] at h
        obtain ⟨y, _, rfl⟩ := h
        exact ⟨h1, fun j hj => by simp only [List.length_set]; exact h2 j hj, hset i y g hi⟩
      · cases h
    · simp only [vstep, if_neg hi] at h; cases h
  | merge g i m =>
    by_cases hc : (g, i) ∈ s.held ∧ (g, m) ∈ s.own
    · simp only [vstep, if_pos hc] at h
      split at h
      · cases h
        exact ⟨h1, fun j hj => by simp only [List.length_set]; exact h2 j hj, hset i _ g hc.1⟩
      · cases h
    · simp only [vstep, if_neg hc] at h; cases h
  | signal g i =>
    by_cases hi : (g, i) ∈ s.held
    · simp only [vstep, if_pos hi] at h
      split at h
      · cases h
        have hperm : (s.pool ++ s.held.map (·.2) ++ (s.kept ++ [s.groups.length])).Perm
            (s.groups.length :: (s.pool ++ s.held.map (·.2) ++ s.kept)) := by
          rw [← List.append_assoc]; exact List.perm_append_singleton _ _
        refine ⟨?_, ?_, ?_⟩
        · rw [hperm.nodup_iff, List.nodup_cons]
          exact ⟨fun hc => by have := h2 _ hc; omega, h1⟩
        · intro j hj
          simp only [List.length_append, List.length_cons, List.length_nil]
          rcases List.mem_cons.mp (hperm.mem_iff.mp hj) with rfl | hj
          · omega
          · have := h2 j hj; omega
        · intro j hj x hx
          simp only at hj hx
          have hlt := h2 j (List.mem_append_left _ (List.mem_append_left _ hj))
          rw [List.getElem?_append_left hlt] at hx
          exact h3 j hj x hx
      · cases h
    · simp only [vstep, if_neg hi] at h; cases h
  | free g i =>
    by_cases hi : (g, i) ∈ s.held
    · simp only [vstep, if_pos hi] at h
      split at h
      · rename_i x hx
        cases h
        have hperm : (s.pool ++ [i] ++ (s.held.erase (g, i)).map (·.2) ++ s.kept).Perm
            (s.pool ++ s.held.map (·.2) ++ s.kept) := by
          refine List.Perm.append_right _ ?_
          rw [List.append_assoc]
          exact List.Perm.append_left _ (map_erase_perm hi).symm
        refine ⟨hperm.nodup_iff.mpr h1, fun j hj => by simp only [List.length_set]; exact h2 j (hperm.mem_iff.mp hj), ?_⟩
        intro j hj y hy
        simp only at hj hy
        by_cases e : i = j
        · subst e
          rw [List.getElem?_set_self (List.getElem?_eq_some_iff.mp hx).1] at hy
          cases hy; exact blank_reset x
        · have hj' : j ∈ s.pool := by
            rcases List.mem_append.mp hj with hj | hj
            · exact hj
            · simp only [List.mem_singleton] at hj; exact absurd hj.symm e
          exact hset i x.reset g hi j hj' y hy
      · cases h
    · simp only [vstep, if_neg hi] at h; cases h
  | gc i =>
    by_cases hi : i ∈ s.pool
    · simp only [vstep, if_pos hi, Option.some.injEq] at h
      subst h
      have hsub : (s.pool.erase i ++ s.held.map (·.2) ++ s.kept).Sublist (s.pool ++ s.held.map (·.2) ++ s.kept) :=
        (List.erase_sublist.append_right _).append_right _
      exact ⟨h1.sublist hsub, fun j hj => h2 j (hsub.subset hj), fun j hj x hx => h3 j (List.mem_of_mem_erase hj) x hx⟩
    · simp only [vstep, if_neg hi] at h; cases h

theorem tidy_run {s s' : V} (hs : Tidy s) {acts : List Act} (h : vrun s acts = some s') : Tidy s' := by
  induction acts generalizing s with
  | nil => cases h; exact hs
  | cons a as ih =>
    simp only [vrun] at h
    split at h
    · cases h
    · rename_i s1 h1; exact ih (tidy_step hs h1) h

/-- States the program gets to. -/
def Reached (s : S) : Prop := ∃ acts, run init acts = some s

theorem Reached.inv {s : S} (h : Reached s) : Inv s := h.elim fun _ h => inv_run inv_init h

theorem Reached.tidy {s : S} (h : Reached s) : Tidy (abs s) := by
  obtain ⟨acts, h⟩ := h
  have := records_are_values acts
  rw [h] at this
  exact tidy_run tidy_init this.symm

/-- What record `i` says. -/
def says (s : S) (i : Nat) : Option Group := (abs s).groups[i]?

theorem snd_inj {l : List (Nat × Nat)} (h : (l.map (·.2)).Nodup) {g g' i : Nat} (hg : (g, i) ∈ l) (hg' : (g', i) ∈ l) : g = g' := by
  induction l with
  | nil => cases hg
  | cons p l ih =>
    simp only [List.map_cons, List.nodup_cons] at h
    rcases List.mem_cons.mp hg with rfl | e1
    · rcases List.mem_cons.mp hg' with e2 | e2
      · cases e2; rfl
      · exact absurd (List.mem_map.mpr ⟨_, e2, rfl⟩) h.1
    · rcases List.mem_cons.mp hg' with rfl | e2
      · exact absurd (List.mem_map.mpr ⟨_, e1, rfl⟩) h.1
      · exact ih h.2 e1 e2

/-- One holder: no record is held twice, or held and in the pool, or held and kept as a clone, or in
the pool and kept. -/
theorem one_holder {s : S} (h : Reached s) {i : Nat} :
    (∀ g g', (g, i) ∈ s.held → (g', i) ∈ s.held → g = g') ∧
    (∀ g, (g, i) ∈ s.held → i ∉ s.pool ∧ i ∉ s.kept) ∧ (i ∈ s.pool → i ∉ s.kept) := by
  have ht := h.tidy.once
  change (s.pool ++ s.held.map (·.2) ++ s.kept).Nodup at ht
  rw [List.nodup_append, List.nodup_append] at ht
  obtain ⟨⟨_, h2, h3⟩, _, h5⟩ := ht
  have hm : ∀ g, (g, i) ∈ s.held → i ∈ s.held.map (·.2) := fun g hg => List.mem_map.mpr ⟨_, hg, rfl⟩
  refine ⟨?_, ?_, ?_⟩
  · intro g g' hg hg'
    exact snd_inj h2 hg hg'
  · intro g hg
    exact ⟨fun hp => h3 i hp i (hm g hg) rfl, fun hk => h5 i (List.mem_append_right _ (hm g hg)) i hk rfl⟩
  · intro hp hk
    exact h5 i (List.mem_append_left _ hp) i hk rfl

/-! ### What a holder reads is what it wrote -/

/-- What a holder does to its record, as values. -/
inductive Change where
  | edit (e : Edit)
  | merge (f : VMap)

def Change.apply (x : Group) : Change → Option Group
  | .edit e => e.apply x
  | .merge f => some { x with labels := fun k => (f k).or (x.labels k) }

def changes (x : Group) : List Change → Option Group
  | [] => some x
  | c :: cs => match c.apply x with
    | none => none
    | some y => changes y cs

/-- What goroutine `g` itself does to record `i` in an execution. -/
def mine (g i : Nat) (s : V) : List Act → List Change
  | [] => []
  | a :: as =>
    (match a with
      | .edit g' i' e => if g' = g ∧ i' = i then [.edit e] else []
      | .merge g' i' m => if g' = g ∧ i' = i then (match s.parsers[m]? with
          | some (some f) => [.merge f]
          | _ => []) else []
      | _ => []) ++
    (match vstep s a with
      | none => []
      | some s' => mine g i s' as)

/-- A step leaves a record it does not name, or names for another goroutine, as it is. -/
theorem vstep_other {s s' : V} {a : Act} (h : vstep s a = some s') {i : Nat} (hi : i < s.groups.length)
    (he : ∀ g e, a = .edit g i e → (g, i) ∉ s.held) (hm : ∀ g m, a = .merge g i m → (g, i) ∉ s.held)
    (hf : ∀ g, a = .free g i → (g, i) ∉ s.held) : s'.groups[i]? = s.groups[i]? := by
  cases a with
  | get g j now =>
    cases j with
    | none =>
      simp only [vstep, Option.some.injEq] at h
      subst h; simp only; rw [List.getElem?_append_left hi]
    | some j =>
      simp only [vstep] at h
      split at h <;> cases h; rfl
  | parse g => simp only [vstep, Option.some.injEq] at h; subst h; rfl
  | attr g m k v =>
    simp only [vstep] at h
    split at h
    · split at h <;> cases h; rfl
    · cases h
  | edit g j e =>
    by_cases hj : (g, j) ∈ s.held
    · simp only [vstep, if_pos hj] at h
      split at h
      · simp only [Option.map_eq_some_iff] at h
        obtain ⟨y, _, rfl⟩ := h
        by_cases e1 : j = i
        · subst e1; exact absurd hj (he g e rfl)
        · simp only; rw [List.getElem?_set_ne e1]
      · cases h
    · simp only [vstep, if_neg hj] at h; cases h
  | merge g j m =>
    by_cases hj : (g, j) ∈ s.held ∧ (g, m) ∈ s.own
    · simp only [vstep, if_pos hj] at h
      split at h
      · cases h
        by_cases e1 : j = i
        · subst e1; exact absurd hj.1 (hm g m rfl)
        · simp only; rw [List.getElem?_set_ne e1]
      · cases h
    · simp only [vstep, if_neg hj] at h; cases h
  | signal g j =>
    simp only [vstep] at h
    split at h
    · split at h
      · cases h; simp only; rw [List.getElem?_append_left hi]
      · cases h
    · cases h
  | free g j =>
    by_cases hj : (g, j) ∈ s.held
    · simp only [vstep, if_pos hj] at h
      split at h
      · cases h
        by_cases e1 : j = i
        · subst e1; exact absurd hj (hf g rfl)
        · simp only; rw [List.getElem?_set_ne e1]
      · cases h
    · simp only [vstep, if_neg hj] at h; cases h
  | gc j =>
    simp only [vstep] at h
    split at h <;> cases h; rfl

/-- Only `Free` takes a record from its holder. -/
theorem vstep_held {s s' : V} {a : Act} (h : vstep s a = some s') {g i : Nat} (hh : (g, i) ∈ s.held)
    (hf : a ≠ .free g i) : (g, i) ∈ s'.held := by
  cases a with
  | get g j now =>
    cases j with
    | none =>
      simp only [vstep, Option.some.injEq] at h
      subst h; exact List.mem_append_left _ hh
    | some j =>
      simp only [vstep] at h
      split at h <;> cases h; exact List.mem_append_left _ hh
  | parse g => simp only [vstep, Option.some.injEq] at h; subst h; exact hh
  | attr g m k v =>
    simp only [vstep] at h
    split at h
    · split at h <;> cases h; exact hh
    · cases h
  | edit g j e =>
    simp only [vstep] at h
    split at h
    · split at h
      · simp only [Option.map_eq_some_iff] at h
        obtain ⟨y, _, rfl⟩ := h; exact hh
      · cases h
    · cases h
  | merge g j m =>
    simp only [vstep] at h
    split at h
    · split at h
      · cases h; exact hh
      · cases h
    · cases h
  | signal g j =>
    simp only [vstep] at h
    split at h
    · split at h
      · cases h; exact hh
      · cases h
    · cases h
  | free g' j =>
    simp only [vstep] at h
    split at h
    · split at h
      · cases h
        have : (g, i) ≠ (g', j) := by rintro ⟨⟩; exact hf rfl
        exact (List.mem_erase_of_ne this).mpr hh
      · cases h
    · cases h
  | gc j =>
    simp only [vstep] at h
    split at h <;> cases h; exact hh

theorem changes_append (x : Group) (cs ds : List Change) :
    changes x (cs ++ ds) = (changes x cs).bind (fun y => changes y ds) := by
  induction cs generalizing x with
  | nil => rfl
  | cons c cs ih =>
    simp only [List.cons_append, changes]
    cases c.apply x with
    | none => rfl
    | some y => exact ih y

theorem vown_edits {s s' : V} (ht : Tidy s) {acts : List Act} (h : vrun s acts = some s') {g i : Nat}
    (hh : (g, i) ∈ s.held) (hf : .free g i ∉ acts) :
    (g, i) ∈ s'.held ∧ ∃ x y, s.groups[i]? = some x ∧ changes x (mine g i s acts) = some y ∧ s'.groups[i]? = some y := by
  induction acts generalizing s with
  | nil =>
    cases h
    have hlt := ht.known i (List.mem_append_left _ (List.mem_append_right _ (List.mem_map.mpr ⟨_, hh, rfl⟩)))
    exact ⟨hh, _, _, List.getElem?_eq_getElem hlt, rfl, List.getElem?_eq_getElem hlt⟩
  | cons a as ih =>
    simp only [vrun] at h
    split at h
    · cases h
    · rename_i s1 h1
      have hlt := ht.known i (List.mem_append_left _ (List.mem_append_right _ (List.mem_map.mpr ⟨_, hh, rfl⟩)))
      have hne : a ≠ .free g i := fun e => hf (by simp [e])
      have hone : ∀ g', (g', i) ∈ s.held → g' = g := by
        intro g' hg'
        have := ht.once
        rw [List.nodup_append, List.nodup_append] at this
        exact snd_inj this.1.2.1 hg' hh
      obtain ⟨k1, x, y, k2, k3, k4⟩ := ih (tidy_step ht h1) h (vstep_held h1 hh hne) (fun e => hf (by simp [e]))
      refine ⟨k1, ?_⟩
      by_cases hc : (∃ e, a = .edit g i e) ∨ ∃ m, a = .merge g i m
      · rcases hc with ⟨e, rfl⟩ | ⟨m, rfl⟩
        · simp only [vstep, if_pos hh] at h1
          split at h1
          · rename_i x0 hx0
            simp only [Option.map_eq_some_iff] at h1
            obtain ⟨y0, hy0, rfl⟩ := h1
            simp only [List.getElem?_set_self hlt, Option.some.injEq] at k2
            subst k2
            refine ⟨x0, y, hx0, ?_, k4⟩
            simp only [mine, and_self, if_true, vstep, if_pos hh, hx0, hy0, Option.map_some, List.cons_append, List.nil_append,
              changes, Change.apply]
            exact k3
          · cases h1
        · by_cases hc : (g, i) ∈ s.held ∧ (g, m) ∈ s.own
          · simp only [vstep, if_pos hc] at h1
            split at h1
            · rename_i x0 f0 hx0 hf0
              cases h1
              simp only [List.getElem?_set_self hlt, Option.some.injEq] at k2
              subst k2
              refine ⟨x0, y, hx0, ?_, k4⟩
              simp only [mine, and_self, if_true, vstep, if_pos hc, hx0, hf0, List.cons_append, List.nil_append,
                changes, Change.apply]
              exact k3
            · cases h1
          · simp only [vstep, if_neg hc] at h1; cases h1
      · have hnone : mine g i s (a :: as) = mine g i s1 as := by
          cases a with
          | edit g' i' e =>
            have : ¬ (g' = g ∧ i' = i) := by rintro ⟨rfl, rfl⟩; exact hc (Or.inl ⟨e, rfl⟩)
            simp only [mine, h1, if_neg this, List.nil_append]
          | merge g' i' m =>
            have : ¬ (g' = g ∧ i' = i) := by rintro ⟨rfl, rfl⟩; exact hc (Or.inr ⟨m, rfl⟩)
            simp only [mine, h1, if_neg this, List.nil_append]
          | _ => simp only [mine, h1, List.nil_append]
        have hsame : s1.groups[i]? = s.groups[i]? := by
          apply vstep_other h1 hlt
          · rintro g' e rfl hg'
            rw [hone g' hg'] at hc
            exact hc (Or.inl ⟨e, rfl⟩)
          · rintro g' m rfl hg'
            rw [hone g' hg'] at hc
            exact hc (Or.inr ⟨m, rfl⟩)
          · rintro g' rfl hg'
            rw [hone g' hg'] at hne
            exact hne rfl
        rw [hnone]
        rw [hsame] at k2
        exact ⟨x, y, k2, k3, k4⟩

theorem abs_run {s s' : S} (hs : Inv s) {acts : List Act} (h : run s acts = some s') : vrun (abs s) acts = some (abs s') := by
  induction acts generalizing s with
  | nil => cases h; rfl
  | cons a as ih =>
    rcases step_refines hs a with ⟨h1, _⟩ | ⟨s1, h1, h2, h3⟩
    · simp only [run, h1] at h; cases h
    · simp only [run, h1] at h
      simp only [vrun, h3]; exact ih h2 h

/-- C109.  What a record says to the goroutine that holds it is what it said when the goroutine got
it, with the changes the goroutine itself made to it since: whatever the other goroutines do to
their records, to the pool or to clones meanwhile. -/
theorem only_own_edits {s s' : S} (hr : Reached s) {acts : List Act} (h : run s acts = some s') {g i : Nat}
    (hh : (g, i) ∈ s.held) (hf : .free g i ∉ acts) :
    (g, i) ∈ s'.held ∧ ∃ x y, says s i = some x ∧ changes x (mine g i (abs s) acts) = some y ∧ says s' i = some y :=
  vown_edits hr.tidy (abs_run hr.inv h) hh hf

/-- And a record comes out of the pool blank: with the name of the pool, and no label and no metric
that is not zero. -/
theorem comes_out_blank {s s' : S} (hr : Reached s) {g : Nat} {c : Option Nat} {now : Nat}
    (h : step s (.get g c now) = some s') :
    ∃ i x, s'.held = s.held ++ [(g, i)] ∧ (∀ g', (g', i) ∉ s.held) ∧ says s' i = some x ∧ Blank x := by
  rcases step_refines hr.inv (.get g c now) with ⟨h1, _⟩ | ⟨s1, h1, h2, h3⟩
  · rw [h1] at h; cases h
  · rw [h1] at h; cases h
    have ht := hr.tidy
    have hnm : ∀ i, i ∉ s.held.map (·.2) → ∀ g', (g', i) ∉ s.held := fun i hi g' hg' => hi (List.mem_map.mpr ⟨_, hg', rfl⟩)
    cases c with
    | none =>
      simp only [vstep, Option.some.injEq] at h3
      refine ⟨(abs s).groups.length, created now, ?_, ?_, ?_, blank_created now⟩
      · have : (abs s').held = s'.held := rfl
        rw [← this, ← h3]; rfl
      · apply hnm
        intro hc
        have := ht.known _ (List.mem_append_left _ (List.mem_append_right _ hc))
        omega
      · simp only [says, ← h3]; simp
    | some i =>
      by_cases hi : i ∈ s.pool
      · simp only [step, if_pos hi, Option.some.injEq] at h1
        subst h1
        have hlt := ht.known i (List.mem_append_left _ (List.mem_append_left _ hi))
        refine ⟨i, (abs s).groups[i], rfl, ?_, ?_, ht.blank i hi _ (List.getElem?_eq_getElem hlt)⟩
        · exact fun g' hg' => ((one_holder hr).2.1 g' hg').1 hi
        · exact List.getElem?_eq_getElem hlt
      · simp only [step, if_neg hi] at h1; cases h1

/-- The clone says what the record says. -/
theorem clone_says {s s' : S} (hr : Reached s) {g i : Nat} (h : step s (.signal g i) = some s') :
    ∃ n, s'.kept = s.kept ++ [n] ∧ says s' n = says s i ∧ (∃ x, says s i = some x) ∧ says s' i = says s i := by
  rcases step_refines hr.inv (.signal g i) with ⟨h1, _⟩ | ⟨s1, h1, _, h3⟩
  · rw [h1] at h; cases h
  · rw [h1] at h; cases h
    simp only [vstep] at h3
    split at h3
    · split at h3
      · rename_i x hx
        simp only [Option.some.injEq] at h3
        have hlt : i < (abs s).groups.length := (List.getElem?_eq_some_iff.mp hx).1
        refine ⟨(abs s).groups.length, ?_, ?_, ⟨x, hx⟩, ?_⟩
        · have : (abs s').kept = s'.kept := rfl
          rw [← this, ← h3]; rfl
        · simp only [says, ← h3, hx]; simp
        · simp only [says, ← h3]; rw [List.getElem?_append_left hlt]
      · cases h3
    · cases h3

theorem vkept {s s' : V} (ht : Tidy s) {acts : List Act} (h : vrun s acts = some s') {n : Nat} (hn : n ∈ s.kept) :
    n ∈ s'.kept ∧ s'.groups[n]? = s.groups[n]? := by
  induction acts generalizing s with
  | nil => cases h; exact ⟨hn, rfl⟩
  | cons a as ih =>
    simp only [vrun] at h
    split at h
    · cases h
    · rename_i s1 h1
      have hlt := ht.known n (List.mem_append_right _ hn)
      have hno : ∀ g, (g, n) ∉ s.held := by
        intro g hg
        have := ht.once
        rw [List.nodup_append] at this
        exact this.2.2 n (List.mem_append_right _ (List.mem_map.mpr ⟨_, hg, rfl⟩)) n hn rfl
      have hk : n ∈ s1.kept := by
        cases a with
        | get g j now =>
          cases j with
          | none => simp only [vstep, Option.some.injEq] at h1; subst h1; exact hn
          | some j => simp only [vstep] at h1; split at h1 <;> cases h1; exact hn
        | parse g => simp only [vstep, Option.some.injEq] at h1; subst h1; exact hn
        | attr g m k v =>
          simp only [vstep] at h1
          split at h1
          · split at h1 <;> cases h1; exact hn
          · cases h1
        | edit g j e =>
          simp only [vstep] at h1
          split at h1
          · split at h1
            · simp only [Option.map_eq_some_iff] at h1
              obtain ⟨y, _, rfl⟩ := h1; exact hn
            · cases h1
          · cases h1
        | merge g j m =>
          simp only [vstep] at h1
          split at h1
          · split at h1 <;> cases h1; exact hn
          · cases h1
        | signal g j =>
          simp only [vstep] at h1
          split at h1
          · split at h1 <;> cases h1; exact List.mem_append_left _ hn
          · cases h1
        | free g j =>
          simp only [vstep] at h1
          split at h1
          · split at h1 <;> cases h1; exact hn
          · cases h1
        | gc j => simp only [vstep] at h1; split at h1 <;> cases h1; exact hn
      obtain ⟨k1, k2⟩ := ih (tidy_step ht h1) h hk
      refine ⟨k1, k2.trans ?_⟩
      exact vstep_other h1 hlt (fun g e _ => hno g) (fun g m _ => hno g) (fun g _ => hno g)

/-- C109.  A clone that the CPU analyzer keeps never changes: not when the record it is of goes back
to the pool and is used for other requests, by any goroutine, any number of times. -/
theorem clone_never_changes {s s' : S} (hr : Reached s) {acts : List Act} (h : run s acts = some s') {n : Nat}
    (hn : n ∈ s.kept) : n ∈ s'.kept ∧ says s' n = says s n :=
  vkept hr.tidy (abs_run hr.inv h) hn

/-- The clone is necessary: a record goes back with all its values zero, so one that was kept as it
is says nothing any more. -/
theorem kept_as_is_is_lost {s s' : S} (hr : Reached s) {g i : Nat} (h : step s (.free g i) = some s') :
    i ∈ s'.pool ∧ ∃ x, says s' i = some x ∧ Blank x ∧
      ∀ y, says s i = some y → ∀ k, (x.labels k).isSome = (y.labels k).isSome := by
  rcases step_refines hr.inv (.free g i) with ⟨h1, _⟩ | ⟨s1, h1, _, h3⟩
  · rw [h1] at h; cases h
  · rw [h1] at h; cases h
    simp only [vstep] at h3
    split at h3
    · split at h3
      · rename_i x hx
        simp only [Option.some.injEq] at h3
        have hlt : i < (abs s).groups.length := (List.getElem?_eq_some_iff.mp hx).1
        refine ⟨?_, x.reset, ?_, blank_reset x, ?_⟩
        · have : (abs s').pool = s'.pool := rfl
          rw [← this, ← h3]; simp
        · simp only [says, ← h3]; rw [List.getElem?_set_self hlt]
        · intro y hy k
          rw [says, hx] at hy
          cases hy
          simp only [Group.reset, zeroed]
          cases x.labels k <;> rfl
      · cases h3
    · cases h3

/-! ### A request, from its record to what is kept of it -/

/-- `UpdateAdd...Value` calls. -/
def labelAll (l : List (String × Val)) : List Change := l.map (fun p => .edit (.label p.1 p.2))

/-- `Add...Value` calls. -/
def putAll (l : List (String × Val)) : List Change := l.map (fun p => .edit (.put p.1 p.2))

/-- Lines 731-740 and 786-795 of network_analyzer.go, on labels `f`. -/
def lastChanges (f : VMap) (x : Info) : List Change :=
  (if Model.Attr.getBool (f "is_error") = false ∧ x.response = none then
    putAll [("is_error", .bool true), ("error_type", .int Record.noResponse)] else []) ++
  (match x.nat with
    | none => []
    | some (ip, port) => labelAll [("dnat_ip", .str ip), ("dnat_port", .int port)])

/-- What `getRecords` (network_analyzer.go:697-740) and `getRecordWithSinglePair` (755-795) do to the
labels of the record they got, for the request `x` with payload labels `pl`; `f3` is what the labels
are when the error is checked. -/
def recordChanges (x : Info) (pl : List (String × Val)) (f3 : VMap) : List Change :=
  labelAll (Record.baseLabels x) ++ .merge x.attrs :: labelAll pl ++ lastChanges f3 x

/-- What they do besides: metrics and the time, and the name that the consumer sets
(aggregateprocessor/processor.go:121). -/
def NoLabel : Change → Prop
  | .edit (.metric _ _) | .edit (.name _) | .edit (.time _) => True
  | _ => False

theorem changes_labelAll (y : Group) (l : List (String × Val)) :
    changes y (labelAll l) = (Record.setAll y.labels l).map (fun f => { y with labels := f }) := by
  induction l generalizing y with
  | nil => rfl
  | cons p l ih =>
    obtain ⟨k, v⟩ := p
    simp only [labelAll, List.map_cons, changes, Change.apply, Edit.apply, Record.setAll]
    cases hk : y.labels k with
    | none => exact ih _
    | some w =>
      by_cases ht : w.ty = v.ty
      · simp only [ht, if_true]; exact ih _
      · simp only [ht, if_false, Option.map_none]

theorem setAll_assign {f f' : VMap} {l : List (String × Val)} (h : Record.setAll f l = some f') : f' = Record.assign f l := by
  induction l generalizing f with
  | nil => cases h; rfl
  | cons p l ih =>
    obtain ⟨k, v⟩ := p
    simp only [Record.setAll] at h
    split at h
    · exact ih h
    · split at h
      · exact ih h
      · cases h

theorem changes_putAll (y : Group) (l : List (String × Val)) :
    changes y (putAll l) = some { y with labels := Record.assign y.labels l } := by
  induction l generalizing y with
  | nil => rfl
  | cons p l ih =>
    obtain ⟨k, v⟩ := p
    simp only [putAll, List.map_cons, changes, Change.apply, Edit.apply, Record.assign]
    exact ih _

theorem setAll_append (f : VMap) (l l' : List (String × Val)) :
    Record.setAll f (l ++ l') = (Record.setAll f l).bind (fun f' => Record.setAll f' l') := by
  induction l generalizing f with
  | nil => rfl
  | cons p l ih =>
    obtain ⟨k, v⟩ := p
    simp only [List.cons_append, Record.setAll]
    split
    · exact ih _
    · split
      · exact ih _
      · rfl

theorem changes_last {f r : VMap} {x : Info} (h : Record.setAll f (Record.lastLabels f x) = some r) (y : Group) (hy : y.labels = f) :
    changes y (lastChanges f x) = some { y with labels := r } := by
  subst hy
  rw [Record.lastLabels, setAll_append] at h
  rw [lastChanges, changes_append]
  split at h
  · rename_i hc
    rw [if_pos hc, changes_putAll]
    cases h1 : Record.setAll y.labels [("is_error", .bool true), ("error_type", .int Record.noResponse)] with
    | none => rw [h1] at h; cases h
    | some f1 =>
      rw [h1] at h
      have e := setAll_assign h1
      subst e
      simp only [Option.bind_some] at h ⊢
      cases hn : x.nat with
      | none => rw [hn] at h; cases h; rfl
      | some q =>
        rw [hn] at h
        simp only at h ⊢
        rw [changes_labelAll]
        simp only [h, Option.map_some]
  · rename_i hc
    rw [if_neg hc]
    simp only [Record.setAll, changes, Option.bind_some] at h ⊢
    cases hn : x.nat with
    | none => rw [hn] at h; cases h; rfl
    | some q =>
      rw [hn] at h
      simp only at h ⊢
      rw [changes_labelAll]
      simp only [h, Option.map_some]

/-- The changes make the labels of the record of `x`. -/
theorem changes_record {y : Group} {x : Info} {r f1 f3 : VMap} {pl : List (String × Val)}
    (h1 : Record.setAll y.labels (Record.baseLabels x) = some f1)
    (h3 : Record.setAll (fun k => (x.attrs k).or (f1 k)) pl = some f3) (h4 : Record.setAll f3 (Record.lastLabels f3 x) = some r) :
    changes y (recordChanges x pl f3) = some { y with labels := r } := by
  rw [recordChanges, changes_append, changes_append, changes_labelAll, h1]
  simp only [Option.map_some, Option.bind_some, changes, Change.apply]
  rw [changes_labelAll]
  simp only [h3, Option.map_some, Option.bind_some]
  rw [changes_last h4 _ rfl]

theorem changes_noLabel {cs : List Change} (h : ∀ c ∈ cs, NoLabel c) (y : Group) :
    ∃ z, changes y cs = some z ∧ z.labels = y.labels := by
  induction cs generalizing y with
  | nil => exact ⟨y, rfl, rfl⟩
  | cons c cs ih =>
    have hc := h c (by simp)
    have hrest := fun d hd => h d (List.mem_cons_of_mem _ hd)
    cases c with
    | merge f => exact absurd hc (by simp [NoLabel])
    | edit e =>
      cases e with
      | label k v => exact absurd hc (by simp [NoLabel])
      | put k v => exact absurd hc (by simp [NoLabel])
      | remove k => exact absurd hc (by simp [NoLabel])
      | metric k n =>
        obtain ⟨z, h1, h2⟩ := ih hrest { y with metrics := upd y.metrics k (some (.int n)) }
        exact ⟨z, by simp only [changes, Change.apply, Edit.apply]; exact h1, h2⟩
      | name n =>
        obtain ⟨z, h1, h2⟩ := ih hrest { y with name := n }
        exact ⟨z, by simp only [changes, Change.apply, Edit.apply]; exact h1, h2⟩
      | time n =>
        obtain ⟨z, h1, h2⟩ := ih hrest { y with ts := n }
        exact ⟨z, by simp only [changes, Change.apply, Edit.apply]; exact h1, h2⟩

/-- C109, a request from beginning to end.  A goroutine gets a record, makes it the record of
request `x` and hands it over while others do whatever they do with theirs; a clone is kept and the
record goes back and is used again.  What is kept is then, at any time, the record of `x` made on
zero labels: it has the labels of no other request. -/
theorem kept_is_the_request (text : Bytes → String) (limit : Nat) (x : Info) {s0 s1 s2 s3 s4 : S} (hr : Reached s0)
    {g i : Nat} {c : Option Nat} {now : Nat} (hget : step s0 (.get g c now) = some s1) (hi : (g, i) ∈ s1.held) (hnew : (g, i) ∉ s0.held)
    {acts : List Act} (hrun : run s1 acts = some s2) (hfree : .free g i ∉ acts)
    {f1 f3 r : VMap} {pl : List (String × Val)} {rest : List Change}
    (hmine : mine g i (abs s1) acts = recordChanges x pl f3 ++ rest) (hrest : ∀ c ∈ rest, NoLabel c)
    (h1 : ∀ y, says s1 i = some y → Record.setAll y.labels (Record.baseLabels x) = some f1)
    (h2 : Record.payloadLabels text limit x = some pl)
    (h3 : Record.setAll (fun k => (x.attrs k).or (f1 k)) pl = some f3) (h4 : Record.setAll f3 (Record.lastLabels f3 x) = some r)
    (hsig : step s2 (.signal g i) = some s3) {acts' : List Act} (hrun' : run s3 acts' = some s4) :
    ∃ n lab y, s3.kept = s2.kept ++ [n] ∧ (∀ k v, lab k = some v → v = Val.zero v.ty) ∧
      Record.recordLabels text limit lab x = some r ∧ says s4 n = some y ∧ y.labels = r := by
  obtain ⟨a0, ha0⟩ := hr
  have snoc : ∀ (s : S) (as bs : List Act) (s' : S), run s as = some s' → run s (as ++ bs) = run s' bs := by
    intro s as bs s' h
    induction as generalizing s with
    | nil => cases h; rfl
    | cons a as ih =>
      simp only [run] at h
      simp only [List.cons_append, run]
      split at h
      · cases h
      · rename_i sx hx; exact ih sx h
  have r1 : Reached s1 := ⟨a0 ++ [.get g c now], by rw [snoc _ _ _ _ ha0]; simp only [run, hget]⟩
  obtain ⟨a1, ha1⟩ := r1
  have r2 : Reached s2 := ⟨a1 ++ acts, by rw [snoc _ _ _ _ ha1]; exact hrun⟩
  obtain ⟨a2, ha2⟩ := r2
  have r3 : Reached s3 := ⟨a2 ++ [.signal g i], by rw [snoc _ _ _ _ ha2]; simp only [run, hsig]⟩
  obtain ⟨i', lab, e1, _, e3, e4⟩ := comes_out_blank ⟨a0, ha0⟩ hget
  have hii : i' = i := by
    rw [e1] at hi
    rcases List.mem_append.mp hi with h | h
    · exact absurd h hnew
    · simp only [List.mem_singleton, Prod.mk.injEq, true_and] at h; exact h.symm
  subst hii
  obtain ⟨_, y0, y, k1, k2, k3⟩ := only_own_edits ⟨a1, ha1⟩ hrun hi hfree
  rw [e3] at k1
  cases k1
  have hb := h1 lab e3
  rw [hmine, changes_append, changes_record hb h3 h4] at k2
  obtain ⟨z, z1, z2⟩ := changes_noLabel hrest { lab with labels := r }
  simp only [Option.bind_some] at k2
  rw [z1] at k2
  cases k2
  obtain ⟨n, m1, m2, _, _⟩ := clone_says ⟨a2, ha2⟩ hsig
  have hn : n ∈ s3.kept := by rw [m1]; simp
  obtain ⟨_, m4⟩ := clone_never_changes r3 hrun' hn
  refine ⟨n, lab.labels, y, m1, e4.2.1, ?_, by rw [m4, m2, k3], z2⟩
  simp only [Record.recordLabels, hb, h2, h3, h4]

/-! ### Examples -/

/-- Two goroutines and three requests; the record of the first is cloned, freed and used for the
third by the other goroutine. -/
def demo : List Act := [
  .get 1 none 5, .get 2 none 6, .edit 1 0 (.label "pid" (.int 7)), .parse 1, .edit 2 1 (.label "pid" (.int 8)),
  .attr 1 0 "content_key" (.str "/a"), .merge 1 0 0, .edit 1 0 (.name "single_net_request_metric_group"), .signal 1 0,
  .free 1 0, .get 2 (some 0) 0, .edit 2 0 (.label "pid" (.int 9)), .edit 2 0 (.label "content_key" (.str "/b"))]

example : (run init demo).map (fun s => (says s 0).map (fun x => (x.labels "pid", x.labels "content_key"))) =
    some (some (some (.int 9), some (.str "/b"))) := by decide +kernel
example : (run init demo).map (fun s => (says s 2).map (fun x => (x.name, x.labels "pid", x.labels "content_key"))) =
    some (some ("single_net_request_metric_group", some (.int 7), some (.str "/a"))) := by decide +kernel
example : (run init demo).map (fun s => (s.kept, s.held, s.pool)) = some ([2], [(2, 1), (2, 0)], []) := by decide +kernel
-- the goroutine that freed a record does not touch it again
example : (run init (demo ++ [.edit 1 0 (.label "pid" (.int 1))])).isNone = true := by decide +kernel
-- a label of another type panics, as in the code
example : (run init (demo ++ [.edit 2 0 (.label "pid" (.str "1"))])).isNone = true := by decide +kernel
-- what the third request finds is blank
example : (run init (demo.take 11)).map (fun s => (says s 0).map (fun x => (x.labels "pid", x.labels "content_key"))) =
    some (some (some (.int 0), some (.str ""))) := by decide +kernel

/-- A request without a response, handled by goroutine 1 on record 0 while goroutine 2 works on record 1. -/
def shop : Info := ⟨7, 70, "shop", "10.0.0.1", "10.0.0.2", 40000, 80, "", true, false, "http",
  upd emptyV "content_key" (some (.str "/a")), [], none, some ("10.0.0.3", 8080)⟩

def shopPl : List (String × Val) := [("request_payload", .str ""), ("response_payload", .str "")]

def shopActs : List Act :=
  .get 2 none 6 :: (Record.baseLabels shop).map (fun p => .edit 1 0 (.label p.1 p.2)) ++
  [.parse 1, .edit 2 1 (.label "pid" (.int 8)), .attr 1 0 "content_key" (.str "/a"), .merge 1 0 0] ++
  shopPl.map (fun p => .edit 1 0 (.label p.1 p.2)) ++
  [.edit 1 0 (.put "is_error" (.bool true)), .edit 1 0 (.put "error_type" (.int 2)),
   .edit 1 0 (.label "dnat_ip" (.str "10.0.0.3")), .edit 1 0 (.label "dnat_port" (.int 8080)),
   .edit 1 0 (.metric "request_total_time" 12), .edit 1 0 (.time 5), .edit 1 0 (.name "single_net_request_metric_group")]

def shopF3 : VMap := Record.assign (fun k => (shop.attrs k).or (Record.assign emptyV (Record.baseLabels shop) k)) shopPl

-- the hypotheses of `kept_is_the_request` are met by an execution
example : ∃ s1 s2 s3 s4 r rest, step init (.get 1 none 3) = some s1 ∧ (1, 0) ∈ s1.held ∧ run s1 shopActs = some s2 ∧
    .free 1 0 ∉ shopActs ∧ mine 1 0 (abs s1) shopActs = recordChanges shop shopPl shopF3 ++ rest ∧ (∀ c ∈ rest, NoLabel c) ∧
    Record.recordLabels (fun _ => "") 100 emptyV shop = some r ∧
    step s2 (.signal 1 0) = some s3 ∧ run s3 [.free 1 0, .get 2 (some 0) 0, .edit 2 0 (.label "pid" (.int 9))] = some s4 := by
  refine ⟨_, _, _, _, _, [.edit (.metric "request_total_time" 12), .edit (.time 5), .edit (.name "single_net_request_metric_group")],
    rfl, by decide +kernel, rfl, by decide +kernel, ?_, by simp [NoLabel], rfl, rfl, rfl⟩
  rfl

/-- And then the record is used for another request. -/
def shopDone : Option S := (step init (.get 1 none 3)).bind (fun s => run s (shopActs ++ [.signal 1 0, .free 1 0, .get 2 (some 0) 0,
    .edit 2 0 (.label "pid" (.int 9))]))

example : shopDone.map (fun s => (says s 2).map (fun x => [x.labels "pid", x.labels "error_type", x.labels "content_key"])) =
    some (some [some (.int 7), some (.int 2), some (.str "/a")]) := by decide +kernel
example : shopDone.map (fun s => (says s 0).map (fun x => [x.labels "pid", x.labels "error_type", x.labels "content_key"])) =
    some (some [some (.int 9), some (.int 0), some (.str "")]) := by decide +kernel

end Kindling.Net.Pool
