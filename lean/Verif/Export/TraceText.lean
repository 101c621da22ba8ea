import Verif.Export.Json
import Verif.Export.Files
/-
What the trace files of the camera exporter contain.  component/consumer/exporter/cameraexporter/filewriter.go, exporter.go,
model/data_group.go, metric.go and attribute_map.go.
-/
namespace Kindling.Export.TraceText
open Kindling.Text Kindling.Export.Json Kindling.Export.Files

/-! ### Data groups as JSON -/

/-- `Histogram` (model/metric.go:98-103); `none` is a nil slice. -/
structure Hist where
  sum : Int
  count : Nat
  bounds : Option (List Int)
  counts : Option (List Nat)
deriving DecidableEq

/-- `isMetricData` (metric.go:109-114). -/
inductive Data
  | int (v : Int)
  | hist (h : Hist)
deriving DecidableEq

/-- `Metric` (metric.go:11-17); `none` is a nil interface. Nil pointers inside a group are left out. -/
structure Met where
  name : Bytes
  data : Option Data
deriving DecidableEq

/-- `DataGroup` (model/data_group.go:11-16); `none` is a nil slice and a nil map.  The labels are the map of an `AttributeMap`
(attribute_map.go:16-18), which is never a nil pointer here. -/
structure Group where
  name : Bytes
  metrics : Option (List Met)
  labels : Option (AMap Bytes V)
  ts : Nat

/-- The order of Go strings. -/
def le : Bytes → Bytes → Bool
  | [], _ => true
  | _ :: _, [] => false
  | a :: r, b :: s => decide (a.toNat < b.toNat) || (decide (a = b) && le r s)

/-- `json.Marshal` writes the members of a map in the order of the keys. -/
def sort (m : AMap Bytes V) : AMap Bytes V := m.mergeSort (fun a b => le a.1 b.1)

def ofList : List J → Js
  | [] => .nil
  | j :: r => .cons j (ofList r)

def ofPairs : List (Bytes × J) → Ms
  | [] => .nil
  | (k, v) :: r => .cons k v (ofPairs r)

/-- `MarshalJSON` of the three kinds of values (attribute_map.go:207-209, 235-237, 259-261). -/
def vJ : V → J
  | .str s => .str s
  | .int n => .num n
  | .bool b => .bool b

/-- `AttributeMap.MarshalJSON` (attribute_map.go:20-22). -/
def labelsJ : Option (AMap Bytes V) → J
  | none => .null
  | some m => .obj (ofPairs ((sort m).map (fun e => (e.1, vJ e.2))))

def intsJ : Option (List Int) → J
  | none => .null
  | some l => .arr (ofList (l.map .num))

/-- The members of a metric are named like its fields (metric.go:11-17, 82-84, 98-103). -/
def dataJ : Option Data → J
  | none => .null
  | some (.int v) => .obj (ofPairs [(bs "Value", .num v)])
  | some (.hist h) => .obj (ofPairs [(bs "Sum", .num h.sum), (bs "Count", .num h.count), (bs "ExplicitBoundaries", intsJ h.bounds),
      (bs "BucketCounts", intsJ (h.counts.map (·.map Int.ofNat)))])

def metJ (m : Met) : J := .obj (ofPairs [(bs "Name", .str m.name), (bs "Data", dataJ m.data)])

def metricsJ : Option (List Met) → J
  | none => .null
  | some l => .arr (ofList (l.map metJ))

/-- The tags of `DataGroup` (data_group.go:11-16). -/
def groupJ (g : Group) : J :=
  .obj (ofPairs [(bs "name", .str g.name), (bs "metrics", metricsJ g.metrics), (bs "labels", labelsJ g.labels), (bs "timestamp", .num g.ts)])

/-- `json.Marshal(group)` (filewriter.go:105, 199). -/
def marshal (g : Group) : Bytes := print (groupJ g)

/-! ### Reading a group -/

def toList : Js → List J
  | .nil => []
  | .cons j l => j :: toList l

def toPairs : Ms → List (Bytes × J)
  | .nil => []
  | .cons k v l => (k, v) :: toPairs l

/-- The member of a name. -/
def member (k : Bytes) (l : Ms) : Option J := ((toPairs l).find? (fun e => e.1 == k)).map (·.2)

def asStr : J → Option Bytes
  | .str s => some s
  | _ => none

def asInt : J → Option Int
  | .num i => some i
  | _ => none

def asNat (j : J) : Option Nat := match asInt j with
  | some i => if 0 ≤ i then some i.toNat else none
  | none => none

/-- `null` or an array of what `f` reads. -/
def asMany {α : Type} (f : J → Option α) : J → Option (Option (List α))
  | .null => some none
  | .arr l => (mapOpt f (toList l)).map some
  | _ => none

def asV : J → Option V
  | .str s => some (.str s)
  | .num n => some (.int n)
  | .bool b => some (.bool b)
  | _ => none

def asLabels : J → Option (Option (AMap Bytes V))
  | .null => some none
  | .obj l => (mapOpt (fun e => (asV e.2).map (fun v => (e.1, v))) (toPairs l)).map some
  | _ => none

def asData : J → Option (Option Data)
  | .null => some none
  | .obj l => match (member (bs "Value") l).bind asInt with
    | some v => some (some (.int v))
    | none => match (member (bs "Sum") l).bind asInt, (member (bs "Count") l).bind asNat, (member (bs "ExplicitBoundaries") l).bind (asMany asInt),
        (member (bs "BucketCounts") l).bind (asMany asNat) with
      | some s, some c, some b, some k => some (some (.hist ⟨s, c, b, k⟩))
      | _, _, _, _ => none
  | _ => none

def asMet : J → Option Met
  | .obj l => match (member (bs "Name") l).bind asStr, (member (bs "Data") l).bind asData with
    | some n, some d => some ⟨n, d⟩
    | _, _ => none
  | _ => none

/-- A reader of the files: the group a JSON value stands for. -/
def asGroup : J → Option Group
  | .obj l => match (member (bs "name") l).bind asStr, (member (bs "metrics") l).bind (asMany asMet), (member (bs "labels") l).bind asLabels,
      (member (bs "timestamp") l).bind asNat with
    | some n, some m, some a, some t => some ⟨n, m, a, t⟩
    | _, _, _, _ => none
  | _ => none

def readGroup (s : Bytes) : Option Group := (read s).bind asGroup

/-! ### Round trip of one group -/

def cleanV : V → V
  | .str s => .str (clean s)
  | v => v

def cleanMet (m : Met) : Met := { m with name := clean m.name }

/-- What is left of a group: the labels in order, stray bytes as U+FFFD. -/
def stored (g : Group) : Group where
  name := clean g.name
  metrics := g.metrics.map (·.map cleanMet)
  labels := g.labels.map (fun m => (sort m).map (fun e => (clean e.1, cleanV e.2)))
  ts := g.ts

theorem ascii_valid {s : Bytes} (h : ∀ b ∈ s, b.toNat < 0x80) : ValidUtf8 s := by
  refine ⟨s.map (·.toNat), ?_, ?_⟩
  · intro c hc
    simp only [List.mem_map] at hc
    obtain ⟨b, hb, rfl⟩ := hc
    have := h b hb
    left; omega
  · induction s with
    | nil => rfl
    | cons a r ih =>
      have ha := h a (List.mem_cons_self ..)
      have := ih (fun b hb => h b (List.mem_cons_of_mem _ hb))
      simp only [text, List.map_cons, List.flatten_cons] at this ⊢
      rw [← this]
      simp [utf8, ha]

theorem clean_ascii {s : Bytes} (h : ∀ b ∈ s, b.toNat < 0x80) : clean s = s := clean_valid (ascii_valid h)

theorem clean_ofList (l : List J) : (ofList l).clean = ofList (l.map J.clean) := by
  induction l with
  | nil => rfl
  | cons j r ih => simp only [ofList, Js.clean, List.map_cons, ih]

theorem clean_ofPairs (l : List (Bytes × J)) : (ofPairs l).clean = ofPairs (l.map (fun e => (clean e.1, e.2.clean))) := by
  induction l with
  | nil => rfl
  | cons j r ih => obtain ⟨k, v⟩ := j; simp only [ofPairs, Ms.clean, List.map_cons, ih]

theorem toList_ofList (l : List J) : toList (ofList l) = l := by
  induction l with
  | nil => rfl
  | cons j r ih => simp only [ofList, toList, ih]

theorem toPairs_ofPairs (l : List (Bytes × J)) : toPairs (ofPairs l) = l := by
  induction l with
  | nil => rfl
  | cons j r ih => obtain ⟨k, v⟩ := j; simp only [ofPairs, toPairs, ih]

theorem mapOpt_map {α β γ : Type} (f : β → Option γ) (g : α → β) (h : α → γ) (hh : ∀ a, f (g a) = some (h a)) (l : List α) :
    mapOpt f (l.map g) = some (l.map h) := by
  induction l with
  | nil => rfl
  | cons a r ih => simp only [List.map_cons, mapOpt, hh, ih]

theorem asV_clean (v : V) : asV (vJ v).clean = some (cleanV v) := by cases v <;> rfl

theorem asLabels_clean (m : Option (AMap Bytes V)) :
    asLabels (labelsJ m).clean = some (m.map (fun m => (sort m).map (fun e => (clean e.1, cleanV e.2)))) := by
  cases m with
  | none => rfl
  | some m =>
    simp only [labelsJ, J.clean, clean_ofPairs, asLabels, toPairs_ofPairs, List.map_map]
    rw [mapOpt_map _ _ (fun e => (clean e.1, cleanV e.2))]
    · rfl
    · intro e; simp [asV_clean]

theorem asInts_clean (l : Option (List Int)) : asMany asInt (intsJ l).clean = some l := by
  cases l with
  | none => rfl
  | some l =>
    simp only [intsJ, J.clean, clean_ofList, asMany, toList_ofList, List.map_map]
    rw [mapOpt_map _ _ id]
    · simp
    · intro i; rfl

theorem asNats_clean (l : Option (List Nat)) : asMany asNat (intsJ (l.map (·.map Int.ofNat))).clean = some l := by
  cases l with
  | none => rfl
  | some l =>
    simp only [Option.map_some, intsJ, J.clean, clean_ofList, asMany, toList_ofList, List.map_map]
    rw [mapOpt_map _ _ id]
    · simp
    · intro i; simp [asNat, asInt, J.clean]

theorem clean_key (s : Bytes) (h : (s.all (fun b => decide (b.toNat < 0x80))) = true) : clean s = s :=
  clean_ascii (fun b hb => by simpa using List.all_eq_true.mp h b hb)

theorem asData_clean (d : Option Data) : asData (dataJ d).clean = some d := by
  have k1 := clean_key (bs "Value") (by decide)
  have k2 := clean_key (bs "Sum") (by decide)
  have k3 := clean_key (bs "Count") (by decide)
  have k4 := clean_key (bs "ExplicitBoundaries") (by decide)
  have k5 := clean_key (bs "BucketCounts") (by decide)
  match d with
  | none => rfl
  | some (.int v) =>
    simp only [dataJ, J.clean, clean_ofPairs, List.map_cons, List.map_nil, k1, asData, member, toPairs_ofPairs]
    rfl
  | some (.hist h) =>
    simp only [dataJ, J.clean, clean_ofPairs, List.map_cons, List.map_nil, k2, k3, k4, k5, asData, member, toPairs_ofPairs]
    have e1 : ((bs "Sum") == (bs "Value")) = false := by decide
    have e2 : ((bs "Count") == (bs "Value")) = false := by decide
    have e3 : ((bs "ExplicitBoundaries") == (bs "Value")) = false := by decide
    have e4 : ((bs "BucketCounts") == (bs "Value")) = false := by decide
    have e5 : ((bs "Sum") == (bs "Count")) = false := by decide
    have e6 : ((bs "Sum") == (bs "ExplicitBoundaries")) = false := by decide
    have e7 : ((bs "Count") == (bs "ExplicitBoundaries")) = false := by decide
    have e8 : ((bs "Sum") == (bs "BucketCounts")) = false := by decide
    have e9 : ((bs "Count") == (bs "BucketCounts")) = false := by decide
    have e10 : ((bs "ExplicitBoundaries") == (bs "BucketCounts")) = false := by decide
    simp only [List.find?_cons, e1, e2, e3, e4, e5, e6, e7, e8, e9, e10, beq_self_eq_true, List.find?_nil, Option.map_some, Option.map_none,
      Option.bind_some, Option.bind_none, asInts_clean, asNats_clean]
    simp [asInt, asNat]

theorem asMet_clean (m : Met) : asMet (metJ m).clean = some (cleanMet m) := by
  have k1 := clean_key (bs "Name") (by decide)
  have k2 := clean_key (bs "Data") (by decide)
  have e1 : ((bs "Name") == (bs "Data")) = false := by decide
  simp only [metJ, J.clean, clean_ofPairs, List.map_cons, List.map_nil, k1, k2, asMet, member, toPairs_ofPairs, List.find?_cons, e1,
    beq_self_eq_true, Option.map_some, Option.bind_some, asData_clean, asStr, cleanMet]

theorem asMetrics_clean (l : Option (List Met)) : asMany asMet (metricsJ l).clean = some (l.map (·.map cleanMet)) := by
  cases l with
  | none => rfl
  | some l =>
    simp only [metricsJ, J.clean, clean_ofList, asMany, toList_ofList, List.map_map]
    rw [mapOpt_map _ _ cleanMet]
    · rfl
    · intro m; exact asMet_clean m

/-- C112.  Every group that is written reads back, with the labels in order and stray bytes as U+FFFD. -/
theorem group_reads_back (g : Group) : readGroup (marshal g) = some (stored g) := by
  have k1 := clean_key (bs "name") (by decide)
  have k2 := clean_key (bs "metrics") (by decide)
  have k3 := clean_key (bs "labels") (by decide)
  have k4 := clean_key (bs "timestamp") (by decide)
  have e1 : ((bs "name") == (bs "metrics")) = false := by decide
  have e2 : ((bs "name") == (bs "labels")) = false := by decide
  have e3 : ((bs "name") == (bs "timestamp")) = false := by decide
  have e4 : ((bs "metrics") == (bs "labels")) = false := by decide
  have e5 : ((bs "metrics") == (bs "timestamp")) = false := by decide
  have e6 : ((bs "labels") == (bs "timestamp")) = false := by decide
  simp only [readGroup, marshal, read_print, Option.bind_some, groupJ, J.clean, clean_ofPairs, List.map_cons, List.map_nil, k1, k2, k3, k4,
    asGroup, member, toPairs_ofPairs, List.find?_cons, e1, e2, e3, e4, e5, e6, beq_self_eq_true, Option.map_some, asMetrics_clean,
    asLabels_clean, asStr]
  simp [asNat, asInt, stored]

/-! ### What is lost and what is not -/

theorem le_total (a b : Bytes) : (le a b || le b a) = true := by
  induction a generalizing b with
  | nil => simp [le]
  | cons x r ih =>
    cases b with
    | nil => simp [le]
    | cons y s =>
      simp only [le]
      by_cases h : x = y
      · subst h; have := ih s; simp at this ⊢; exact this
      · have hn : x.toNat ≠ y.toNat := fun e => h (UInt8.toNat_inj.mp e)
        have : x.toNat < y.toNat ∨ y.toNat < x.toNat := by omega
        simp; rcases this with h1 | h1
        · left; left; exact h1
        · right; left; exact h1

theorem le_trans (a b c : Bytes) (h1 : le a b = true) (h2 : le b c = true) : le a c = true := by
  induction a generalizing b c with
  | nil => simp [le]
  | cons x r ih =>
    cases b with
    | nil => simp [le] at h1
    | cons y s =>
      cases c with
      | nil => simp [le] at h2
      | cons z t =>
        simp only [le, Bool.or_eq_true, Bool.and_eq_true, decide_eq_true_eq] at h1 h2 ⊢
        rcases h1 with h1 | ⟨rfl, h1⟩ <;> rcases h2 with h2 | ⟨rfl, h2⟩
        · left; omega
        · left; exact h1
        · left; exact h2
        · right; exact ⟨rfl, ih s t h1 h2⟩

theorem le_antisymm {a b : Bytes} (h1 : le a b = true) (h2 : le b a = true) : a = b := by
  induction a generalizing b with
  | nil => cases b with
    | nil => rfl
    | cons y s => simp [le] at h2
  | cons x r ih =>
    cases b with
    | nil => simp [le] at h1
    | cons y s =>
      simp only [le, Bool.or_eq_true, Bool.and_eq_true, decide_eq_true_eq] at h1 h2
      rcases h1 with h1 | ⟨rfl, h1⟩
      · rcases h2 with h2 | ⟨rfl, h2⟩ <;> omega
      · rcases h2 with h2 | ⟨-, h2⟩
        · omega
        · rw [ih h1 h2]

theorem sort_perm (m : AMap Bytes V) : (sort m).Perm m := List.mergeSort_perm ..

theorem sort_sorted (m : AMap Bytes V) : (sort m).Pairwise (fun a b => le a.1 b.1 = true) :=
  List.pairwise_mergeSort (le := fun a b => le a.1 b.1) (fun a b c h1 h2 => le_trans a.1 b.1 c.1 h1 h2) (fun a b => le_total a.1 b.1) m

theorem wf_perm {m m' : AMap Bytes V} (h : m.Perm m') (hw : AMap.WF m) : AMap.WF m' := by
  unfold AMap.WF AMap.keys at *
  exact (h.map _).nodup_iff.mp hw

theorem get_perm {m m' : AMap Bytes V} (h : m.Perm m') (hw : AMap.WF m) (k : Bytes) : m.get k = m'.get k := by
  cases hg : m.get k with
  | some v => exact ((AMap.mem_iff_get (wf_perm h hw)).mp (h.mem_iff.mp ((AMap.mem_iff_get hw).mpr hg))).symm
  | none =>
    cases hg' : m'.get k with
    | none => rfl
    | some v =>
      have := (AMap.mem_iff_get hw).mp (h.mem_iff.mpr ((AMap.mem_iff_get (wf_perm h hw)).mpr hg'))
      rw [hg] at this; cases this

theorem mem_unique {m : AMap Bytes V} (hw : AMap.WF m) {a b : Bytes × V} (ha : a ∈ m) (hb : b ∈ m) (h : a.1 = b.1) : a = b := by
  obtain ⟨k, v⟩ := a
  obtain ⟨k', v'⟩ := b
  simp only at h; subst h
  have h1 := AMap.get_of_mem hw ha
  have h2 := AMap.get_of_mem hw hb
  rw [h1] at h2; cases h2; rfl

theorem sort_same {m m' : AMap Bytes V} (h : m.Perm m') (hw : AMap.WF m) : sort m = sort m' := by
  refine List.Perm.eq_of_pairwise (le := fun a b => le a.1 b.1 = true) ?_ (sort_sorted m) (sort_sorted m')
    (((sort_perm m).trans h).trans (sort_perm m').symm)
  intro a b ha hb h1 h2
  have ha := (sort_perm m).mem_iff.mp ha
  have hb := h.mem_iff.mpr ((sort_perm m').mem_iff.mp hb)
  exact mem_unique hw ha hb (le_antisymm h1 h2)

/-- The order in which Go walks the map of the labels does not show. -/
theorem order_invisible (g g' : Group) (hn : g.name = g'.name) (hm : g.metrics = g'.metrics) (ht : g.ts = g'.ts)
    (m m' : AMap Bytes V) (hg : g.labels = some m) (hg' : g'.labels = some m') (hp : m.Perm m') (hw : AMap.WF m) :
    marshal g = marshal g' := by
  simp only [marshal, groupJ, hn, hm, ht, hg, hg', labelsJ, sort_same hp hw]

def ValidV : V → Prop
  | .str s => ValidUtf8 s
  | _ => True

/-- All text of a group is UTF-8. -/
structure Valid (g : Group) : Prop where
  name : ValidUtf8 g.name
  metrics : ∀ l, g.metrics = some l → ∀ m ∈ l, ValidUtf8 m.name
  labels : ∀ m, g.labels = some m → ∀ e ∈ m, ValidUtf8 e.1 ∧ ValidV e.2

theorem map_same {α : Type} (f : α → α) (l : List α) (h : ∀ a ∈ l, f a = a) : l.map f = l := by
  induction l with
  | nil => rfl
  | cons a r ih => rw [List.map_cons, h a (List.mem_cons_self ..), ih (fun b hb => h b (List.mem_cons_of_mem _ hb))]

theorem stored_valid {g : Group} (h : Valid g) : stored g = { g with labels := g.labels.map sort } := by
  obtain ⟨n, ms, ls, t⟩ := g
  obtain ⟨h1, h2, h3⟩ := h
  simp only at h1 h2 h3
  have e1 : ms.map (·.map cleanMet) = ms := by
    cases ms with
    | none => rfl
    | some l =>
      simp only [Option.map_some, Option.some.injEq]
      refine map_same _ _ (fun m hm => ?_)
      simp only [cleanMet, clean_valid (h2 l rfl m hm)]
  have e2 : ls.map (fun m => (sort m).map (fun e => (clean e.1, cleanV e.2))) = ls.map sort := by
    cases ls with
    | none => rfl
    | some m =>
      simp only [Option.map_some, Option.some.injEq]
      refine map_same _ _ (fun e he => ?_)
      have := h3 m rfl e ((sort_perm m).mem_iff.mp he)
      obtain ⟨k, v⟩ := e
      simp only [clean_valid this.1]
      cases v with
      | str s => simp only [cleanV, clean_valid this.2]
      | _ => rfl
  simp only [stored, clean_valid h1, e1, e2]

/-- C112.  Of a group of UTF-8 text nothing is lost: name, metrics, time and every label. -/
theorem group_survives (g : Group) (h : Valid g) : ∃ g', readGroup (marshal g) = some g' ∧ g'.name = g.name ∧ g'.metrics = g.metrics ∧
    g'.ts = g.ts ∧ (g.labels = none → g'.labels = none) ∧
    ∀ m, g.labels = some m → AMap.WF m → ∃ m', g'.labels = some m' ∧ ∀ k, m'.get k = m.get k := by
  refine ⟨_, group_reads_back g, ?_⟩
  rw [stored_valid h]
  refine ⟨rfl, rfl, rfl, fun hn => by simp [hn], fun m hm hw => ⟨sort m, by simp [hm], fun k => ?_⟩⟩
  exact (get_perm (sort_perm m).symm hw k).symm

/-- C112.  Different groups of UTF-8 text are written differently. -/
theorem different_written_differently (g g' : Group) (h : Valid g) (h' : Valid g') (he : marshal g = marshal g') :
    g.name = g'.name ∧ g.metrics = g'.metrics ∧ g.ts = g'.ts ∧ (g.labels = none ↔ g'.labels = none) ∧
    ∀ m m', g.labels = some m → g'.labels = some m' → AMap.WF m → AMap.WF m' → ∀ k, m.get k = m'.get k := by
  have h1 := group_reads_back g
  have h2 := group_reads_back g'
  rw [he, h2, stored_valid h, stored_valid h'] at h1
  simp only [Option.some.injEq, Group.mk.injEq] at h1
  obtain ⟨a, b, c, d⟩ := h1
  refine ⟨a.symm, b.symm, d.symm, ?_, ?_⟩
  · cases hl : g.labels <;> cases hl' : g'.labels <;> simp [hl, hl'] at c ⊢
  · intro m m' hm hm' hw hw' k
    simp only [hm, hm', Option.map_some, Option.some.injEq] at c
    rw [get_perm (sort_perm m).symm hw k, get_perm (sort_perm m').symm hw' k, c]

theorem rune_stray (a : UInt8) (h : 0xF8 ≤ a.toNat) (r : Bytes) : rune (a :: r) = none := by
  cases hr : rune (a :: r) with
  | none => rfl
  | some x =>
    obtain ⟨hc, he⟩ := rune_sound (c := x.1) (r := x.2) hr
    exfalso
    unfold Scalar at hc
    unfold utf8 at he
    split at he
    · have := congrArg UInt8.toNat (List.cons.inj he).1; rw [ofNat_toNat' (by omega)] at this; omega
    · split at he
      · have := congrArg UInt8.toNat (List.cons.inj he).1; rw [ofNat_toNat' (by omega)] at this; omega
      · split at he
        · have := congrArg UInt8.toNat (List.cons.inj he).1; rw [ofNat_toNat' (by omega)] at this; omega
        · have := congrArg UInt8.toNat (List.cons.inj he).1; rw [ofNat_toNat' (by omega)] at this; omega

theorem runes_stray (cs : List Nat) (hcs : ∀ c ∈ cs, Scalar c) (a : UInt8) (h : 0xF8 ≤ a.toNat) (r : Bytes) :
    runes (text cs ++ a :: r) = cs.map some ++ none :: runes r := by
  induction cs with
  | nil =>
    simp only [text, List.map_nil, List.flatten_nil, List.nil_append]
    rw [runes]
    split
    · rfl
    · rename_i hn; rw [rune_stray a h] at hn; cases hn
  | cons c t ih =>
    have ih := ih (fun x hx => hcs x (List.mem_cons_of_mem _ hx))
    have ht : text (c :: t) = utf8 c ++ text t := by simp [text]
    have hc := rune_utf8 (hcs c (List.mem_cons_self ..)) (text t ++ a :: r)
    rw [ht, List.append_assoc]
    cases hu : utf8 c ++ (text t ++ a :: r) with
    | nil => rw [hu] at hc; simp [rune] at hc
    | cons x y =>
      rw [hu] at hc
      rw [runes]
      split
      · rename_i hn; rw [hc] at hn; cases hn
      · rename_i hn; rw [hc] at hn; cases hn; rw [ih]; rfl

/-- C112 fails for other text: bytes that belong to no character are all written alike, so what a trace says of binary contents is lost. -/
theorem stray_bytes_alike (cs : List Nat) (hcs : ∀ c ∈ cs, Scalar c) (a b : UInt8) (ha : 0xF8 ≤ a.toNat) (hb : 0xF8 ≤ b.toNat) (rest k : Bytes)
    (n : Bytes) (ms : Option (List Met)) (t : Nat) :
    marshal ⟨n, ms, some [(k, .str (text cs ++ a :: rest))], t⟩ = marshal ⟨n, ms, some [(k, .str (text cs ++ b :: rest))], t⟩ := by
  have hq : quoted (text cs ++ a :: rest) = quoted (text cs ++ b :: rest) := by
    simp only [quoted, runes_stray cs hcs a ha, runes_stray cs hcs b hb]
  have hs : ∀ v : V, sort [(k, v)] = [(k, v)] := fun v => List.mergeSort_singleton _
  simp only [marshal, print, groupJ, ofPairs, toks, moreO, labelsJ, hs, List.map_cons, List.map_nil, vJ, List.flatMap_cons, List.flatMap_append,
    Tok.bytes, hq]

/-- Two labels of a group may become one name. -/
theorem names_may_meet : ∃ g : Group, ∃ m, g.labels = some m ∧ AMap.WF m ∧
    ∃ g' m', readGroup (marshal g) = some g' ∧ g'.labels = some m' ∧ ¬ AMap.WF m' := by
  have h1 : ∀ a : UInt8, 0xF8 ≤ a.toNat → clean [a] = utf8 0xFFFD := by
    intro a ha
    have := runes_stray [] (by simp) a ha []
    simp only [text, List.map_nil, List.flatten_nil, List.nil_append] at this
    simp only [clean, codes, this]
    simp [runes, text]
  have hs : ∀ u v : V, sort [([0xFE], u), ([0xFF], v)] = [([0xFE], u), ([0xFF], v)] := fun u v =>
    List.mergeSort_of_pairwise (by simp [le])
  refine ⟨⟨[], none, some [([0xFE], .int 1), ([0xFF], .int 2)], 0⟩, _, rfl, by simp [AMap.WF, AMap.keys], _, _, group_reads_back _, rfl, ?_⟩
  simp only [hs, List.map_cons, List.map_nil, h1 0xFE (by decide), h1 0xFF (by decide), AMap.WF, AMap.keys]
  simp

theorem nodup_map_iff {α β : Type} (f : α → β) {l : List α} (hl : l.Nodup) :
    (l.map f).Nodup ↔ ∀ a ∈ l, ∀ b ∈ l, f a = f b → a = b := by
  induction l with
  | nil => simp
  | cons x r ih =>
    obtain ⟨h1, h2⟩ := List.nodup_cons.1 hl
    rw [List.map_cons, List.nodup_cons, ih h2]
    constructor
    · rintro ⟨k1, k2⟩ a ha b hb hab
      rcases List.mem_cons.1 ha with rfl | ha' <;> rcases List.mem_cons.1 hb with rfl | hb'
      · rfl
      · exact absurd (List.mem_map.2 ⟨b, hb', hab.symm⟩) k1
      · exact absurd (List.mem_map.2 ⟨a, ha', hab⟩) k1
      · exact k2 a ha' b hb' hab
    · intro h
      refine ⟨fun hx => ?_, fun a ha b hb => h a (List.mem_cons_of_mem _ ha) b (List.mem_cons_of_mem _ hb)⟩
      obtain ⟨y, hy, he⟩ := List.mem_map.1 hx
      exact h1 (h y (List.mem_cons_of_mem _ hy) x (List.mem_cons_self ..) he ▸ hy)

/-- C112.  The labels that are read back have different names exactly if no two of the names differ only in stray bytes. -/
theorem names_apart_iff {g g' : Group} {m m' : AMap Bytes V} (hm : g.labels = some m) (hw : AMap.WF m)
    (hr : readGroup (marshal g) = some g') (hm' : g'.labels = some m') :
    AMap.WF m' ↔ ∀ a ∈ AMap.keys m, ∀ b ∈ AMap.keys m, clean a = clean b → a = b := by
  rw [group_reads_back, Option.some.injEq] at hr
  subst hr
  simp only [stored, hm, Option.map_some, Option.some.injEq] at hm'
  subst hm'
  have hp : (AMap.keys ((sort m).map (fun e => (clean e.1, cleanV e.2)))).Perm ((AMap.keys m).map clean) := by
    simp only [AMap.keys, List.map_map]
    exact (List.mergeSort_perm m _).map (fun e => clean e.1)
  unfold AMap.WF at hw ⊢
  rw [hp.nodup_iff, nodup_map_iff clean hw]

/-- The names 0xFE and 0xFF: they meet, though they differ. -/
example : AMap.WF (κ := Bytes) [([0xFE], V.int 1), ([0xFF], V.int 2)] := by simp [AMap.WF, AMap.keys]

/-! ### Files of several groups -/

/-- `dividingLine` (filewriter.go:173). -/
def line : Bytes := bs "\n------\n"

/-- A reader of the files: the parts between the dividing lines. -/
def pieces (s : Bytes) : List Bytes :=
  match s with
  | [] => [[]]
  | a :: r =>
    if line.isPrefixOf (a :: r) then [] :: pieces ((a :: r).drop 8)
    else match pieces r with
      | [] => [[a]]
      | p :: ps => (a :: p) :: ps
termination_by s.length
decreasing_by
  · simp; omega
  · simp

/-- The trace and the groups of CPU events behind it. -/
def readFile (s : Bytes) : Option (List Group) := mapOpt readGroup (pieces s)

theorem pieces_line (r : Bytes) : pieces (line ++ r) = [] :: pieces r := by
  have h : line ++ r = 10 :: 45 :: 45 :: 45 :: 45 :: 45 :: 45 :: 10 :: r := rfl
  have hl : line = [10, 45, 45, 45, 45, 45, 45, 10] := rfl
  rw [h, pieces, if_pos (by simp [hl])]
  rfl

theorem pieces_cons {a : UInt8} (ha : a ≠ 10) (r : Bytes) : pieces (a :: r) = match pieces r with
    | [] => [[a]]
    | p :: ps => (a :: p) :: ps := by
  have hl : line = [10, 45, 45, 45, 45, 45, 45, 10] := rfl
  rw [pieces, if_neg]
  simp only [hl, List.isPrefixOf, Bool.and_eq_true, beq_iff_eq, not_and]
  intro h; exact absurd h.symm ha

theorem pieces_text (x r : Bytes) (hx : ∀ b ∈ x, 0x20 ≤ b.toNat) : pieces (x ++ line ++ r) = x :: pieces r := by
  induction x with
  | nil => exact pieces_line r
  | cons a t ih =>
    have ha : a ≠ 10 := by rintro rfl; exact absurd (hx 10 (List.mem_cons_self ..)) (by decide)
    rw [List.cons_append, List.cons_append, pieces_cons ha, ih (fun b hb => hx b (List.mem_cons_of_mem _ hb))]

theorem pieces_last (x : Bytes) (hx : ∀ b ∈ x, 0x20 ≤ b.toNat) : pieces x = [x] := by
  induction x with
  | nil => rw [pieces]
  | cons a t ih =>
    have ha : a ≠ 10 := by rintro rfl; exact absurd (hx 10 (List.mem_cons_self ..)) (by decide)
    rw [pieces_cons ha, ih (fun b hb => hx b (List.mem_cons_of_mem _ hb))]

/-- A trace and its groups of CPU events as they should stand in a file. -/
def fileOf : List Group → Bytes
  | [] => []
  | g :: r => marshal g ++ r.flatMap (fun s => line ++ marshal s)

theorem pieces_fileOf (g : Group) (r : List Group) : pieces (fileOf (g :: r)) = (g :: r).map marshal := by
  induction r generalizing g with
  | nil => simp only [fileOf, List.flatMap_nil, List.append_nil, pieces_last _ (print_printable _), marshal, List.map_cons, List.map_nil]
  | cons s t ih =>
    have := ih s
    simp only [fileOf] at this ⊢
    rw [List.flatMap_cons, List.append_assoc, ← List.append_assoc, pieces_text (marshal g) _ (print_printable _), this]; rfl

theorem fileOf_snoc (g : Group) (r : List Group) (s : Group) : fileOf (g :: (r ++ [s])) = fileOf (g :: r) ++ line ++ marshal s := by
  simp [fileOf, List.flatMap_append, List.append_assoc]

/-- C112.  A file of a trace and groups of CPU events reads as these. -/
theorem file_reads (g : Group) (r : List Group) : readFile (fileOf (g :: r)) = some ((g :: r).map stored) := by
  rw [readFile, pieces_fileOf]
  exact mapOpt_map _ _ _ group_reads_back _

/-! ### What is written where -/

/-- Directory and name of a file below the storage path. -/
abbrev Path := Bytes × Bytes

/-- `pidFilePath` and `getFileName` (filewriter.go:53-67). `date` is `getDateString` of a time. -/
def pathOf (date : Nat → Bytes) (e : Elems) : Path :=
  (dirName e.workload e.pod e.container e.pid, fileName (date e.timestamp) e.protocol e.contentKey e.isServer)

def labelsOf (g : Group) : AMap Bytes V := g.labels.getD []

/-- `write` (filewriter.go:41-51). -/
inductive Kind
  | trace | events | other
deriving DecidableEq

def kind (g : Group) : Kind :=
  if g.name = bs "single_net_request_metric_group" then .trace
  else if g.name = bs "apm_span_event" then .trace
  else if g.name = bs "camera_event_group" then .events
  else .other

/-- The file of a group: `writeTrace` (filewriter.go:69-85) takes the time of the group, `writeCpuEvents` (175-180) that of the label. -/
def fileFor (date : Nat → Bytes) (g : Group) : Path := match kind g with
  | .events => pathOf date (cpuElems (labelsOf g))
  | _ => pathOf date (getElems (labelsOf g) g.ts)

def upd {α β : Type} [DecidableEq α] (f : α → β) (a : α) (b : β) : α → β := fun x => if x = a then b else f x

theorem upd_self {α β : Type} [DecidableEq α] (f : α → β) (a : α) (b : β) : upd f a b a = b := if_pos rfl
theorem upd_ne {α β : Type} [DecidableEq α] (f : α → β) {a x : α} (b : β) (h : x ≠ a) : upd f a b x = f x := if_neg h

inductive Op
  | write (g : Group)
  | remove (p : Path)

/-- One operation after the other: `writeTrace` truncates what is there, `writeCpuEvents` only opens files that are there
(filewriter.go:69-111, 175-205); removals come from the rotation and from outside.  Failing writes are left out. -/
def apply (date : Nat → Bytes) (fs : Path → Option Bytes) : Op → Path → Option Bytes
  | .remove p => upd fs p none
  | .write g => match kind g with
    | .trace => upd fs (fileFor date g) (some (marshal g))
    | .events => match fs (fileFor date g) with
      | none => fs
      | some b => upd fs (fileFor date g) (some (b ++ line ++ marshal g))
    | .other => fs

def disk (date : Nat → Bytes) (ops : List Op) : Path → Option Bytes := ops.foldl (apply date) (fun _ => none)

/-- A new trace for this file, or its removal. -/
def Resets (date : Nat → Bytes) (p : Path) : Op → Prop
  | .remove q => q = p
  | .write g => kind g = .trace ∧ fileFor date g = p

/-- The groups of CPU events for this file. -/
def eventsFor (date : Nat → Bytes) (p : Path) (ops : List Op) : List Group := ops.filterMap (fun o => match o with
  | .write g => if kind g = .events ∧ fileFor date g = p then some g else none
  | .remove _ => none)

/-- Spec: since the last trace for this file, which was `g`, the groups `r` came and the file was not removed. -/
def Holds (date : Nat → Bytes) (ops : List Op) (p : Path) (g : Group) (r : List Group) : Prop :=
  ∃ a c, ops = a ++ .write g :: c ∧ kind g = .trace ∧ fileFor date g = p ∧ (∀ o ∈ c, ¬ Resets date p o) ∧ r = eventsFor date p c

theorem holds_snoc {date : Nat → Bytes} {ops : List Op} {p : Path} {g : Group} {r : List Group} (h : Holds date ops p g r) (o : Op)
    (ho : ¬ Resets date p o) : Holds date (ops ++ [o]) p g (r ++ eventsFor date p [o]) := by
  obtain ⟨a, c, rfl, h1, h2, h3, rfl⟩ := h
  refine ⟨a, c ++ [o], by simp, h1, h2, ?_, by simp [eventsFor, List.filterMap_append]⟩
  intro x hx
  simp only [List.mem_append, List.mem_singleton] at hx
  rcases hx with hx | rfl
  · exact h3 x hx
  · exact ho

theorem holds_back {date : Nat → Bytes} {ops : List Op} {p : Path} {g : Group} {r : List Group} {o : Op}
    (h : Holds date (ops ++ [o]) p g r) : (o = .write g ∧ kind g = .trace ∧ fileFor date g = p ∧ r = []) ∨
      (¬ Resets date p o ∧ ∃ r', Holds date ops p g r' ∧ r = r' ++ eventsFor date p [o]) := by
  obtain ⟨a, c, he, h1, h2, h3, rfl⟩ := h
  cases c using snoc_ind with
  | nil =>
    left
    obtain ⟨-, h5⟩ := List.append_inj' he rfl
    cases h5
    exact ⟨rfl, h1, h2, rfl⟩
  | snoc c x _ =>
    right
    rw [← List.cons_append, ← List.append_assoc] at he
    obtain ⟨h4, h5⟩ := List.append_inj' he rfl
    cases h5
    refine ⟨h3 o (by simp), eventsFor date p c, ⟨a, c, h4, h1, h2, fun y hy => h3 y (by simp [hy]), rfl⟩, ?_⟩
    simp [eventsFor, List.filterMap_append]

/-- C112.  After any sequence of writes and removals a file is there when it was not removed since a trace was written to it, and it
holds exactly the last trace and the CPU events that came since, in order. -/
theorem contents (date : Nat → Bytes) (ops : List Op) (p : Path) (b : Bytes) :
    disk date ops p = some b ↔ ∃ g r, Holds date ops p g r ∧ b = fileOf (g :: r) := by
  induction ops using snoc_ind generalizing b with
  | nil =>
    constructor
    · intro h; cases h
    · rintro ⟨g, r, ⟨a, c, h, -⟩, -⟩; simp at h
  | snoc ops o ih =>
    have hd : disk date (ops ++ [o]) = apply date (disk date ops) o := by simp [disk, List.foldl_append]
    rw [hd]
    have keep : apply date (disk date ops) o p = disk date ops p → ¬ Resets date p o → eventsFor date p [o] = [] →
        (apply date (disk date ops) o p = some b ↔ ∃ g r, Holds date (ops ++ [o]) p g r ∧ b = fileOf (g :: r)) := by
      intro h1 h2 h3
      rw [h1, ih b]
      constructor
      · rintro ⟨g, r, h, rfl⟩
        have := holds_snoc h o h2
        rw [h3, List.append_nil] at this
        exact ⟨g, r, this, rfl⟩
      · rintro ⟨g, r, h, rfl⟩
        rcases holds_back h with ⟨rfl, hk, hf, -⟩ | ⟨-, r', hr, rfl⟩
        · exact absurd ⟨hk, hf⟩ h2
        · rw [h3, List.append_nil]; exact ⟨g, r', hr, rfl⟩
    cases o with
    | remove q =>
      by_cases hq : q = p
      · subst hq
        simp only [apply, upd_self]
        constructor
        · intro h; cases h
        · rintro ⟨g, r, h, -⟩
          rcases holds_back h with ⟨h, -⟩ | ⟨h, -⟩
          · cases h
          · exact absurd rfl h
      · exact keep (by simp only [apply]; exact upd_ne _ _ (Ne.symm hq)) hq rfl
    | write g =>
      cases hk : kind g with
      | other =>
        refine keep (by simp only [apply, hk]) ?_ ?_
        · rintro ⟨h, -⟩; rw [hk] at h; cases h
        · simp [eventsFor, hk]
      | trace =>
        by_cases hp : fileFor date g = p
        · have hv : apply date (disk date ops) (.write g) p = some (marshal g) := by
            simp only [apply, hk]; rw [hp, upd_self]
          rw [hv]
          constructor
          · intro h; cases h
            exact ⟨g, [], ⟨ops, [], rfl, hk, hp, by simp, rfl⟩, by simp [fileOf]⟩
          · rintro ⟨g', r, h, rfl⟩
            rcases holds_back h with ⟨hx, -, -, rfl⟩ | ⟨h, -⟩
            · cases hx; simp [fileOf]
            · exact absurd ⟨hk, hp⟩ h
        · refine keep (by simp only [apply, hk]; exact upd_ne _ _ (Ne.symm hp)) (fun h => hp h.2) ?_
          simp [eventsFor, hk]
      | events =>
        have hnr : ¬ Resets date p (.write g) := by rintro ⟨h, -⟩; rw [hk] at h; cases h
        by_cases hp : fileFor date g = p
        · have hev : eventsFor date p [.write g] = [g] := by simp [eventsFor, hk, hp]
          cases hd : disk date ops p with
          | none =>
            have hv : apply date (disk date ops) (.write g) p = none := by
              simp only [apply, hk]; rw [hp, hd]; exact hd
            rw [hv]
            constructor
            · intro h; cases h
            · rintro ⟨g', r, h, -⟩
              rcases holds_back h with ⟨h, hk', -⟩ | ⟨-, r', hr, -⟩
              · cases h; rw [hk] at hk'; cases hk'
              · have := (ih _).mpr ⟨g', r', hr, rfl⟩
                rw [hd] at this; cases this
          | some b0 =>
            have hv : apply date (disk date ops) (.write g) p = some (b0 ++ line ++ marshal g) := by
              simp only [apply, hk]; rw [hp, hd]; exact upd_self _ _ _
            rw [hv]
            constructor
            · intro h; cases h
              obtain ⟨g', r, hr, rfl⟩ := (ih b0).mp hd
              have := holds_snoc hr _ hnr
              rw [hev] at this
              exact ⟨g', r ++ [g], this, (fileOf_snoc g' r g).symm⟩
            · rintro ⟨g', r, h, rfl⟩
              rcases holds_back h with ⟨h, hk', -⟩ | ⟨-, r', hr, rfl⟩
              · cases h; rw [hk] at hk'; cases hk'
              · have := (ih _).mpr ⟨g', r', hr, rfl⟩
                rw [hd] at this
                cases this
                rw [hev, fileOf_snoc]
        · refine keep ?_ hnr (by simp [eventsFor, hp])
          simp only [apply, hk]
          cases disk date ops (fileFor date g) with
          | none => rfl
          | some b0 => exact upd_ne _ _ (Ne.symm hp)

/-- C112.  Every file there is can be read. -/
theorem every_file_reads_partial (date : Nat → Bytes) (ops : List Op) (p : Path) (b : Bytes) (h : disk date ops p = some b) :
    ∃ g r, Holds date ops p g r ∧ readFile b = some ((g :: r).map stored) := by
  obtain ⟨g, r, hh, rfl⟩ := (contents date ops p b).mp h
  exact ⟨g, r, hh, file_reads g r⟩

/-- The CPU events sent for a trace (send_trigger.go:127-128, 196-199) go to the file of the trace. -/
theorem events_follow (date : Nat → Bytes) (g seg : Group) (m l : AMap Bytes V) (hg : kind g = .trace) (hm : g.labels = some m) (ht : g.ts < 2 ^ 64)
    (hs : kind seg = .events) (hl : seg.labels = some (merge l (toAttributes (getElems m g.ts)))) (hpid : gi l (bs "pid") = gi m (bs "pid")) :
    fileFor date seg = fileFor date g := by
  simp only [fileFor, hs, hg, labelsOf, hm, hl, Option.getD_some, elements_survive_partial m g.ts ht l hpid]

/-! ### Several goroutines -/

/-- What a goroutine inside the file writer does next: write the trace (filewriter.go:109), the dividing line (194) or the events (200), to
the file it has open. -/
inductive Job
  | idle
  | put (i : Nat) (g : Group)
  | line (i : Nat) (g : Group)
  | text (i : Nat) (g : Group)

/-- The file a goroutine has open. -/
def Job.on : Job → Option Nat
  | .idle => none
  | .put i _ => some i
  | .line i _ => some i
  | .text i _ => some i

/-- `log` is no part of the program: the groups written to a file since it was created or truncated. -/
structure St where
  dir : Path → Option Nat
  data : Nat → Bytes
  next : Nat
  job : Nat → Job
  log : Nat → List Group

def St.init : St := ⟨fun _ => none, fun _ => [], 0, fun _ => .idle, fun _ => []⟩

inductive Act
  | start (w : Nat) (g : Group)
  | go (w : Nat)
  | remove (p : Path)

/-- Writing at the beginning of a file. -/
def overlay (x b : Bytes) : Bytes := x ++ b.drop x.length

/-- `write` in steps: `os.Create` creates or truncates, `os.OpenFile` opens for appending what is there, `os.Remove` takes the name
away and leaves the open file (filewriter.go:87-111, 135, 175-205). -/
def step (date : Nat → Bytes) (s : St) : Act → Option St
  | .start w g => match s.job w with
    | .idle => match kind g with
      | .trace => match s.dir (fileFor date g) with
        | some i => some { s with data := upd s.data i [], log := upd s.log i [], job := upd s.job w (.put i g) }
        | none => some { s with dir := upd s.dir (fileFor date g) (some s.next), next := s.next + 1, data := upd s.data s.next [],
                                log := upd s.log s.next [], job := upd s.job w (.put s.next g) }
      | .events => match s.dir (fileFor date g) with
        | some i => some { s with job := upd s.job w (.line i g) }
        | none => some s
      | .other => some s
    | _ => none
  | .go w => match s.job w with
    | .idle => none
    | .put i g => some { s with data := upd s.data i (overlay (marshal g) (s.data i)), log := upd s.log i [g], job := upd s.job w .idle }
    | .line i g => some { s with data := upd s.data i (s.data i ++ line), job := upd s.job w (.text i g) }
    | .text i g => some { s with data := upd s.data i (s.data i ++ marshal g), log := upd s.log i (s.log i ++ [g]), job := upd s.job w .idle }
  | .remove p => some { s with dir := upd s.dir p none }

/-- Nobody begins to write a file another has open. -/
def Alone (date : Nat → Bytes) (s : St) : Act → Prop
  | .start _ g => ∀ i, s.dir (fileFor date g) = some i → ∀ w', (s.job w').on ≠ some i
  | _ => True

inductive Reach (date : Nat → Bytes) : St → Prop
  | init : Reach date .init
  | act {s s' : St} (a : Act) (h : Reach date s) (ha : Alone date s a) (hs : step date s a = some s') : Reach date s'

structure Inv (s : St) : Prop where
  dirs : ∀ p i, s.dir p = some i → i < s.next
  jobs : ∀ w i, (s.job w).on = some i → i < s.next
  one : ∀ w w' i, (s.job w).on = some i → (s.job w').on = some i → w = w'
  fresh : ∀ i, i < s.next → (∀ w g, s.job w ≠ .put i g) → s.log i ≠ []
  put : ∀ w i g, s.job w = .put i g → s.data i = []
  line : ∀ w i g, s.job w = .line i g → s.data i = fileOf (s.log i)
  text : ∀ w i g, s.job w = .text i g → s.data i = fileOf (s.log i) ++ TraceText.line
  rest : ∀ i, (∀ w, (s.job w).on ≠ some i) → s.data i = fileOf (s.log i)

theorem inv_reach {date : Nat → Bytes} {s : St} (h : Reach date s) : Inv s := by
  induction h with
  | init => exact ⟨nofun, nofun, nofun, fun i hi => absurd hi (by simp [St.init]), nofun, nofun, nofun, fun i _ => rfl⟩
  | @act s s' a _ ha hs h =>
    cases a with
    | remove p =>
      simp only [step, Option.some.injEq] at hs
      subst hs
      refine ⟨?_, h.jobs, h.one, h.fresh, h.put, h.line, h.text, h.rest⟩
      intro q i hq
      simp only at hq
      by_cases e : q = p
      · subst e; rw [upd_self] at hq; cases hq
      · rw [upd_ne _ _ e] at hq; exact h.dirs q i hq
    | start w g =>
      simp only [step] at hs
      cases hj : s.job w with
      | put => rw [hj] at hs; cases hs
      | line => rw [hj] at hs; cases hs
      | text => rw [hj] at hs; cases hs
      | idle =>
        rw [hj] at hs
        simp only at hs
        cases hk : kind g with
        | other => rw [hk] at hs; cases hs; exact h
        | events =>
          rw [hk] at hs
          simp only at hs
          cases hd : s.dir (fileFor date g) with
          | none => rw [hd] at hs; cases hs; exact h
          | some i =>
            rw [hd] at hs
            cases hs
            have hfree := ha i hd
            have hi := h.dirs _ _ hd
            refine ⟨h.dirs, ?_, ?_, ?_, ?_, ?_, ?_, ?_⟩
            · intro w' k hw
              simp only at hw
              by_cases e : w' = w
              · subst e; rw [upd_self] at hw; cases hw; exact hi
              · rw [upd_ne _ _ e] at hw; exact h.jobs w' k hw
            · intro w1 w2 k h1 h2
              simp only at h1 h2
              by_cases e1 : w1 = w <;> by_cases e2 : w2 = w
              · rw [e1, e2]
              · subst e1; rw [upd_self] at h1; rw [upd_ne _ _ e2] at h2; cases h1; exact absurd h2 (hfree w2)
              · subst e2; rw [upd_self] at h2; rw [upd_ne _ _ e1] at h1; cases h2; exact absurd h1 (hfree w1)
              · rw [upd_ne _ _ e1] at h1; rw [upd_ne _ _ e2] at h2; exact h.one w1 w2 k h1 h2
            · intro k hk2 hn
              refine h.fresh k hk2 (fun w' g' hc => ?_)
              by_cases e : w' = w
              · subst e; rw [hj] at hc; cases hc
              · exact hn w' g' (by simp only; rw [upd_ne _ _ e]; exact hc)
            · intro w' k g' hw
              simp only at hw
              by_cases e : w' = w
              · subst e; rw [upd_self] at hw; cases hw
              · rw [upd_ne _ _ e] at hw; exact h.put w' k g' hw
            · intro w' k g' hw
              simp only at hw
              by_cases e : w' = w
              · subst e; rw [upd_self] at hw; cases hw; exact h.rest i hfree
              · rw [upd_ne _ _ e] at hw; exact h.line w' k g' hw
            · intro w' k g' hw
              simp only at hw
              by_cases e : w' = w
              · subst e; rw [upd_self] at hw; cases hw
              · rw [upd_ne _ _ e] at hw; exact h.text w' k g' hw
            · intro k hn
              refine h.rest k (fun w' hc => ?_)
              by_cases e : w' = w
              · subst e; rw [hj] at hc; cases hc
              · exact hn w' (by simp only; rw [upd_ne _ _ e]; exact hc)
        | trace =>
          rw [hk] at hs
          simp only at hs
          cases hd : s.dir (fileFor date g) with
          | some i =>
            rw [hd] at hs
            cases hs
            have hfree := ha i hd
            have hi := h.dirs _ _ hd
            refine ⟨h.dirs, ?_, ?_, ?_, ?_, ?_, ?_, ?_⟩
            · intro w' k hw
              simp only at hw
              by_cases e : w' = w
              · subst e; rw [upd_self] at hw; cases hw; exact hi
              · rw [upd_ne _ _ e] at hw; exact h.jobs w' k hw
            · intro w1 w2 k h1 h2
              simp only at h1 h2
              by_cases e1 : w1 = w <;> by_cases e2 : w2 = w
              · rw [e1, e2]
              · subst e1; rw [upd_self] at h1; rw [upd_ne _ _ e2] at h2; cases h1; exact absurd h2 (hfree w2)
              · subst e2; rw [upd_self] at h2; rw [upd_ne _ _ e1] at h1; cases h2; exact absurd h1 (hfree w1)
              · rw [upd_ne _ _ e1] at h1; rw [upd_ne _ _ e2] at h2; exact h.one w1 w2 k h1 h2
            · intro k hk2 hn
              by_cases ek : k = i
              · subst ek; exact absurd (by simp only; rw [upd_self]) (hn w g)
              · simp only; rw [upd_ne _ _ ek]
                refine h.fresh k hk2 (fun w' g' hc => ?_)
                by_cases e : w' = w
                · subst e; rw [hj] at hc; cases hc
                · exact hn w' g' (by simp only; rw [upd_ne _ _ e]; exact hc)
            · intro w' k g' hw
              simp only at hw ⊢
              by_cases e : w' = w
              · subst e; rw [upd_self] at hw; cases hw; rw [upd_self]
              · rw [upd_ne _ _ e] at hw
                have : k ≠ i := by rintro rfl; exact hfree w' (by rw [hw]; rfl)
                rw [upd_ne _ _ this]; exact h.put w' k g' hw
            · intro w' k g' hw
              simp only at hw ⊢
              by_cases e : w' = w
              · subst e; rw [upd_self] at hw; cases hw
              · rw [upd_ne _ _ e] at hw
                have : k ≠ i := by rintro rfl; exact hfree w' (by rw [hw]; rfl)
                rw [upd_ne _ _ this, upd_ne _ _ this]; exact h.line w' k g' hw
            · intro w' k g' hw
              simp only at hw ⊢
              by_cases e : w' = w
              · subst e; rw [upd_self] at hw; cases hw
              · rw [upd_ne _ _ e] at hw
                have : k ≠ i := by rintro rfl; exact hfree w' (by rw [hw]; rfl)
                rw [upd_ne _ _ this, upd_ne _ _ this]; exact h.text w' k g' hw
            · intro k hn
              simp only
              have ek : k ≠ i := by rintro rfl; exact hn w (by simp only; rw [upd_self]; rfl)
              rw [upd_ne _ _ ek, upd_ne _ _ ek]
              refine h.rest k (fun w' hc => ?_)
              by_cases e : w' = w
              · subst e; rw [hj] at hc; cases hc
              · exact hn w' (by simp only; rw [upd_ne _ _ e]; exact hc)
          | none =>
            rw [hd] at hs
            cases hs
            have hfree : ∀ w', (s.job w').on ≠ some s.next := fun w' hc => absurd (h.jobs w' _ hc) (by omega)
            refine ⟨?_, ?_, ?_, ?_, ?_, ?_, ?_, ?_⟩
            · intro q k hq
              simp only at hq ⊢
              by_cases e : q = fileFor date g
              · subst e; rw [upd_self] at hq; cases hq; omega
              · rw [upd_ne _ _ e] at hq; have := h.dirs q k hq; omega
            · intro w' k hw
              simp only at hw ⊢
              by_cases e : w' = w
              · subst e; rw [upd_self] at hw; cases hw; omega
              · rw [upd_ne _ _ e] at hw; have := h.jobs w' k hw; omega
            · intro w1 w2 k h1 h2
              simp only at h1 h2
              by_cases e1 : w1 = w <;> by_cases e2 : w2 = w
              · rw [e1, e2]
              · subst e1; rw [upd_self] at h1; rw [upd_ne _ _ e2] at h2; cases h1; exact absurd h2 (hfree w2)
              · subst e2; rw [upd_self] at h2; rw [upd_ne _ _ e1] at h1; cases h2; exact absurd h1 (hfree w1)
              · rw [upd_ne _ _ e1] at h1; rw [upd_ne _ _ e2] at h2; exact h.one w1 w2 k h1 h2
            · intro k hk2 hn
              simp only at hk2
              by_cases ek : k = s.next
              · subst ek; exact absurd (by simp only; rw [upd_self]) (hn w g)
              · simp only; rw [upd_ne _ _ ek]
                refine h.fresh k (by omega) (fun w' g' hc => ?_)
                by_cases e : w' = w
                · subst e; rw [hj] at hc; cases hc
                · exact hn w' g' (by simp only; rw [upd_ne _ _ e]; exact hc)
            · intro w' k g' hw
              simp only at hw ⊢
              by_cases e : w' = w
              · subst e; rw [upd_self] at hw; cases hw; rw [upd_self]
              · rw [upd_ne _ _ e] at hw
                have : k ≠ s.next := by rintro rfl; exact hfree w' (by rw [hw]; rfl)
                rw [upd_ne _ _ this]; exact h.put w' k g' hw
            · intro w' k g' hw
              simp only at hw ⊢
              by_cases e : w' = w
              · subst e; rw [upd_self] at hw; cases hw
              · rw [upd_ne _ _ e] at hw
                have : k ≠ s.next := by rintro rfl; exact hfree w' (by rw [hw]; rfl)
                rw [upd_ne _ _ this, upd_ne _ _ this]; exact h.line w' k g' hw
            · intro w' k g' hw
              simp only at hw ⊢
              by_cases e : w' = w
              · subst e; rw [upd_self] at hw; cases hw
              · rw [upd_ne _ _ e] at hw
                have : k ≠ s.next := by rintro rfl; exact hfree w' (by rw [hw]; rfl)
                rw [upd_ne _ _ this, upd_ne _ _ this]; exact h.text w' k g' hw
            · intro k hn
              simp only
              have ek : k ≠ s.next := by rintro rfl; exact hn w (by simp only; rw [upd_self]; rfl)
              rw [upd_ne _ _ ek, upd_ne _ _ ek]
              refine h.rest k (fun w' hc => ?_)
              by_cases e : w' = w
              · subst e; rw [hj] at hc; cases hc
              · exact hn w' (by simp only; rw [upd_ne _ _ e]; exact hc)
    | go w =>
      simp only [step] at hs
      -- the file a goroutine works on: nobody else works on it
      have other : ∀ i, (s.job w).on = some i → ∀ w', w' ≠ w → (s.job w').on ≠ some i :=
        fun i hi w' hne hc => hne (h.one w' w i hc hi)
      cases hj : s.job w with
      | idle => rw [hj] at hs; cases hs
      | put i g =>
        rw [hj] at hs other
        cases hs
        have other := other i rfl
        have hfile : overlay (marshal g) (s.data i) = fileOf [g] := by rw [h.put w i g hj]; simp [overlay, fileOf]
        refine ⟨h.dirs, ?_, ?_, ?_, ?_, ?_, ?_, ?_⟩
        · intro w' k hw
          simp only at hw
          by_cases e : w' = w
          · subst e; rw [upd_self] at hw; cases hw
          · rw [upd_ne _ _ e] at hw; exact h.jobs w' k hw
        · intro w1 w2 k h1 h2
          simp only at h1 h2
          by_cases e1 : w1 = w
          · subst e1; rw [upd_self] at h1; cases h1
          · by_cases e2 : w2 = w
            · subst e2; rw [upd_self] at h2; cases h2
            · rw [upd_ne _ _ e1] at h1; rw [upd_ne _ _ e2] at h2; exact h.one w1 w2 k h1 h2
        · intro k hk2 hn
          simp only
          by_cases ek : k = i
          · subst ek; rw [upd_self]; simp
          · rw [upd_ne _ _ ek]
            refine h.fresh k hk2 (fun w' g' hc => ?_)
            by_cases e : w' = w
            · subst e; rw [hj] at hc; cases hc; exact ek rfl
            · exact hn w' g' (by simp only; rw [upd_ne _ _ e]; exact hc)
        · intro w' k g' hw
          simp only at hw ⊢
          by_cases e : w' = w
          · subst e; rw [upd_self] at hw; cases hw
          · rw [upd_ne _ _ e] at hw
            have : k ≠ i := by rintro rfl; exact other w' e (by rw [hw]; rfl)
            rw [upd_ne _ _ this]; exact h.put w' k g' hw
        · intro w' k g' hw
          simp only at hw ⊢
          by_cases e : w' = w
          · subst e; rw [upd_self] at hw; cases hw
          · rw [upd_ne _ _ e] at hw
            have : k ≠ i := by rintro rfl; exact other w' e (by rw [hw]; rfl)
            rw [upd_ne _ _ this, upd_ne _ _ this]; exact h.line w' k g' hw
        · intro w' k g' hw
          simp only at hw ⊢
          by_cases e : w' = w
          · subst e; rw [upd_self] at hw; cases hw
          · rw [upd_ne _ _ e] at hw
            have : k ≠ i := by rintro rfl; exact other w' e (by rw [hw]; rfl)
            rw [upd_ne _ _ this, upd_ne _ _ this]; exact h.text w' k g' hw
        · intro k hn
          simp only
          by_cases ek : k = i
          · subst ek; rw [upd_self, upd_self]; exact hfile
          · rw [upd_ne _ _ ek, upd_ne _ _ ek]
            refine h.rest k (fun w' hc => ?_)
            by_cases e : w' = w
            · subst e; rw [hj] at hc; cases hc; exact ek rfl
            · exact hn w' (by simp only; rw [upd_ne _ _ e]; exact hc)
      | line i g =>
        rw [hj] at hs other
        cases hs
        have other := other i rfl
        refine ⟨h.dirs, ?_, ?_, ?_, ?_, ?_, ?_, ?_⟩
        · intro w' k hw
          simp only at hw
          by_cases e : w' = w
          · subst e; rw [upd_self] at hw; cases hw; exact h.jobs w' i (by rw [hj]; rfl)
          · rw [upd_ne _ _ e] at hw; exact h.jobs w' k hw
        · intro w1 w2 k h1 h2
          simp only at h1 h2
          by_cases e1 : w1 = w <;> by_cases e2 : w2 = w
          · rw [e1, e2]
          · subst e1; rw [upd_self] at h1; rw [upd_ne _ _ e2] at h2; cases h1; exact absurd h2 (other w2 e2)
          · subst e2; rw [upd_self] at h2; rw [upd_ne _ _ e1] at h1; cases h2; exact absurd h1 (other w1 e1)
          · rw [upd_ne _ _ e1] at h1; rw [upd_ne _ _ e2] at h2; exact h.one w1 w2 k h1 h2
        · intro k hk2 hn
          refine h.fresh k hk2 (fun w' g' hc => ?_)
          by_cases e : w' = w
          · subst e; rw [hj] at hc; cases hc
          · exact hn w' g' (by simp only; rw [upd_ne _ _ e]; exact hc)
        · intro w' k g' hw
          simp only at hw ⊢
          by_cases e : w' = w
          · subst e; rw [upd_self] at hw; cases hw
          · rw [upd_ne _ _ e] at hw
            have : k ≠ i := by rintro rfl; exact other w' e (by rw [hw]; rfl)
            rw [upd_ne _ _ this]; exact h.put w' k g' hw
        · intro w' k g' hw
          simp only at hw ⊢
          by_cases e : w' = w
          · subst e; rw [upd_self] at hw; cases hw
          · rw [upd_ne _ _ e] at hw
            have : k ≠ i := by rintro rfl; exact other w' e (by rw [hw]; rfl)
            rw [upd_ne _ _ this]; exact h.line w' k g' hw
        · intro w' k g' hw
          simp only at hw ⊢
          by_cases e : w' = w
          · subst e; rw [upd_self] at hw; cases hw; rw [upd_self, h.line w' i g hj]
          · rw [upd_ne _ _ e] at hw
            have : k ≠ i := by rintro rfl; exact other w' e (by rw [hw]; rfl)
            rw [upd_ne _ _ this]; exact h.text w' k g' hw
        · intro k hn
          simp only
          have ek : k ≠ i := by rintro rfl; exact hn w (by simp only; rw [upd_self]; rfl)
          rw [upd_ne _ _ ek]
          refine h.rest k (fun w' hc => ?_)
          by_cases e : w' = w
          · subst e; rw [hj] at hc; cases hc; exact ek rfl
          · exact hn w' (by simp only; rw [upd_ne _ _ e]; exact hc)
      | text i g =>
        rw [hj] at hs other
        cases hs
        have other := other i rfl
        have hlog : s.log i ≠ [] := by
          refine h.fresh i (h.jobs w i (by rw [hj]; rfl)) (fun w' g' hc => ?_)
          by_cases e : w' = w
          · subst e; rw [hj] at hc; cases hc
          · exact other w' e (by rw [hc]; rfl)
        have hfile : s.data i ++ marshal g = fileOf (s.log i ++ [g]) := by
          rw [h.text w i g hj]
          cases hl : s.log i with
          | nil => exact absurd hl hlog
          | cons a r => exact (fileOf_snoc a r g).symm
        refine ⟨h.dirs, ?_, ?_, ?_, ?_, ?_, ?_, ?_⟩
        · intro w' k hw
          simp only at hw
          by_cases e : w' = w
          · subst e; rw [upd_self] at hw; cases hw
          · rw [upd_ne _ _ e] at hw; exact h.jobs w' k hw
        · intro w1 w2 k h1 h2
          simp only at h1 h2
          by_cases e1 : w1 = w
          · subst e1; rw [upd_self] at h1; cases h1
          · by_cases e2 : w2 = w
            · subst e2; rw [upd_self] at h2; cases h2
            · rw [upd_ne _ _ e1] at h1; rw [upd_ne _ _ e2] at h2; exact h.one w1 w2 k h1 h2
        · intro k hk2 hn
          simp only
          by_cases ek : k = i
          · subst ek; rw [upd_self]; simp
          · rw [upd_ne _ _ ek]
            refine h.fresh k hk2 (fun w' g' hc => ?_)
            by_cases e : w' = w
            · subst e; rw [hj] at hc; cases hc
            · exact hn w' g' (by simp only; rw [upd_ne _ _ e]; exact hc)
        · intro w' k g' hw
          simp only at hw ⊢
          by_cases e : w' = w
          · subst e; rw [upd_self] at hw; cases hw
          · rw [upd_ne _ _ e] at hw
            have : k ≠ i := by rintro rfl; exact other w' e (by rw [hw]; rfl)
            rw [upd_ne _ _ this]; exact h.put w' k g' hw
        · intro w' k g' hw
          simp only at hw ⊢
          by_cases e : w' = w
          · subst e; rw [upd_self] at hw; cases hw
          · rw [upd_ne _ _ e] at hw
            have : k ≠ i := by rintro rfl; exact other w' e (by rw [hw]; rfl)
            rw [upd_ne _ _ this, upd_ne _ _ this]; exact h.line w' k g' hw
        · intro w' k g' hw
          simp only at hw ⊢
          by_cases e : w' = w
          · subst e; rw [upd_self] at hw; cases hw
          · rw [upd_ne _ _ e] at hw
            have : k ≠ i := by rintro rfl; exact other w' e (by rw [hw]; rfl)
            rw [upd_ne _ _ this, upd_ne _ _ this]; exact h.text w' k g' hw
        · intro k hn
          simp only
          by_cases ek : k = i
          · subst ek; rw [upd_self, upd_self]; exact hfile
          · rw [upd_ne _ _ ek, upd_ne _ _ ek]
            refine h.rest k (fun w' hc => ?_)
            by_cases e : w' = w
            · subst e; rw [hj] at hc; cases hc; exact ek rfl
            · exact hn w' (by simp only; rw [upd_ne _ _ e]; exact hc)

/-- C112.  Goroutines that never meet in a file may take turns as they like: a file nobody has open holds a trace and groups of CPU
events, and reads as these. -/
theorem at_rest {date : Nat → Bytes} {s : St} (h : Reach date s) (p : Path) (i : Nat) (hp : s.dir p = some i)
    (hr : ∀ w, (s.job w).on ≠ some i) :
    ∃ g r, s.log i = g :: r ∧ s.data i = fileOf (g :: r) ∧ readFile (s.data i) = some ((g :: r).map stored) := by
  have hi := inv_reach h
  have h1 := hi.rest i hr
  have h2 := hi.fresh i (hi.dirs p i hp) (fun w g hc => hr w (by rw [hc]; rfl))
  cases hl : s.log i with
  | nil => exact absurd hl h2
  | cons g r => rw [hl] at h1; exact ⟨g, r, rfl, h1, by rw [h1, file_reads]⟩

theorem readGroup_nil : readGroup [] = none := rfl

theorem pieces_file_line (g : Group) (l : List Group) (r : Bytes) : pieces (fileOf (g :: l) ++ line ++ r) = (g :: l).map marshal ++ pieces r := by
  induction l generalizing g with
  | nil => simp only [fileOf, List.flatMap_nil, List.append_nil, pieces_text _ r (print_printable (groupJ g)), marshal, List.map_cons, List.map_nil,
      List.cons_append, List.nil_append]
  | cons s t ih =>
    have := ih s
    have e : fileOf (g :: s :: t) ++ line ++ r = marshal g ++ line ++ (fileOf (s :: t) ++ line ++ r) := by
      simp [fileOf, List.append_assoc]
    rw [e, pieces_text (marshal g) _ (print_printable _), this]; rfl

theorem mapOpt_nil_none (qs : List Bytes) (r : List Bytes) : mapOpt readGroup (qs ++ [] :: r) = none := by
  induction qs with
  | nil => simp only [List.nil_append, mapOpt, readGroup_nil]
  | cons q t it => simp only [List.cons_append, mapOpt, it]; cases readGroup q <;> rfl

/-- While a goroutine is between its two writes, nobody can read the file. -/
theorem half_written {date : Nat → Bytes} {s : St} (h : Reach date s) (w i : Nat) (g : Group)
    (hw : s.job w = .put i g ∨ s.job w = .text i g) : readFile (s.data i) = none := by
  have hi := inv_reach h
  rcases hw with hw | hw
  · rw [hi.put w i g hw]
    have h1 : pieces [] = [[]] := by rw [pieces]
    simp only [readFile, h1, mapOpt, readGroup_nil]
  · have hlog : s.log i ≠ [] := by
      refine hi.fresh i (hi.jobs w i (by rw [hw]; rfl)) (fun w' g' hc => ?_)
      by_cases e : w' = w
      · subst e; rw [hw] at hc; cases hc
      · exact e (hi.one w' w i (by rw [hc]; rfl) (by rw [hw]; rfl))
    rw [hi.text w i g hw]
    cases hl : s.log i with
    | nil => exact absurd hl hlog
    | cons a r =>
      have := pieces_file_line a r []
      rw [List.append_nil] at this
      have h1 : pieces [] = [[]] := by rw [pieces]
      rw [readFile, this, h1]
      exact mapOpt_nil_none _ _

/-- The file is without an owner while it is written: two goroutines that append to one file may write their dividing lines one after the
other.  Then it can no longer be read, whatever is appended later. -/
theorem appenders_meet (date : Nat → Bytes) (s : St) (v w i : Nat) (hvw : v ≠ w) (x y : Group) (g : Group) (r : List Group)
    (hv : s.job v = .idle) (hw : s.job w = .idle) (hx : kind x = .events) (hy : kind y = .events)
    (dx : s.dir (fileFor date x) = some i) (dy : s.dir (fileFor date y) = some i) (hd : s.data i = fileOf (g :: r)) :
    ∃ s', [Act.start v x, .start w y, .go v, .go w, .go v, .go w].foldlM (step date) s = some s' ∧
      ∀ later : Bytes, readFile (s'.data i ++ later) = none := by
  have hwv : w ≠ v := Ne.symm hvw
  refine ⟨_, by
    simp only [List.foldlM, step, hv, hw, hx, hy, dx, dy, upd_self, upd_ne _ _ hwv, upd_ne _ _ hvw, Option.bind_eq_bind, Option.bind_some]
    rfl, ?_⟩
  intro later
  simp only [upd_self, hd]
  have e : fileOf (g :: r) ++ line ++ line ++ marshal x ++ marshal y ++ later = fileOf (g :: r) ++ line ++ (line ++ (marshal x ++ marshal y ++ later)) := by
    simp [List.append_assoc]
  rw [e, readFile, pieces_file_line, pieces_line]
  exact mapOpt_nil_none _ _

theorem read_two (j : J) (l : Ms) : read (print j ++ print (.obj l)) = none := by
  have h1 : Spaced (toks j ++ toks (.obj l)) := by
    have h2 : Spaced (toks (.obj l)) := by simpa using toks_spaced (.obj l) [] trivial (by simp)
    refine toks_spaced j _ h2 ?_
    intro t ht
    cases l with
    | nil => simp [toks] at ht; subst ht; rfl
    | cons k v m => simp [toks] at ht; subst ht; rfl
  have h3 := lex_toks _ h1
  rw [List.flatMap_append] at h3
  have h4 := value_toks j.clean (toks j.clean ++ toks (J.obj l).clean).length (toks (J.obj l).clean) (by simp)
  simp only [Json.read, print, h3, List.map_append, ← toks_clean, h4]
  obtain ⟨t, r, he, -⟩ := toks_head (J.obj l).clean
  rw [he]

/-- A trace that is written again while CPU events are appended to its file loses the dividing line: the file cannot be read. -/
theorem trace_meets_events (date : Nat → Bytes) (s : St) (v w i : Nat) (hvw : v ≠ w) (x y : Group)
    (hv : s.job v = .idle) (hw : s.job w = .idle) (hx : kind x = .events) (hy : kind y = .trace)
    (dx : s.dir (fileFor date x) = some i) (dy : s.dir (fileFor date y) = some i) :
    ∃ s', [Act.start v x, .start w y, .go v, .go w, .go v].foldlM (step date) s = some s' ∧ s'.data i = marshal y ++ marshal x ∧
      readFile (s'.data i) = none := by
  have hwv : w ≠ v := Ne.symm hvw
  have hlen : 8 ≤ (marshal y).length := by
    have h3 : ∃ t, marshal y = bs "{" ++ quoted (bs "name") ++ t := ⟨_, by
      simp only [marshal, print, groupJ, ofPairs, toks, List.flatMap_cons, Tok.bytes]; rfl⟩
    obtain ⟨t, ht⟩ := h3
    have h4 : (quoted (bs "name")).length = 6 := by
      have : runes (bs "name") = [some 110, some 97, some 109, some 101] := by
        have := runes_text [110, 97, 109, 101] (by intro c hc; left; simp at hc; omega)
        exact this
      simp only [quoted, this]; rfl
    have h5 : 1 ≤ t.length := by
      cases t with
      | cons => simp
      | nil =>
        exfalso
        have h7 := read_print (groupJ y)
        rw [show print (groupJ y) = marshal y from rfl, ht] at h7
        have h8 : read (bs "{" ++ quoted (bs "name") ++ []) = none := by
          have h9 : Spaced [Tok.lb, .str (bs "name")] := ⟨by simp [Apart, Tok.isNum], trivial⟩
          have := lex_toks _ h9
          have e : [Tok.lb, .str (bs "name")].flatMap Tok.bytes = bs "{" ++ quoted (bs "name") ++ [] := by
            simp [List.flatMap_cons, Tok.bytes]; rfl
          rw [e] at this
          simp only [Json.read, this]
          simp [Json.value, Tok.clean]
        rw [h8] at h7; cases h7
    rw [ht]; simp only [List.length_append, h4, show (bs "{").length = 1 from rfl]; omega
  refine ⟨_, by
    simp only [List.foldlM, step, hv, hw, hx, hy, dx, dy, upd_self, upd_ne _ _ hwv, upd_ne _ _ hvw, Option.bind_eq_bind, Option.bind_some]
    rfl, ?_⟩
  have e : overlay (marshal y) ([] ++ line) ++ marshal x = marshal y ++ marshal x := by
    have hl : line.length = 8 := rfl
    simp only [overlay, List.nil_append]
    rw [List.drop_eq_nil_of_le (by omega), List.append_nil]
  constructor
  · simp only [upd_self, e]
  · simp only [upd_self, e]
    rw [readFile, pieces_last]
    · simp only [mapOpt, readGroup, marshal]
      rw [show groupJ x = .obj _ from rfl, read_two]; rfl
    · intro b hb
      simp only [List.mem_append] at hb
      rcases hb with hb | hb <;> exact print_printable _ b hb

/-! ### The exporter -/

inductive Writer
  | file
  | es (suffix : Bytes)

/-- `New` (exporter.go:22-43), `newFileWriter` (filewriter.go:25-39) and `newEsWriter` (exporter.go:62-73): `absolute` and `mkdir` say
whether the storage path is absolute and whether its directory can be made, `answers` whether Elasticsearch answers.  A writer of another
name is no error. -/
def new (storage : Bytes) (absolute mkdir answers : Bool) (suffix : Bytes) : Res (Option Writer) :=
  if storage = bs "elasticsearch" then (if answers then .ok (some (.es suffix)) else .panic)
  else if storage = bs "file" then (if absolute && mkdir then .ok (some .file) else .panic)
  else .ok none

inductive Out
  | nothing
  | file (p : Path)
  | index (name : Bytes) (doc : Bytes)
deriving DecidableEq

/-- `Consume` (exporter.go:45-51) and `esWriter.write` (75-87). -/
def consume (date : Nat → Bytes) (w : Option Writer) (g : Group) : Res Out := match w with
  | none => .panic
  | some .file => .ok (match kind g with
    | .other => .nothing
    | _ => .file (fileFor date g))
  | some (.es suffix) => .ok (
    if gi (labelsOf g) (bs "isSent") = 1 then .nothing
    else .index (if suffix = [] then g.name else g.name ++ bs "_" ++ suffix) (marshal g))

/-- C112.  An exporter whose storage is neither of the two is made without complaint and panics on the first group. -/
theorem unknown_storage (date : Nat → Bytes) (storage : Bytes) (a m e : Bool) (suffix : Bytes) (g : Group) (h1 : storage ≠ bs "elasticsearch")
    (h2 : storage ≠ bs "file") : ∃ w, new storage a m e suffix = .ok w ∧ consume date w g = .panic :=
  ⟨none, by simp [new, h1, h2], rfl⟩

/-- Otherwise an exporter that could be made never panics. -/
theorem known_storage (date : Nat → Bytes) (storage : Bytes) (a m e : Bool) (suffix : Bytes) (w : Option Writer) (g : Group)
    (h : storage = bs "elasticsearch" ∨ storage = bs "file") (hw : new storage a m e suffix = .ok w) : ∃ o, consume date w g = .ok o := by
  unfold new at hw
  have hne : bs "file" ≠ bs "elasticsearch" := by decide
  rcases h with rfl | rfl
  · rw [if_pos rfl] at hw
    cases e with
    | false => cases hw
    | true => cases hw; exact ⟨_, rfl⟩
  · rw [if_neg hne, if_pos rfl] at hw
    split at hw
    · cases hw; exact ⟨_, rfl⟩
    · cases hw

/-- C112.  Elasticsearch gets a group of CPU events once: what was sent for one trace is not sent for another, though the file of the
other trace gets it. -/
theorem es_once (date : Nat → Bytes) (suffix : Bytes) (g : Group) :
    (gi (labelsOf g) (bs "isSent") = 1 → consume date (some (.es suffix)) g = .ok .nothing) ∧
    (gi (labelsOf g) (bs "isSent") ≠ 1 → ∃ n, consume date (some (.es suffix)) g = .ok (.index n (marshal g)) ∧
      readGroup (marshal g) = some (stored g)) ∧
    (kind g = .events → consume date (some .file) g = .ok (.file (fileFor date g))) := by
  refine ⟨fun h => by simp [consume, h], fun h => ⟨if suffix = [] then g.name else g.name ++ bs "_" ++ suffix, by simp only [consume, if_neg h], group_reads_back g⟩, fun h => by simp [consume, h]⟩

/-- The file writer stores traces of requests and spans and CPU events, and nothing else. -/
theorem what_is_stored (date : Nat → Bytes) (g : Group) :
    (consume date (some .file) g = .ok .nothing ↔
      g.name ≠ bs "single_net_request_metric_group" ∧ g.name ≠ bs "apm_span_event" ∧ g.name ≠ bs "camera_event_group") ∧
    (g.name = bs "single_net_request_metric_group" ∨ g.name = bs "apm_span_event" ↔ kind g = .trace) ∧
    (g.name = bs "camera_event_group" ↔ kind g = .events) := by
  have n1 : bs "camera_event_group" ≠ bs "single_net_request_metric_group" := by decide
  have n2 : bs "camera_event_group" ≠ bs "apm_span_event" := by decide
  by_cases h1 : g.name = bs "single_net_request_metric_group"
  · simp [consume, kind, h1, Ne.symm n1]
  · by_cases h2 : g.name = bs "apm_span_event"
    · simp only [consume, kind, h2, if_neg (show bs "apm_span_event" ≠ bs "single_net_request_metric_group" by decide), if_true]
      simp [Ne.symm n2]
    · by_cases h3 : g.name = bs "camera_event_group"
      · simp [consume, kind, h3, n1, n2]
      · simp [consume, kind, h1, h2, h3]

/-- The names of the groups tell the indices apart, whatever the suffix. -/
theorem indices_apart (date : Nat → Bytes) (suffix : Bytes) (g g' : Group) (n d d' : Bytes)
    (h : consume date (some (.es suffix)) g = .ok (.index n d)) (h' : consume date (some (.es suffix)) g' = .ok (.index n d')) :
    g.name = g'.name := by
  simp only [consume, Res.ok.injEq] at h h'
  split at h
  · cases h
  · split at h'
    · cases h'
    · simp only [Out.index.injEq] at h h'
      have := h.1.trans h'.1.symm
      by_cases e : suffix = []
      · simpa [e] using this
      · simpa [e] using this

/-- `AttributeMap.UnmarshalJSON` (attribute_map.go:24-26).  The library cannot make an `AttributeValue` of a JSON value other than `null`,
as that is an interface with methods: it notes an error, keeps the name and goes on.  The result says whether there was an error. -/
def unmarshalLabels : J → Bool × List (Bytes × Option V)
  | .null => (true, [])
  | .obj l => ((toPairs l).all (fun e => match e.2 with | .null => true | _ => false), (toPairs l).map (fun e => (e.1, none)))
  | _ => (false, [])

/-- C112 fails for the collector itself: it cannot read labels it wrote. -/
theorem labels_not_reloaded (m : AMap Bytes V) (hm : m ≠ []) : ∃ j, read (print (labelsJ (some m))) = some j ∧ (unmarshalLabels j).1 = false ∧
    ∀ e ∈ (unmarshalLabels j).2, e.2 = none := by
  refine ⟨_, read_print _, ?_, ?_⟩
  · simp only [labelsJ, J.clean, clean_ofPairs, unmarshalLabels, toPairs_ofPairs]
    cases hs : sort m with
    | nil => exact absurd ((hs ▸ sort_perm m).symm.eq_nil) hm
    | cons e r =>
      obtain ⟨k, v⟩ := e
      cases v <;> simp [vJ, J.clean]
  · intro e he
    simp only [labelsJ, J.clean, unmarshalLabels, List.mem_map] at he
    obtain ⟨x, -, rfl⟩ := he
    rfl

/-! ### Examples -/

def demo : Group := ⟨bs "single_net_request_metric_group", some [⟨bs "request_total_time", some (.int 12)⟩],
  some [(bs "protocol", .str (bs "http")), (bs "content_key", .str (bs "/a\"b\n")), (bs "is_server", .bool true)], 7⟩

def seg : Group := ⟨bs "camera_event_group", none,
  some [(bs "content_key", .str (bs "/a\"b\n")), (bs "protocol", .str (bs "http")), (bs "is_server", .bool true), (bs "timestamp", .int 7)], 9⟩

def day (n : Nat) : Bytes := Dec.digits n

example : print (.obj (ofPairs [(bs "a\"b", .arr (ofList [.num (-1), .bool true])), (bs "c", .null)])) = bs "{\"a\\\"b\":[-1,true],\"c\":null}" := by
  have h1 : runes (bs "a\"b") = [some 97, some 34, some 98] := runes_text [97, 34, 98] (by intro c hc; left; simp at hc; omega)
  have h2 : runes (bs "c") = [some 99] := runes_text [99] (by intro c hc; left; simp at hc; omega)
  simp only [print, ofPairs, ofList, toks, more, moreO, List.flatMap_cons, List.flatMap_nil, List.flatMap_append, Tok.bytes, quoted, h1, h2]
  decide +kernel

theorem demo_valid : Valid demo := by
  refine ⟨ascii_valid (by decide), ?_, ?_⟩
  · intro l hl m hm
    simp only [demo, Option.some.injEq] at hl; subst hl
    simp only [List.mem_singleton] at hm; subst hm
    exact ascii_valid (by decide)
  · intro m hm e he
    simp only [demo, Option.some.injEq] at hm; subst hm
    simp only [List.mem_cons, List.not_mem_nil, or_false] at he
    rcases he with rfl | rfl | rfl
    · exact ⟨ascii_valid (by decide), ascii_valid (by decide)⟩
    · exact ⟨ascii_valid (by decide), ascii_valid (by decide)⟩
    · exact ⟨ascii_valid (by decide), trivial⟩

example : ∃ g', readGroup (marshal demo) = some g' ∧ g'.name = bs "single_net_request_metric_group" ∧ g'.ts = 7 :=
  let ⟨g', h, hn, _, ht, _⟩ := group_survives demo demo_valid
  ⟨g', h, hn, ht⟩

theorem same_file : fileFor day seg = fileFor day demo := by decide +kernel

/-- A trace and two groups of CPU events, one of them before the trace. -/
example : ∃ b, disk day [.write seg, .write demo, .write seg] (fileFor day demo) = some b ∧ readFile b = some [stored demo, stored seg] := by
  refine ⟨fileOf [demo, seg], (contents day _ _ _).mpr ⟨demo, [seg], ⟨[.write seg], [.write seg], rfl, rfl, rfl, ?_, ?_⟩, rfl⟩, file_reads demo [seg]⟩
  · intro o ho
    simp only [List.mem_singleton] at ho
    subst ho
    rintro ⟨h, -⟩
    exact absurd h (by decide)
  · have hk : kind seg = .events := by decide
    simp [eventsFor, hk, same_file]

/-- A state with the trace in its file, from which the goroutines can meet. -/
example : ∃ s, Reach day s ∧ s.dir (fileFor day demo) = some 0 ∧ s.data 0 = fileOf [demo] ∧ s.job 1 = .idle ∧ s.job 2 = .idle := by
  have h1 : step day .init (.start 1 demo) = some ⟨upd (fun _ => none) (fileFor day demo) (some 0), upd (fun _ => []) 0 [], 1,
      upd (fun _ => .idle) 1 (.put 0 demo), upd (fun _ => []) 0 []⟩ := rfl
  have r1 := Reach.act (.start 1 demo) (.init (date := day)) (fun i hi => by simp [St.init] at hi) h1
  have r2 := Reach.act (.go 1) r1 trivial (by rfl)
  exact ⟨_, r2, by simp [upd], by simp [upd, overlay, fileOf], by simp [upd], by simp [upd]⟩
