import Verif.Basic
import Verif.Dec
/-
Model of collector/pkg/model/data_group.go and metric.go: the metrics of a record, held by pointers, with the operations the analyzers
use and `Clone`.

Simplifications, for the whole file:
* the labels are those of `Model/Attr.lean` and are left out;
* a slice of a histogram is a reference to its whole array (the code never cuts these slices);
* memory is never freed.
-/
namespace Kindling.Model.Group
open Kindling

/-- metric.go:73-75, 85-90: `Int` and `Histogram`; the slices by reference, `none` for nil. -/
inductive Data
  | int (v : Int)
  | hist (sum : Int) (count : Nat) (bounds buckets : Option Nat)
deriving DecidableEq, Repr

/-- The memory: metrics (name and pointer to the data, metric.go:11-17), data, and arrays. References from `free` on are unused. -/
structure Heap where
  metric : Nat → Bytes × Option Nat
  data : Nat → Data
  array : Nat → List Int
  free : Nat

/-- The field `Metrics` of a record (data_group.go:13). -/
abbrev Ptrs := List Nat

def upd {α : Type} (f : Nat → α) (k : Nat) (v : α) : Nat → α := fun i => if i = k then v else f i

/-- data_group.go:27-34 `GetMetric`. -/
def getMetric (h : Heap) (g : Ptrs) (name : Bytes) : Option Nat := g.find? (fun p => (h.metric p).1 = name)

/-- data_group.go:36-45 `AddIntMetricWithName`, `AddMetric`, metric.go:77-79 `NewIntMetric`. -/
def addInt (h : Heap) (g : Ptrs) (name : Bytes) (v : Int) : Heap × Ptrs :=
  ({ h with metric := upd h.metric h.free (name, some h.free), data := upd h.data h.free (.int v), free := h.free + 1 }, g ++ [h.free])

/-- data_group.go:48-54 `UpdateAddIntMetric`. -/
def updateAdd (h : Heap) (g : Ptrs) (name : Bytes) (v : Int) : Heap × Ptrs := match getMetric h g name with
  | some p => ({ h with metric := upd h.metric p ((h.metric p).1, some h.free), data := upd h.data h.free (.int v), free := h.free + 1 }, g)
  | none => addInt h g name v

/-- data_group.go:56-65 `RemoveMetric`. -/
def remove (h : Heap) (g : Ptrs) (name : Bytes) : Ptrs := g.filter (fun p => (h.metric p).1 ≠ name)

/-- metric.go:45-56 `Clear`. -/
def clear (h : Heap) (p : Nat) : Heap := match (h.metric p).2 with
  | none => h
  | some d => match h.data d with
    | .int _ => { h with data := upd h.data d (.int 0) }
    | .hist _ _ _ _ => { h with data := upd h.data d (.hist 0 0 none none) }

/-- data_group.go:89-96 `Reset`, the metrics. -/
def reset (h : Heap) (g : Ptrs) : Heap := g.foldl clear h

/-- metric.go:58-75 `Clone`. -/
def cloneMetric (h : Heap) (p : Nat) : Heap × Nat := match (h.metric p).2 with
  | none => ({ h with metric := upd h.metric h.free ((h.metric p).1, none), free := h.free + 1 }, h.free)
  | some d => ({ h with metric := upd h.metric h.free ((h.metric p).1, some h.free), data := upd h.data h.free (h.data d), free := h.free + 1 }, h.free)

/-- data_group.go:98-105 `Clone`: the metrics one after the other. -/
def clone (h : Heap) : Ptrs → Heap × Ptrs
  | [] => (h, [])
  | p :: r =>
    let (h1, q) := cloneMetric h p
    let (h2, qs) := clone h1 r
    (h2, q :: qs)

/-! ## Specification: a list of named values -/

inductive Val
  | none
  | int (v : Int)
  | hist (sum : Int) (count : Nat) (bounds buckets : List Int)
deriving DecidableEq, Repr

abbrev Vals := List (Bytes × Val)

/-- Set the first value of this name, or add one. -/
def Vals.update : Vals → Bytes → Int → Vals
  | [], n, v => [(n, .int v)]
  | (m, w) :: r, n, v => if m = n then (m, .int v) :: r else (m, w) :: Vals.update r n v

def Vals.remove (l : Vals) (n : Bytes) : Vals := l.filter (fun x => x.1 ≠ n)

def Val.zero : Val → Val
  | .none => .none
  | .int _ => .int 0
  | .hist _ _ _ _ => .hist 0 0 [] []

def Vals.reset (l : Vals) : Vals := l.map (fun x => (x.1, x.2.zero))

inductive Op
  | update (name : Bytes) (v : Int)
  | remove (name : Bytes)
  | reset
deriving DecidableEq, Repr

def Vals.op (l : Vals) : Op → Vals
  | .update n v => Vals.update l n v
  | .remove n => Vals.remove l n
  | .reset => Vals.reset l

/-- The same on the memory. -/
def runOp (h : Heap) (g : Ptrs) : Op → Heap × Ptrs
  | .update n v => updateAdd h g n v
  | .remove n => (h, remove h g n)
  | .reset => (reset h g, g)

/-- What a record shows. -/
def dataVal (h : Heap) : Data → Val
  | .int v => .int v
  | .hist s c b k => .hist s c ((b.map h.array).getD []) ((k.map h.array).getD [])

def value (h : Heap) (p : Nat) : Bytes × Val := ((h.metric p).1, match (h.metric p).2 with
  | none => .none
  | some d => dataVal h (h.data d))

def view (h : Heap) (g : Ptrs) : Vals := g.map (value h)

/-! ## Separation -/

/-- The metrics of the records are different objects with different data. -/
def Sep (h : Heap) (ps : List Nat) : Prop :=
  ps.Nodup ∧ (∀ p ∈ ps, p < h.free) ∧ (∀ p ∈ ps, ∀ d, (h.metric p).2 = some d → d < h.free) ∧
    ∀ p ∈ ps, ∀ q ∈ ps, ∀ d, (h.metric p).2 = some d → (h.metric q).2 = some d → p = q

theorem Sep.perm {h : Heap} {ps qs : List Nat} (hs : Sep h ps) (hp : ps.Perm qs) : Sep h qs := by
  obtain ⟨a, b, c, d⟩ := hs
  exact ⟨hp.nodup_iff.1 a, fun p hm => b p (hp.mem_iff.2 hm), fun p hm => c p (hp.mem_iff.2 hm),
    fun p hm q hq => d p (hp.mem_iff.2 hm) q (hp.mem_iff.2 hq)⟩

theorem Sep.sub {h : Heap} {ps qs : List Nat} (hs : Sep h ps) (hp : qs.Sublist ps) : Sep h qs := by
  obtain ⟨a, b, c, d⟩ := hs
  exact ⟨a.sublist hp, fun p hm => b p (hp.subset hm), fun p hm => c p (hp.subset hm),
    fun p hm q hq => d p (hp.subset hm) q (hp.subset hq)⟩

theorem value_same {h h' : Heap} {p : Nat} (h1 : h'.metric p = h.metric p) (h2 : h'.array = h.array)
    (h3 : ∀ d, (h.metric p).2 = some d → h'.data d = h.data d) : value h' p = value h p := by
  simp only [value, h1]
  cases hd : (h.metric p).2 with
  | none => rfl
  | some d =>
    simp only [h3 d hd]
    cases h.data d <;> simp [dataVal, h2]

theorem view_same {h h' : Heap} {g : Ptrs} (hv : ∀ p ∈ g, value h' p = value h p) : view h' g = view h g := List.map_congr_left hv

/-! ## The operations -/

theorem view_names (h : Heap) (g : Ptrs) (n : Bytes) : (getMetric h g n).isSome = ((view h g).any (fun x => x.1 = n)) := by
  induction g with
  | nil => rfl
  | cons p r ih =>
    simp only [getMetric, List.find?_cons, view, List.map_cons, List.any_cons, value] at ih ⊢
    by_cases e : (h.metric p).1 = n
    · simp [e]
    · simp only [e, decide_false, Bool.false_or]; exact ih

/-- C92: the metric found under a name is the first one of this name. -/
theorem getMetric_first (h : Heap) (g : Ptrs) (n : Bytes) : (getMetric h g n).map (value h) = (view h g).find? (fun x => x.1 = n) := by
  induction g with
  | nil => rfl
  | cons p r ih =>
    simp only [getMetric, List.find?_cons, view, List.map_cons] at ih ⊢
    by_cases e : (h.metric p).1 = n
    · simp [e, value]
    · rw [show (value h p).1 = (h.metric p).1 from rfl]; simp only [e, decide_false]; exact ih

theorem update_absent (l : Vals) (n : Bytes) (v : Int) (h : ∀ x ∈ l, x.1 ≠ n) : Vals.update l n v = l ++ [(n, .int v)] := by
  induction l with
  | nil => rfl
  | cons x r ih => rw [Vals.update, if_neg (h x (by simp)), ih (fun y hy => h y (by simp [hy]))]; rfl

theorem update_found (l r : Vals) (n m : Bytes) (w : Val) (v : Int) (h : ∀ x ∈ l, x.1 ≠ n) (hm : m = n) :
    Vals.update (l ++ (m, w) :: r) n v = l ++ (m, .int v) :: r := by
  induction l with
  | nil => simp [Vals.update, hm]
  | cons x r' ih => rw [List.cons_append, Vals.update, if_neg (h x (by simp)), ih (fun y hy => h y (by simp [hy]))]; rfl

theorem update_step (h : Heap) (g o : Ptrs) (hs : Sep h (g ++ o)) (n : Bytes) (v : Int) :
    Sep (updateAdd h g n v).1 ((updateAdd h g n v).2 ++ o) ∧ view (updateAdd h g n v).1 (updateAdd h g n v).2 = Vals.update (view h g) n v ∧
      view (updateAdd h g n v).1 o = view h o := by
  obtain ⟨s1, s2, s3, s4⟩ := hs
  simp only [updateAdd]
  cases hg : getMetric h g n with
  | none =>
    simp only [addInt]
    have hfree : ∀ p, p ∈ g ++ o → p ≠ h.free := fun p hm => by have := s2 p hm; omega
    have hval : ∀ p ∈ g ++ o, value { h with metric := upd h.metric h.free (n, some h.free), data := upd h.data h.free (.int v), free := h.free + 1 } p = value h p := by
      intro p hm
      apply value_same
      · simp [upd, hfree p hm]
      · rfl
      · intro d hd; have := s3 p hm d hd; simp [upd, show d ≠ h.free by omega]
    refine ⟨⟨?_, ?_, ?_, ?_⟩, ?_, ?_⟩
    · rw [List.append_assoc, List.nodup_append]
      rw [List.nodup_append] at s1
      refine ⟨s1.1, ?_, ?_⟩
      · simp only [List.singleton_append, List.nodup_cons]
        exact ⟨fun hm => hfree _ (List.mem_append_right _ hm) rfl, s1.2.1⟩
      · intro a ha b hb
        simp only [List.singleton_append, List.mem_cons] at hb
        rcases hb with rfl | hb
        · exact hfree a (List.mem_append_left _ ha)
        · exact s1.2.2 a ha b hb
    · intro p hm
      simp only [List.mem_append, List.mem_singleton] at hm
      rcases hm with (hm | rfl) | hm
      · exact Nat.lt_succ_of_lt (s2 p (List.mem_append_left _ hm))
      · exact Nat.lt_succ_self _
      · exact Nat.lt_succ_of_lt (s2 p (List.mem_append_right _ hm))
    · intro p hm d hd
      by_cases e : p = h.free
      · simp [upd, e] at hd; exact hd ▸ Nat.lt_succ_self _
      · simp only [upd, e, ↓reduceIte] at hd
        have hm' : p ∈ g ++ o := by simpa [e] using hm
        exact Nat.lt_succ_of_lt (s3 p hm' d hd)
    · intro p hm q hq d hd he
      by_cases e1 : p = h.free <;> by_cases e2 : q = h.free
      · rw [e1, e2]
      · simp only [upd, e1, e2, ↓reduceIte] at hd he
        have := s3 q (by simpa [e2] using hq) d he
        simp at hd; omega
      · simp only [upd, e1, e2, ↓reduceIte] at hd he
        have := s3 p (by simpa [e1] using hm) d hd
        simp at he; omega
      · simp only [upd, e1, e2, ↓reduceIte] at hd he
        exact s4 p (by simpa [e1] using hm) q (by simpa [e2] using hq) d hd he
    · have habs : ∀ x ∈ view h g, x.1 ≠ n := by
        intro x hx e
        have := view_names h g n
        rw [hg] at this
        simp only [Option.isSome_none] at this
        have h2 : (view h g).any (fun x => decide (x.1 = n)) = true := List.any_eq_true.2 ⟨x, hx, by simp [e]⟩
        rw [h2] at this
        exact absurd this (by simp)
      rw [update_absent _ _ _ habs]
      simp only [view, List.map_append, List.map_cons, List.map_nil]
      congr 1
      · exact List.map_congr_left (fun p hm => hval p (List.mem_append_left _ hm))
      · simp [value, upd, dataVal]
    · exact view_same (fun p hm => hval p (List.mem_append_right _ hm))
  | some p0 =>
    obtain ⟨hn, g1, g2, rfl, hbef⟩ := List.find?_eq_some_iff_append.1 hg
    simp only [decide_eq_true_eq] at hn
    have hm0 : p0 ∈ g1 ++ p0 :: g2 ++ o := by simp
    have hval : ∀ p ∈ g1 ++ p0 :: g2 ++ o, p ≠ p0 →
        value { h with metric := upd h.metric p0 ((h.metric p0).1, some h.free), data := upd h.data h.free (.int v), free := h.free + 1 } p = value h p := by
      intro p hm hne
      apply value_same
      · simp [upd, hne]
      · rfl
      · intro d hd; have := s3 p hm d hd; simp [upd, show d ≠ h.free by omega]
    have hnd := s1
    rw [List.append_assoc, List.cons_append, List.nodup_append, List.nodup_cons] at hnd
    have hne1 : ∀ p ∈ g1, p ≠ p0 := fun p hp => hnd.2.2 p hp p0 (by simp)
    have hne2 : ∀ p ∈ g2, p ≠ p0 := fun p hp e => hnd.2.1.1 (by rw [← e]; simp [hp])
    have hne3 : ∀ p ∈ o, p ≠ p0 := fun p hp e => hnd.2.1.1 (by rw [← e]; simp [hp])
    refine ⟨⟨s1, fun p hm => Nat.lt_succ_of_lt (s2 p hm), ?_, ?_⟩, ?_, ?_⟩
    · intro p hm d hd
      by_cases e : p = p0
      · simp [upd, e] at hd; exact hd ▸ Nat.lt_succ_self _
      · simp only [upd, e, ↓reduceIte] at hd
        exact Nat.lt_succ_of_lt (s3 p hm d hd)
    · intro p hm q hq d hd he
      by_cases e1 : p = p0 <;> by_cases e2 : q = p0
      · rw [e1, e2]
      · simp only [upd, e1, e2, ↓reduceIte] at hd he
        have := s3 q hq d he
        simp at hd; omega
      · simp only [upd, e1, e2, ↓reduceIte] at hd he
        have := s3 p hm d hd
        simp at he; omega
      · simp only [upd, e1, e2, ↓reduceIte] at hd he
        exact s4 p hm q hq d hd he
    · have hb : ∀ x ∈ view h g1, x.1 ≠ n := by
        intro x hx
        obtain ⟨p, hp, rfl⟩ := List.mem_map.1 hx
        have := hbef p hp
        simpa [value] using this
      rw [show view h (g1 ++ p0 :: g2) = view h g1 ++ ((h.metric p0).1, (value h p0).2) :: view h g2 by simp [view, value],
        update_found _ _ _ _ _ _ hb hn]
      simp only [view, List.map_append, List.map_cons]
      congr 1
      · exact List.map_congr_left (fun p hm => hval p (by simp [hm]) (hne1 p hm))
      · congr 1
        · simp [value, upd, dataVal]
        · exact List.map_congr_left (fun p hm => hval p (by simp [hm]) (hne2 p hm))
    · exact view_same (fun p hm => hval p (by simp [hm]) (hne3 p hm))

theorem clear_step (h : Heap) (ps : List Nat) (hs : Sep h ps) (p : Nat) (hp : p ∈ ps) :
    Sep (clear h p) ps ∧ value (clear h p) p = ((value h p).1, (value h p).2.zero) ∧ ∀ q ∈ ps, q ≠ p → value (clear h p) q = value h q := by
  have hm : (clear h p).metric = h.metric ∧ (clear h p).array = h.array ∧ (clear h p).free = h.free ∧
      ∀ d, (h.metric p).2 ≠ some d → (clear h p).data d = h.data d := by
    simp only [clear]
    cases hd : (h.metric p).2 with
    | none => exact ⟨rfl, rfl, rfl, fun _ _ => rfl⟩
    | some d =>
      simp only
      cases h.data d <;> refine ⟨rfl, rfl, rfl, fun d' hne => ?_⟩ <;> simp only [upd] <;> rw [if_neg (fun e => hne (by rw [e]))]
  obtain ⟨m1, m2, m3, m4⟩ := hm
  refine ⟨?_, ?_, fun q hq hne => ?_⟩
  · obtain ⟨a, b, c, d⟩ := hs
    refine ⟨a, ?_, ?_, ?_⟩
    · rw [m3]; exact b
    · rw [m1, m3]; exact c
    · rw [m1]; exact d
  · simp only [value, m1]
    cases hd : (h.metric p).2 with
    | none => rfl
    | some d =>
      simp only [clear, hd]
      cases hdd : h.data d <;> simp [upd, dataVal, Val.zero]
  · apply value_same
    · rw [m1]
    · exact m2
    · intro d hd
      apply m4
      intro e
      exact hne (hs.2.2.2 q hq p hp d hd e)

theorem reset_step (g : Ptrs) : ∀ (h : Heap) (o : Ptrs), Sep h (g ++ o) →
    Sep (reset h g) (g ++ o) ∧ view (reset h g) g = Vals.reset (view h g) ∧ view (reset h g) o = view h o := by
  induction g with
  | nil => exact fun h o hs => ⟨hs, rfl, rfl⟩
  | cons p r ih =>
    intro h o hs
    have hnd := hs.1
    rw [List.cons_append, List.nodup_cons] at hnd
    obtain ⟨c1, c2, c3⟩ := clear_step h _ hs p (by simp)
    obtain ⟨i1, i2, i3⟩ := ih (clear h p) (p :: o) (c1.perm (by simpa using List.perm_middle.symm))
    have e : reset h (p :: r) = reset (clear h p) r := rfl
    rw [e]
    have hne : ∀ q ∈ r ++ o, q ≠ p := fun q hq e => hnd.1 (e ▸ hq)
    have i3' : value (reset (clear h p) r) p = value (clear h p) p ∧ view (reset (clear h p) r) o = view (clear h p) o := by
      simpa [view] using i3
    refine ⟨i1.perm (by simp), ?_, ?_⟩
    · rw [show view (reset (clear h p) r) (p :: r) = value (reset (clear h p) r) p :: view (reset (clear h p) r) r from rfl, i3'.1, c2, i2]
      simp only [Vals.reset, view, List.map_cons]
      congr 2
      exact List.map_congr_left (fun q hq => c3 q (by simp [hq]) (hne q (by simp [hq])))
    · rw [i3'.2]
      exact view_same (fun q hq => c3 q (by simp [hq]) (hne q (by simp [hq])))

/-- One operation on a record: it does to the values what the specification says, and nothing to another record that shares no metric. -/
theorem op_step (h : Heap) (g o : Ptrs) (hs : Sep h (g ++ o)) (x : Op) :
    Sep (runOp h g x).1 ((runOp h g x).2 ++ o) ∧ view (runOp h g x).1 (runOp h g x).2 = Vals.op (view h g) x ∧ view (runOp h g x).1 o = view h o := by
  cases x with
  | update n v => exact update_step h g o hs n v
  | remove n =>
    refine ⟨hs.sub (List.Sublist.append List.filter_sublist (List.Sublist.refl _)), ?_, rfl⟩
    simp only [runOp, remove, view, Vals.op, Vals.remove]
    rw [List.filter_map]
    rfl
  | reset => exact reset_step g h o hs

theorem clone_step (g : Ptrs) : ∀ (h : Heap) (o : Ptrs), Sep h (g ++ o) →
    Sep (clone h g).1 (g ++ o ++ (clone h g).2) ∧ view (clone h g).1 (clone h g).2 = view h g ∧ view (clone h g).1 (g ++ o) = view h (g ++ o) := by
  induction g with
  | nil => exact fun h o hs => ⟨by simpa [clone] using hs, rfl, rfl⟩
  | cons p r ih =>
    intro h o hs
    have hc : ∃ h1, cloneMetric h p = (h1, h.free) ∧ h1.free = h.free + 1 ∧ h1.array = h.array ∧ (∀ q, q ≠ h.free → h1.metric q = h.metric q) ∧
        (∀ d, d ≠ h.free → h1.data d = h.data d) ∧ value h1 h.free = value h p ∧ ((h1.metric h.free).2 = none ∨ (h1.metric h.free).2 = some h.free) := by
      simp only [cloneMetric]
      cases hd : (h.metric p).2 with
      | none => exact ⟨_, rfl, rfl, rfl, fun q hq => by simp [upd, hq], fun d _ => rfl, by simp [value, upd, hd], by simp [upd]⟩
      | some d =>
        refine ⟨_, rfl, rfl, rfl, fun q hq => by simp [upd, hq], fun d hd => by simp [upd, hd], ?_, by simp [upd]⟩
        simp only [value, upd, ↓reduceIte, hd]
        cases h.data d <;> rfl
    obtain ⟨h1, e1, f1, f2, f3, f4, f5, f6⟩ := hc
    have hs' := hs
    obtain ⟨s1, s2, s3, s4⟩ := hs
    have hfr : ∀ q ∈ p :: r ++ o, q ≠ h.free := fun q hq => by have := s2 q hq; omega
    have hold : ∀ q ∈ p :: r ++ o, value h1 q = value h q := by
      intro q hq
      exact value_same (f3 q (hfr q hq)) f2 (fun d hd => f4 d (by have := s3 q hq d hd; omega))
    have hsep : Sep h1 (h.free :: (p :: r ++ o)) := by
      refine ⟨List.nodup_cons.2 ⟨fun hm => hfr _ hm rfl, s1⟩, ?_, ?_, ?_⟩
      · intro q hq
        rw [f1]
        rcases List.mem_cons.1 hq with rfl | hq
        · omega
        · have := s2 q hq; omega
      · intro q hq d hd
        rw [f1]
        rcases List.mem_cons.1 hq with rfl | hq
        · rcases f6 with e | e <;> rw [e] at hd <;> simp at hd; omega
        · rw [f3 q (hfr q hq)] at hd; have := s3 q hq d hd; omega
      · intro a ha b hb d hd he
        rcases List.mem_cons.1 ha with rfl | ha <;> rcases List.mem_cons.1 hb with rfl | hb
        · rfl
        · rw [f3 b (hfr b hb)] at he
          have := s3 b hb d he
          rcases f6 with e | e <;> rw [e] at hd <;> simp at hd; omega
        · rw [f3 a (hfr a ha)] at hd
          have := s3 a ha d hd
          rcases f6 with e | e <;> rw [e] at he <;> simp at he; omega
        · rw [f3 a (hfr a ha)] at hd
          rw [f3 b (hfr b hb)] at he
          exact s4 a ha b hb d hd he
    obtain ⟨i1, i2, i3⟩ := ih h1 (h.free :: p :: o) (hsep.perm (List.perm_iff_count.2 (by intro a; simp [List.count_cons]; omega)))
    have e2 : clone h (p :: r) = ((clone h1 r).1, h.free :: (clone h1 r).2) := by simp only [clone, e1]
    rw [e2]
    have hv : ∀ q ∈ r ++ h.free :: p :: o, value (clone h1 r).1 q = value h1 q := by
      intro q hq
      have := i3
      simp only [view] at this
      exact List.map_inj_left.1 this q hq
    refine ⟨i1.perm (List.perm_iff_count.2 (by intro a; simp [List.count_cons]; omega)), ?_, ?_⟩
    · rw [show view (clone h1 r).1 (h.free :: (clone h1 r).2) = value (clone h1 r).1 h.free :: view (clone h1 r).1 (clone h1 r).2 from rfl, i2,
        hv _ (by simp), f5]
      simp only [view, List.map_cons]
      congr 1
      exact List.map_congr_left (fun q hq => hold q (by simp [hq]))
    · refine view_same (fun q hq => ?_)
      rw [hv q (by simp at hq ⊢; rcases hq with h | h | h <;> simp [h]), hold q hq]

/-! ## C92 -/

/-- A record, its clone, and operations on either of them (`true`: on the clone). -/
def runBoth (h : Heap) (g c : Ptrs) : List (Bool × Op) → Heap × Ptrs × Ptrs
  | [] => (h, g, c)
  | (false, x) :: r => runBoth (runOp h g x).1 (runOp h g x).2 c r
  | (true, x) :: r => runBoth (runOp h c x).1 g (runOp h c x).2 r

theorem runBoth_exact (xs : List (Bool × Op)) : ∀ (h : Heap) (g c : Ptrs), Sep h (g ++ c) →
    view (runBoth h g c xs).1 (runBoth h g c xs).2.1 = ((xs.filter (fun x => !x.1)).map (·.2)).foldl Vals.op (view h g) ∧
    view (runBoth h g c xs).1 (runBoth h g c xs).2.2 = ((xs.filter (fun x => x.1)).map (·.2)).foldl Vals.op (view h c) := by
  induction xs with
  | nil => exact fun h g c _ => ⟨rfl, rfl⟩
  | cons x r ih =>
    intro h g c hs
    obtain ⟨b, x⟩ := x
    cases b with
    | false =>
      obtain ⟨a1, a2, a3⟩ := op_step h g c hs x
      have := ih _ _ _ a1
      rw [a2, a3] at this
      simpa [runBoth] using this
    | true =>
      obtain ⟨a1, a2, a3⟩ := op_step h c g (hs.perm List.perm_append_comm) x
      have := ih _ _ _ (a1.perm List.perm_append_comm)
      rw [a2, a3] at this
      simpa [runBoth] using this

/-- C92: a clone shows what the record showed, and from then on the two are independent: whatever is done to either, in any order, each
shows exactly what was done to it. -/
theorem clone_independent_partial (h : Heap) (g : Ptrs) (hs : Sep h g) (xs : List (Bool × Op)) :
    let w := runBoth (clone h g).1 g (clone h g).2 xs
    view w.1 w.2.1 = ((xs.filter (fun x => !x.1)).map (·.2)).foldl Vals.op (view h g) ∧
    view w.1 w.2.2 = ((xs.filter (fun x => x.1)).map (·.2)).foldl Vals.op (view h g) := by
  obtain ⟨c1, c2, c3⟩ := clone_step g h [] (by simpa using hs)
  simp only [List.append_nil] at c1 c3
  have := runBoth_exact xs _ _ _ c1
  rw [c2, c3] at this
  exact this

/-- C92: the values of a name after setting it: the first is the new one, the others stay. -/
theorem update_read (l : Vals) (n m : Bytes) (v : Int) :
    (Vals.update l n v).find? (fun x => x.1 = m) = if m = n then some (n, .int v) else l.find? (fun x => x.1 = m) := by
  induction l with
  | nil => by_cases e : m = n <;> simp [Vals.update, e, eq_comm]
  | cons x r ih =>
    obtain ⟨k, w⟩ := x
    simp only [Vals.update]
    by_cases hk : k = n
    · subst hk
      rw [if_pos rfl]
      by_cases e : m = k
      · simp [e]
      · simp [e, Ne.symm e]
    · rw [if_neg hk, List.find?_cons, List.find?_cons]
      by_cases hm : k = m
      · subst hm; simp [hk]
      · simp only [hm, decide_false, ih]

/-- C92: setting a name that occurs once or not at all keeps the names unique; a name that occurs twice keeps its second value. -/
theorem update_unique (l : Vals) (n : Bytes) (v : Int) (h : (l.map (·.1)).Nodup) : ((Vals.update l n v).map (·.1)).Nodup := by
  have key : ∀ l : Vals, (Vals.update l n v).map (·.1) = if n ∈ l.map (·.1) then l.map (·.1) else l.map (·.1) ++ [n] := by
    intro l
    induction l with
    | nil => rfl
    | cons x r ih =>
      obtain ⟨k, w⟩ := x
      simp only [Vals.update]
      by_cases hk : k = n
      · simp [hk]
      · rw [if_neg hk, List.map_cons, ih]
        by_cases hm : n ∈ r.map (·.1)
        · rw [if_pos hm, if_pos (by simp [hm]), List.map_cons]
        · rw [if_neg hm, if_neg (by simp only [List.map_cons, List.mem_cons, not_or]; exact ⟨Ne.symm hk, hm⟩)]; simp
  rw [key]
  split
  · exact h
  · rename_i hn
    rw [List.nodup_append]
    exact ⟨h, by simp, fun a ha b hb => by simp at hb; rw [hb]; exact fun e => hn (e ▸ ha)⟩

/-- C92: removing a name removes all metrics of this name and nothing else. -/
theorem remove_exact (h : Heap) (g : Ptrs) (n : Bytes) : (∀ x, x ∈ view h (remove h g n) ↔ x ∈ view h g ∧ x.1 ≠ n) ∧ (view h (remove h g n)).Sublist (view h g) := by
  refine ⟨fun x => ?_, List.Sublist.map _ List.filter_sublist⟩
  simp only [view, remove, List.mem_map, List.mem_filter, decide_eq_true_eq]
  constructor
  · rintro ⟨p, ⟨hp, hn⟩, rfl⟩; exact ⟨⟨p, hp, rfl⟩, hn⟩
  · rintro ⟨⟨p, hp, rfl⟩, hn⟩; exact ⟨p, ⟨hp, hn⟩, rfl⟩

/-- C92, disagreement: the histogram of a clone is not a copy: a bucket counted in place is counted in both records. (No code in the
repository writes the elements of these slices.) -/
theorem clone_shares_buckets (h : Heap) (p d : Nat) (s : Int) (c : Nat) (b : Option Nat) (k : Nat) (hm : (h.metric p).2 = some d)
    (hd : h.data d = .hist s c b (some k)) (hs : Sep h [p]) (counts : List Int) :
    let (h', qs) := clone h [p]
    let h2 := { h' with array := upd h'.array k counts }
    (∃ b', (view h2 qs).map (·.2) = [.hist s c b' counts]) ∧ ∃ b', (view h2 [p]).map (·.2) = [.hist s c b' counts] := by
  have hp : p ≠ h.free := by have := hs.2.1 p (by simp); omega
  have hdf : d ≠ h.free := by have := hs.2.2.1 p (by simp) d hm; omega
  simp [clone, cloneMetric, hm, view, value, upd, hp, hdf, hd, dataVal]

/-! A record with an integer and a histogram meets the hypotheses. -/

def exampleHeap : Heap :=
  ⟨fun p => if p = 0 then (bs "request_count", some 0) else (bs "latency", some 1),
   fun d => if d = 0 then .int 3 else .hist 7 2 (some 0) (some 1), fun a => if a = 0 then [10, 20] else [1, 2], 2⟩

example : Sep exampleHeap [0, 1] ∧ view exampleHeap [0, 1] = [(bs "request_count", .int 3), (bs "latency", .hist 7 2 [10, 20] [1, 2])] := by
  refine ⟨⟨by decide, by simp [exampleHeap], ?_, ?_⟩, by decide +kernel⟩ <;> simp [exampleHeap]

end Kindling.Model.Group
