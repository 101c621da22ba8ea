import Verif.Agg.Props
/-
C03: histogram accumulators.
-/
namespace Kindling.Agg
open Kindling

/-- Specification: the histogram of a list of values. -/
def histOf (bounds : List Int) (vs : List Int) : Hist :=
  ⟨vs.sum, vs.length, bounds, bounds.map (fun b => vs.countP (· ≤ b))⟩

/-- A recorded datum that stands for the values `vs`: one integer, or the histogram of `vs` over the
same boundaries. -/
def Carries (bounds : List Int) : MData → List Int → Prop
  | .int v, vs => vs = [v]
  | .hist h, vs => h = histOf bounds vs
  | .none, vs => vs = []

theorem addBuckets_map (bounds : List Int) (f g : Int → Nat) :
    addBuckets (bounds.map f) (bounds.map g) = some (bounds.map (fun b => f b + g b)) := by
  induction bounds with
  | nil => rfl
  | cons b r ih => simp [addBuckets, ih]

/-- C03: whatever mixture of single values and merged histograms is recorded, in any order and
grouping, the accumulator is the histogram of all the values, and nothing crashes. -/
theorem histogram_of_all_values (o : String) (bounds : List Int) (ds : List MData) (vss : List (List Int))
    (h : All2 (Carries bounds) ds vss) :
    foldApply (Acc.init ⟨o, .histogram, bounds⟩) ds = some (.hist (histOf bounds vss.flatten)) := by
  have gen : ∀ (ws : List Int), foldApply (.hist (histOf bounds ws)) ds =
      some (.hist (histOf bounds (ws ++ vss.flatten))) := by
    induction h with
    | nil => intro ws; simp [foldApply]
    | @cons d vs ds vss hd _ ih =>
      intro ws
      simp only [foldApply]
      have : (Acc.hist (histOf bounds ws)).apply d = some (.hist (histOf bounds (ws ++ vs))) := by
        cases d with
        | int v =>
          simp only [Carries] at hd; subst hd
          simp only [Acc.apply, Acc.calculate, histOf, bumpBuckets_map, List.sum_append, List.sum_cons,
            List.sum_nil, List.length_append, List.length_cons, List.length_nil, Option.some.injEq,
            Acc.hist.injEq, Hist.mk.injEq, true_and]
          refine ⟨by omega, ?_⟩
          apply List.map_congr_left
          intro b _
          rw [List.countP_append, List.countP_cons, List.countP_nil]
          split <;> simp_all
        | hist h' =>
          simp only [Carries] at hd; subst hd
          simp only [Acc.apply, Acc.merge, histOf, addBuckets_map, ne_eq, not_true_eq_false, ↓reduceIte,
            List.sum_append, List.length_append, Option.some.injEq, Acc.hist.injEq, Hist.mk.injEq, true_and]
          apply List.map_congr_left
          intro b _
          rw [List.countP_append]
        | none =>
          simp only [Carries] at hd; subst hd
          simp [Acc.apply]
      rw [this]
      simp [ih, List.append_assoc]
  have e : Acc.init ⟨o, .histogram, bounds⟩ = .hist (histOf bounds []) := by
    simp [Acc.init, histOf, List.map_const']
  rw [e, gen]; simp

/-- Non-vacuity: a value, a merged histogram of three values, another value. -/
example : All2 (Carries [5, 10]) [.int 3, .hist ⟨21, 3, [5, 10], [1, 2]⟩, .int 40] [[3], [1, 7, 13], [40]] := by
  refine .cons ?_ (.cons ?_ (.cons ?_ .nil)) <;> simp [Carries, histOf]

/-- C03: with ascending boundaries, the reported buckets are non-decreasing and never exceed the
reported count. -/
theorem histogram_buckets_monotone (o : String) (bounds : List Int) (hs : bounds.Pairwise (· ≤ ·))
    (ds : List MData) (vss : List (List Int)) (h : All2 (Carries bounds) ds vss) {hh : Hist}
    (hr : foldApply (Acc.init ⟨o, .histogram, bounds⟩) ds = some (.hist hh)) :
    hh.buckets.Pairwise (· ≤ ·) ∧ (∀ c ∈ hh.buckets, c ≤ hh.count) ∧ hh.buckets.length = hh.bounds.length := by
  rw [histogram_of_all_values o bounds ds vss h] at hr
  simp only [Option.some.injEq, Acc.hist.injEq] at hr
  subst hr
  refine ⟨?_, ?_, by simp [histOf]⟩
  · simp only [histOf]
    refine List.Pairwise.map _ ?_ hs
    intro a b hab
    apply List.countP_mono_left
    intro x _ hx
    simp only [decide_eq_true_eq] at hx ⊢; omega
  · intro c hc
    simp only [histOf] at hc ⊢
    obtain ⟨b, _, rfl⟩ := List.mem_map.1 hc
    exact List.countP_le_length

/-- C03: a histogram over a different number of boundaries is rejected and changes nothing. -/
theorem histogram_mismatch_ignored (h h' : Hist) (hne : h.bounds.length ≠ h'.bounds.length) :
    (Acc.hist h).merge h' = .err ∧ (Acc.hist h).apply (.hist h') = some (.hist h) := by
  simp [Acc.merge, Acc.apply, hne]

/-- Disagreement: only the number of boundaries is compared (agg_values.go:333), so a histogram over
other boundaries is merged and the buckets no longer count the values below their boundaries. -/
theorem histogram_other_boundaries_merged :
    ∃ (b b' : List Int) (vs ws : List Int) (h : Hist),
      (Acc.hist (histOf b vs)).merge (histOf b' ws) = .ok (.hist h) ∧ h ≠ histOf b (vs ++ ws) := by
  exact ⟨[10], [100], [], [50], _, rfl, by decide⟩

end Kindling.Agg
