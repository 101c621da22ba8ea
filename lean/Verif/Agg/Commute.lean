import Verif.Agg.Exact
/-
The order in which values reach an accumulator: it matters for `last` only.
-/
namespace Kindling.Agg
open Kindling

theorem bump_comm (v w : Int) (bs : List Int) (cs : List Nat) :
    bumpBuckets v bs (bumpBuckets w bs cs) = bumpBuckets w bs (bumpBuckets v bs cs) := by
  induction bs generalizing cs with
  | nil => cases cs <;> rfl
  | cons b bs ih =>
    cases cs with
    | nil => rfl
    | cons c cs =>
      simp only [bumpBuckets, ih]
      congr 1
      split <;> split <;> omega

theorem bump_add (v : Int) (bs : List Int) (cs ds : List Nat) :
    addBuckets (bumpBuckets v bs cs) ds = (addBuckets cs ds).map (bumpBuckets v bs) := by
  induction ds generalizing bs cs with
  | nil => cases cs <;> simp [addBuckets]
  | cons d ds ih =>
    cases cs with
    | nil => cases bs <;> rfl
    | cons c cs =>
      cases bs with
      | nil =>
        simp only [bumpBuckets, addBuckets, Option.map_map]
        cases addBuckets cs ds <;> rfl
      | cons b bs =>
        simp only [bumpBuckets, addBuckets, ih, Option.map_map]
        cases addBuckets cs ds with
        | none => rfl
        | some x =>
          simp only [Option.map_some, Function.comp, bumpBuckets, Option.some.injEq, List.cons.injEq, and_true]
          split <;> omega

theorem add_length {cs ds b : List Nat} (h : addBuckets cs ds = some b) : b.length = cs.length := by
  induction ds generalizing cs b with
  | nil => cases cs <;> simp_all [addBuckets]
  | cons d ds ih =>
    cases cs with
    | nil => cases h
    | cons c cs =>
      simp only [addBuckets, Option.map_eq_some_iff] at h
      obtain ⟨x, hx, rfl⟩ := h
      simp [ih hx]

theorem add_comm (cs ds es : List Nat) :
    (addBuckets cs ds).bind (addBuckets · es) = (addBuckets cs es).bind (addBuckets · ds) := by
  induction cs generalizing ds es with
  | nil => cases ds <;> cases es <;> rfl
  | cons c cs ih =>
    cases ds with
    | nil => cases es <;> simp [addBuckets]
    | cons d ds =>
      cases es with
      | nil => simp [addBuckets]
      | cons e es =>
        have h := ih ds es
        simp only [addBuckets, Option.bind_map, Function.comp_def]
        have key : ∀ (o : Option (List Nat)) (x : Nat) (y : List Nat),
            (o.bind fun a => (addBuckets a y).map (x :: ·)) = (o.bind (addBuckets · y)).map (x :: ·) := by
          intro o x y
          cases o <;> rfl
        rw [key, key, h, Nat.add_right_comm]

/-- Two values commute, unless the accumulator keeps the last one. -/
theorem apply_comm (a : Acc) (ha : ∀ v, a ≠ .last v) (d e : MData) :
    (a.apply d).bind (·.apply e) = (a.apply e).bind (·.apply d) := by
  cases a with
  | last v => exact absurd rfl (ha v)
  | sum v => cases d <;> cases e <;> simp [Acc.apply, Acc.calculate, Acc.merge, Int.add_right_comm]
  | count v => cases d <;> cases e <;> simp [Acc.apply, Acc.calculate, Acc.merge, Int.add_right_comm]
  | avg v c => cases d <;> cases e <;> simp [Acc.apply, Acc.calculate, Acc.merge, Int.add_right_comm]
  | max v =>
    cases d <;> cases e <;> simp only [Acc.apply, Acc.calculate, Acc.merge, Option.bind_some]
    congr 2
    split <;> split <;> (try split) <;> omega
  | hist h =>
    cases d with
    | none => cases e <;> simp [Acc.apply] <;> rfl
    | int v =>
      cases e with
      | none => simp [Acc.apply]
      | int w =>
        simp only [Acc.apply, Acc.calculate, Option.bind_some, bump_comm v w, Int.add_right_comm h.sum w v]
      | hist k =>
        simp only [Acc.apply, Acc.calculate, Acc.merge, Option.bind_some]
        by_cases hl : h.bounds.length = k.bounds.length
        · simp only [hl, ne_eq, not_true_eq_false, if_false, bump_add]
          cases addBuckets h.buckets k.buckets with
          | none => rfl
          | some b =>
            simp only [Option.map_some, Option.bind_some, Acc.calculate, Option.some.injEq, Acc.hist.injEq, Hist.mk.injEq, and_true]
            omega
        · simp [hl, Acc.calculate]
    | hist k =>
      cases e with
      | none => simp only [Acc.apply, Option.bind_some]; cases (Acc.hist h).merge k <;> rfl
      | int w =>
        simp only [Acc.apply, Acc.calculate, Acc.merge, Option.bind_some]
        by_cases hl : h.bounds.length = k.bounds.length
        · simp only [hl, ne_eq, not_true_eq_false, if_false, bump_add]
          cases addBuckets h.buckets k.buckets with
          | none => rfl
          | some b =>
            simp only [Option.map_some, Option.bind_some, Acc.calculate, Option.some.injEq, Acc.hist.injEq, Hist.mk.injEq, and_true]
            omega
        · simp [hl, Acc.calculate]
      | hist k' =>
        simp only [Acc.apply, Acc.merge]
        by_cases hl : h.bounds.length = k.bounds.length
        · by_cases hl' : h.bounds.length = k'.bounds.length
          · have hc := add_comm h.buckets k.buckets k'.buckets
            have e1 : k.bounds.length = k'.bounds.length := hl.symm.trans hl'
            simp only [hl, e1, ne_eq, not_true_eq_false, if_false]
            cases h1 : addBuckets h.buckets k.buckets with
            | none =>
              rw [h1] at hc
              cases h2 : addBuckets h.buckets k'.buckets with
              | none => rfl
              | some c =>
                rw [h2] at hc
                simp only [Option.bind_none, Option.bind_some] at hc
                simp [Acc.merge, hl, e1, ← hc]
            | some b =>
              rw [h1] at hc
              cases h2 : addBuckets h.buckets k'.buckets with
              | none =>
                rw [h2] at hc
                simp only [Option.bind_none, Option.bind_some] at hc
                simp [Acc.merge, hl, e1, hc]
              | some c =>
                rw [h2] at hc
                simp only [Option.bind_some] at hc
                simp only [Option.bind_some, Acc.merge, hl, e1, ne_eq, not_true_eq_false, if_false, hc]
                cases addBuckets c k.buckets with
                | none => rfl
                | some x =>
                  simp only [Option.some.injEq, Acc.hist.injEq, Hist.mk.injEq, and_true]
                  omega
          · simp only [hl, ne_eq, not_true_eq_false, if_false]
            rw [hl] at hl'
            simp only [hl', ne_eq, not_false_eq_true, if_true, Option.bind_some, Acc.merge, hl, not_true_eq_false, if_false]
            cases addBuckets h.buckets k.buckets <;> simp [Acc.merge, hl, hl']
        · simp only [hl, ne_eq, not_false_eq_true, if_true, Option.bind_some, Acc.merge]
          by_cases hl' : h.bounds.length = k'.bounds.length
          · simp only [hl', ne_eq, not_true_eq_false, if_false]
            rw [hl'] at hl
            cases addBuckets h.buckets k'.buckets <;> simp [Acc.merge, hl, hl']
          · simp [hl', hl, Acc.merge]

/-- An accumulator keeps its kind. -/
theorem apply_last {a b : Acc} {d : MData} (h : a.apply d = some b) : (∃ v, b = .last v) ↔ ∃ v, a = .last v := by
  cases a <;> cases d <;> simp only [Acc.apply, Acc.calculate, Acc.merge, Option.some.injEq] at h <;>
    first
    | (subst h; simp)
    | skip
  rename_i s h'
  by_cases hl : s.bounds.length = h'.bounds.length
  · simp only [hl, ne_eq, not_true_eq_false, if_false] at h
    cases hb : addBuckets s.buckets h'.buckets with
    | none => simp [hb] at h
    | some x =>
      simp only [hb, Option.some.injEq] at h
      subst h
      simp
  · simp only [hl, ne_eq, not_false_eq_true, if_true, Option.some.injEq] at h
    subst h
    simp

/-- Whatever the order of the values, the result is the same, unless the accumulator keeps the last one. -/
theorem foldApply_perm {ds es : List MData} (hp : ds.Perm es) : ∀ a : Acc, (∀ v, a ≠ .last v) →
    foldApply a ds = foldApply a es := by
  induction hp with
  | nil => intro a _; rfl
  | @cons d ds es _ ih =>
    intro a ha
    simp only [foldApply]
    cases h : a.apply d with
    | none => rfl
    | some b =>
      refine ih b fun v hv => ?_
      obtain ⟨w, hw⟩ := (apply_last h).1 ⟨v, hv⟩
      exact ha w hw
  | swap d e ds =>
    intro a ha
    have hc := apply_comm a ha e d
    simp only [foldApply]
    cases h1 : a.apply e with
    | none =>
      rw [h1] at hc
      cases h2 : a.apply d with
      | none => rfl
      | some b =>
        rw [h2] at hc
        simp only [Option.bind_none, Option.bind_some] at hc
        simp [← hc]
    | some b =>
      rw [h1] at hc
      cases h2 : a.apply d with
      | none =>
        rw [h2] at hc
        simp only [Option.bind_none, Option.bind_some] at hc
        simp [hc]
      | some b' =>
        rw [h2] at hc
        simp only [Option.bind_some] at hc
        simp [hc]
  | trans _ _ ih ih' => intro a ha; exact (ih a ha).trans (ih' a ha)

end Kindling.Agg
