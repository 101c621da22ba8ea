import Verif.Agg.Props
/-
C04: label keys.
-/
namespace Kindling.Agg
open Kindling

/-- Specification: the typed value of a selected label; absent or mistyped labels read as the zero
value of the selected type. -/
def typedRead (l : Labels) (s : Selector) : Option AttrVal :=
  match s.vtype with
  | .boolean => some (.bool (match AMap.get l s.name with | some (.bool b) => b | _ => false))
  | .string => some (.str (match AMap.get l s.name with | some (.str x) => x | _ => []))
  | .int => some (.int (match AMap.get l s.name with | some (.int i) => i | _ => 0))
  | .unset => none

theorem keyOf_eq_iff (l1 l2 : Labels) (s : Selector) :
    keyOf l1 s = keyOf l2 s ↔ typedRead l1 s = typedRead l2 s := by
  obtain ⟨n, t⟩ := s
  cases t
  · simp [keyOf, typedRead]
  · simp only [keyOf, typedRead, LabelKey.mk.injEq, true_and, and_true, Option.some.injEq, AttrVal.bool.injEq]
    constructor
    · intro h; exact Dec.formatBool_inj h
    · intro h; exact congrArg Dec.formatBool h
  · simp only [keyOf, typedRead, LabelKey.mk.injEq, true_and, and_true, Option.some.injEq, AttrVal.str.injEq]
    exact Iff.rfl
  · simp only [keyOf, typedRead, LabelKey.mk.injEq, true_and, and_true, Option.some.injEq, AttrVal.int.injEq]
    constructor
    · intro h; exact Dec.formatInt_inj h
    · intro h; exact congrArg Dec.formatInt h

/-- C04: with at most 37 selectors, two label sets get the same key iff they agree on every selected
label. -/
theorem same_series_iff (sels : List Selector) (hlen : sels.length ≤ 37) (l1 l2 : Labels) :
    getLabelKeys sels l1 = getLabelKeys sels l2 ↔ ∀ s ∈ sels, typedRead l1 s = typedRead l2 s := by
  have ht : sels.take maxLabelKeySize = sels := List.take_of_length_le hlen
  simp only [getLabelKeys, ht, List.length_map]
  rw [List.append_cancel_right_eq]
  constructor
  · intro h s hs
    have := List.map_inj_left.1 h s hs
    exact (keyOf_eq_iff l1 l2 s).1 this
  · intro h
    exact List.map_inj_left.2 (fun s hs => (keyOf_eq_iff l1 l2 s).2 (h s hs))

/-- Non-vacuity: an absent label and an empty one agree, a different one does not. -/
example : typedRead [] ⟨"a", .string⟩ = typedRead [("a", .str [])] ⟨"a", .string⟩ ∧
    typedRead [] ⟨"a", .string⟩ ≠ typedRead [("a", .str [65])] ⟨"a", .string⟩ := by decide

/-- The bound 37 is sharp: a 38th selector is ignored, so records that differ in it share a series. -/
theorem selector_38_is_ignored :
    ∃ (sels : List Selector) (l1 l2 : Labels), sels.length = 38 ∧
      getLabelKeys sels l1 = getLabelKeys sels l2 ∧ ∃ s ∈ sels, typedRead l1 s ≠ typedRead l2 s := by
  refine ⟨List.replicate 37 ⟨"a", .string⟩ ++ [⟨"b", .string⟩], [], [("b", .str [1])], by simp, by decide, ?_⟩
  exact ⟨⟨"b", .string⟩, by simp, by decide⟩

/-- Integer labels that fit Go's int64. -/
def Labels.Int64 (l : Labels) : Prop :=
  ∀ k i, AMap.get l k = some (.int i) → -(2 ^ 63 : Nat) ≤ i ∧ i < (2 ^ 63 : Nat)

theorem addLabel_keyOf (l : Labels) (hl : l.Int64) (acc : Labels) (s : Selector) :
    addLabel acc (keyOf l s) = match typedRead l s with
      | none => acc
      | some v => AMap.set acc s.name v := by
  obtain ⟨n, t⟩ := s
  cases t
  · simp [addLabel, keyOf, typedRead]
  · simp only [addLabel, keyOf, typedRead]
    congr 2
    have : ∀ b, parseBool (Dec.formatBool b) = b := by decide
    rw [this]; rfl
  · simp only [addLabel, keyOf, typedRead]; rfl
  · simp only [addLabel, keyOf, typedRead]
    congr 2
    rw [Dec.parseInt_formatInt]
    · rfl
    · simp only [Labels.getInt]
      split
      · rename_i i hi; exact (hl _ _ hi).1
      · simp
    · simp only [Labels.getInt]
      split
      · rename_i i hi; exact (hl _ _ hi).2
      · simp

/-- C04: the labels of a dumped series are exactly the selected labels with the values they were
recorded with. -/
theorem series_labels (sels : List Selector) (hlen : sels.length ≤ 37)
    (hnd : (sels.map (·.name)).Nodup) (hty : ∀ s ∈ sels, s.vtype ≠ .unset) (l : Labels) (hl : l.Int64) (k : String) :
    AMap.get (getLabels (getLabelKeys sels l)) k =
      (sels.find? (fun s => s.name = k)).bind (typedRead l) := by
  have ht : sels.take maxLabelKeySize = sels := List.take_of_length_le hlen
  have hblank : ∀ n acc, (List.replicate n LabelKey.blank).foldl addLabel acc = acc := by
    intro n
    induction n with
    | zero => intro acc; rfl
    | succ n ih => intro acc; simp only [List.replicate_succ, List.foldl_cons]; rw [ih]; rfl
  have gen : ∀ (sels : List Selector) (acc : Labels), (sels.map (·.name)).Nodup → (∀ s ∈ sels, s.vtype ≠ .unset) →
      AMap.get ((sels.map (keyOf l)).foldl addLabel acc) k =
        match sels.find? (fun s => s.name = k) with
        | some s => typedRead l s
        | none => AMap.get acc k := by
    intro sels
    induction sels with
    | nil => intro acc _ _; rfl
    | cons s r ih =>
      intro acc hn hs
      simp only [List.map_cons, List.nodup_cons] at hn
      simp only [List.map_cons, List.foldl_cons]
      rw [ih _ hn.2 (fun x hx => hs x (by simp [hx])), addLabel_keyOf l hl]
      have hsome : ∃ v, typedRead l s = some v := by
        have := hs s (by simp)
        obtain ⟨n, t⟩ := s
        cases t <;> simp_all [typedRead]
      obtain ⟨v, hv⟩ := hsome
      simp only [hv, List.find?_cons]
      by_cases he : s.name = k
      · have : r.find? (fun s => s.name = k) = none := by
          rw [List.find?_eq_none]
          intro x hx hxk
          simp only [decide_eq_true_eq] at hxk
          exact hn.1 (List.mem_map.2 ⟨x, hx, by rw [hxk, he]⟩)
        simp only [this, he, decide_true]
        simp [hv]
      · simp only [he, decide_false]
        cases hf : r.find? (fun s => s.name = k) with
        | some s' => rfl
        | none => simp [AMap.get_set_ne _ _ he]
  simp only [getLabels, getLabelKeys, ht, List.foldl_append, hblank]
  rw [gen sels [] hnd hty]
  cases sels.find? (fun s => s.name = k) <;> rfl

/-- Non-vacuity of `series_labels`. -/
example : ([⟨"a", .string⟩, ⟨"n", .int⟩] : List Selector).length ≤ 37 ∧
    Labels.Int64 [("a", .str [65]), ("n", .int (-3))] := by
  refine ⟨by decide, ?_⟩
  intro k i h
  simp only [AMap.get] at h
  split at h
  · simp at h
  · split at h
    · simp at h; subst h; decide
    · simp at h

end Kindling.Agg
