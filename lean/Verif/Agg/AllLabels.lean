import Verif.Agg.Cumulative
/-
C05, identity of a cumulative series: the key of `GetLabelsKeys` (label_key.go:108-127) determines
the label set and does not depend on the map iteration order.
-/
namespace Kindling.Agg
open Kindling

theorem insert_perm (k : LabelKey) (l : List LabelKey) : List.Perm (insertByName k l) (k :: l) := by
  induction l with
  | nil => exact List.Perm.refl _
  | cons x r ih =>
    simp only [insertByName]
    split
    · exact List.Perm.refl _
    · exact (List.Perm.cons x ih).trans (List.Perm.swap k x r)

theorem sort_perm (l : List LabelKey) : List.Perm (sortByName l) l := by
  induction l with
  | nil => exact List.Perm.refl _
  | cons x r ih => exact (insert_perm x _).trans (List.Perm.cons x ih)

def NameLe (a b : LabelKey) : Prop := a.name ≤ b.name

theorem insert_sorted (k : LabelKey) {l : List LabelKey} (h : l.Pairwise NameLe) :
    (insertByName k l).Pairwise NameLe := by
  induction l with
  | nil => simp [insertByName]
  | cons x r ih =>
    rw [List.pairwise_cons] at h
    simp only [insertByName]
    split
    · rename_i hlt
      rw [List.pairwise_cons]
      have hkx : k.name ≤ x.name := String.not_lt.1 (String.lt_asymm hlt)
      refine ⟨?_, List.pairwise_cons.2 h⟩
      intro y hy
      rcases List.mem_cons.1 hy with rfl | hy
      · exact hkx
      · exact String.le_trans hkx (h.1 y hy)
    · rename_i hlt
      rw [List.pairwise_cons]
      refine ⟨?_, ih h.2⟩
      intro y hy
      rcases List.mem_cons.1 ((insert_perm k r).mem_iff.1 hy) with rfl | hy
      · exact String.not_lt.1 hlt
      · exact h.1 y hy

theorem sort_sorted (l : List LabelKey) : (sortByName l).Pairwise NameLe := by
  induction l with
  | nil => simp [sortByName]
  | cons x r ih => exact insert_sorted x ih

theorem keyOfAttr_inj {p q : String × AttrVal} (h : keyOfAttr p = keyOfAttr q) : p = q := by
  obtain ⟨k, v⟩ := p
  obtain ⟨k', v'⟩ := q
  cases v <;> cases v' <;> simp only [keyOfAttr, LabelKey.mk.injEq, reduceCtorEq, and_false] at h
  · obtain ⟨rfl, rfl, _⟩ := h; rfl
  · obtain ⟨rfl, h2, _⟩ := h; rw [Dec.formatInt_inj h2]
  · obtain ⟨rfl, h2, _⟩ := h; rw [Dec.formatBool_inj h2]

theorem keyOfAttr_name (p : String × AttrVal) : (keyOfAttr p).name = p.1 := by
  obtain ⟨k, v⟩ := p; cases v <;> rfl

/-- A sorted list is determined by its members when equal names mean equal entries. -/
theorem sorted_unique {l1 l2 : List LabelKey} (hp : List.Perm l1 l2)
    (hu : ∀ a ∈ l1, ∀ b ∈ l1, a.name = b.name → a = b) (h1 : l1.Pairwise NameLe) (h2 : l2.Pairwise NameLe) :
    l1 = l2 := by
  refine List.Perm.eq_of_pairwise (le := NameLe) ?_ h1 h2 hp
  intro a b ha hb hab hba
  exact hu a ha b (hp.mem_iff.2 hb) (String.le_antisymm hab hba)

theorem padded_unique {l : Labels} (hw : AMap.WF l) (hne : AMap.get l "" = none) (n : Nat) :
    ∀ a ∈ l.map keyOfAttr ++ List.replicate n LabelKey.blank,
    ∀ b ∈ l.map keyOfAttr ++ List.replicate n LabelKey.blank, a.name = b.name → a = b := by
  have hnb : ∀ p ∈ l, p.1 ≠ "" := by
    intro p hp he
    have := AMap.get_isSome_of_mem (List.mem_map.2 ⟨p, hp, rfl⟩)
    rw [he, hne] at this; simp at this
  intro a ha b hb hab
  simp only [List.mem_append, List.mem_map, List.mem_replicate] at ha hb
  rcases ha with ⟨p, hp, rfl⟩ | ⟨_, rfl⟩ <;> rcases hb with ⟨q, hq, rfl⟩ | ⟨_, rfl⟩
  · rw [keyOfAttr_name, keyOfAttr_name] at hab
    obtain ⟨k, v⟩ := p
    obtain ⟨k', v'⟩ := q
    simp only at hab; subst hab
    have e1 := AMap.get_of_mem hw hp
    have e2 := AMap.get_of_mem hw hq
    rw [e1] at e2; cases e2; rfl
  · rw [keyOfAttr_name] at hab; exact absurd hab (hnb p hp)
  · rw [keyOfAttr_name] at hab; exact absurd hab.symm (hnb q hq)
  · rfl

/-- C05: whatever order the sort works in, the key is the same: every permutation of the filled slots
that is ordered by name equals the modelled one. -/
theorem all_labels_key_canonical {l : Labels} (hw : AMap.WF l) (hne : AMap.get l "" = none)
    (hlen : l.length ≤ 37) {l' : Labels} (hl' : List.Perm l' l) {ks : LabelKeys}
    (hp : List.Perm ks (l'.map keyOfAttr ++ List.replicate (37 - l.length) LabelKey.blank))
    (hs : ks.Pairwise NameLe) : getLabelsKeys l = .ok ks := by
  have hlen' : ¬ maxLabelKeySize < l.length := Nat.not_lt.2 hlen
  simp only [getLabelsKeys, hlen', ↓reduceIte, Res.ok.injEq]
  have hp' : List.Perm (sortByName (l.map keyOfAttr ++ List.replicate (maxLabelKeySize - l.length) LabelKey.blank)) ks :=
    (sort_perm _).trans ((List.Perm.append (hl'.map _).symm (List.Perm.refl _)).trans hp.symm)
  refine sorted_unique hp' ?_ (sort_sorted _) hs
  intro a ha b hb
  exact padded_unique hw hne _ a ((sort_perm _).mem_iff.1 ha) b ((sort_perm _).mem_iff.1 hb)

/-- C05: two label sets of at most 37 named labels share a cumulative series iff they hold the same
labels with the same typed values. -/
theorem all_labels_same_series_iff {l1 l2 : Labels} (h1 : AMap.WF l1) (h2 : AMap.WF l2)
    (n1 : AMap.get l1 "" = none) (n2 : AMap.get l2 "" = none) (s1 : l1.length ≤ 37) (s2 : l2.length ≤ 37) :
    getLabelsKeys l1 = getLabelsKeys l2 ↔ ∀ k, AMap.get l1 k = AMap.get l2 k := by
  have c1 : ¬ maxLabelKeySize < l1.length := Nat.not_lt.2 s1
  have c2 : ¬ maxLabelKeySize < l2.length := Nat.not_lt.2 s2
  constructor
  · intro h
    simp only [getLabelsKeys, c1, c2, ↓reduceIte, Res.ok.injEq] at h
    have hp := (sort_perm _).symm.trans (h ▸ sort_perm _)
    have half : ∀ {a b : Labels} {na nb : Nat}, AMap.WF b → AMap.get a "" = none →
        List.Perm (a.map keyOfAttr ++ List.replicate na LabelKey.blank)
          (b.map keyOfAttr ++ List.replicate nb LabelKey.blank) →
        ∀ k v, AMap.get a k = some v → AMap.get b k = some v := by
      intro a b na nb hb ha hperm k v hk
      have hmem : keyOfAttr (k, v) ∈ b.map keyOfAttr ++ List.replicate nb LabelKey.blank :=
        hperm.mem_iff.1 (List.mem_append_left _ (List.mem_map.2 ⟨_, AMap.mem_of_get hk, rfl⟩))
      simp only [List.mem_append, List.mem_map, List.mem_replicate] at hmem
      rcases hmem with ⟨q, hq, he⟩ | ⟨_, he⟩
      · have := keyOfAttr_inj he; subst this
        exact AMap.get_of_mem hb hq
      · have := congrArg LabelKey.name he
        rw [keyOfAttr_name] at this
        simp only [LabelKey.blank] at this
        subst this; rw [ha] at hk; cases hk
    intro k
    cases e1 : AMap.get l1 k with
    | some v => exact (half h2 n1 hp.symm k v e1).symm
    | none =>
      cases e2 : AMap.get l2 k with
      | none => rfl
      | some v => rw [half h1 n2 hp k v e2] at e1; cases e1
  · intro h
    have hnd : ∀ {l : Labels}, AMap.WF l → l.Nodup := by
      intro l hl
      exact List.Pairwise.of_map Prod.fst (fun a b hab e => hab (congrArg Prod.fst e)) hl
    have hperm : List.Perm l2 l1 := by
      rw [List.perm_ext_iff_of_nodup (hnd h2) (hnd h1)]
      intro p
      obtain ⟨k, v⟩ := p
      rw [AMap.mem_iff_get h1, AMap.mem_iff_get h2, h k]
    have hl := hperm.length_eq
    simp only [getLabelsKeys, c2, ↓reduceIte]
    refine all_labels_key_canonical h1 n1 s1 hperm ?_ (sort_sorted _)
    rw [← hl]
    exact sort_perm _

/-- Non-vacuity, and typed values are told apart: the text "1" and the integer 1 are different. -/
example :
    (∃ k, getLabelsKeys [("b", .int 1), ("a", .str [49])] = .ok k) ∧
    getLabelsKeys [("a", .int 1)] ≠ getLabelsKeys [("a", .str [49])] := by
  refine ⟨⟨_, rfl⟩, ?_⟩
  intro h
  have := (all_labels_same_series_iff (l1 := [("a", .int 1)]) (l2 := [("a", .str [49])])
    (by simp [AMap.WF, AMap.keys]) (by simp [AMap.WF, AMap.keys]) (by decide) (by decide) (by decide) (by decide)).1 h "a"
  exact absurd this (by decide)

end Kindling.Agg
