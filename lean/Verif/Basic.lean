/-
Shared vocabulary of the model: outcomes of Go calls and finite maps.
-/
namespace Kindling

/-- Outcome of a Go call: a value, a returned `error`, or a run-time panic. -/
inductive Res (α : Type) where
  | ok (a : α)
  | err
  | panic
deriving Repr, DecidableEq

namespace Res
def bind {α β : Type} : Res α → (α → Res β) → Res β
  | .ok a, f => f a
  | .err, _ => .err
  | .panic, _ => .panic
instance : Monad Res where
  pure := .ok
  bind := Res.bind
@[simp] theorem bind_ok {α β} (a : α) (f : α → Res β) : (Res.ok a >>= f) = f a := rfl
@[simp] theorem bind_err {α β} (f : α → Res β) : ((Res.err : Res α) >>= f) = .err := rfl
@[simp] theorem bind_panic {α β} (f : α → Res β) : ((Res.panic : Res α) >>= f) = .panic := rfl
@[simp] theorem pure_eq {α} (a : α) : (pure a : Res α) = .ok a := rfl
end Res

/-- Two lists related element by element. -/
inductive All2 {α β : Type} (R : α → β → Prop) : List α → List β → Prop
  | nil : All2 R [] []
  | cons {a b as bs} : R a b → All2 R as bs → All2 R (a :: as) (b :: bs)

theorem All2.imp {α β : Type} {R S : α → β → Prop} {l : List α} {l' : List β} (h : All2 R l l')
    (f : ∀ a b, a ∈ l → b ∈ l' → R a b → S a b) : All2 S l l' := by
  induction h with
  | nil => exact .nil
  | cons h1 h2 ih =>
    exact .cons (f _ _ (by simp) (by simp) h1)
      (ih (fun a b ha hb => f a b (by simp [ha]) (by simp [hb])))

theorem All2.length {α β : Type} {R : α → β → Prop} {l : List α} {l' : List β} (h : All2 R l l') :
    l.length = l'.length := by
  induction h with
  | nil => rfl
  | cons _ _ ih => simp [ih]

theorem All2.mem_left {α β : Type} {R : α → β → Prop} {l : List α} {l' : List β} (h : All2 R l l')
    {a : α} (ha : a ∈ l) : ∃ b ∈ l', R a b := by
  induction h with
  | nil => simp at ha
  | cons h1 h2 ih =>
    rcases List.mem_cons.1 ha with rfl | ha
    · exact ⟨_, by simp, h1⟩
    · obtain ⟨b, hb, hr⟩ := ih ha
      exact ⟨b, by simp [hb], hr⟩

theorem All2.mem_right {α β : Type} {R : α → β → Prop} {l : List α} {l' : List β} (h : All2 R l l')
    {b : β} (hb : b ∈ l') : ∃ a ∈ l, R a b := by
  induction h with
  | nil => simp at hb
  | cons h1 h2 ih =>
    rcases List.mem_cons.1 hb with rfl | hb
    · exact ⟨_, by simp, h1⟩
    · obtain ⟨a, ha, hr⟩ := ih hb
      exact ⟨a, by simp [ha], hr⟩

theorem All2.append {α β : Type} {R : α → β → Prop} {l1 l2 : List α} {l1' l2' : List β}
    (h1 : All2 R l1 l1') (h2 : All2 R l2 l2') : All2 R (l1 ++ l2) (l1' ++ l2') := by
  induction h1 with
  | nil => exact h2
  | cons h _ ih => exact .cons h ih

/-- Map a partial function over a list; `none` if it fails anywhere. -/
def mapOpt {α β : Type} (f : α → Option β) : List α → Option (List β)
  | [] => some []
  | x :: r => match f x with
    | none => none
    | some y => match mapOpt f r with
      | none => none
      | some ys => some (y :: ys)

theorem mapOpt_cons_eq_some {α β : Type} {f : α → Option β} {x : α} {r : List α} {l : List β} :
    mapOpt f (x :: r) = some l ↔ ∃ y ys, f x = some y ∧ mapOpt f r = some ys ∧ l = y :: ys := by
  simp only [mapOpt]
  cases f x with
  | none => simp
  | some y => cases mapOpt f r with
    | none => simp
    | some ys => simp [eq_comm]

theorem mapOpt_all2 {α β : Type} {f : α → Option β} {l : List α} {l' : List β} (h : mapOpt f l = some l') :
    All2 (fun a b => f a = some b) l l' := by
  induction l generalizing l' with
  | nil => simp [mapOpt] at h; subst h; exact .nil
  | cons x r ih =>
    obtain ⟨y, ys, h1, h2, rfl⟩ := mapOpt_cons_eq_some.1 h
    exact .cons h1 (ih h2)

theorem mapOpt_isSome {α β : Type} {f : α → Option β} {l : List α} (h : ∀ x ∈ l, (f x).isSome) :
    (mapOpt f l).isSome := by
  induction l with
  | nil => rfl
  | cons x r ih =>
    simp only [mapOpt]
    have hx := h x (by simp)
    cases hfx : f x with
    | none => simp [hfx] at hx
    | some y =>
      have := ih (fun z hz => h z (by simp [hz]))
      cases hr : mapOpt f r with
      | none => simp [hr] at this
      | some ys => rfl

theorem mapOpt_mem {α β : Type} {f : α → Option β} {l : List α} {l' : List β}
    (h : mapOpt f l = some l') {y : β} : y ∈ l' ↔ ∃ x ∈ l, f x = some y := by
  induction l generalizing l' with
  | nil => simp [mapOpt] at h; subst h; simp
  | cons x r ih =>
    obtain ⟨y', ys, h1, h2, h3⟩ := mapOpt_cons_eq_some.1 h
    subst h3
    simp only [List.mem_cons, ih h2, exists_eq_or_imp, h1, Option.some.injEq]
    constructor
    · rintro (h | h)
      · exact Or.inl h.symm
      · exact Or.inr h
    · rintro (h | h)
      · exact Or.inl h.symm
      · exact Or.inr h

theorem mapOpt_some {α β : Type} {f : α → Option β} {l : List α} {l' : List β}
    (h : mapOpt f l = some l') {x : α} (hx : x ∈ l) : ∃ y ∈ l', f x = some y := by
  induction l generalizing l' with
  | nil => simp at hx
  | cons z r ih =>
    obtain ⟨y', ys, h1, h2, h3⟩ := mapOpt_cons_eq_some.1 h
    subst h3
    rcases List.mem_cons.1 hx with rfl | hx
    · exact ⟨y', by simp, h1⟩
    · obtain ⟨y, hy, hf⟩ := ih h2 hx
      exact ⟨y, by simp [hy], hf⟩

/-! ### Finite maps as association lists

A Go map (or `sync.Map`) is an association list.  The order of the list stands for one
possible iteration order; theorems never depend on it unless stated. -/
abbrev AMap (κ α : Type) := List (κ × α)

namespace AMap
variable {κ α β : Type} [DecidableEq κ]

/-- `m[k]` with presence flag. -/
def get : AMap κ α → κ → Option α
  | [], _ => none
  | (k', v) :: r, k => if k' = k then some v else get r k

/-- `m[k] = v`. -/
def set : AMap κ α → κ → α → AMap κ α
  | [], k, v => [(k, v)]
  | (k', v') :: r, k, v => if k' = k then (k', v) :: r else (k', v') :: set r k v

/-- `delete(m, k)`. -/
def del : AMap κ α → κ → AMap κ α
  | [], _ => []
  | (k', v') :: r, k => if k' = k then del r k else (k', v') :: del r k

def keys (m : AMap κ α) : List κ := m.map (·.1)

@[simp] theorem get_nil (k : κ) : get ([] : AMap κ α) k = none := rfl

theorem get_set (m : AMap κ α) (k k' : κ) (v : α) :
    get (set m k v) k' = if k = k' then some v else get m k' := by
  induction m with
  | nil => simp [set, get]
  | cons p r ih =>
    obtain ⟨a, b⟩ := p
    simp only [set]
    split
    · subst_vars; simp only [get]; split <;> simp_all
    · simp only [get, ih]; split <;> simp_all
      intro h; subst h; simp_all

@[simp] theorem get_set_self (m : AMap κ α) (k : κ) (v : α) : get (set m k v) k = some v := by
  simp [get_set]

theorem get_set_ne (m : AMap κ α) {k k' : κ} (v : α) (h : k ≠ k') :
    get (set m k v) k' = get m k' := by
  simp [get_set, h]

theorem get_del (m : AMap κ α) (k k' : κ) :
    get (del m k) k' = if k = k' then none else get m k' := by
  induction m with
  | nil => simp [del, get]
  | cons p r ih =>
    obtain ⟨a, b⟩ := p
    simp only [del]
    split
    · subst_vars; rw [ih]; simp only [get]; split <;> simp_all
    · simp only [get, ih]; split <;> simp_all
      intro h; subst h; simp_all

@[simp] theorem get_del_self (m : AMap κ α) (k : κ) : get (del m k) k = none := by
  simp [get_del]

theorem get_del_ne (m : AMap κ α) {k k' : κ} (h : k ≠ k') : get (del m k) k' = get m k' := by
  simp [get_del, h]

theorem get_eq_none_iff (m : AMap κ α) (k : κ) : get m k = none ↔ k ∉ keys m := by
  induction m with
  | nil => simp [keys]
  | cons p r ih =>
    obtain ⟨a, b⟩ := p
    simp only [get, keys, List.map_cons, List.mem_cons, not_or]
    split
    · simp_all
    · rw [ih]; simp [keys]; intro _ h; simp_all

theorem mem_of_get {m : AMap κ α} {k : κ} {v : α} (h : get m k = some v) : (k, v) ∈ m := by
  induction m with
  | nil => simp at h
  | cons p r ih =>
    obtain ⟨a, b⟩ := p
    simp only [get] at h
    split at h
    · simp_all
    · exact List.mem_cons_of_mem _ (ih h)

theorem get_isSome_of_mem {m : AMap κ α} {k : κ} (h : k ∈ keys m) : ∃ v, get m k = some v := by
  cases hg : get m k with
  | none => exact absurd h ((get_eq_none_iff m k).1 hg)
  | some v => exact ⟨v, rfl⟩

/-- No key occurs twice. -/
def WF (m : AMap κ α) : Prop := (keys m).Nodup

omit [DecidableEq κ] in
@[simp] theorem wf_nil : WF ([] : AMap κ α) := by simp [WF, keys]

theorem mem_keys_set {m : AMap κ α} {k k' : κ} {v : α} :
    k' ∈ keys (set m k v) ↔ k' = k ∨ k' ∈ keys m := by
  by_cases h : k' = k
  · subst h
    simp only [true_or, iff_true]
    exact Classical.byContradiction (fun hn => by
      have := (get_eq_none_iff (set m k' v) k').2 hn
      simp at this)
  · have h1 := (get_eq_none_iff (set m k v) k')
    rw [get_set_ne _ _ (Ne.symm h), get_eq_none_iff] at h1
    simp only [h, false_or]
    constructor
    · intro hk; exact Classical.byContradiction (fun hn => (h1.1 hn) hk)
    · intro hk; exact Classical.byContradiction (fun hn => (h1.2 hn) hk)

theorem mem_keys_del {m : AMap κ α} {k k' : κ} :
    k' ∈ keys (del m k) ↔ k' ≠ k ∧ k' ∈ keys m := by
  induction m with
  | nil => simp [del, keys]
  | cons p r ih =>
    obtain ⟨a, b⟩ := p
    simp only [del]
    split
    · subst_vars; rw [ih]; simp only [keys, List.map_cons, List.mem_cons]
      constructor
      · rintro ⟨h1, h2⟩; exact ⟨h1, Or.inr h2⟩
      · rintro ⟨h1, h2⟩; exact ⟨h1, h2.resolve_left h1⟩
    · simp only [keys, List.map_cons, List.mem_cons] at *
      rw [ih]
      constructor
      · rintro (h | ⟨h1, h2⟩)
        · subst h; simp_all
        · exact ⟨h1, Or.inr h2⟩
      · rintro ⟨h1, (h | h)⟩
        · exact Or.inl h
        · exact Or.inr ⟨h1, h⟩

theorem WF.set {m : AMap κ α} (h : WF m) (k : κ) (v : α) : WF (AMap.set m k v) := by
  induction m with
  | nil => simp [AMap.set, WF, keys]
  | cons p r ih =>
    obtain ⟨a, b⟩ := p
    have hr : WF r := by simp [WF, keys] at h ⊢; exact h.2
    simp only [AMap.set]
    split
    · simpa [WF, keys] using h
    · have := ih hr
      simp only [WF, keys, List.map_cons, List.nodup_cons] at *
      refine ⟨?_, this⟩
      intro hm
      have : a ∈ AMap.keys (AMap.set r k v) := hm
      rw [mem_keys_set] at this
      rcases this with h' | h'
      · simp_all
      · exact h.1 h'

theorem WF.del {m : AMap κ α} (h : WF m) (k : κ) : WF (AMap.del m k) := by
  induction m with
  | nil => simp [AMap.del]
  | cons p r ih =>
    obtain ⟨a, b⟩ := p
    have hr : WF r := by simp [WF, keys] at h ⊢; exact h.2
    simp only [AMap.del]
    split
    · exact ih hr
    · have := ih hr
      simp only [WF, keys, List.map_cons, List.nodup_cons] at *
      refine ⟨?_, this⟩
      intro hm
      have : a ∈ AMap.keys (AMap.del r k) := hm
      rw [mem_keys_del] at this
      exact h.1 this.2

theorem get_of_mem {m : AMap κ α} (hw : WF m) {k : κ} {v : α} (h : (k, v) ∈ m) :
    get m k = some v := by
  induction m with
  | nil => simp at h
  | cons p r ih =>
    obtain ⟨a, b⟩ := p
    simp only [WF, keys, List.map_cons, List.nodup_cons] at hw
    simp only [get]
    rcases List.mem_cons.1 h with h | h
    · cases h; simp
    · have : k ∈ r.map (·.1) := List.mem_map.2 ⟨_, h, rfl⟩
      have hne : a ≠ k := by rintro rfl; exact hw.1 this
      simp [hne]; exact ih hw.2 h

theorem mem_iff_get {m : AMap κ α} (hw : WF m) {k : κ} {v : α} : (k, v) ∈ m ↔ get m k = some v :=
  ⟨get_of_mem hw, mem_of_get⟩

theorem length_set_of_none {m : AMap κ α} {k : κ} {v : α} (h : get m k = none) :
    (set m k v).length = m.length + 1 := by
  induction m with
  | nil => simp [set]
  | cons p r ih =>
    obtain ⟨a, b⟩ := p
    simp only [get] at h
    split at h
    · simp at h
    · simp_all [set]

theorem length_set_of_some {m : AMap κ α} {k : κ} {v w : α} (h : get m k = some w) :
    (set m k v).length = m.length := by
  induction m with
  | nil => simp at h
  | cons p r ih =>
    obtain ⟨a, b⟩ := p
    simp only [get] at h
    split at h
    · simp_all [set]
    · simp_all [set]

theorem del_eq_self {m : AMap κ α} {k : κ} (h : get m k = none) : del m k = m := by
  induction m with
  | nil => rfl
  | cons p r ih =>
    obtain ⟨a, b⟩ := p
    simp only [get] at h
    split at h
    · simp at h
    · simp_all [del]

theorem length_del_of_some {m : AMap κ α} (hw : WF m) {k : κ} {w : α} (h : get m k = some w) :
    (del m k).length + 1 = m.length := by
  induction m with
  | nil => simp at h
  | cons p r ih =>
    obtain ⟨a, b⟩ := p
    have hwr : WF r := by simp [WF, keys] at hw ⊢; exact hw.2
    simp only [get] at h
    split at h
    · subst_vars
      have : get r a = none := by
        rw [get_eq_none_iff]; simp [WF, keys] at hw ⊢; exact hw.1
      simp [del, del_eq_self this]
    · simp_all [del]

end AMap
theorem get_filter {α κ : Type} [DecidableEq κ] {m : AMap κ α} (hw : AMap.WF m) (f : κ × α → Bool) (k : κ) :
    AMap.get (m.filter f) k = match AMap.get m k with
      | none => none
      | some v => if f (k, v) then some v else none := by
  induction m with
  | nil => rfl
  | cons p r ih =>
    obtain ⟨a, b⟩ := p
    have hwr : AMap.WF r := by
      simp only [AMap.WF, AMap.keys, List.map_cons, List.nodup_cons] at hw ⊢; exact hw.2
    have hna : AMap.get r a = none := by
      rw [AMap.get_eq_none_iff]
      simp only [AMap.WF, AMap.keys, List.map_cons, List.nodup_cons] at hw ⊢; exact hw.1
    simp only [List.filter_cons]
    by_cases hak : a = k
    · subst hak
      by_cases hf : f (a, b)
      · simp [hf, AMap.get]
      · simp only [hf, AMap.get, ↓reduceIte]
        simp [ih hwr, hna]
    · by_cases hf : f (a, b)
      · simp [hf, AMap.get, hak, ih hwr]
      · simp [hf, AMap.get, hak, ih hwr]

theorem wf_filter {α κ : Type} {m : AMap κ α} (hw : AMap.WF m) (f : κ × α → Bool) :
    AMap.WF (m.filter f) := by
  simp only [AMap.WF, AMap.keys] at hw ⊢
  exact hw.sublist (List.filter_sublist.map _)

theorem get_mapv {α β κ : Type} [DecidableEq κ] (m : AMap κ α) (f : α → β) (k : κ) :
    AMap.get (m.map (fun p => (p.1, f p.2))) k = (AMap.get m k).map f := by
  induction m with
  | nil => rfl
  | cons p r ih =>
    obtain ⟨a, b⟩ := p
    simp only [List.map_cons, AMap.get]
    split <;> simp [ih]

/-- Induction on lists from the end. -/
theorem snoc_ind {α : Type} {P : List α → Prop} (nil : P []) (snoc : ∀ l a, P l → P (l ++ [a])) (l : List α) : P l := by
  have : P l.reverse.reverse := by
    induction l.reverse with
    | nil => exact nil
    | cons a r ih => rw [List.reverse_cons]; exact snoc _ _ ih
  rwa [List.reverse_reverse] at this

end Kindling
