import Verif.Basic
/-
The per-port cache of protocol parsers, with the memory it shares.

`collector/pkg/component/analyzer/network/protocol/factory/factory.go`.  The cache keeps one Go
slice of parser pointers per port, edits it in place with `append`, and hands the slice itself
to readers that go through it without the lock.  Backing arrays are therefore explicit: a slice
is an array number and a length (all slices here start at cell 0), `append` writes into the
array when its capacity allows and allocates a new array otherwise.  How much spare capacity the
Go run time gives a new array is a parameter of every theorem.

Simplified: parsers are values of an arbitrary type compared for equality, as the code compares
pointers; the methods run one at a time (they hold `mutex`), only the readers of
`GetCachedParsersByPort` are outside the lock.
-/
namespace Kindling.Net.Cache
variable {P : Type} [DecidableEq P]
set_option linter.unusedSectionVars false

/-- A Go slice starting at cell 0 of its backing array. -/
structure Slice where
  arr : Nat
  len : Nat
deriving DecidableEq, Repr

/-- The backing arrays (a `none` cell is a nil pointer) and `cachePortParsersMap`
(factory.go:20). -/
structure St (P : Type) where
  heap : List (List (Option P))
  ports : AMap Nat Slice

def cells (hp : List (List (Option P))) (a : Nat) : List (Option P) := (hp[a]?).getD []

/-- What a slice shows now. -/
def view (hp : List (List (Option P))) (s : Slice) : List (Option P) := (cells hp s.arr).take s.len

/-- Go's `append(s, x)`; `grow` is the spare capacity given to a new array. -/
def append (grow : Nat → Nat) (hp : List (List (Option P))) (s : Slice) (x : Option P) :
    List (List (Option P)) × Slice :=
  if s.len < (cells hp s.arr).length then
    (hp.set s.arr ((cells hp s.arr).set s.len x), ⟨s.arr, s.len + 1⟩)
  else
    (hp ++ [view hp s ++ x :: List.replicate (grow s.len) none], ⟨hp.length, s.len + 1⟩)

/-- `GetCachedParsersByPort` (factory.go:61-67): the stored slice itself. -/
def getCached (σ : St P) (port : Nat) : Option Slice := AMap.get σ.ports port

/-- `AddCachedParser` (factory.go:69-97). -/
def add (grow : Nat → Nat) (g : P) (σ : St P) (port : Nat) (p : P) : St P :=
  match AMap.get σ.ports port with
  | none =>
    let r := (σ.heap ++ [some p :: List.replicate (grow 0) none], Slice.mk σ.heap.length 1)
    ⟨r.1, AMap.set σ.ports port r.2⟩
  | some s =>
    if some p ∈ view σ.heap s then σ
    else if 0 < s.len ∧ (view σ.heap s).getLast? = some (some g) then
      let r1 := append grow σ.heap ⟨s.arr, s.len - 1⟩ (some p)
      let r2 := append grow r1.1 r1.2 (some g)
      ⟨r2.1, AMap.set σ.ports port r2.2⟩
    else
      let r := append grow σ.heap s (some p)
      ⟨r.1, AMap.set σ.ports port r.2⟩

/-- One turn of the loop of `RemoveCachedParser` (factory.go:102-107) at index `i`: the cell is
read from the array as it is now; on a match the tail of the current slice is moved down in
place.  `none` is the panic of `val[i+1:]` beyond the current length. -/
def removeAt (p : P) (port : Nat) (i : Nat) (x : St P × Slice) : Option (St P × Slice) :=
  if (cells x.1.heap x.2.arr)[i]? = some (some p) then
    if i + 1 ≤ x.2.len then
      let c := cells x.1.heap x.2.arr
      let c' := c.take i ++ (c.take x.2.len).drop (i + 1) ++ c.drop (x.2.len - 1)
      let s' : Slice := ⟨x.2.arr, x.2.len - 1⟩
      some (⟨x.1.heap.set x.2.arr c', AMap.set x.1.ports port s'⟩, s')
    else none
  else some x

/-- The whole loop over the indices of the slice as it was at the start. -/
def removeLoop (p : P) (port : Nat) : List Nat → St P × Slice → Option (St P × Slice)
  | [], x => some x
  | i :: is, x => match removeAt p port i x with
    | none => none
    | some x' => removeLoop p port is x'

/-- `RemoveCachedParser` (factory.go:99-111). -/
def remove (σ : St P) (port : Nat) (p : P) : Option (St P) :=
  match AMap.get σ.ports port with
  | none => some σ
  | some s => (removeLoop p port (List.range s.len) (σ, s)).map (·.1)

/-! ### Specification -/

/-- The parsers of a port, as a plain list. -/
def listOf (σ : St P) (port : Nat) : List P :=
  match AMap.get σ.ports port with
  | none => []
  | some s => (view σ.heap s).filterMap id

def specAdd (g : P) (l : List P) (p : P) : List P :=
  if p ∈ l then l else if l.getLast? = some g then l.dropLast ++ [p, g] else l ++ [p]

def specRemove (l : List P) (p : P) : List P := l.filter (· ≠ p)

inductive Op (P : Type) where
  | add (port : Nat) (p : P)
  | remove (port : Nat) (p : P)

def step (grow : Nat → Nat) (g : P) (σ : St P) : Op P → Option (St P)
  | .add port p => some (add grow g σ port p)
  | .remove port p => remove σ port p

def run (grow : Nat → Nat) (g : P) (σ : St P) : List (Op P) → Option (St P)
  | [] => some σ
  | o :: os => match step grow g σ o with
    | none => none
    | some σ' => run grow g σ' os

def init : St P := ⟨[], []⟩

/-- Memory is in order: every stored slice lies in an existing array of sufficient size, holds no
nil pointer, and no two ports use the same array. -/
structure Inv (g : P) (σ : St P) : Prop where
  ok : ∀ port s, AMap.get σ.ports port = some s →
    s.arr < σ.heap.length ∧ s.len ≤ (cells σ.heap s.arr).length ∧
    ∃ l : List P, view σ.heap s = l.map some ∧ l.Nodup ∧ (g ∈ l → l.getLast? = some g)
  inj : ∀ port port' s s', AMap.get σ.ports port = some s → AMap.get σ.ports port' = some s' →
    s.arr = s'.arr → port = port'

theorem inv_init (g : P) : Inv g (init : St P) :=
  ⟨fun port s h => by simp [init] at h, fun port port' s s' h => by simp [init] at h⟩

/-! ### Arrays -/

theorem cells_set_self {hp : List (List (Option P))} {a : Nat} (h : a < hp.length) (c : List (Option P)) :
    cells (hp.set a c) a = c := by
  simp [cells, h]

theorem cells_set_ne {hp : List (List (Option P))} {a b : Nat} (h : a ≠ b) (c : List (Option P)) :
    cells (hp.set a c) b = cells hp b := by
  simp [cells, List.getElem?_set_ne h]

theorem cells_snoc_old {hp : List (List (Option P))} {a : Nat} (h : a < hp.length) (c : List (Option P)) :
    cells (hp ++ [c]) a = cells hp a := by
  simp [cells, List.getElem?_append_left h]

theorem cells_snoc_new {hp : List (List (Option P))} (c : List (Option P)) :
    cells (hp ++ [c]) hp.length = c := by
  simp [cells]

/-- What `append` does: the new slice shows the old contents and the new element; arrays other
than the slice's own are as before; the new slice lives in the old array or in a fresh one. -/
theorem append_spec (grow : Nat → Nat) {hp : List (List (Option P))} {s : Slice} (x : Option P)
    (ha : s.arr < hp.length) (hl : s.len ≤ (cells hp s.arr).length) :
    view (append grow hp s x).1 (append grow hp s x).2 = view hp s ++ [x] ∧
    (append grow hp s x).2.arr < (append grow hp s x).1.length ∧
    (append grow hp s x).2.len ≤ (cells (append grow hp s x).1 (append grow hp s x).2.arr).length ∧
    hp.length ≤ (append grow hp s x).1.length ∧
    ((append grow hp s x).2.arr = s.arr ∨ (append grow hp s x).2.arr = hp.length) ∧
    (∀ b, b < hp.length → b ≠ s.arr → cells (append grow hp s x).1 b = cells hp b) := by
  unfold append
  split
  · rename_i hlt
    simp only [view, cells_set_self ha]
    refine ⟨?_, by simpa using ha, by simp; omega, by simp, by simp, ?_⟩
    · rw [List.take_add_one, List.getElem?_set_self hlt, List.take_set_of_le (Nat.le_refl _)]; rfl
    · intro b hb hne
      exact cells_set_ne (Ne.symm hne) _
  · rename_i hlt
    have hlen : s.len = (cells hp s.arr).length := by omega
    simp only [view, cells_snoc_new]
    refine ⟨?_, by simp, by simp; omega, by simp, by simp, ?_⟩
    · rw [List.take_append]
      have : List.take (s.len + 1) (List.take s.len (cells hp s.arr)) = List.take s.len (cells hp s.arr) := by
        rw [List.take_take]; congr 1; omega
      rw [this]
      simp [hlen]
    · intro b hb _
      exact cells_snoc_old hb _

theorem view_filterMap {hp : List (List (Option P))} {s : Slice} {l : List P}
    (h : view hp s = l.map some) : (view hp s).filterMap id = l := by
  rw [h]; simp

/-- Storing a new slice for one port keeps the memory in order and leaves every other port's
parsers as they were. -/
theorem inv_put {g : P} {σ : St P} (hinv : Inv g σ) (port : Nat) (hp' : List (List (Option P))) (s' : Slice)
    (l' : List P) (hlen : σ.heap.length ≤ hp'.length) (ha : s'.arr < hp'.length)
    (hl : s'.len ≤ (cells hp' s'.arr).length) (hv : view hp' s' = l'.map some) (hnd : l'.Nodup)
    (hg : g ∈ l' → l'.getLast? = some g)
    (hother : ∀ port' s, port' ≠ port → AMap.get σ.ports port' = some s →
      cells hp' s.arr = cells σ.heap s.arr ∧ s.arr ≠ s'.arr) :
    Inv g ⟨hp', AMap.set σ.ports port s'⟩ ∧
    (∀ q, listOf ⟨hp', AMap.set σ.ports port s'⟩ q = if q = port then l' else listOf σ q) := by
  refine ⟨⟨?_, ?_⟩, ?_⟩
  · intro q s hq
    simp only [AMap.get_set] at hq
    split at hq
    · cases hq; exact ⟨ha, hl, l', hv, hnd, hg⟩
    · rename_i hne
      obtain ⟨h1, h2, l, h3, h4, h5⟩ := hinv.ok q s hq
      have hc := (hother q s (Ne.symm hne) hq).1
      refine ⟨by simp only; omega, by simp only [hc]; exact h2, l, ?_, h4, h5⟩
      simp only [view, hc]; exact h3
  · intro q q' s s2 hq hq' harr
    simp only [AMap.get_set] at hq hq'
    split at hq
    · cases hq
      split at hq'
      · subst_vars; rfl
      · rename_i hne
        exact absurd harr.symm (hother q' s2 (Ne.symm hne) hq').2
    · rename_i hne
      split at hq'
      · cases hq'; exact absurd harr (hother q s (Ne.symm hne) hq).2
      · exact hinv.inj _ _ _ _ hq hq' harr
  · intro q
    simp only [listOf, AMap.get_set]
    by_cases hqp : q = port
    · subst hqp
      simp only [↓reduceIte]
      exact view_filterMap hv
    · rw [if_neg (Ne.symm hqp), if_neg hqp]
      cases hq : AMap.get σ.ports q with
      | none => rfl
      | some s => simp only [view, (hother q s hqp hq).1]

theorem listOf_some {g : P} {σ : St P} (hinv : Inv g σ) {port : Nat} {s : Slice}
    (h : AMap.get σ.ports port = some s) :
    view σ.heap s = (listOf σ port).map some ∧ (listOf σ port).Nodup ∧
    (g ∈ listOf σ port → (listOf σ port).getLast? = some g) := by
  obtain ⟨_, _, l, h3, h4, h5⟩ := hinv.ok port s h
  have : listOf σ port = l := by simp only [listOf, h]; exact view_filterMap h3
  rw [this]; exact ⟨h3, h4, h5⟩

theorem specAdd_nodup {g p : P} {l : List P} (h : l.Nodup) (hg : g ∈ l → l.getLast? = some g) :
    (specAdd g l p).Nodup ∧ (g ∈ specAdd g l p → (specAdd g l p).getLast? = some g) ∧
    (∀ q, q ∈ specAdd g l p ↔ q = p ∨ q ∈ l) := by
  unfold specAdd
  split
  · rename_i hp
    exact ⟨h, hg, fun q => ⟨Or.inr, fun h => h.elim (fun h => h ▸ hp) id⟩⟩
  · rename_i hp
    split
    · rename_i hlast
      obtain ⟨l0, rfl⟩ : ∃ l0, l = l0 ++ [g] := by
        rw [List.getLast?_eq_some_iff] at hlast; exact hlast
      simp only [List.dropLast_concat]
      simp only [List.mem_append, List.mem_singleton, not_or] at hp
      refine ⟨?_, fun _ => by simp, fun q => by simp; grind⟩
      simp only [List.nodup_append] at h ⊢
      refine ⟨h.1, by simp; exact hp.2, ?_⟩
      intro a ha b hb
      simp only [List.mem_cons, List.not_mem_nil, or_false] at hb
      rcases hb with rfl | rfl
      · rintro rfl; exact hp.1 ha
      · exact h.2.2 a ha b (by simp)
    · rename_i hlast
      refine ⟨?_, ?_, fun q => by simp; grind⟩
      · rw [List.nodup_append]
        exact ⟨h, by simp, fun a ha b hb => by simp at hb; subst hb; rintro rfl; exact hp ha⟩
      · intro hm
        simp only [List.mem_append, List.mem_singleton] at hm
        rcases hm with hm | hm
        · exact absurd (hg hm) hlast
        · subst hm; simp

/-- Adding is the list operation, on this port only. -/
theorem add_refines (grow : Nat → Nat) {g : P} {σ : St P} (hinv : Inv g σ) (port : Nat) (p : P) :
    Inv g (add grow g σ port p) ∧
    ∀ q, listOf (add grow g σ port p) q = if q = port then specAdd g (listOf σ port) p else listOf σ q := by
  unfold add
  cases hs : AMap.get σ.ports port with
  | none =>
    have hl : listOf σ port = [] := by simp [listOf, hs]
    have hsp : specAdd g [] p = [p] := by simp [specAdd]
    rw [hl, hsp]
    refine inv_put hinv port _ _ [p] (by simp) (by simp) (by rw [cells_snoc_new]; simp) ?_ (by simp)
      (by simp [eq_comm]) ?_
    · simp only [view, cells_snoc_new]; simp
    · intro q s _ hq
      have := (hinv.ok q s hq).1
      exact ⟨cells_snoc_old this _, by simp only; omega⟩
  | some s =>
    obtain ⟨hv, hnd, hg⟩ := listOf_some hinv hs
    obtain ⟨ha, hl, _⟩ := hinv.ok port s hs
    have hmem : some p ∈ view σ.heap s ↔ p ∈ listOf σ port := by rw [hv]; simp
    have hlast : (view σ.heap s).getLast? = some (some g) ↔ (listOf σ port).getLast? = some g := by
      rw [hv, List.getLast?_map]; cases (listOf σ port).getLast? <;> simp
    have hsl : s.len = (listOf σ port).length := by
      have := congrArg List.length hv
      simp only [view, List.length_take, List.length_map] at this
      omega
    obtain ⟨n1, n2, n3⟩ := specAdd_nodup (p := p) hnd hg
    have hoth : ∀ q s2, q ≠ port → AMap.get σ.ports q = some s2 → s2.arr < σ.heap.length ∧ s2.arr ≠ s.arr :=
      fun q s2 hne hq => ⟨(hinv.ok q s2 hq).1, fun h => hne (hinv.inj _ _ _ _ hq hs h)⟩
    simp only [hmem, hlast]
    by_cases hp : p ∈ listOf σ port
    · rw [if_pos hp]
      have : specAdd g (listOf σ port) p = listOf σ port := by simp [specAdd, hp]
      rw [this]
      exact ⟨hinv, fun q => by split <;> simp_all⟩
    · rw [if_neg hp]
      by_cases hgl : (listOf σ port).getLast? = some g
      · have h0 : 0 < s.len := by
          rw [hsl]; cases hll : listOf σ port with
          | nil => simp [hll] at hgl
          | cons _ _ => simp
        rw [if_pos ⟨h0, hgl⟩]
        have hsp : specAdd g (listOf σ port) p = (listOf σ port).dropLast ++ [p, g] := by
          simp [specAdd, hp, hgl]
        obtain ⟨a1, a2, a3, a4, a5, a6⟩ := append_spec grow (s := ⟨s.arr, s.len - 1⟩) (some p) ha
          (show s.len - 1 ≤ _ by simp only; omega)
        generalize append grow σ.heap ⟨s.arr, s.len - 1⟩ (some p) = r1 at *
        obtain ⟨b1, b2, b3, b4, b5, b6⟩ := append_spec grow (s := r1.2) (some g) a2 a3
        generalize append grow r1.1 r1.2 (some g) = r2 at *
        have hvd : view σ.heap ⟨s.arr, s.len - 1⟩ = ((listOf σ port).dropLast).map some := by
          have : (view σ.heap s).dropLast = view σ.heap ⟨s.arr, s.len - 1⟩ := by
            simp only [view]
            rw [List.dropLast_eq_take, List.take_take, List.length_take]
            congr 1; omega
          rw [← this, hv, List.map_dropLast]
        refine inv_put hinv port r2.1 r2.2 _ (by omega) b2 b3 ?_ n1 n2 ?_
        · rw [b1, a1, hvd, hsp]; simp
        · intro q s2 hne hq
          obtain ⟨h1, h2⟩ := hoth q s2 hne hq
          have hn1 : s2.arr ≠ r1.2.arr := by
            rcases a5 with h | h
            · rw [h]; exact h2
            · omega
          refine ⟨?_, ?_⟩
          · rw [b6 _ (by omega) hn1, a6 _ h1 h2]
          · rcases b5 with h | h
            · rw [h]; exact hn1
            · omega
      · rw [if_neg (fun h => hgl h.2)]
        have hsp : specAdd g (listOf σ port) p = listOf σ port ++ [p] := by
          simp [specAdd, hp, hgl]
        obtain ⟨a1, a2, a3, a4, a5, a6⟩ := append_spec grow (some p) ha hl
        generalize append grow σ.heap s (some p) = r1 at *
        refine inv_put hinv port r1.1 r1.2 _ a4 a2 a3 ?_ n1 n2 ?_
        · rw [a1, hv, hsp]; simp
        · intro q s2 hne hq
          obtain ⟨h1, h2⟩ := hoth q s2 hne hq
          refine ⟨a6 _ h1 h2, ?_⟩
          rcases a5 with h | h
          · rw [h]; exact h2
          · omega

theorem removeLoop_append (p : P) (port : Nat) (is js : List Nat) (x : St P × Slice) :
    removeLoop p port (is ++ js) x = (removeLoop p port is x).bind (removeLoop p port js) := by
  induction is generalizing x with
  | nil => rfl
  | cons i is ih =>
    simp only [List.cons_append, removeLoop]
    cases removeAt p port i x with
    | none => rfl
    | some x' => exact ih x'

theorem removeLoop_noop (p : P) (port : Nat) (is : List Nat) (x : St P × Slice)
    (h : ∀ i ∈ is, (cells x.1.heap x.2.arr)[i]? ≠ some (some p)) : removeLoop p port is x = some x := by
  induction is with
  | nil => rfl
  | cons i is ih =>
    simp only [removeLoop]
    have : removeAt p port i x = some x := by
      unfold removeAt
      rw [if_neg (h i (by simp))]
    rw [this]
    exact ih (fun j hj => h j (by simp [hj]))

theorem range_split {k n : Nat} (h : k < n) :
    List.range n = List.range k ++ k :: List.range' (k + 1) (n - k - 1) := by
  rw [List.range_eq_range', List.range_eq_range']
  have : List.range' 0 n = List.range' 0 k ++ List.range' k (n - k) := by
    have := (List.range'_append (s := 0) (m := k) (n := n - k) (step := 1)).symm
    simp only [Nat.zero_add, Nat.one_mul] at this
    rw [show k + (n - k) = n by omega] at this
    exact this
  rw [this]
  congr 1
  have hn : n - k = (n - k - 1) + 1 := by omega
  rw [hn, List.range'_succ]
  simp

theorem specRemove_facts {g p : P} {l : List P} (h : l.Nodup) (hg : g ∈ l → l.getLast? = some g) :
    (specRemove l p).Nodup ∧ (g ∈ specRemove l p → (specRemove l p).getLast? = some g) ∧
    (∀ q, q ∈ specRemove l p ↔ q ≠ p ∧ q ∈ l) := by
  unfold specRemove
  refine ⟨h.sublist List.filter_sublist, ?_, fun q => by simp [and_comm]⟩
  intro hm
  simp only [List.mem_filter, ne_eq, decide_not, Bool.not_eq_eq_eq_not, Bool.not_true, decide_eq_false_iff_not] at hm
  have := hg hm.1
  rw [List.getLast?_eq_some_iff] at this
  obtain ⟨l0, rfl⟩ := this
  simp [List.filter_append, hm.2]

/-- Removing never fails and is the list operation, on this port only. -/
theorem remove_refines {g : P} {σ : St P} (hinv : Inv g σ) (port : Nat) (p : P) :
    ∃ σ', remove σ port p = some σ' ∧ Inv g σ' ∧
    ∀ q, listOf σ' q = if q = port then specRemove (listOf σ port) p else listOf σ q := by
  unfold remove
  cases hs : AMap.get σ.ports port with
  | none =>
    refine ⟨σ, rfl, hinv, fun q => ?_⟩
    split
    · subst_vars; simp [listOf, hs, specRemove]
    · rfl
  | some s =>
    obtain ⟨hv, hnd, hg⟩ := listOf_some hinv hs
    obtain ⟨ha, hl, _⟩ := hinv.ok port s hs
    have hsl : s.len = (listOf σ port).length := by
      have := congrArg List.length hv
      simp only [view, List.length_take, List.length_map] at this
      omega
    have hcell : ∀ i, i < s.len → (cells σ.heap s.arr)[i]? = ((listOf σ port)[i]?).map some := by
      intro i hi
      have := congrArg (·[i]?) hv
      simp only [view, List.getElem?_take_of_lt hi, List.getElem?_map] at this
      exact this
    have hoth : ∀ q s2, q ≠ port → AMap.get σ.ports q = some s2 → s2.arr < σ.heap.length ∧ s2.arr ≠ s.arr :=
      fun q s2 hne hq => ⟨(hinv.ok q s2 hq).1, fun h => hne (hinv.inj _ _ _ _ hq hs h)⟩
    obtain ⟨r1, r2, _⟩ := specRemove_facts (p := p) hnd hg
    simp only
    by_cases hp : p ∈ listOf σ port
    · obtain ⟨l1, l2, hl12⟩ := List.append_of_mem hp
      have hn12 := hnd
      rw [hl12, List.nodup_append, List.nodup_cons] at hn12
      obtain ⟨_, ⟨hp2, _⟩, hdisj⟩ := hn12
      have hp1 : p ∉ l1 := fun h => hdisj p h p (by simp) rfl
      have hspec : specRemove (listOf σ port) p = l1 ++ l2 := by
        rw [hl12]
        simp only [specRemove, List.filter_append, List.filter_cons, ne_eq, not_true_eq_false,
          decide_false, Bool.false_eq_true, ↓reduceIte]
        rw [List.filter_eq_self.2, List.filter_eq_self.2]
        · intro a ha; simp; rintro rfl; exact hp2 ha
        · intro a ha; simp; rintro rfl; exact hp1 ha
      have hn : s.len = l1.length + l2.length + 1 := by rw [hsl, hl12]; simp; omega
      rw [range_split (k := l1.length) (by omega), removeLoop_append]
      rw [removeLoop_noop]
      rotate_left
      · intro i hi
        simp only [List.mem_range] at hi
        simp only
        rw [hcell i (by omega), hl12, List.getElem?_append_left hi]
        intro h
        simp only [List.getElem?_eq_getElem hi, Option.map_some, Option.some.injEq] at h
        exact hp1 (h ▸ List.getElem_mem hi)
      simp only [Option.bind_some, removeLoop]
      have hmatch : (cells σ.heap s.arr)[l1.length]? = some (some p) := by
        rw [hcell _ (by omega), hl12]; simp
      have htake : (cells σ.heap s.arr).take s.len = (l1 ++ p :: l2).map some := by
        rw [← hl12]; exact hv
      have hdec : cells σ.heap s.arr = (l1 ++ p :: l2).map some ++ (cells σ.heap s.arr).drop s.len := by
        rw [← htake, List.take_append_drop]
      generalize htl : (cells σ.heap s.arr).drop s.len = tl at hdec
      have hstep : removeAt p port l1.length (σ, s) = some
          (⟨σ.heap.set s.arr ((l1 ++ l2).map some ++ (cells σ.heap s.arr).drop (s.len - 1)),
            AMap.set σ.ports port ⟨s.arr, s.len - 1⟩⟩, ⟨s.arr, s.len - 1⟩) := by
        unfold removeAt
        simp only [hmatch, ↓reduceIte]
        rw [if_pos (by omega)]
        have e1 : (cells σ.heap s.arr).take l1.length = l1.map some := by
          rw [hdec]; simp
        have e2 : ((cells σ.heap s.arr).take s.len).drop (l1.length + 1) = l2.map some := by
          rw [htake, List.map_append, List.map_cons]
          have := List.drop_length_add_append (i := 1) (l₁ := l1.map some) (l₂ := some p :: l2.map some)
          rw [List.length_map] at this
          rw [this]; rfl
        rw [e1, e2, List.map_append]
      rw [hstep]
      simp only
      rw [removeLoop_noop]
      · simp only [Option.map_some]
        have hput := inv_put hinv port
          (σ.heap.set s.arr ((l1 ++ l2).map some ++ (cells σ.heap s.arr).drop (s.len - 1)))
          ⟨s.arr, s.len - 1⟩ (l1 ++ l2) (by simp) (by simpa using ha)
          (by simp only [cells_set_self ha]; simp; omega)
          (by
            simp only [view, cells_set_self ha]
            rw [List.take_append_of_le_length (by simp; omega), List.take_of_length_le (by simp; omega)])
          (by rw [← hspec]; exact r1) (by rw [← hspec]; exact r2)
          (by
            intro q s2 hne hq
            obtain ⟨h1, h2⟩ := hoth q s2 hne hq
            exact ⟨cells_set_ne (Ne.symm h2) _, h2⟩)
        refine ⟨_, rfl, hput.1, ?_⟩
        rw [hspec]
        exact hput.2
      · intro i hi
        simp only [List.mem_range'_1] at hi
        simp only [cells_set_self ha]
        by_cases hlt : i < l1.length + l2.length
        · rw [List.getElem?_append_left (by simp; omega), List.getElem?_map,
            List.getElem?_append_right (by omega)]
          intro h
          rw [List.getElem?_eq_getElem (by omega)] at h
          simp only [Option.map_some, Option.some.injEq] at h
          exact hp2 (h ▸ List.getElem_mem _)
        · have hi' : i = l1.length + l2.length := by omega
          rw [List.getElem?_append_right (by simp; omega)]
          simp only [List.length_map, List.length_append, hi', Nat.sub_self, List.getElem?_drop, Nat.add_zero]
          rw [hcell _ (by omega), hl12]
          intro h
          have hne : l2 ≠ [] := by rintro rfl; simp at hi hi'; omega
          have : (l1 ++ p :: l2)[s.len - 1]? = l2[l2.length - 1]? := by
            rw [List.getElem?_append_right (by omega)]
            have : s.len - 1 - l1.length = (l2.length - 1) + 1 := by
              have := List.length_pos_iff.2 hne
              omega
            rw [this, List.getElem?_cons_succ]
          rw [this, List.getElem?_eq_getElem (by have := List.length_pos_iff.2 hne; omega)] at h
          simp only [Option.map_some, Option.some.injEq] at h
          exact hp2 (h ▸ List.getElem_mem _)
    · rw [removeLoop_noop]
      · have : specRemove (listOf σ port) p = listOf σ port := by
          unfold specRemove
          rw [List.filter_eq_self.2]
          intro a ha; simp; rintro rfl; exact hp ha
        refine ⟨σ, rfl, hinv, fun q => ?_⟩
        rw [this]; split <;> simp_all
      · intro i hi
        simp only [List.mem_range] at hi
        simp only
        rw [hcell i hi]
        intro h
        have hi' : i < (listOf σ port).length := by omega
        simp only [List.getElem?_eq_getElem hi', Option.map_some, Option.some.injEq] at h
        exact hp (h ▸ List.getElem_mem hi')

/-! ### C25 -/

/-- The latest operation on this port and parser is an addition. -/
def wanted (ops : List (Op P)) (port : Nat) (p : P) : Bool :=
  ops.foldl (fun b o => match o with
    | .add port' p' => if port' = port ∧ p' = p then true else b
    | .remove port' p' => if port' = port ∧ p' = p then false else b) false

theorem run_snoc (grow : Nat → Nat) (g : P) (ops : List (Op P)) (o : Op P) (σ : St P) :
    run grow g σ (ops ++ [o]) = (run grow g σ ops).bind (fun σ' => step grow g σ' o) := by
  induction ops generalizing σ with
  | nil => simp only [List.nil_append, run, Option.bind_some]; cases step grow g σ o <;> rfl
  | cons a as ih =>
    simp only [List.cons_append, run]
    cases step grow g σ a with
    | none => rfl
    | some σ' => exact ih σ'

/-- C25.  Whatever parsers are added to and removed from whatever ports, and however the run time
sizes arrays: no operation fails, no parser is listed twice for a port, the generic parser is
the last of its list when it is in it, and a parser is listed for a port exactly when the latest
operation naming the two was an addition. -/
theorem cache_history_partial (grow : Nat → Nat) (g : P) (ops : List (Op P)) :
    ∃ σ, run grow g init ops = some σ ∧ Inv g σ ∧ ∀ port,
      (listOf σ port).Nodup ∧
      (g ∈ listOf σ port → (listOf σ port).getLast? = some g) ∧
      ∀ p, p ∈ listOf σ port ↔ wanted ops port p = true := by
  induction ops using snoc_ind with
  | nil => exact ⟨init, rfl, inv_init g, fun port => by simp [listOf, init, wanted]⟩
  | snoc ops o ih =>
    obtain ⟨σ, hr, hinv, hall⟩ := ih
    rw [run_snoc, hr]
    simp only [Option.bind_some]
    cases o with
    | add port p =>
      obtain ⟨h1, h2⟩ := add_refines grow hinv port p
      refine ⟨_, rfl, h1, fun q => ?_⟩
      obtain ⟨k1, k2, k3⟩ := hall q
      rw [h2 q]
      by_cases hq : q = port
      · subst hq
        obtain ⟨n1, n2, n3⟩ := specAdd_nodup (p := p) k1 k2
        rw [if_pos rfl]
        refine ⟨n1, n2, fun p' => ?_⟩
        rw [n3, k3]
        simp only [wanted, List.foldl_append, List.foldl_cons, List.foldl_nil, true_and]
        by_cases hp : p = p'
        · simp [hp]
        · simp [hp, Ne.symm hp]
      · rw [if_neg hq]
        refine ⟨k1, k2, fun p' => ?_⟩
        rw [k3]
        simp [wanted, Ne.symm hq]
    | remove port p =>
      obtain ⟨σ', hs, h1, h2⟩ := remove_refines hinv port p
      refine ⟨σ', hs, h1, fun q => ?_⟩
      obtain ⟨k1, k2, k3⟩ := hall q
      rw [h2 q]
      by_cases hq : q = port
      · subst hq
        obtain ⟨n1, n2, n3⟩ := specRemove_facts (p := p) k1 k2
        rw [if_pos rfl]
        refine ⟨n1, n2, fun p' => ?_⟩
        rw [n3, k3]
        simp only [wanted, List.foldl_append, List.foldl_cons, List.foldl_nil, true_and]
        by_cases hp : p = p'
        · simp [hp]
        · simp [hp, Ne.symm hp]
      · rw [if_neg hq]
        refine ⟨k1, k2, fun p' => ?_⟩
        rw [k3]
        simp [wanted, Ne.symm hq]

/-- A run with two ports, spare capacity, a generic parser (0) and a removal. -/
example : (run (fun n => n) 0 init [Op.add 80 7, .add 80 0, .add 443 7, .add 80 5, .remove 80 7,
    .add 80 3]).map (fun σ => (listOf σ 80, listOf σ 443)) = some ([5, 3, 0], [7]) := by decide

/-- The list a reader goes through is not the list it was given: a reader that fetched the slice
of a port ending with the generic parser sees, after the next new parser is added to the port
with the same array large enough or not, that parser in the place of the generic one.  (The
`TODO` at network_analyzer.go:519 admits it.)  So the reader can finish its list without
trying the generic parser. -/
theorem reader_sees_add (grow : Nat → Nat) {g : P} {σ : St P} (hinv : Inv g σ) {port : Nat} {s : Slice}
    (hget : getCached σ port = some s) {l : List P} (hl : listOf σ port = l ++ [g]) {p : P}
    (hp : p ∉ listOf σ port) :
    view (add grow g σ port p).heap s = (l ++ [p]).map some := by
  have hs : AMap.get σ.ports port = some s := hget
  obtain ⟨hv, hnd, hg⟩ := listOf_some hinv hs
  obtain ⟨ha, hlen, _⟩ := hinv.ok port s hs
  have hsl : s.len = l.length + 1 := by
    have := congrArg List.length hv
    simp only [view, List.length_take, List.length_map, hl, List.length_append, List.length_singleton] at this
    omega
  have hnm : ¬ some p ∈ view σ.heap s := by rw [hv]; simpa using hp
  have hlast : (view σ.heap s).getLast? = some (some g) := by rw [hv, hl]; simp
  unfold add
  simp only [hs, hnm, ↓reduceIte, hlast]
  rw [if_pos ⟨by omega, trivial⟩]
  have hlt : s.len - 1 < (cells σ.heap s.arr).length := by omega
  have happ : append grow σ.heap ⟨s.arr, s.len - 1⟩ (some p) =
      (σ.heap.set s.arr ((cells σ.heap s.arr).set (s.len - 1) (some p)), ⟨s.arr, s.len - 1 + 1⟩) := by
    unfold append
    simp only [hlt, ↓reduceIte]
  rw [happ]
  simp only
  have hset : (cells σ.heap s.arr).take s.len = (l ++ [g]).map some := by rw [← hl]; exact hv
  have hres : ((cells σ.heap s.arr).set (s.len - 1) (some p)).take s.len = (l ++ [p]).map some := by
    rw [List.take_set, hset, show s.len - 1 = l.length by omega]
    simp
  unfold append
  split
  · simp only [view]
    rw [cells_set_self (by simpa using ha)]
    simp only [cells_set_self ha]
    rw [show s.len - 1 + 1 = s.len by omega, List.take_set_of_le (Nat.le_refl _)]
    exact hres
  · simp only [view]
    rw [cells_snoc_old (by simpa using ha), cells_set_self ha]
    exact hres

/-- Removing the generic parser — the only removal the analyzer does (network_analyzer.go:528) —
does not disturb a reader holding the slice. -/
theorem reader_keeps_on_remove {g : P} {σ σ' : St P} (hinv : Inv g σ) {port : Nat} {s : Slice}
    (hget : getCached σ port = some s) (hr : remove σ port g = some σ') :
    view σ'.heap s = view σ.heap s := by
  have hs : AMap.get σ.ports port = some s := hget
  obtain ⟨hv, hnd, hg⟩ := listOf_some hinv hs
  obtain ⟨ha, hlen, _⟩ := hinv.ok port s hs
  have hcell : ∀ i, i < s.len → (cells σ.heap s.arr)[i]? = ((listOf σ port)[i]?).map some := by
    intro i hi
    have := congrArg (·[i]?) hv
    simp only [view, List.getElem?_take_of_lt hi, List.getElem?_map] at this
    exact this
  have hsl : s.len = (listOf σ port).length := by
    have := congrArg List.length hv
    simp only [view, List.length_take, List.length_map] at this
    omega
  unfold remove at hr
  simp only [hs] at hr
  by_cases hp : g ∈ listOf σ port
  · obtain ⟨l0, hl0⟩ : ∃ l0, listOf σ port = l0 ++ [g] := by
      have := hg hp; rw [List.getLast?_eq_some_iff] at this; exact this
    have hp0 : g ∉ l0 := by
      rw [hl0, List.nodup_append] at hnd
      exact fun h => hnd.2.2 g h g (by simp) rfl
    have hn : s.len = l0.length + 1 := by rw [hsl, hl0]; simp
    rw [range_split (k := l0.length) (by omega), removeLoop_append, removeLoop_noop] at hr
    · simp only [Option.bind_some, removeLoop] at hr
      have hmatch : (cells σ.heap s.arr)[l0.length]? = some (some g) := by
        rw [hcell _ (by omega), hl0]; simp
      have hz : s.len - l0.length - 1 = 0 := by omega
      unfold removeAt at hr
      simp only [hmatch, ↓reduceIte] at hr
      rw [if_pos (by omega)] at hr
      simp only [hz, List.range'_zero, removeLoop, Option.map_some, Option.some.injEq] at hr
      subst hr
      simp only [view, cells_set_self ha]
      rw [List.drop_of_length_le (by rw [List.length_take]; omega), List.append_nil,
        show s.len - 1 = l0.length by omega, List.take_append_drop]
    · intro i hi
      simp only [List.mem_range] at hi
      simp only
      rw [hcell i (by omega), hl0, List.getElem?_append_left hi]
      intro h
      simp only [List.getElem?_eq_getElem hi, Option.map_some, Option.some.injEq] at h
      exact hp0 (h ▸ List.getElem_mem hi)
  · rw [removeLoop_noop] at hr
    · simp only [Option.map_some, Option.some.injEq] at hr
      rw [hr]
    · intro i hi
      simp only [List.mem_range] at hi
      simp only
      rw [hcell i hi]
      intro h
      have hi' : i < (listOf σ port).length := by omega
      simp only [List.getElem?_eq_getElem hi', Option.map_some, Option.some.injEq] at h
      exact hp (h ▸ List.getElem_mem hi')

end Kindling.Net.Cache
