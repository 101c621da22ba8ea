import Verif.Basic
/-
Cache of address translations.  metadata/conntracker/internal/conntracker.go:292-386 (conntrackCache) over
github.com/hashicorp/golang-lru/simplelru.  One lock guards every operation, so operations are steps.
-/
namespace Kindling.Conn.Cache

set_option linter.unusedSectionVars false
variable {K V : Type} [DecidableEq K]

/-- `translationEntry` (conntracker.go:55-58); an orphan is a pointer into the list, modelled by a number. -/
structure Ent (V : Type) where
  val : V
  orphan : Option Nat

/-- `orphanEntry` (conntracker.go:60-63) as element of the list. -/
structure Orph (K : Type) where
  id : Nat
  key : K
  expires : Nat

/-- `conntrackCache` (conntracker.go:292-296); the most recently used entry and the youngest orphan come first. -/
structure St (K V : Type) where
  lru : List (K × Ent V)
  orphans : List (Orph K)
  next : Nat

def init : St K V := ⟨[], [], 0⟩

def find (l : List (K × Ent V)) (k : K) : Option (Ent V) := match l with
  | [] => none
  | (k', e) :: r => if k' = k then some e else find r k

def eraseKey (l : List (K × Ent V)) (k : K) : List (K × Ent V) := l.filter (fun p => decide (p.1 ≠ k))

/-- The callback (conntracker.go:304-309), and 344-347: `list.Remove`. -/
def unlink (os : List (Orph K)) : Option Nat → List (Orph K)
  | none => os
  | some i => os.filter (fun o => decide (o.id ≠ i))

/-- `LRU.Remove`, with the callback. -/
def remove (s : St K V) (k : K) : St K V × Bool := match find s.lru k with
  | none => (s, false)
  | some e => (⟨eraseKey s.lru k, unlink s.orphans e.orphan, s.next⟩, true)

/-- `Get` (conntracker.go:314-327). -/
def get (s : St K V) (k : K) : St K V × Option V := match find s.lru k with
  | none => (s, none)
  | some e => (⟨(k, ⟨e.val, none⟩) :: eraseKey s.lru k, unlink s.orphans e.orphan, s.next⟩, some e.val)

/-- `LRU.removeOldest`, with the callback. -/
def removeOldest (s : St K V) : St K V := match s.lru.getLast? with
  | none => s
  | some (_, e) => ⟨s.lru.dropLast, unlink s.orphans e.orphan, s.next⟩

/-- The new entry (conntracker.go:350-358): without its orphan, or with the orphan at the front of the list. -/
def newEnt (s : St K V) (v : V) (orphan : Bool) : Ent V := ⟨v, if orphan then some s.next else none⟩
def newOrphans (s : St K V) (os : List (Orph K)) (k : K) (orphan : Bool) (exp : Nat) : List (Orph K) :=
  if orphan then ⟨s.next, k, exp⟩ :: os else os
def newNext (s : St K V) (orphan : Bool) : Nat := if orphan then s.next + 1 else s.next

/-- `registerTuple` (conntracker.go:334-363) for a key; the boolean tells whether something was evicted. -/
def register (max : Nat) (s : St K V) (k : K) (v : V) (orphan : Bool) (exp : Nat) : St K V × Bool := match find s.lru k with
  | some e =>
    (⟨(k, newEnt s v orphan) :: eraseKey s.lru k, newOrphans s (unlink s.orphans e.orphan) k orphan exp, newNext s orphan⟩, false)
  | none =>
    let s' : St K V := ⟨(k, newEnt s v orphan) :: s.lru, newOrphans s s.orphans k orphan exp, newNext s orphan⟩
    if s'.lru.length > max then (removeOldest s', true) else (s', false)

/-- `removeOrphans` (conntracker.go:374-386) for at most `fuel` rounds; `none` if it is not done by then. -/
def sweep (fuel : Nat) (s : St K V) (now : Nat) : Option (St K V × Nat) := match s.orphans.getLast? with
  | none => some (s, 0)
  | some o => if o.expires < now then match fuel with
      | 0 => none
      | n + 1 => match sweep n (remove s o.key).1 now with
        | none => none
        | some (s', r) => some (s', r + 1)
    else some (s, 0)

/-! ### Specification -/

/-- A translation with the time of its expiry, if it was never read. -/
structure Tr (K V : Type) where
  key : K
  val : V
  unread : Option Nat

namespace Spec

/-- The translations, the most recently used first. -/
abbrev S (K V : Type) := List (Tr K V)

def forget (l : S K V) (k : K) : S K V := l.filter (fun t => decide (t.key ≠ k))
def lookup (l : S K V) (k : K) : Option V := (l.find? (fun t => decide (t.key = k))).map (·.val)
def read (l : S K V) (k : K) : S K V := match lookup l k with
  | none => l
  | some v => ⟨k, v, none⟩ :: forget l k
def put (max : Nat) (l : S K V) (k : K) (v : V) (unread : Option Nat) : S K V := (⟨k, v, unread⟩ :: forget l k).take max
/-- A translation that nobody read before its time. -/
def Expired (now : Nat) (t : Tr K V) : Bool := match t.unread with
  | none => false
  | some x => decide (x < now)
def expire (l : S K V) (now : Nat) : S K V := l.filter (fun t => !Expired now t)

end Spec

/-! ### The lists agree -/

structure Inv (max : Nat) (s : St K V) : Prop where
  keys : (s.lru.map (·.1)).Nodup
  ids : (s.orphans.map (·.id)).Nodup
  fresh : ∀ o ∈ s.orphans, o.id < s.next
  linked : ∀ k e i, (k, e) ∈ s.lru → e.orphan = some i → ∃ o ∈ s.orphans, o.id = i ∧ o.key = k
  owned : ∀ o ∈ s.orphans, ∃ e, (o.key, e) ∈ s.lru ∧ e.orphan = some o.id
  size : s.lru.length ≤ max

/-- The expiry of an entry. -/
def expiry (os : List (Orph K)) (e : Ent V) : Option Nat := match e.orphan with
  | none => none
  | some i => (os.find? (fun o => decide (o.id = i))).map (·.expires)

/-- What a state stands for. -/
def abs (s : St K V) : Spec.S K V := s.lru.map (fun p => ⟨p.1, p.2.val, expiry s.orphans p.2⟩)

theorem init_inv (max : Nat) : Inv max (init : St K V) := by
  refine ⟨?_, ?_, ?_, ?_, ?_, ?_⟩ <;> simp [init]

theorem find_mem {l : List (K × Ent V)} {k : K} {e : Ent V} (h : find l k = some e) : (k, e) ∈ l := by
  induction l with
  | nil => cases h
  | cons p r ih =>
    obtain ⟨k', e'⟩ := p
    unfold find at h
    split at h
    · rename_i hk
      cases h
      rw [hk]
      simp
    · exact List.mem_cons_of_mem _ (ih h)

theorem find_none {l : List (K × Ent V)} {k : K} (h : find l k = none) : ∀ p ∈ l, p.1 ≠ k := by
  induction l with
  | nil => intro p hp; cases hp
  | cons p r ih =>
    obtain ⟨k', e'⟩ := p
    unfold find at h
    split at h
    · cases h
    · rename_i hk
      intro q hq
      rcases List.mem_cons.1 hq with rfl | hq
      · exact hk
      · exact ih h q hq

theorem key_unique {l : List (K × Ent V)} (hn : (l.map (·.1)).Nodup) {k : K} {e e' : Ent V} (h : (k, e) ∈ l) (h' : (k, e') ∈ l) : e = e' := by
  induction l with
  | nil => cases h
  | cons p r ih =>
    simp only [List.map_cons, List.nodup_cons] at hn
    rcases List.mem_cons.1 h with h | h <;> rcases List.mem_cons.1 h' with h' | h'
    · rw [← h] at h'; exact ((Prod.mk.injEq _ _ _ _ ▸ h').2).symm
    · exfalso; apply hn.1; rw [← h]; exact List.mem_map.2 ⟨_, h', rfl⟩
    · exfalso; apply hn.1; rw [← h']; exact List.mem_map.2 ⟨_, h, rfl⟩
    · exact ih hn.2 h h'

theorem mem_unlink {os : List (Orph K)} {x : Option Nat} {o : Orph K} : o ∈ unlink os x ↔ o ∈ os ∧ x ≠ some o.id := by
  cases x with
  | none => simp [unlink]
  | some i =>
    simp only [unlink, List.mem_filter, decide_eq_true_eq]
    constructor
    · exact fun h => ⟨h.1, fun hc => h.2 (Option.some.inj hc).symm⟩
    · exact fun h => ⟨h.1, fun hc => h.2 (by rw [hc])⟩

theorem unlink_sublist (os : List (Orph K)) (x : Option Nat) : (unlink os x).Sublist os := by
  cases x with
  | none => exact List.Sublist.refl _
  | some i => exact List.filter_sublist

theorem find_id {os : List (Orph K)} (hn : (os.map (·.id)).Nodup) {o : Orph K} (ho : o ∈ os) :
    os.find? (fun x => decide (x.id = o.id)) = some o := by
  induction os with
  | nil => cases ho
  | cons a r ih =>
    simp only [List.map_cons, List.nodup_cons] at hn
    rw [List.find?_cons]
    rcases List.mem_cons.1 ho with rfl | ho
    · simp
    · have : a.id ≠ o.id := fun hc => hn.1 (List.mem_map.2 ⟨o, ho, hc.symm⟩)
      rw [decide_eq_false this]
      exact ih hn.2 ho

/-- The expiry of an entry is that of its orphan. -/
theorem expiry_eq {max : Nat} {s : St K V} (h : Inv max s) {k : K} {e : Ent V} (he : (k, e) ∈ s.lru) :
    (e.orphan = none ∧ expiry s.orphans e = none) ∨
    ∃ o ∈ s.orphans, e.orphan = some o.id ∧ o.key = k ∧ expiry s.orphans e = some o.expires := by
  unfold expiry
  cases ho : e.orphan with
  | none => exact Or.inl ⟨rfl, rfl⟩
  | some i =>
    obtain ⟨o, ho', rfl, hk⟩ := h.linked k e i he ho
    exact Or.inr ⟨o, ho', rfl, hk, by simp only; rw [find_id h.ids ho']; rfl⟩

/-- Removing an entry and its orphan. -/
def cut (s : St K V) (k : K) (e : Ent V) : St K V := ⟨eraseKey s.lru k, unlink s.orphans e.orphan, s.next⟩

theorem mem_erase {l : List (K × Ent V)} {k : K} {p : K × Ent V} : p ∈ eraseKey l k ↔ p ∈ l ∧ p.1 ≠ k := by
  simp [eraseKey]

theorem cut_inv {max : Nat} {s : St K V} (h : Inv max s) {k : K} {e : Ent V} (he : (k, e) ∈ s.lru) : Inv max (cut s k e) := by
  refine ⟨?_, ?_, ?_, ?_, ?_, ?_⟩
  · exact h.keys.sublist (List.filter_sublist.map _)
  · exact h.ids.sublist ((unlink_sublist _ _).map _)
  · exact fun o ho => h.fresh o ((unlink_sublist _ _).subset ho)
  · intro k' e' i hm hi
    have hm := mem_erase.1 hm
    obtain ⟨o, ho, h1, h2⟩ := h.linked k' e' i hm.1 hi
    refine ⟨o, mem_unlink.2 ⟨ho, fun hc => ?_⟩, h1, h2⟩
    obtain ⟨o2, ho2, h3, h4⟩ := h.linked k e _ he hc
    have : o2 = o := by
      have a := find_id h.ids ho2
      have b := find_id h.ids ho
      rw [h3, b] at a
      exact (Option.some.inj a).symm
    rw [this] at h4
    exact hm.2 (h2.symm.trans h4)
  · intro o ho
    obtain ⟨ho, hne⟩ := mem_unlink.1 ho
    obtain ⟨e', hm, hi⟩ := h.owned o ho
    refine ⟨e', mem_erase.2 ⟨hm, fun hc => ?_⟩, hi⟩
    simp only at hc
    rw [hc] at hm
    have := key_unique h.keys hm he
    rw [← this] at hne
    exact hne hi
  · exact Nat.le_trans (List.length_filter_le _ _) h.size

theorem expiry_cut {max : Nat} {s : St K V} (h : Inv max s) {k k' : K} {e e' : Ent V} (he : (k, e) ∈ s.lru) (he' : (k', e') ∈ s.lru)
    (hk : k' ≠ k) : expiry (unlink s.orphans e.orphan) e' = expiry s.orphans e' := by
  have hc := cut_inv h he
  have hm : (k', e') ∈ (cut s k e).lru := mem_erase.2 ⟨he', hk⟩
  rcases expiry_eq h he' with ⟨h1, h2⟩ | ⟨o, ho, h1, h2, h3⟩
  · rw [h2]; unfold expiry; rw [h1]
  · rcases expiry_eq hc hm with ⟨h4, h5⟩ | ⟨o2, ho2, h4, h5, h6⟩
    · rw [h1] at h4; cases h4
    · have h7 : expiry (unlink s.orphans e.orphan) e' = some o2.expires := h6
      rw [h3, h7]
      have ho2' := (unlink_sublist _ _).subset ho2
      have hid : o.id = o2.id := by rw [h1] at h4; exact Option.some.inj h4
      have a := find_id h.ids ho
      rw [hid, find_id h.ids ho2'] at a
      rw [Option.some.inj a]

theorem cut_abs {max : Nat} {s : St K V} (h : Inv max s) {k : K} {e : Ent V} (he : (k, e) ∈ s.lru) :
    abs (cut s k e) = Spec.forget (abs s) k := by
  unfold abs Spec.forget cut eraseKey
  rw [List.filter_map]
  have : ((fun t : Tr K V => decide (t.key ≠ k)) ∘ fun p : K × Ent V => (⟨p.1, p.2.val, expiry s.orphans p.2⟩ : Tr K V)) =
      (fun p => decide (p.1 ≠ k)) := rfl
  rw [this]
  refine List.map_congr_left (fun p hp => ?_)
  have hp := List.mem_filter.1 hp
  simp only at *
  rw [expiry_cut h he (k' := p.1) (e' := p.2) hp.1 (by simpa using hp.2)]

theorem forget_of_not_mem {l : Spec.S K V} {k : K} (h : ∀ t ∈ l, t.key ≠ k) : Spec.forget l k = l := by
  unfold Spec.forget
  rw [List.filter_eq_self]
  exact fun t ht => decide_eq_true (h t ht)

/-- A new entry in front. -/
def push (s : St K V) (k : K) (v : V) (orphan : Bool) (exp : Nat) : St K V :=
  ⟨(k, newEnt s v orphan) :: s.lru, newOrphans s s.orphans k orphan exp, newNext s orphan⟩

theorem push_inv {max : Nat} {s : St K V} (h : Inv max s) {k : K} (hk : ∀ p ∈ s.lru, p.1 ≠ k) (v : V) (orphan : Bool) (exp : Nat) :
    Inv (max + 1) (push s k v orphan exp) ∧ (s.lru.length < max → Inv max (push s k v orphan exp)) := by
  have key : ∀ m, s.lru.length + 1 ≤ m → Inv m (push s k v orphan exp) := by
    intro m hm
    refine ⟨?_, ?_, ?_, ?_, ?_, ?_⟩
    · simp only [push, List.map_cons, List.nodup_cons]
      refine ⟨fun hc => ?_, h.keys⟩
      obtain ⟨p, hp, he⟩ := List.mem_map.1 hc
      exact hk p hp he
    · simp only [push, newOrphans]
      cases orphan with
      | false => exact h.ids
      | true =>
        simp only [if_true, List.map_cons, List.nodup_cons]
        refine ⟨fun hc => ?_, h.ids⟩
        obtain ⟨o, ho, he⟩ := List.mem_map.1 hc
        have := h.fresh o ho
        omega
    · intro o ho
      simp only [push, newOrphans, newNext] at ho ⊢
      cases orphan with
      | false => exact h.fresh o ho
      | true =>
        simp only [if_true] at ho ⊢
        rcases List.mem_cons.1 ho with rfl | ho
        · exact Nat.lt_succ_self _
        · exact Nat.lt_succ_of_lt (h.fresh o ho)
    · intro k' e' i hm' hi
      simp only [push, newOrphans] at hm' ⊢
      rcases List.mem_cons.1 hm' with he | hm'
      · obtain ⟨rfl, rfl⟩ := Prod.mk.injEq _ _ _ _ ▸ he
        cases orphan with
        | false => simp [newEnt] at hi
        | true =>
          simp only [newEnt, if_true, Option.some.injEq] at hi
          exact ⟨⟨s.next, k', exp⟩, by simp, hi, rfl⟩
      · obtain ⟨o, ho, h1, h2⟩ := h.linked k' e' i hm' hi
        refine ⟨o, ?_, h1, h2⟩
        cases orphan with
        | false => exact ho
        | true => exact List.mem_cons_of_mem _ ho
    · intro o ho
      simp only [push, newOrphans] at ho ⊢
      cases orphan with
      | false =>
        obtain ⟨e, he, hi⟩ := h.owned o ho
        exact ⟨e, List.mem_cons_of_mem _ he, hi⟩
      | true =>
        simp only [if_true] at ho
        rcases List.mem_cons.1 ho with rfl | ho
        · exact ⟨newEnt s v true, by simp, rfl⟩
        · obtain ⟨e, he, hi⟩ := h.owned o ho
          exact ⟨e, List.mem_cons_of_mem _ he, hi⟩
    · exact hm
  exact ⟨key _ (by have := h.size; omega), fun hl => key _ hl⟩

theorem push_abs {max : Nat} {s : St K V} (h : Inv max s) (k : K) (v : V) (orphan : Bool) (exp : Nat) :
    abs (push s k v orphan exp) = ⟨k, v, if orphan then some exp else none⟩ :: abs s := by
  unfold abs push
  simp only [List.map_cons]
  congr 1
  · cases orphan <;> simp [newEnt, newOrphans, expiry]
  · refine List.map_congr_left (fun p hp => ?_)
    cases orphan with
    | false => rfl
    | true =>
      rcases expiry_eq h (k := p.1) (e := p.2) hp with ⟨h1, h2⟩ | ⟨o, ho, h1, h2, h3⟩
      · rw [h2]; simp only [expiry, h1]
      · rw [h3]
        have : s.next ≠ o.id := by have := h.fresh o ho; omega
        simp only [expiry, h1, newOrphans, if_true]
        rw [List.find?_cons, decide_eq_false this]
        simp only
        rw [find_id h.ids ho]
        rfl

/-- Evicting the last entry. -/
theorem oldest_is_cut {m : Nat} {s : St K V} (h : Inv m s) (hne : s.lru ≠ []) :
    ∃ k e, (k, e) ∈ s.lru ∧ removeOldest s = cut s k e ∧ s.lru = s.lru.dropLast ++ [(k, e)] := by
  have hl := List.dropLast_concat_getLast hne
  have hg := List.getLast?_eq_some_getLast hne
  have hmem := List.getLast_mem hne
  generalize s.lru.getLast hne = q at hl hg hmem
  refine ⟨q.1, q.2, hmem, ?_, hl.symm⟩
  unfold removeOldest cut
  rw [hg]
  simp only
  congr 1
  have hn := h.keys
  rw [← hl] at hn
  conv => rhs; rw [← hl]
  rw [List.map_append, List.nodup_append] at hn
  unfold eraseKey
  rw [List.filter_append]
  have e1 : s.lru.dropLast.filter (fun p => decide (p.1 ≠ q.1)) = s.lru.dropLast := by
    rw [List.filter_eq_self]
    intro p hp
    exact decide_eq_true (hn.2.2 _ (List.mem_map.2 ⟨p, hp, rfl⟩) _ (by simp))
  rw [e1]
  simp

theorem abs_length (s : St K V) : (abs s).length = s.lru.length := by simp [abs]

theorem find_lookup (s : St K V) (k : K) : Spec.lookup (abs s) k = (find s.lru k).map (·.val) := by
  unfold abs Spec.lookup
  generalize s.orphans = os
  induction s.lru with
  | nil => rfl
  | cons p r ih =>
    obtain ⟨k', e⟩ := p
    rw [List.map_cons, List.find?_cons, find]
    by_cases hk : k' = k
    · simp [hk]
    · simp only [hk, decide_false, if_false]
      exact ih

theorem abs_keys {s : St K V} {k : K} (h : ∀ p ∈ s.lru, p.1 ≠ k) : ∀ t ∈ abs s, t.key ≠ k := by
  intro t ht
  obtain ⟨p, hp, rfl⟩ := List.mem_map.1 ht
  exact h p hp

/-- Removing refines forgetting. -/
theorem remove_refines {max : Nat} {s : St K V} (h : Inv max s) (k : K) :
    Inv max (remove s k).1 ∧ abs (remove s k).1 = Spec.forget (abs s) k ∧ ((remove s k).2 = true ↔ (Spec.lookup (abs s) k).isSome) := by
  unfold remove
  rw [find_lookup]
  cases hf : find s.lru k with
  | none => exact ⟨h, (forget_of_not_mem (abs_keys (find_none hf))).symm, by simp⟩
  | some e => exact ⟨cut_inv h (find_mem hf), cut_abs h (find_mem hf), by simp⟩

/-- Reading refines reading. -/
theorem get_refines {max : Nat} {s : St K V} (h : Inv max s) (k : K) :
    Inv max (get s k).1 ∧ abs (get s k).1 = Spec.read (abs s) k ∧ (get s k).2 = Spec.lookup (abs s) k := by
  unfold get Spec.read
  rw [find_lookup]
  cases hf : find s.lru k with
  | none => exact ⟨h, rfl, rfl⟩
  | some e =>
    have hm := find_mem hf
    have hc := cut_inv h hm
    have hk : ∀ p ∈ (cut s k e).lru, p.1 ≠ k := fun p hp => (mem_erase.1 hp).2
    have hlt : (cut s k e).lru.length < max := by
      refine Nat.lt_of_lt_of_le ?_ h.size
      have : ∀ l : List (K × Ent V), (k, e) ∈ l → (eraseKey l k).length < l.length := by
        intro l hl
        unfold eraseKey
        exact List.length_filter_lt_length_iff_exists.2 ⟨_, hl, by simp⟩
      exact this _ hm
    have hp := (push_inv hc hk e.val false 0).2 hlt
    have ha := push_abs hc k e.val false 0
    rw [cut_abs h hm] at ha
    exact ⟨hp, ha, rfl⟩

theorem erase_length {l : List (K × Ent V)} {k : K} {e : Ent V} (hl : (k, e) ∈ l) : (eraseKey l k).length < l.length := by
  unfold eraseKey
  exact List.length_filter_lt_length_iff_exists.2 ⟨_, hl, by simp⟩

/-- Registering refines putting. -/
theorem register_refines {max : Nat} {s : St K V} (h : Inv max s) (k : K) (v : V) (orphan : Bool) (exp : Nat) :
    Inv max (register max s k v orphan exp).1 ∧
    abs (register max s k v orphan exp).1 = Spec.put max (abs s) k v (if orphan then some exp else none) := by
  unfold register Spec.put
  cases hf : find s.lru k with
  | some e =>
    have hm := find_mem hf
    have hc := cut_inv h hm
    have hk : ∀ p ∈ (cut s k e).lru, p.1 ≠ k := fun p hp => (mem_erase.1 hp).2
    have hlt : (cut s k e).lru.length < max := Nat.lt_of_lt_of_le (erase_length hm) h.size
    have hp := (push_inv hc hk v orphan exp).2 hlt
    have ha := push_abs hc k v orphan exp
    rw [cut_abs h hm] at ha
    refine ⟨hp, ?_⟩
    rw [List.take_of_length_le]
    · exact ha
    · have : (Spec.forget (abs s) k).length = (cut s k e).lru.length := by rw [← cut_abs h hm, abs_length]
      simp only [List.length_cons, this]
      omega
  | none =>
    have hk := find_none hf
    have hp := push_inv h hk v orphan exp
    have ha := push_abs h k v orphan exp
    rw [forget_of_not_mem (abs_keys hk)]
    simp only
    have hlen : (push s k v orphan exp).lru.length = s.lru.length + 1 := rfl
    have hsz := h.size
    change Inv max (if (push s k v orphan exp).lru.length > max then (removeOldest (push s k v orphan exp), true)
      else (push s k v orphan exp, false)).1 ∧ _
    change _ ∧ abs (if (push s k v orphan exp).lru.length > max then (removeOldest (push s k v orphan exp), true)
      else (push s k v orphan exp, false)).1 = _
    by_cases hgt : (push s k v orphan exp).lru.length > max
    · rw [if_pos hgt]
      simp only
      obtain ⟨k', e', hm', hr, hl⟩ := oldest_is_cut hp.1 (by simp [push])
      rw [hr]
      have hci := cut_inv hp.1 hm'
      have hab : abs (cut (push s k v orphan exp) k' e') = (abs (push s k v orphan exp)).take max := by
        rw [cut_abs hp.1 hm']
        have hn : ((abs (push s k v orphan exp)).map (·.key)).Nodup := by
          unfold abs
          rw [List.map_map]
          exact hp.1.keys
        have hd : abs (push s k v orphan exp) = (abs (push s k v orphan exp)).dropLast ++
            [⟨k', e'.val, expiry (push s k v orphan exp).orphans e'⟩] := by
          unfold abs
          conv => lhs; rw [hl]
          rw [List.map_append]
          congr 1
          rw [List.map_dropLast]
        have hlen' : (abs (push s k v orphan exp)).length = max + 1 := by rw [abs_length, hlen]; omega
        have ht : (abs (push s k v orphan exp)).take max = (abs (push s k v orphan exp)).dropLast := by
          rw [List.dropLast_eq_take, hlen']
          rfl
        rw [ht]
        rw [hd, List.map_append, List.nodup_append] at hn
        unfold Spec.forget
        conv => lhs; rw [hd]
        rw [List.filter_append]
        have e1 : (abs (push s k v orphan exp)).dropLast.filter (fun t => decide (t.key ≠ k')) = (abs (push s k v orphan exp)).dropLast := by
          rw [List.filter_eq_self]
          intro t ht
          exact decide_eq_true (hn.2.2 _ (List.mem_map.2 ⟨t, ht, rfl⟩) _ (by simp))
        rw [e1]
        simp
      refine ⟨⟨hci.keys, hci.ids, hci.fresh, hci.linked, hci.owned, ?_⟩, ?_⟩
      · rw [← abs_length, hab, List.length_take]
        omega
      · rw [hab, ha]
    · rw [if_neg hgt]
      simp only
      refine ⟨hp.2 (by omega), ?_⟩
      rw [ha, List.take_of_length_le]
      simp only [List.length_cons, abs_length]
      omega

/-- Something is evicted exactly if a new key arrives while the cache is full. -/
theorem evicts_iff {max : Nat} {s : St K V} (h : Inv max s) (k : K) (v : V) (orphan : Bool) (exp : Nat) :
    (register max s k v orphan exp).2 = true ↔ Spec.lookup (abs s) k = none ∧ (abs s).length = max := by
  rw [find_lookup, abs_length]
  unfold register
  have := h.size
  cases find s.lru k with
  | some e => simp
  | none =>
    simp only [List.length_cons, Option.map_none, true_and]
    split
    · simp only [true_iff]; omega
    · simp only [Bool.false_eq_true, false_iff]; omega

theorem erase_length_eq {l : List (K × Ent V)} (hkn : (l.map (·.1)).Nodup) {k : K} {e : Ent V} (he : (k, e) ∈ l) :
    (eraseKey l k).length + 1 = l.length := by
  induction l with
  | nil => cases he
  | cons q l ihl =>
    simp only [List.map_cons, List.nodup_cons] at hkn
    unfold eraseKey at ihl ⊢
    rw [List.filter_cons]
    by_cases hq : q.1 = k
    · rw [if_neg (by simp [hq])]
      have : l.filter (fun p => decide (p.1 ≠ k)) = l := by
        rw [List.filter_eq_self]
        intro p hp
        refine decide_eq_true (fun hc => hkn.1 ?_)
        rw [hq, ← hc]
        exact List.mem_map.2 ⟨p, hp, rfl⟩
      rw [this]
      simp
    · rw [if_pos (decide_eq_true hq)]
      have he' : (k, e) ∈ l := by
        rcases List.mem_cons.1 he with hh | hh
        · rw [← hh] at hq; exact absurd rfl hq
        · exact hh
      have := ihl hkn.2 he'
      simp only [List.length_cons]
      omega

theorem length_le_of_nodup {α : Type} [DecidableEq α] : ∀ (a b : List α), a.Nodup → (∀ x ∈ a, x ∈ b) → a.length ≤ b.length
  | [], _, _, _ => Nat.zero_le _
  | x :: r, b, hn, hs => by
    have hn := List.nodup_cons.1 hn
    have hx := hs x (by simp)
    have := length_le_of_nodup r (b.erase x) hn.2 (fun y hy =>
      (List.mem_erase_of_ne (a := y) (b := x) (fun hc => hn.1 (by rw [← hc]; exact hy))).2 (hs y (List.mem_cons_of_mem _ hy)))
    rw [List.length_erase_of_mem hx] at this
    have := List.length_pos_of_mem hx
    simp only [List.length_cons]
    omega

/-- Orphans are in the order of their expiry. -/
def Sorted (s : St K V) : Prop := s.orphans.Pairwise (fun a b => b.expires ≤ a.expires)

/-- With agreeing lists the sweep ends, and removes exactly the expired translations nobody read. -/
theorem sweep_refines {max : Nat} {s : St K V} (h : Inv max s) (hs : Sorted s) (now : Nat) (fuel : Nat) (hf : s.orphans.length ≤ fuel) :
    ∃ s' n, sweep fuel s now = some (s', n) ∧ Inv max s' ∧ Sorted s' ∧ abs s' = Spec.expire (abs s) now ∧
      n + (abs s').length = (abs s).length ∧ s'.next = s.next ∧ s'.orphans.Sublist s.orphans := by
  induction fuel generalizing s with
  | zero =>
    have ho : s.orphans = [] := List.length_eq_zero_iff.1 (by omega)
    refine ⟨s, 0, ?_, h, hs, ?_, by simp, rfl, List.Sublist.refl _⟩
    · unfold sweep; rw [ho]; rfl
    · unfold Spec.expire
      symm
      rw [List.filter_eq_self]
      intro t ht
      obtain ⟨p, hp, rfl⟩ := List.mem_map.1 ht
      rcases expiry_eq h (k := p.1) (e := p.2) hp with ⟨h1, h2⟩ | ⟨o, ho', _⟩
      · simp [Spec.Expired, h2]
      · rw [ho] at ho'; cases ho'
  | succ n ih =>
    unfold sweep
    by_cases hne : s.orphans = []
    · refine ⟨s, 0, by rw [hne]; rfl, h, hs, ?_, by simp, rfl, List.Sublist.refl _⟩
      unfold Spec.expire
      symm
      rw [List.filter_eq_self]
      intro t ht
      obtain ⟨p, hp, rfl⟩ := List.mem_map.1 ht
      rcases expiry_eq h (k := p.1) (e := p.2) hp with ⟨h1, h2⟩ | ⟨o, ho', _⟩
      · simp [Spec.Expired, h2]
      · rw [hne] at ho'; cases ho'
    · rw [List.getLast?_eq_some_getLast hne]
      simp only
      have hl := List.dropLast_concat_getLast hne
      generalize s.orphans.getLast hne = o at hl
      have hmem : o ∈ s.orphans := by rw [← hl]; simp
      have hlast : ∀ x ∈ s.orphans, o.expires ≤ x.expires := by
        intro x hx
        have hp := hs
        unfold Sorted at hp
        rw [← hl] at hp hx
        rw [List.pairwise_append] at hp
        rcases List.mem_append.1 hx with hx | hx
        · exact hp.2.2 x hx o (by simp)
        · simp only [List.mem_singleton] at hx
          rw [hx]
          exact Nat.le_refl _
      by_cases hexp : o.expires < now
      · rw [if_pos hexp]
        obtain ⟨e, he, hoi⟩ := h.owned o hmem
        have hfind : find s.lru o.key = some e := by
          cases hff : find s.lru o.key with
          | none => exact absurd rfl (find_none hff _ he)
          | some e' => rw [key_unique h.keys (find_mem hff) he]
        have hrem : (remove s o.key).1 = cut s o.key e := by unfold remove; rw [hfind]; rfl
        have hinv := cut_inv h he
        have hsub : (cut s o.key e).orphans.Sublist s.orphans := unlink_sublist _ _
        have hsort : Sorted (cut s o.key e) := List.Pairwise.sublist hsub hs
        have hlen : (cut s o.key e).orphans.length < s.orphans.length := by
          simp only [cut, hoi, unlink]
          exact List.length_filter_lt_length_iff_exists.2 ⟨o, hmem, by simp⟩
        obtain ⟨s', r, h1, h2, h3, h4, h5, h6, h7⟩ := ih hinv hsort (by omega)
        refine ⟨s', r + 1, ?_, h2, h3, ?_, ?_, h6, h7.trans hsub⟩
        · rw [hrem, h1]
        · rw [h4, cut_abs h he]
          unfold Spec.expire Spec.forget
          rw [List.filter_filter]
          refine List.filter_congr (fun t ht => ?_)
          obtain ⟨p, hp, rfl⟩ := List.mem_map.1 ht
          by_cases hpk : p.1 = o.key
          · have hpe : p.2 = e := key_unique h.keys (k := o.key) (by rw [← hpk]; exact hp) he
            have hexp' : expiry s.orphans p.2 = some o.expires := by
              unfold expiry
              rw [hpe, hoi]
              simp only
              rw [find_id h.ids hmem]
              rfl
            simp [Spec.Expired, hexp', hexp]
          · simp [hpk]
        · rw [cut_abs h he] at h5
          have hlen2 : (Spec.forget (abs s) o.key).length + 1 = (abs s).length := by
            rw [← cut_abs h he, abs_length, abs_length]
            exact erase_length_eq h.keys he
          omega
      · rw [if_neg hexp]
        refine ⟨s, 0, rfl, h, hs, ?_, by simp, rfl, List.Sublist.refl _⟩
        unfold Spec.expire
        symm
        rw [List.filter_eq_self]
        intro t ht
        obtain ⟨p, hp, rfl⟩ := List.mem_map.1 ht
        rcases expiry_eq h (k := p.1) (e := p.2) hp with ⟨h1, h2⟩ | ⟨x, hx, h1, h2, h3⟩
        · simp [Spec.Expired, h2]
        · have := hlast x hx
          simp [Spec.Expired, h3]
          omega

/-! ### Histories -/

inductive Op (K V : Type)
  | add (k : K) (v : V) (orphan : Bool)
  | get (k : K)
  | remove (k : K)
  | sweep

/-- One operation at a time of the clock.  `timeout` is `orphanTimeout`; `none` means that the sweep does not end within
as many rounds as there are orphans. -/
def step (max timeout : Nat) (s : St K V) (now : Nat) : Op K V → Option (St K V)
  | .add k v orphan => some (register max s k v orphan (now + timeout)).1
  | .get k => some (get s k).1
  | .remove k => some (remove s k).1
  | .sweep => (sweep s.orphans.length s now).map (·.1)

/-- The same on the translations. -/
def Spec.step (max timeout : Nat) (l : Spec.S K V) (now : Nat) : Op K V → Spec.S K V
  | .add k v orphan => Spec.put max l k v (if orphan then some (now + timeout) else none)
  | .get k => Spec.read l k
  | .remove k => Spec.forget l k
  | .sweep => Spec.expire l now

/-- Runs with a clock that does not go back. -/
def run (max timeout : Nat) : St K V → List (Nat × Op K V) → Option (St K V)
  | s, [] => some s
  | s, (now, o) :: r => match step max timeout s now o with
    | none => none
    | some s' => run max timeout s' r

def Spec.run (max timeout : Nat) : Spec.S K V → List (Nat × Op K V) → Spec.S K V
  | l, [] => l
  | l, (now, o) :: r => Spec.run max timeout (Spec.step max timeout l now o) r

/-- C55.  Every operation succeeds, the sweep included; orphans and entries stay linked one to one; the size is bounded;
and the translations are those of the specification. -/
theorem history_refines {max : Nat} (timeout : Nat) (ops : List (Nat × Op K V)) (hclock : (ops.map (·.1)).Pairwise (· ≤ ·)) :
    ∃ s, run max timeout init ops = some s ∧ Inv max s ∧ Sorted s ∧ abs s = Spec.run max timeout [] ops := by
  have key : ∀ (ops : List (Nat × Op K V)) (s : St K V), (ops.map (·.1)).Pairwise (· ≤ ·) → Inv max s → Sorted s →
      (∀ o ∈ s.orphans, ∀ p ∈ ops, o.expires ≤ p.1 + timeout) →
      ∃ s', run max timeout s ops = some s' ∧ Inv max s' ∧ Sorted s' ∧ abs s' = Spec.run max timeout (abs s) ops := by
    intro ops
    induction ops with
    | nil => exact fun s _ hi hs _ => ⟨s, rfl, hi, hs, rfl⟩
    | cons p r ih =>
      intro s hc hi hs hb
      obtain ⟨now, o⟩ := p
      simp only [List.map_cons, List.pairwise_cons] at hc
      have hnow : ∀ x ∈ s.orphans, x.expires ≤ now + timeout := fun x hx => hb x hx (now, o) (by simp)
      have hlater : ∀ p ∈ r, now ≤ p.1 := fun p hp => hc.1 p.1 (List.mem_map.2 ⟨p, hp, rfl⟩)
      have sub : ∀ {s' : St K V}, s'.orphans.Sublist s.orphans → Sorted s' ∧ ∀ x ∈ s'.orphans, ∀ p ∈ r, x.expires ≤ p.1 + timeout := by
        intro s' hsub
        exact ⟨List.Pairwise.sublist hsub hs, fun x hx p hp => hb x (hsub.subset hx) p (List.mem_cons_of_mem _ hp)⟩
      have goon : ∀ s', step max timeout s now o = some s' → Inv max s' → abs s' = Spec.step max timeout (abs s) now o →
          Sorted s' → (∀ x ∈ s'.orphans, ∀ p ∈ r, x.expires ≤ p.1 + timeout) →
          ∃ s'', run max timeout s ((now, o) :: r) = some s'' ∧ Inv max s'' ∧ Sorted s'' ∧
            abs s'' = Spec.run max timeout (abs s) ((now, o) :: r) := by
        intro s' h1 h2 h3 h4 h5
        obtain ⟨s'', h6, h7, h8, h9⟩ := ih s' hc.2 h2 h4 h5
        refine ⟨s'', ?_, h7, h8, ?_⟩
        · unfold run; rw [h1]; exact h6
        · unfold Spec.run; rw [← h3]; exact h9
      cases o with
      | add k v orphan =>
        have hr := register_refines hi k v orphan (now + timeout)
        have hnewo : ∀ os : List (Orph K), os.Sublist s.orphans →
            (newOrphans s os k orphan (now + timeout)).Pairwise (fun a b => b.expires ≤ a.expires) ∧
            ∀ x ∈ newOrphans s os k orphan (now + timeout), ∀ p ∈ r, x.expires ≤ p.1 + timeout := by
          intro os hos
          unfold newOrphans
          split
          · refine ⟨List.pairwise_cons.2 ⟨fun x hx => hnow x (hos.subset hx), List.Pairwise.sublist hos hs⟩, fun x hx p hp => ?_⟩
            rcases List.mem_cons.1 hx with rfl | hx
            · have := hlater p hp
              simp only
              omega
            · exact hb x (hos.subset hx) p (List.mem_cons_of_mem _ hp)
          · exact ⟨List.Pairwise.sublist hos hs, fun x hx p hp => hb x (hos.subset hx) p (List.mem_cons_of_mem _ hp)⟩
        have hord : Sorted (register max s k v orphan (now + timeout)).1 ∧
            ∀ x ∈ (register max s k v orphan (now + timeout)).1.orphans, ∀ p ∈ r, x.expires ≤ p.1 + timeout := by
          unfold register Sorted
          cases find s.lru k with
          | some e => exact hnewo _ (unlink_sublist _ _)
          | none =>
            simp only
            split
            · have h0 := hnewo s.orphans (List.Sublist.refl _)
              have hsub : ∀ t : St K V, (removeOldest t).orphans.Sublist t.orphans := by
                intro t
                unfold removeOldest
                split
                · exact List.Sublist.refl _
                · exact unlink_sublist _ _
              have h1 := hsub ⟨(k, newEnt s v orphan) :: s.lru, newOrphans s s.orphans k orphan (now + timeout), newNext s orphan⟩
              exact ⟨List.Pairwise.sublist h1 h0.1, fun x hx => h0.2 x (h1.subset hx)⟩
            · exact hnewo s.orphans (List.Sublist.refl _)
        exact goon _ rfl hr.1 hr.2 hord.1 hord.2
      | get k =>
        have hr := get_refines hi k
        have hsub : (get s k).1.orphans.Sublist s.orphans := by
          unfold get
          cases find s.lru k with
          | none => exact List.Sublist.refl _
          | some e => exact unlink_sublist _ _
        exact goon _ rfl hr.1 hr.2.1 (sub hsub).1 (sub hsub).2
      | remove k =>
        have hr := remove_refines hi k
        have hsub : (remove s k).1.orphans.Sublist s.orphans := by
          unfold remove
          cases find s.lru k with
          | none => exact List.Sublist.refl _
          | some e => exact unlink_sublist _ _
        exact goon _ rfl hr.1 hr.2.1 (sub hsub).1 (sub hsub).2
      | sweep =>
        obtain ⟨s', n, h1, h2, h3, h4, h5, h6, h7⟩ := sweep_refines hi hs now s.orphans.length (Nat.le_refl _)
        exact goon s' (by simp only [step, h1, Option.map_some]) h2 h4 h3 (sub h7).2
  exact key ops init hclock (init_inv max) (by simp [Sorted, init]) (by simp [init])

/-- An orphan without an entry would make the sweep run forever. -/
theorem dangling_orphan_never_ends (s : St K V) (o : Orph K) (now fuel : Nat) (hl : s.orphans.getLast? = some o) (he : o.expires < now)
    (hd : find s.lru o.key = none) : sweep fuel s now = none := by
  induction fuel with
  | zero => unfold sweep; rw [hl]; simp only; rw [if_pos he]
  | succ n ih =>
    unfold sweep
    rw [hl]
    simp only
    rw [if_pos he]
    have : (remove s o.key).1 = s := by unfold remove; rw [hd]
    rw [this, ih]

/-! ### What lookups return -/

/-- The last value added under a key. -/
def lastAdd (k : K) : List (Nat × Op K V) → Option V → Option V
  | [], d => d
  | (_, .add k' v _) :: r, d => lastAdd k r (if k' = k then some v else d)
  | (_, .remove k') :: r, d => lastAdd k r (if k' = k then none else d)
  | _ :: r, d => lastAdd k r d

theorem lookup_forget_ne (l : Spec.S K V) {k k' : K} (h : k' ≠ k) : Spec.lookup (Spec.forget l k') k = Spec.lookup l k := by
  unfold Spec.lookup Spec.forget
  induction l with
  | nil => rfl
  | cons t r ih =>
    rw [List.filter_cons, List.find?_cons]
    by_cases ht : t.key = k
    · rw [if_pos (decide_eq_true (by rw [ht]; exact fun hc => h hc.symm)), List.find?_cons]
      simp [ht]
    · by_cases ht' : t.key = k'
      · rw [if_neg (by simp [ht'])]
        rw [decide_eq_false ht]
        exact ih
      · rw [if_pos (decide_eq_true ht'), List.find?_cons, decide_eq_false ht]
        exact ih

theorem lookup_forget_self (l : Spec.S K V) (k : K) : Spec.lookup (Spec.forget l k) k = none := by
  unfold Spec.lookup Spec.forget
  rw [List.find?_eq_none.2 ?_]
  · rfl
  · intro t ht
    have := (List.mem_filter.1 ht).2
    simpa using this

theorem lookup_take {l : Spec.S K V} {n : Nat} {k : K} {v : V} (h : Spec.lookup (l.take n) k = some v) : Spec.lookup l k = some v := by
  induction l generalizing n with
  | nil => rw [List.take_nil] at h; exact h
  | cons t r ih =>
    cases n with
    | zero => rw [List.take_zero] at h; cases h
    | succ n =>
      unfold Spec.lookup at h ih ⊢
      rw [List.take_succ_cons, List.find?_cons] at h
      rw [List.find?_cons]
      split at h
      · exact h
      · exact ih h

theorem lookup_cons (t : Tr K V) (l : Spec.S K V) (k : K) : Spec.lookup (t :: l) k = if t.key = k then some t.val else Spec.lookup l k := by
  unfold Spec.lookup
  rw [List.find?_cons]
  by_cases h : t.key = k
  · simp [h]
  · simp [h]

theorem lookup_filter {l : Spec.S K V} (hn : (l.map (·.key)).Nodup) {p : Tr K V → Bool} {k : K} {v : V} (h : Spec.lookup (l.filter p) k = some v) :
    Spec.lookup l k = some v := by
  induction l with
  | nil => exact h
  | cons t r ih =>
    simp only [List.map_cons, List.nodup_cons] at hn
    rw [List.filter_cons] at h
    rw [lookup_cons]
    split at h
    · rw [lookup_cons] at h
      split
      · rename_i hk; rw [if_pos hk] at h; exact h
      · rename_i hk; rw [if_neg hk] at h; exact ih hn.2 h
    · have h' := ih hn.2 h
      split
      · rename_i hk
        exfalso
        apply hn.1
        unfold Spec.lookup at h'
        cases hf : r.find? (fun t => decide (t.key = k)) with
        | none => rw [hf] at h'; cases h'
        | some x =>
          have hx := List.find?_some hf
          simp only [decide_eq_true_eq] at hx
          rw [hk, ← hx]
          exact List.mem_map.2 ⟨x, List.mem_of_find?_eq_some hf, rfl⟩
      · exact h'

theorem step_nodup (max timeout : Nat) (l : Spec.S K V) (now : Nat) (o : Op K V) (h : (l.map (·.key)).Nodup) :
    ((Spec.step max timeout l now o).map (·.key)).Nodup := by
  have hf : ∀ k, ((Spec.forget l k).map (·.key)).Nodup := fun k => h.sublist (List.filter_sublist.map _)
  have hc : ∀ k v u, (((⟨k, v, u⟩ : Tr K V) :: Spec.forget l k).map (·.key)).Nodup := by
    intro k v u
    simp only [List.map_cons, List.nodup_cons]
    refine ⟨fun hc => ?_, hf k⟩
    obtain ⟨t, ht, he⟩ := List.mem_map.1 hc
    have := (List.mem_filter.1 ht).2
    simp at this
    exact this he
  cases o with
  | add k v orphan => exact (hc k v _).sublist ((List.take_sublist _ _).map _)
  | get k =>
    simp only [Spec.step, Spec.read]
    split
    · exact h
    · exact hc _ _ _
  | remove k => exact hf k
  | sweep => exact h.sublist (List.filter_sublist.map _)

/-- C56, soundness.  A lookup returns nothing, or the translation added last under this key. -/
theorem lookup_last_added {max : Nat} (timeout : Nat) (ops : List (Nat × Op K V)) (k : K) (v : V)
    (h : Spec.lookup (Spec.run max timeout [] ops) k = some v) : lastAdd k ops none = some v := by
  have key : ∀ (ops : List (Nat × Op K V)) (l : Spec.S K V) (d : Option V), (l.map (·.key)).Nodup →
      (∀ v, Spec.lookup l k = some v → d = some v) →
      ∀ v, Spec.lookup (Spec.run max timeout l ops) k = some v → lastAdd k ops d = some v := by
    intro ops
    induction ops with
    | nil => exact fun l d _ hd v hv => hd v hv
    | cons p r ih =>
      obtain ⟨now, o⟩ := p
      intro l d hn hd v hv
      have hn' := step_nodup max timeout l now o hn
      cases o with
      | add k' v' orphan =>
        refine ih _ _ hn' ?_ v hv
        intro w hw
        have hw := lookup_take hw
        rw [lookup_cons] at hw
        simp only at hw
        by_cases hk : k' = k
        · rw [if_pos hk] at hw ⊢; exact hw
        · rw [if_neg hk] at hw ⊢
          rw [lookup_forget_ne _ hk] at hw
          exact hd w hw
      | get k' =>
        refine ih _ _ hn' ?_ v hv
        intro w hw
        simp only [Spec.step, Spec.read] at hw
        split at hw
        · exact hd w hw
        · rename_i v' hl
          rw [lookup_cons] at hw
          simp only at hw
          by_cases hk : k' = k
          · rw [if_pos hk] at hw; rw [hk, hw] at hl; exact hd w hl
          · rw [if_neg hk, lookup_forget_ne _ hk] at hw
            exact hd w hw
      | remove k' =>
        refine ih _ _ hn' ?_ v hv
        intro w hw
        simp only [Spec.step] at hw
        by_cases hk : k' = k
        · rw [hk, lookup_forget_self] at hw; cases hw
        · rw [if_neg hk]; rw [lookup_forget_ne _ hk] at hw; exact hd w hw
      | sweep =>
        refine ih _ _ hn' ?_ v hv
        exact fun w hw => hd w (lookup_filter hn hw)
  exact key ops [] none (by simp) (by simp [Spec.lookup]) v h

/-- The keys an operation touches. -/
def Touches : Op K V → K → Prop
  | .add k _ _, k' => k = k'
  | .get k, k' => k = k'
  | .remove k, k' => k = k'
  | .sweep, _ => False

/-- C56, completeness.  A translation stays available while fewer than `max` other keys are used, if it was read
or is not yet due. -/
theorem lookup_stays {max : Nat} (timeout : Nat) (l : Spec.S K V) (hn : (l.map (·.key)).Nodup) (k : K) (v : V) (u : Option Nat) (others : List K)
    (hk : k ∉ others) (hlt : others.length < max) (ops : List (Nat × Op K V)) (ht : ∀ p ∈ ops, ∀ k', Touches p.2 k' → k' ∈ others)
    (hu : ∀ x, u = some x → ∀ p ∈ ops, p.1 ≤ x) :
    Spec.lookup (Spec.run max timeout (Spec.put max l k v u) ops) k = some v := by
  -- the entry is preceded only by others
  have key : ∀ (ops : List (Nat × Op K V)), (∀ p ∈ ops, ∀ k', Touches p.2 k' → k' ∈ others) →
      (∀ x, u = some x → ∀ p ∈ ops, p.1 ≤ x) → ∀ (a b : Spec.S K V), ((a ++ ⟨k, v, u⟩ :: b).map (·.key)).Nodup →
      (∀ t ∈ a, t.key ∈ others) → ∃ a' b', Spec.run max timeout (a ++ ⟨k, v, u⟩ :: b) ops = a' ++ ⟨k, v, u⟩ :: b' ∧
        (∀ t ∈ a', t.key ∈ others) := by
    intro ops
    induction ops with
    | nil => exact fun _ _ a b _ ha => ⟨a, b, rfl, ha⟩
    | cons p r ih =>
      intro ht hu a b hnd ha
      obtain ⟨now, o⟩ := p
      have ht' := fun p hp => ht p (List.mem_cons_of_mem _ hp)
      have hu' := fun x hx p hp => hu x hx p (List.mem_cons_of_mem _ hp)
      have hstep := step_nodup max timeout (a ++ ⟨k, v, u⟩ :: b) now o hnd
      have hforget : ∀ k', k' ≠ k → Spec.forget (a ++ ⟨k, v, u⟩ :: b) k' = Spec.forget a k' ++ ⟨k, v, u⟩ :: Spec.forget b k' := by
        intro k' hk'
        unfold Spec.forget
        rw [List.filter_append, List.filter_cons, if_pos (decide_eq_true (Ne.symm hk'))]
      have hfa : ∀ k', ∀ t ∈ Spec.forget a k', t.key ∈ others := fun k' t htt => ha t (List.mem_filter.1 htt).1
      cases o with
      | add k' v' orphan =>
        have hk' : k' ∈ others := ht (now, .add k' v' orphan) (by simp) k' rfl
        have hne : k' ≠ k := fun hc => hk (hc ▸ hk')
        -- length of the prefix
        have hpre : (⟨k', v', if orphan then some (now + timeout) else none⟩ :: Spec.forget a k' : Spec.S K V).length ≤ others.length := by
          have hsub : ((⟨k', v', if orphan then some (now + timeout) else none⟩ :: Spec.forget a k' : Spec.S K V).map (·.key)).Nodup := by
            simp only [List.map_cons, List.nodup_cons]
            refine ⟨fun hc => ?_, ?_⟩
            · obtain ⟨t, htt, he⟩ := List.mem_map.1 hc
              have := (List.mem_filter.1 htt).2
              simp at this
              exact this he
            · rw [List.map_append, List.nodup_append] at hnd
              exact hnd.1.sublist (List.filter_sublist.map _)
          have hss : ∀ x ∈ (⟨k', v', if orphan then some (now + timeout) else none⟩ :: Spec.forget a k' : Spec.S K V).map (·.key), x ∈ others := by
            intro x hx
            obtain ⟨t, htt, rfl⟩ := List.mem_map.1 hx
            rcases List.mem_cons.1 htt with rfl | htt
            · exact hk'
            · exact hfa k' t htt
          have := length_le_of_nodup _ _ hsub hss
          simpa using this
        have heq : Spec.step max timeout (a ++ ⟨k, v, u⟩ :: b) now (.add k' v' orphan) =
            (⟨k', v', if orphan then some (now + timeout) else none⟩ :: Spec.forget a k') ++ ⟨k, v, u⟩ ::
              (Spec.forget b k').take (max - ((Spec.forget a k').length + 1) - 1) := by
          simp only [Spec.step, Spec.put]
          rw [hforget k' hne, ← List.cons_append, List.take_append]
          rw [List.take_of_length_le (by omega)]
          congr 1
          simp only [List.length_cons] at hpre ⊢
          rw [List.take_cons (by omega)]
        have hrun : Spec.run max timeout (a ++ ⟨k, v, u⟩ :: b) ((now, .add k' v' orphan) :: r) =
          Spec.run max timeout (Spec.step max timeout (a ++ ⟨k, v, u⟩ :: b) now (.add k' v' orphan)) r := rfl
        rw [hrun]
        rw [heq] at hstep ⊢
        refine ih ht' hu' _ _ hstep ?_
        intro t htt
        rcases List.mem_cons.1 htt with rfl | htt
        · exact hk'
        · exact hfa k' t htt
      | get k' =>
        have hk' : k' ∈ others := ht (now, .get k') (by simp) k' rfl
        have hne : k' ≠ k := fun hc => hk (hc ▸ hk')
        have hrun : Spec.run max timeout (a ++ ⟨k, v, u⟩ :: b) ((now, .get k') :: r) =
          Spec.run max timeout (Spec.step max timeout (a ++ ⟨k, v, u⟩ :: b) now (.get k')) r := rfl
        rw [hrun]
        cases hl : Spec.lookup (a ++ ⟨k, v, u⟩ :: b) k' with
        | none =>
          have : Spec.step max timeout (a ++ ⟨k, v, u⟩ :: b) now (.get k') = a ++ ⟨k, v, u⟩ :: b := by
            simp only [Spec.step, Spec.read, hl]
          rw [this]
          exact ih ht' hu' a b hnd ha
        | some w =>
          have heq : Spec.step max timeout (a ++ ⟨k, v, u⟩ :: b) now (.get k') = (⟨k', w, none⟩ :: Spec.forget a k') ++ ⟨k, v, u⟩ :: Spec.forget b k' := by
            simp only [Spec.step, Spec.read, hl]
            rw [hforget k' hne, List.cons_append]
          rw [heq] at hstep ⊢
          refine ih ht' hu' _ _ hstep ?_
          intro t htt
          rcases List.mem_cons.1 htt with rfl | htt
          · exact hk'
          · exact hfa k' t htt
      | remove k' =>
        have hk' : k' ∈ others := ht (now, .remove k') (by simp) k' rfl
        have hne : k' ≠ k := fun hc => hk (hc ▸ hk')
        have hrun : Spec.run max timeout (a ++ ⟨k, v, u⟩ :: b) ((now, .remove k') :: r) =
          Spec.run max timeout (Spec.step max timeout (a ++ ⟨k, v, u⟩ :: b) now (.remove k')) r := rfl
        rw [hrun]
        have heq : Spec.step max timeout (a ++ ⟨k, v, u⟩ :: b) now (.remove k') = Spec.forget a k' ++ ⟨k, v, u⟩ :: Spec.forget b k' := hforget k' hne
        rw [heq] at hstep ⊢
        exact ih ht' hu' _ _ hstep (hfa k')
      | sweep =>
        have hrun : Spec.run max timeout (a ++ ⟨k, v, u⟩ :: b) ((now, .sweep) :: r) =
          Spec.run max timeout (Spec.step max timeout (a ++ ⟨k, v, u⟩ :: b) now .sweep) r := rfl
        rw [hrun]
        have hnot : Spec.Expired now (⟨k, v, u⟩ : Tr K V) = false := by
          unfold Spec.Expired
          cases hux : u with
          | none => rfl
          | some x =>
            have := hu x hux (now, .sweep) (by simp)
            simp only at this
            simp only
            exact decide_eq_false (by omega)
        have heq : Spec.step max timeout (a ++ ⟨k, v, u⟩ :: b) now .sweep =
            a.filter (fun t => !Spec.Expired now t) ++ ⟨k, v, u⟩ :: b.filter (fun t => !Spec.Expired now t) := by
          simp only [Spec.step, Spec.expire]
          rw [List.filter_append, List.filter_cons, if_pos (by rw [hnot]; rfl)]
        rw [heq] at hstep ⊢
        exact ih ht' hu' _ _ hstep (fun t htt => ha t (List.mem_filter.1 htt).1)
  have hput : Spec.put max l k v u = [] ++ ⟨k, v, u⟩ :: (Spec.forget l k).take (max - 1) := by
    unfold Spec.put
    rw [List.take_cons (by omega)]
    rfl
  have hnd : ((Spec.put max l k v u).map (·.key)).Nodup := by
    have h0 := step_nodup max 0 l 0 (.add k v false) hn
    simp only [Spec.step, Spec.put, List.take_cons (show 0 < max by omega), List.map_cons] at h0 ⊢
    exact h0
  rw [hput] at hnd ⊢
  obtain ⟨a', b', he, ha'⟩ := key ops ht hu [] _ hnd (by simp)
  rw [he]
  clear he
  induction a' with
  | nil => rw [List.nil_append, lookup_cons, if_pos rfl]
  | cons t r ih =>
    rw [List.cons_append, lookup_cons, if_neg ?_]
    · exact ih (fun t ht => ha' t (List.mem_cons_of_mem _ ht))
    · intro hc
      exact hk (hc ▸ ha' t (by simp))

/-- A translation that was read once no longer expires: it stays while fewer than `max` other keys are used. -/
theorem lookup_stays_read {max : Nat} (timeout : Nat) (l : Spec.S K V) (hn : (l.map (·.key)).Nodup) (hsz : l.length ≤ max) (k : K) (v : V)
    (hl : Spec.lookup l k = some v) (others : List K) (hk : k ∉ others) (hlt : others.length < max) (ops : List (Nat × Op K V))
    (ht : ∀ p ∈ ops, ∀ k', Touches p.2 k' → k' ∈ others) :
    Spec.lookup (Spec.run max timeout (Spec.read l k) ops) k = some v := by
  have : Spec.read l k = Spec.put max l k v none := by
    unfold Spec.read Spec.put
    rw [hl]
    simp only
    rw [List.take_of_length_le]
    simp only [List.length_cons]
    refine Nat.lt_of_lt_of_le ?_ hsz
    unfold Spec.lookup at hl
    cases hf : l.find? (fun t => decide (t.key = k)) with
    | none => rw [hf] at hl; cases hl
    | some x =>
      have hx := List.find?_some hf
      exact List.length_filter_lt_length_iff_exists.2 ⟨x, List.mem_of_find?_eq_some hf, by simpa using hx⟩
  rw [this]
  exact lookup_stays timeout l hn k v none others hk hlt ops ht (fun x hx => by cases hx)

/-! ### Examples -/

example : ∃ s, run 2 5 (init : St Nat Nat) [(0, .add 1 10 true), (1, .add 2 20 true), (2, .get 1), (3, .add 3 30 true), (9, .sweep)] = some s ∧
    s.lru.map (·.1) = [1] ∧ s.orphans.length = 0 := by
  refine ⟨⟨[(1, ⟨10, none⟩)], [], 3⟩, by rfl, rfl, rfl⟩

end Kindling.Conn.Cache
