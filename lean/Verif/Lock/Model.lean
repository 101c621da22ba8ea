import Verif.Basic
/-
Goroutines that take read-write mutexes (`sync.RWMutex`, `sync.Mutex`) one inside the other and use shared variables.
-/
namespace Kindling.Lock

/-- How a mutex is held: `RLock` or `Lock`.  A `sync.Mutex` is only taken with `w`. -/
inductive Md where
  | r | w
deriving DecidableEq, Repr

/-- What a goroutine does: takes or gives back a mutex, reads or writes a shared variable, or waits for the network. -/
inductive Act (L V : Type) where
  | acq (l : L) (m : Md)
  | rel (l : L) (m : Md)
  | get (v : V)
  | put (v : V)
  | send
deriving DecidableEq, Repr

/-- A goroutine: the mutexes it holds, what it still does, and whether it announced the `Lock` it is at.  A writer that
announced itself keeps new readers out while it waits for the old ones (`sync.RWMutex.Lock`). -/
structure Thread (L V : Type) where
  held : List (L × Md)
  rest : List (Act L V)
  asked : Bool
deriving DecidableEq, Repr

section
variable {L V : Type} [DecidableEq L]

def Thread.asks (t : Thread L V) (l : L) : Prop := t.asked = true ∧ ∃ k, t.rest = .acq l .w :: k

/-- Nobody holds `l` for writing or waits for it as the announced writer. -/
def Open (ts : List (Thread L V)) (l : L) : Prop := ∀ t ∈ ts, (l, Md.w) ∉ t.held ∧ ¬ t.asks l

/-- Nobody holds `l`. -/
def Free (ts : List (Thread L V)) (l : L) : Prop := ∀ t ∈ ts, ∀ m, (l, m) ∉ t.held

/-- One step of goroutine `i`.  There is no step for giving back a mutex that is not held: the Go runtime aborts. -/
inductive Step : List (Thread L V) → Nat → List (Thread L V) → Prop
  | read {ts i H l k b} (h : ts[i]? = some ⟨H, .acq l .r :: k, b⟩) (ho : Open ts l) :
      Step ts i (ts.set i ⟨(l, .r) :: H, k, false⟩)
  | ask {ts i H l k} (h : ts[i]? = some ⟨H, .acq l .w :: k, false⟩) (ho : Open ts l) :
      Step ts i (ts.set i ⟨H, .acq l .w :: k, true⟩)
  | write {ts i H l k} (h : ts[i]? = some ⟨H, .acq l .w :: k, true⟩) (hf : Free ts l) :
      Step ts i (ts.set i ⟨(l, .w) :: H, k, false⟩)
  | rel {ts i H l m k b} (h : ts[i]? = some ⟨H, .rel l m :: k, b⟩) (hm : (l, m) ∈ H) :
      Step ts i (ts.set i ⟨H.erase (l, m), k, false⟩)
  | get {ts i H v k b} (h : ts[i]? = some ⟨H, .get v :: k, b⟩) : Step ts i (ts.set i ⟨H, k, false⟩)
  | put {ts i H v k b} (h : ts[i]? = some ⟨H, .put v :: k, b⟩) : Step ts i (ts.set i ⟨H, k, false⟩)
  | send {ts i H k b} (h : ts[i]? = some ⟨H, .send :: k, b⟩) : Step ts i (ts.set i ⟨H, k, false⟩)

/-- An execution, with the goroutines in the order in which they step. -/
inductive Run : List (Thread L V) → List Nat → List (Thread L V) → Prop
  | nil (ts) : Run ts [] ts
  | cons {a b c i is} : Step a i b → Run b is c → Run a (i :: is) c

theorem Run.trans {a b c : List (Thread L V)} {is js : List Nat} (h : Run a is b) (h' : Run b js c) : Run a (is ++ js) c := by
  induction h with
  | nil => exact h'
  | cons s _ ih => exact .cons s (ih h')

/-- The goroutines when the program starts. -/
def start (ps : List (List (Act L V))) : List (Thread L V) := ps.map fun p => ⟨[], p, false⟩

/-! ### The check of one goroutine -/

variable (rank : L → Nat) (guard : V → Option L)

/-- Runs the actions of one goroutine alone: mutexes must be taken in the order of their ranks, given back only when held, and
a variable with a guard used only under its guard.  The result are the mutexes held at the end. -/
def chk : List (L × Md) → List (Act L V) → Option (List (L × Md))
  | H, [] => some H
  | H, .acq l m :: k => if ∀ x ∈ H, rank x.1 < rank l then chk ((l, m) :: H) k else none
  | H, .rel l m :: k => if (l, m) ∈ H then chk (H.erase (l, m)) k else none
  | H, .get v :: k => if ∀ l ∈ guard v, (l, .r) ∈ H ∨ (l, .w) ∈ H then chk H k else none
  | H, .put v :: k => if ∀ l ∈ guard v, (l, .w) ∈ H then chk H k else none
  | H, .send :: k => chk H k

theorem chk_append (a b : List (Act L V)) : ∀ H : List (L × Md),
    chk rank guard H (a ++ b) = (chk rank guard H a).bind fun H' => chk rank guard H' b := by
  induction a with
  | nil => intro H; rfl
  | cons x a ih =>
    intro H
    cases x <;> simp only [List.cons_append, chk]
    case send => exact ih _
    all_goals
      split
      · exact ih _
      · rfl

/-- A piece of program that gives back what it takes, whatever mutexes of lower rank are held around it. -/
def Block (n : Nat) (tr : List (Act L V)) : Prop :=
  ∀ H : List (L × Md), (∀ x ∈ H, rank x.1 < n) → chk rank guard H tr = some H

variable {rank} {guard}

theorem Block.nil (n : Nat) : Block rank guard n [] := fun _ _ => rfl

theorem Block.append {n : Nat} {a b : List (Act L V)} (ha : Block rank guard n a) (hb : Block rank guard n b) :
    Block rank guard n (a ++ b) := by
  intro H h
  rw [chk_append, ha H h]
  exact hb H h

theorem Block.mono {m n : Nat} (hmn : m ≤ n) {a : List (Act L V)} (ha : Block rank guard n a) : Block rank guard m a :=
  fun H h => ha H fun x hx => Nat.lt_of_lt_of_le (h x hx) hmn

theorem Block.flatMap {α : Type} {n : Nat} {l : List α} {f : α → List (Act L V)} (h : ∀ a ∈ l, Block rank guard n (f a)) :
    Block rank guard n (l.flatMap f) := by
  induction l with
  | nil => exact Block.nil n
  | cons a l ih =>
    rw [List.flatMap_cons]
    exact (h a (by simp)).append (ih fun x hx => h x (by simp [hx]))

theorem Block.ite {n : Nat} {b : Bool} {x y : List (Act L V)} (hx : Block rank guard n x) (hy : Block rank guard n y) :
    Block rank guard n (if b then x else y) := by
  cases b
  · exact hy
  · exact hx

/-- The critical section of a mutex. -/
def lk (l : L) (m : Md) (body : List (Act L V)) : List (Act L V) := .acq l m :: (body ++ [.rel l m])

theorem Block.lk {l : L} {m : Md} {body : List (Act L V)} {n : Nat} (hn : n ≤ rank l)
    (h : ∀ H : List (L × Md), (∀ x ∈ H, rank x.1 < n) → chk rank guard ((l, m) :: H) body = some ((l, m) :: H)) :
    Block rank guard n (Lock.lk l m body) := by
  intro H hH
  simp only [Lock.lk, chk]
  rw [if_pos fun x hx => Nat.lt_of_lt_of_le (hH x hx) hn, chk_append, h H hH]
  simp [chk]

/-- A critical section around pieces that take only mutexes of higher rank. -/
theorem Block.lk_block {l : L} {m : Md} {body : List (Act L V)} {n : Nat} (hn : n ≤ rank l)
    (h : Block rank guard (rank l + 1) body) : Block rank guard n (Lock.lk l m body) := by
  apply Block.lk hn
  intro H hH
  apply h
  intro x hx
  rcases List.mem_cons.1 hx with rfl | hx
  · exact Nat.lt_succ_self _
  · exact Nat.lt_succ_of_lt (Nat.lt_of_lt_of_le (hH x hx) hn)

theorem Block.get {l : L} {m : Md} {v : V} {n : Nat} (hn : n ≤ rank l) (hg : ∀ l' ∈ guard v, l' = l) :
    Block rank guard n (Lock.lk l m [.get v]) := by
  apply Block.lk hn
  intro H _
  simp only [chk]
  rw [if_pos]
  intro l' hl
  cases hg l' hl
  cases m <;> simp

theorem Block.put {l : L} {v : V} {n : Nat} (hn : n ≤ rank l) (hg : ∀ l' ∈ guard v, l' = l) :
    Block rank guard n (Lock.lk l .w [.put v]) := by
  apply Block.lk hn
  intro H _
  simp only [chk]
  rw [if_pos]
  intro l' hl
  cases hg l' hl
  simp

/-! ### What holds in every state -/

variable (rank) (guard)

structure Inv (ts : List (Thread L V)) : Prop where
  /-- What a goroutine still does passes the check, and leaves no mutex held. -/
  safe : ∀ t ∈ ts, chk rank guard t.held t.rest = some []
  /-- Only a goroutine at a `Lock` has announced one. -/
  atLock : ∀ t ∈ ts, t.asked = true → ∃ l k, t.rest = .acq l .w :: k
  /-- A mutex held for writing is held by nobody else. -/
  excl : ∀ (i j : Nat) (ti tj : Thread L V) (l : L) (m : Md), ts[i]? = some ti → ts[j]? = some tj → i ≠ j → (l, Md.w) ∈ ti.held → (l, m) ∉ tj.held
  /-- There is one announced writer at most, and none while a writer is in. -/
  one : ∀ (i j : Nat) (ti tj : Thread L V) (l : L), ts[i]? = some ti → ts[j]? = some tj → i ≠ j → ti.asks l → ¬ tj.asks l ∧ (l, Md.w) ∉ tj.held

variable {rank} {guard}

theorem inv_start (ps : List (List (Act L V))) (h : ∀ p ∈ ps, Block rank guard 0 p) : Inv rank guard (start ps) := by
  have hs : ∀ {i : Nat} {t : Thread L V}, (start ps)[i]? = some t → t.held = [] ∧ t.asked = false := by
    intro i t ht
    have := List.mem_of_getElem? ht
    simp only [start, List.mem_map] at this
    obtain ⟨p, _, rfl⟩ := this
    exact ⟨rfl, rfl⟩
  refine ⟨?_, ?_, ?_, ?_⟩
  · intro t ht
    simp only [start, List.mem_map] at ht
    obtain ⟨p, hp, rfl⟩ := ht
    exact h p hp [] (by simp)
  · intro t ht ha
    simp only [start, List.mem_map] at ht
    obtain ⟨p, hp, rfl⟩ := ht
    cases ha
  · intro i j ti tj l m hi hj _ hw
    rw [(hs hi).1] at hw
    cases hw
  · intro i j ti tj l hi hj _ ha
    have := ha.1
    rw [(hs hi).2] at this
    cases this

theorem getElem?_set_cases {α : Type} {ts : List α} {i j : Nat} {a t : α} (h : (ts.set i a)[j]? = some t) :
    (j = i ∧ t = a) ∨ (j ≠ i ∧ ts[j]? = some t) := by
  rw [List.getElem?_set] at h
  split at h
  · next e =>
    split at h
    · exact .inl ⟨e.symm, by simpa using h.symm⟩
    · cases h
  · next e => exact .inr ⟨fun e' => e e'.symm, h⟩

theorem mem_set_cases {α : Type} {ts : List α} {i : Nat} {a t : α} (h : t ∈ ts.set i a) : t = a ∨ t ∈ ts :=
  (List.mem_or_eq_of_mem_set h).symm

/-- Replacing goroutine `i` keeps the invariant if the new one passes the check and does not clash with the others. -/
theorem inv_set {ts : List (Thread L V)} (hinv : Inv rank guard ts) {i : Nat} {a : Thread L V}
    (hsafe : chk rank guard a.held a.rest = some []) (hat : a.asked = true → ∃ l k, a.rest = .acq l .w :: k)
    (hw : ∀ l m, (l, m) ∈ a.held → ∀ j tj, ts[j]? = some tj → j ≠ i →
      (m = .w → ∀ m', (l, m') ∉ tj.held) ∧ (l, Md.w) ∉ tj.held)
    (hwa : ∀ l, (l, Md.w) ∈ a.held → ∀ j tj, ts[j]? = some tj → j ≠ i → ¬ tj.asks l)
    (ha : ∀ l, a.asks l → ∀ j tj, ts[j]? = some tj → j ≠ i → ¬ tj.asks l ∧ (l, Md.w) ∉ tj.held) :
    Inv rank guard (ts.set i a) := by
  refine ⟨?_, ?_, ?_, ?_⟩
  · intro t ht
    rcases mem_set_cases ht with rfl | ht
    · exact hsafe
    · exact hinv.safe t ht
  · intro t ht hq
    rcases mem_set_cases ht with rfl | ht
    · exact hat hq
    · exact hinv.atLock t ht hq
  · intro p q tp tq l m hp hq hpq hl
    rcases getElem?_set_cases hp with ⟨ep, etp⟩ | ⟨hpi, hp'⟩
    · rcases getElem?_set_cases hq with ⟨eq, _⟩ | ⟨hqi, hq'⟩
      · exact absurd (ep.trans eq.symm) hpq
      · exact (hw l .w (etp ▸ hl) q tq hq' hqi).1 rfl m
    · rcases getElem?_set_cases hq with ⟨_, etq⟩ | ⟨hqi, hq'⟩
      · intro hm
        exact (hw l m (etq ▸ hm) p tp hp' hpi).2 hl
      · exact hinv.excl p q tp tq l m hp' hq' hpq hl
  · intro p q tp tq l hp hq hpq hl
    rcases getElem?_set_cases hp with ⟨ep, etp⟩ | ⟨hpi, hp'⟩
    · rcases getElem?_set_cases hq with ⟨eq, _⟩ | ⟨hqi, hq'⟩
      · exact absurd (ep.trans eq.symm) hpq
      · exact ha l (etp ▸ hl) q tq hq' hqi
    · rcases getElem?_set_cases hq with ⟨_, etq⟩ | ⟨hqi, hq'⟩
      · refine ⟨fun h => (ha l (etq ▸ h) p tp hp' hpi).1 hl, fun h => hwa l (etq ▸ h) p tp hp' hpi hl⟩
      · exact hinv.one p q tp tq l hp' hq' hpq hl

theorem step_inv {ts ts' : List (Thread L V)} {i : Nat} (hs : Step ts i ts') (hinv : Inv rank guard ts) : Inv rank guard ts' := by
  have noask : ∀ {H k l'}, ¬ (Thread.asks (⟨H, k, false⟩ : Thread L V) l') := fun h => by cases h.1
  -- a goroutine that keeps a part of its mutexes
  have shrink : ∀ {t : Thread L V} {H k}, ts[i]? = some t → (∀ x ∈ H, x ∈ t.held) → chk rank guard H k = some [] →
      Inv rank guard (ts.set i ⟨H, k, false⟩) := by
    intro t H k ht hsub hc
    refine inv_set hinv hc (fun h => by cases h) ?_ ?_ ?_
    · intro l m hm j tj hj hji
      refine ⟨fun e m' => ?_, ?_⟩
      · subst e
        exact hinv.excl i j t tj l m' ht hj (Ne.symm hji) (hsub _ hm)
      · intro hw
        exact hinv.excl j i tj t l m hj ht hji hw (hsub _ hm)
    · intro l hl j tj hj hji hasks
      exact (hinv.one j i tj t l hj ht hji hasks).2 (hsub _ hl)
    · intro l h
      exact absurd h noask
  cases hs with
  | @read H l k b h ho =>
    have hm := List.mem_of_getElem? h
    have hc := hinv.safe _ hm
    simp only [chk] at hc
    split at hc
    · refine inv_set hinv hc (fun h => by cases h) ?_ ?_ ?_
      · intro l' m hm' j tj hj hji
        rcases List.mem_cons.1 hm' with e | hm'
        · cases e
          exact ⟨fun e => (nomatch e), (ho tj (List.mem_of_getElem? hj)).1⟩
        · refine ⟨fun e m' => ?_, ?_⟩
          · subst e
            exact hinv.excl i j _ tj l' m' h hj (Ne.symm hji) hm'
          · intro hw
            exact hinv.excl j i tj _ l' m hj h hji hw hm'
      · intro l' hl j tj hj hji hasks
        rcases List.mem_cons.1 hl with e | hl
        · cases e
        · exact (hinv.one j i tj _ l' hj h hji hasks).2 hl
      · intro l' h
        exact absurd h noask
    · cases hc
  | @ask H l k h ho =>
    have hm := List.mem_of_getElem? h
    refine inv_set hinv (show chk rank guard H (.acq l .w :: k) = some [] from hinv.safe _ hm) (fun _ => ⟨l, k, rfl⟩) ?_ ?_ ?_
    · intro l' m hm' j tj hj hji
      refine ⟨fun e m' => ?_, ?_⟩
      · subst e
        exact hinv.excl i j _ tj l' m' h hj (Ne.symm hji) hm'
      · intro hw
        exact hinv.excl j i tj _ l' m hj h hji hw hm'
    · intro l' hl j tj hj hji hasks
      exact (hinv.one j i tj _ l' hj h hji hasks).2 hl
    · intro l' hasks j tj hj _
      obtain ⟨_, k', e⟩ := hasks
      simp only [List.cons.injEq, Act.acq.injEq, and_true] at e
      obtain ⟨rfl, rfl⟩ := e
      have := ho tj (List.mem_of_getElem? hj)
      exact ⟨this.2, this.1⟩
  | @write H l k h hf =>
    have hm := List.mem_of_getElem? h
    have hc := hinv.safe _ hm
    simp only [chk] at hc
    split at hc
    · refine inv_set hinv hc (fun h => by cases h) ?_ ?_ ?_
      · intro l' m hm' j tj hj hji
        rcases List.mem_cons.1 hm' with e | hm'
        · cases e
          exact ⟨fun _ m' => hf tj (List.mem_of_getElem? hj) m', hf tj (List.mem_of_getElem? hj) _⟩
        · refine ⟨fun e m' => ?_, ?_⟩
          · subst e
            exact hinv.excl i j _ tj l' m' h hj (Ne.symm hji) hm'
          · intro hw
            exact hinv.excl j i tj _ l' m hj h hji hw hm'
      · intro l' hl j tj hj hji hasks
        rcases List.mem_cons.1 hl with e | hl
        · cases e
          exact (hinv.one i j _ tj l h hj (Ne.symm hji) ⟨rfl, k, rfl⟩).1 hasks
        · exact (hinv.one j i tj _ l' hj h hji hasks).2 hl
      · intro l' h
        exact absurd h noask
    · cases hc
  | @rel H l m k b h hm =>
    have hc := hinv.safe _ (List.mem_of_getElem? h)
    simp only [chk, if_pos hm] at hc
    exact shrink h (fun x hx => List.mem_of_mem_erase hx) hc
  | @get H v k b h =>
    have hc := hinv.safe _ (List.mem_of_getElem? h)
    simp only [chk] at hc
    split at hc
    · exact shrink h (fun x hx => hx) hc
    · cases hc
  | @put H v k b h =>
    have hc := hinv.safe _ (List.mem_of_getElem? h)
    simp only [chk] at hc
    split at hc
    · exact shrink h (fun x hx => hx) hc
    · cases hc
  | @send H k b h =>
    have hc := hinv.safe _ (List.mem_of_getElem? h)
    exact shrink h (fun x hx => hx) hc

theorem run_inv {ts ts' : List (Thread L V)} {is : List Nat} (hr : Run ts is ts') (hinv : Inv rank guard ts) : Inv rank guard ts' := by
  induction hr with
  | nil => exact hinv
  | cons s _ ih => exact ih (step_inv s hinv)

/-! ### Some goroutine always steps -/

omit [DecidableEq L] in
/-- Among finitely many held mutexes one has the highest rank. -/
theorem max_held (ts : List (Thread L V)) : (∀ t ∈ ts, t.held = []) ∨
    ∃ t ∈ ts, ∃ x ∈ t.held, ∀ t' ∈ ts, ∀ y ∈ t'.held, rank y.1 ≤ rank x.1 := by
  have key : ∀ l : List (L × Md), l = [] ∨ ∃ x ∈ l, ∀ y ∈ l, rank y.1 ≤ rank x.1 := by
    intro l
    induction l with
    | nil => exact .inl rfl
    | cons a l ih =>
      right
      rcases ih with rfl | ⟨x, hx, hmax⟩
      · exact ⟨a, by simp, by simp⟩
      · by_cases h : rank a.1 ≤ rank x.1
        · refine ⟨x, by simp [hx], ?_⟩
          intro y hy
          rcases List.mem_cons.1 hy with rfl | hy
          · exact h
          · exact hmax y hy
        · refine ⟨a, by simp, ?_⟩
          intro y hy
          rcases List.mem_cons.1 hy with rfl | hy
          · exact Nat.le_refl _
          · have := hmax y hy
            omega
  rcases key (ts.flatMap Thread.held) with h | ⟨x, hx, hmax⟩
  · left
    intro t ht
    have : ∀ a ∈ t.held, False := fun a ha => by
      have : a ∈ ts.flatMap Thread.held := List.mem_flatMap.2 ⟨t, ht, ha⟩
      rw [h] at this
      cases this
    cases hh : t.held with
    | nil => rfl
    | cons a _ => exact (this a (by simp [hh])).elim
  · right
    obtain ⟨t, ht, hx⟩ := List.mem_flatMap.1 hx
    exact ⟨t, ht, x, hx, fun t' ht' y hy => hmax y (List.mem_flatMap.2 ⟨t', ht', hy⟩)⟩

/-- If nobody holds a mutex, a goroutine that is at taking it lets somebody step. -/
theorem step_of_free {ts : List (Thread L V)} {t : Thread L V} (ht : t ∈ ts) {l : L} {m : Md}
    {k : List (Act L V)} (hk : t.rest = .acq l m :: k) (hf : Free ts l) : ∃ i ts', Step ts i ts' := by
  by_cases hask : ∃ t' ∈ ts, t'.asks l
  · obtain ⟨t', ht', ha, k', hk'⟩ := hask
    obtain ⟨i, hi⟩ := List.getElem?_of_mem ht'
    obtain ⟨H, rest, asked⟩ := t'
    simp only at ha hk'
    subst ha hk'
    exact ⟨i, _, .write hi hf⟩
  · have ho : Open ts l := fun t' ht' => ⟨hf t' ht' _, fun h => hask ⟨t', ht', h⟩⟩
    obtain ⟨i, hi⟩ := List.getElem?_of_mem ht
    obtain ⟨H, rest, asked⟩ := t
    simp only at hk
    subst hk
    cases m with
    | r => exact ⟨i, _, .read hi ho⟩
    | w =>
      cases asked with
      | false => exact ⟨i, _, .ask hi ho⟩
      | true => exact ⟨i, _, .write hi hf⟩

theorem progress {ts : List (Thread L V)} (hinv : Inv rank guard ts) (hne : ∃ t ∈ ts, t.rest ≠ []) : ∃ i ts', Step ts i ts' := by
  -- a goroutine that is not at taking a mutex steps
  have easy : ∀ t ∈ ts, t.rest ≠ [] → (∃ i ts', Step ts i ts') ∨ ∃ l m k, t.rest = .acq l m :: k := by
    intro t ht hr
    obtain ⟨i, hi⟩ := List.getElem?_of_mem ht
    have hc := hinv.safe t ht
    obtain ⟨H, rest, asked⟩ := t
    cases rest with
    | nil => exact absurd rfl hr
    | cons a k =>
      cases a with
      | acq l m => exact .inr ⟨l, m, k, rfl⟩
      | rel l m =>
        simp only [chk] at hc
        split at hc
        · next hm => exact .inl ⟨i, _, .rel hi hm⟩
        · cases hc
      | get v => exact .inl ⟨i, _, .get hi⟩
      | put v => exact .inl ⟨i, _, .put hi⟩
      | send => exact .inl ⟨i, _, .send hi⟩
  rcases max_held (rank := rank) ts with hnone | ⟨t, ht, x, hx, hmax⟩
  · obtain ⟨t, ht, hr⟩ := hne
    rcases easy t ht hr with h | ⟨l, m, k, hk⟩
    · exact h
    · refine step_of_free ht hk ?_
      intro t' ht' m' hm'
      rw [hnone t' ht'] at hm'
      cases hm'
  · have hc := hinv.safe t ht
    have hr : t.rest ≠ [] := by
      intro h
      rw [h] at hc
      simp only [chk, Option.some.injEq] at hc
      rw [hc] at hx
      cases hx
    rcases easy t ht hr with h | ⟨l, m, k, hk⟩
    · exact h
    · refine step_of_free ht hk ?_
      intro t' ht' m' hm'
      have h1 := hmax t' ht' _ hm'
      rw [hk] at hc
      simp only [chk] at hc
      split at hc
      · next hlt =>
        have := hlt x hx
        simp only at h1
        omega
      · cases hc

/-! ### Every run ends -/

def Thread.todo (t : Thread L V) : Nat := 2 * t.rest.length - (if t.asked then 1 else 0)

def todo (ts : List (Thread L V)) : Nat := (ts.map Thread.todo).sum

omit [DecidableEq L] in
theorem sum_set {ts : List (Thread L V)} {i : Nat} {t a : Thread L V} (h : ts[i]? = some t) (hlt : a.todo < t.todo) :
    todo (ts.set i a) < todo ts := by
  induction ts generalizing i with
  | nil => cases h
  | cons b ts ih =>
    cases i with
    | zero =>
      simp only [List.getElem?_cons_zero, Option.some.injEq] at h
      subst h
      simp only [todo, List.set_cons_zero, List.map_cons, List.sum_cons]
      omega
    | succ i =>
      have := ih (by simpa using h)
      simp only [todo, List.set_cons_succ, List.map_cons, List.sum_cons] at this ⊢
      omega

omit [DecidableEq L] in
theorem todo_step (H H' : List (L × Md)) (x : Act L V) (k : List (Act L V)) (b : Bool) :
    (⟨H, k, false⟩ : Thread L V).todo < (⟨H', x :: k, b⟩ : Thread L V).todo := by
  cases b <;> simp [Thread.todo] <;> omega

theorem step_todo {ts ts' : List (Thread L V)} {i : Nat} (h : Step ts i ts') : todo ts' < todo ts := by
  cases h with
  | read h => exact sum_set h (todo_step ..)
  | ask h => exact sum_set h (by simp [Thread.todo]; omega)
  | write h => exact sum_set h (todo_step ..)
  | rel h => exact sum_set h (todo_step ..)
  | get h => exact sum_set h (todo_step ..)
  | put h => exact sum_set h (todo_step ..)
  | send h => exact sum_set h (todo_step ..)

theorem run_todo {ts ts' : List (Thread L V)} {is : List Nat} (h : Run ts is ts') : todo ts' + is.length ≤ todo ts := by
  induction h with
  | nil => simp
  | cons s _ ih =>
    have := step_todo s
    simp only [List.length_cons]
    omega

theorem finishes {ts : List (Thread L V)} (hinv : Inv rank guard ts) : ∃ is ts', Run ts is ts' ∧ ∀ t ∈ ts', t.rest = [] := by
  generalize hn : todo ts = n
  induction n using Nat.strongRecOn generalizing ts with
  | ind n ih =>
    by_cases h : ∃ t ∈ ts, t.rest ≠ []
    · obtain ⟨i, ts', hs⟩ := progress hinv h
      obtain ⟨is, ts'', hr, hd⟩ := ih (todo ts') (hn ▸ step_todo hs) (step_inv hs hinv) rfl
      exact ⟨i :: is, ts'', .cons hs hr, hd⟩
    · refine ⟨[], ts, .nil ts, ?_⟩
      intro t ht
      exact Decidable.by_contra fun hr => h ⟨t, ht, hr⟩

/-! ### Two goroutines at the same variable -/

/-- Goroutines `i` and `j` are both at using `v`, and `i` at writing it. -/
def Race (ts : List (Thread L V)) (v : V) : Prop :=
  ∃ (i j : Nat) (ti tj : Thread L V) (k k' : List (Act L V)), i ≠ j ∧ ts[i]? = some ti ∧ ts[j]? = some tj ∧ ti.rest = .put v :: k ∧ (tj.rest = .put v :: k' ∨ tj.rest = .get v :: k')

theorem no_race {ts : List (Thread L V)} (hinv : Inv rank guard ts) {v : V} {l : L} (hv : guard v = some l) : ¬ Race ts v := by
  rintro ⟨i, j, ti, tj, k, k', hij, hi, hj, hki, hkj⟩
  have hci := hinv.safe ti (List.mem_of_getElem? hi)
  have hcj := hinv.safe tj (List.mem_of_getElem? hj)
  rw [hki] at hci
  simp only [chk] at hci
  split at hci
  · next h1 =>
    have hwi := h1 l hv
    have hj' : ∃ m, (l, m) ∈ tj.held := by
      rcases hkj with hkj | hkj <;> rw [hkj] at hcj <;> simp only [chk] at hcj <;> split at hcj
      · next h2 => exact ⟨_, h2 l hv⟩
      · cases hcj
      · next h2 => rcases h2 l hv with h | h <;> exact ⟨_, h⟩
      · cases hcj
    obtain ⟨m, hm⟩ := hj'
    exact hinv.excl i j ti tj l m hi hj hij hwi hm
  · cases hci

/-! ### A goroutine that does not step -/

/-- While goroutine `i` holds `l` and does not step, nobody gets `l` for writing. -/
theorem stalled {ts ts' : List (Thread L V)} {is : List Nat} (hr : Run ts is ts') {i : Nat} (hi : i ∉ is) {t : Thread L V}
    (ht : ts[i]? = some t) {l : L} {m : Md} (hm : (l, m) ∈ t.held) {j : Nat} {tj : Thread L V} (hj : ts[j]? = some tj)
    {k : List (Act L V)} (hk : tj.rest = .acq l .w :: k) :
    ts'[i]? = some t ∧ ∃ b, ts'[j]? = some ⟨tj.held, .acq l .w :: k, b⟩ := by
  obtain ⟨H, rest, b⟩ := tj
  simp only at hk
  subst hk
  simp only
  induction hr generalizing b with
  | nil => exact ⟨ht, b, hj⟩
  | @cons a c d p is s r ih =>
    have hp : p ≠ i := fun e => hi (by simp [e])
    have ht' : c[i]? = some t := by
      cases s <;> rw [List.getElem?_set_ne hp] <;> exact ht
    have hj' : ∃ b', c[j]? = some ⟨H, .acq l .w :: k, b'⟩ := by
      by_cases hpj : p = j
      · subst hpj
        have hlt : p < a.length := (List.getElem?_eq_some_iff.1 hj).1
        cases s with
        | read h => rw [hj] at h; cases h
        | ask h =>
          rw [hj] at h
          cases h
          exact ⟨true, by simp [hlt]⟩
        | write h hf =>
          rw [hj] at h
          cases h
          exact absurd hm (hf t (List.mem_of_getElem? ht) m)
        | rel h => rw [hj] at h; cases h
        | get h => rw [hj] at h; cases h
        | put h => rw [hj] at h; cases h
        | send h => rw [hj] at h; cases h
      · exact ⟨b, by cases s <;> rw [List.getElem?_set_ne hpj] <;> exact hj⟩
    obtain ⟨b', hj'⟩ := hj'
    exact ih (fun h => hi (by simp [h])) ht' b' hj'

/-- Once a writer announced itself and a holder does not step, nobody gets the mutex for reading either. -/
theorem stalled_readers {ts ts' : List (Thread L V)} {is : List Nat} (hr : Run ts is ts') {i : Nat} (hi : i ∉ is) {t : Thread L V}
    (ht : ts[i]? = some t) {l : L} {m : Md} (hm : (l, m) ∈ t.held) {j : Nat} {H : List (L × Md)} {k : List (Act L V)}
    (hj : ts[j]? = some ⟨H, .acq l .w :: k, true⟩) {q : Nat} {tq : Thread L V} (hq : ts[q]? = some tq) {kq : List (Act L V)}
    (hkq : tq.rest = .acq l .r :: kq) : ts'[q]? = some tq := by
  induction hr with
  | nil => exact hq
  | @cons a c d p is s r ih =>
    have hp : p ≠ i := fun e => hi (by simp [e])
    have ht' : c[i]? = some t := by
      cases s <;> rw [List.getElem?_set_ne hp] <;> exact ht
    have hpj : p ≠ j := by
      rintro rfl
      cases s with
      | write h hf =>
        rw [hj] at h
        cases h
        exact absurd hm (hf t (List.mem_of_getElem? ht) m)
      | read h => rw [hj] at h; cases h
      | ask h => rw [hj] at h; cases h
      | rel h => rw [hj] at h; cases h
      | get h => rw [hj] at h; cases h
      | put h => rw [hj] at h; cases h
      | send h => rw [hj] at h; cases h
    have hpq : p ≠ q := by
      rintro rfl
      obtain ⟨Hq, rq, bq⟩ := tq
      simp only at hkq
      subst hkq
      cases s with
      | read h ho =>
        rw [hq] at h
        cases h
        exact (ho _ (List.mem_of_getElem? hj)).2 ⟨rfl, k, rfl⟩
      | write h => rw [hq] at h; cases h
      | ask h => rw [hq] at h; cases h
      | rel h => rw [hq] at h; cases h
      | get h => rw [hq] at h; cases h
      | put h => rw [hq] at h; cases h
      | send h => rw [hq] at h; cases h
    have hj' : c[j]? = some ⟨H, .acq l .w :: k, true⟩ := by
      cases s <;> rw [List.getElem?_set_ne hpj] <;> exact hj
    have hq' : c[q]? = some tq := by
      cases s <;> rw [List.getElem?_set_ne hpq] <;> exact hq
    exact ih (fun h => hi (by simp [h])) ht' hj' hq'

/-! ### One goroutine stepping alone -/

variable (rank) in
/-- Goroutine `i` gets through `a` if the others neither hold nor ask for the mutexes it takes there. -/
theorem solo {i : Nat} (a : List (Act L V)) : ∀ (ts : List (Thread L V)) (H H' : List (L × Md)) (k : List (Act L V)),
    ts[i]? = some ⟨H, a ++ k, false⟩ → chk rank (fun _ => none) H a = some H' →
    (∀ (j : Nat) (tj : Thread L V), j ≠ i → ts[j]? = some tj → ∀ l m, .acq l m ∈ a → (∀ m', (l, m') ∉ tj.held) ∧ ¬ tj.asks l) →
    ∃ is, (∀ x ∈ is, x = i) ∧ Run ts is (ts.set i ⟨H', k, false⟩) := by
  induction a with
  | nil =>
    intro ts H H' k ht hc _
    simp only [chk, Option.some.injEq] at hc
    subst hc
    refine ⟨[], by simp, ?_⟩
    have hlt := (List.getElem?_eq_some_iff.1 ht)
    obtain ⟨hlt, e⟩ := hlt
    have : ts.set i ⟨H, k, false⟩ = ts := by
      have e' : (⟨H, k, false⟩ : Thread L V) = ts[i] := e.symm
      rw [e', List.set_getElem_self]
    rw [this]
    exact .nil ts
  | cons x a ih =>
    intro ts H H' k ht hc hfree
    have hlt : i < ts.length := (List.getElem?_eq_some_iff.1 ht).1
    -- one step to `t`, then the rest
    have next : ∀ (H1 : List (L × Md)), Step ts i (ts.set i ⟨H1, a ++ k, false⟩) → chk rank (fun _ => none) H1 a = some H' →
        ∃ is, (∀ x ∈ is, x = i) ∧ Run ts is (ts.set i ⟨H', k, false⟩) := by
      intro H1 hs hc1
      obtain ⟨is, his, hr⟩ := ih (ts.set i ⟨H1, a ++ k, false⟩) H1 H' k (by simp [hlt]) hc1 (by
        intro j tj hj htj l m hm
        rw [List.getElem?_set_ne (Ne.symm hj)] at htj
        exact hfree j tj hj htj l m (by simp [hm]))
      rw [List.set_set] at hr
      exact ⟨i :: is, by simpa using his, .cons hs hr⟩
    cases x with
    | acq l m =>
      simp only [chk] at hc
      split at hc
      · next hlt' =>
        have hown : ∀ m', (l, m') ∉ H := fun m' hm => Nat.lt_irrefl _ (hlt' _ hm)
        have hfr : ∀ (b : Bool) (k' : List (Act L V)), ∀ t ∈ ts.set i ⟨H, k', b⟩, ∀ m', (l, m') ∉ t.held := by
          intro b k' t htm m' hm
          obtain ⟨j, hj⟩ := List.getElem?_of_mem htm
          rcases getElem?_set_cases hj with ⟨_, rfl⟩ | ⟨hji, hj⟩
          · exact hown m' hm
          · exact (hfree j t hji hj l m (by simp)).1 m' hm
        have hset : ts.set i ⟨H, .acq l m :: a ++ k, false⟩ = ts := by
          have e' : (⟨H, .acq l m :: a ++ k, false⟩ : Thread L V) = ts[i] := ((List.getElem?_eq_some_iff.1 ht).2).symm
          rw [e', List.set_getElem_self]
        have hfree' : Free ts l := by
          have := hfr false (.acq l m :: a ++ k)
          rw [hset] at this
          exact this
        have hopen : Open ts l := by
          intro t htm
          refine ⟨hfree' t htm _, ?_⟩
          obtain ⟨j, hj⟩ := List.getElem?_of_mem htm
          by_cases hji : j = i
          · subst hji
            rw [ht] at hj
            cases hj
            intro h
            cases h.1
          · exact (hfree j t hji hj l m (by simp)).2
        cases m with
        | r => exact next _ (.read ht hopen) hc
        | w =>
          have s1 : Step ts i (ts.set i ⟨H, .acq l .w :: (a ++ k), true⟩) := .ask ht hopen
          have s2 : Step (ts.set i ⟨H, .acq l .w :: (a ++ k), true⟩) i
              ((ts.set i ⟨H, .acq l .w :: (a ++ k), true⟩).set i ⟨(l, .w) :: H, a ++ k, false⟩) :=
            .write (by simp [hlt]) (hfr true _)
          rw [List.set_set] at s2
          obtain ⟨is, his, hr⟩ := ih (ts.set i ⟨(l, .w) :: H, a ++ k, false⟩) _ H' k (by simp [hlt]) hc (by
            intro j tj hj htj l' m' hm
            rw [List.getElem?_set_ne (Ne.symm hj)] at htj
            exact hfree j tj hj htj l' m' (by simp [hm]))
          rw [List.set_set] at hr
          exact ⟨i :: i :: is, by simpa using his, .cons s1 (.cons s2 hr)⟩
      · cases hc
    | rel l m =>
      simp only [chk] at hc
      split at hc
      · next hm => exact next _ (.rel ht hm) hc
      · cases hc
    | get v =>
      simp only [chk] at hc
      split at hc
      · exact next _ (.get ht) hc
      · cases hc
    | put v =>
      simp only [chk] at hc
      split at hc
      · exact next _ (.put ht) hc
      · cases hc
    | send => exact next _ (.send ht) hc

/-! ### What is held while waiting for the network -/

/-- Whether the mutexes of `S` are held at every `send` of a goroutine that steps through the program. -/
def atSend (S : List (L × Md)) : List (L × Md) → List (Act L V) → Bool
  | _, [] => true
  | H, .acq l m :: k => atSend S ((l, m) :: H) k
  | H, .rel l m :: k => atSend S (H.erase (l, m)) k
  | H, .get _ :: k => atSend S H k
  | H, .put _ :: k => atSend S H k
  | H, .send :: k => S.all (fun x => decide (x ∈ H)) && atSend S H k

theorem atSend_append (S : List (L × Md)) (a b : List (Act L V)) : ∀ H H' : List (L × Md),
    chk rank guard H a = some H' → atSend S H a = true → atSend S H' b = true → atSend S H (a ++ b) = true := by
  induction a with
  | nil =>
    intro H H' hc _ hb
    simp only [chk, Option.some.injEq] at hc
    subst hc
    exact hb
  | cons x a ih =>
    intro H H' hc ha hb
    cases x <;> simp only [chk] at hc <;> simp only [atSend, List.cons_append] at ha ⊢
    case send =>
      rw [Bool.and_eq_true] at ha ⊢
      exact ⟨ha.1, ih _ _ hc ha.2 hb⟩
    all_goals
      split at hc
      · exact ih _ _ hc ha hb
      · cases hc

theorem atSend_of_none (S : List (L × Md)) (a : List (Act L V)) (h : ∀ x ∈ a, x ≠ .send) : ∀ H, atSend S H a = true := by
  induction a with
  | nil => intro H; rfl
  | cons x a ih =>
    intro H
    have ih' := ih fun y hy => h y (by simp [hy])
    cases x <;> simp only [atSend] <;> first | exact ih' _ | exact absurd rfl (h .send (by simp))

theorem atSend_step {S : List (L × Md)} {ts ts' : List (Thread L V)} {i : Nat} (hs : Step ts i ts')
    (h : ∀ t ∈ ts, atSend S t.held t.rest = true) : ∀ t ∈ ts', atSend S t.held t.rest = true := by
  intro t ht
  cases hs with
  | read hi =>
    rcases mem_set_cases ht with rfl | ht
    · simpa [atSend] using h _ (List.mem_of_getElem? hi)
    · exact h t ht
  | ask hi =>
    rcases mem_set_cases ht with rfl | ht
    · exact h ⟨_, _, false⟩ (List.mem_of_getElem? hi)
    · exact h t ht
  | write hi =>
    rcases mem_set_cases ht with rfl | ht
    · simpa [atSend] using h _ (List.mem_of_getElem? hi)
    · exact h t ht
  | rel hi =>
    rcases mem_set_cases ht with rfl | ht
    · simpa [atSend] using h _ (List.mem_of_getElem? hi)
    · exact h t ht
  | get hi =>
    rcases mem_set_cases ht with rfl | ht
    · simpa [atSend] using h _ (List.mem_of_getElem? hi)
    · exact h t ht
  | put hi =>
    rcases mem_set_cases ht with rfl | ht
    · simpa [atSend] using h _ (List.mem_of_getElem? hi)
    · exact h t ht
  | send hi =>
    rcases mem_set_cases ht with rfl | ht
    · have := h _ (List.mem_of_getElem? hi)
      simp only [atSend, Bool.and_eq_true] at this
      exact this.2
    · exact h t ht

theorem atSend_run {S : List (L × Md)} {ts ts' : List (Thread L V)} {is : List Nat} (hr : Run ts is ts')
    (h : ∀ t ∈ ts, atSend S t.held t.rest = true) : ∀ t ∈ ts', atSend S t.held t.rest = true := by
  induction hr with
  | nil => exact h
  | cons s _ ih => exact ih (atSend_step s h)

end
end Kindling.Lock
