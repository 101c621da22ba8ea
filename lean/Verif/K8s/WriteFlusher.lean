import Verif.Dec
/-
The writer of the metadata stream: collector/pkg/metadata/metaprovider/ioutil/writeflusher.go.

Goroutines call `Write`, `Flush` and `Close` in any interleaving; every step below is one step of one goroutine.  Simplified: the writer
underneath takes all bytes without an error; `sync.Once.Do` is one step (its body only closes a channel).
-/
namespace Kindling.K8s.WriteFlusher
open Kindling

/-- What a call returned: a write its bytes or `io.EOF`, a flush nothing, a close nil or `io.EOF`. -/
inductive Ret
  | wrote (b : Bytes) | writeEof | flushed | closed | closeEof
deriving DecidableEq, Repr

/-- What can be seen: bytes reach the writer, the writer is flushed, a call returns. -/
inductive Ev
  | wrote (i : Nat) (b : Bytes) | flush (i : Nat) | ret (i : Nat) (r : Ret)
deriving DecidableEq, Repr

/-- Where a goroutine is; `some b` in a flush: it belongs to the write of `b`. -/
inductive Pc
  | idle
  /-- Lines 27-31: about to look whether the flusher is closed -/
  | w0 (b : Bytes)
  /-- Line 33: about to write -/
  | w1 (b : Bytes)
  /-- Lines 40-44: about to look whether the flusher is closed -/
  | f0 (k : Option Bytes)
  /-- Lines 46-48: about to mark the flusher as flushed -/
  | f1 (k : Option Bytes)
  /-- Line 49: about to flush -/
  | f2 (k : Option Bytes)
  /-- Line 71: about to lock -/
  | c0
  /-- Lines 74-75: with the lock, about to look whether the flusher is closed -/
  | c1
  /-- Line 78: about to close the channel -/
  | c2
  /-- Lines 72, 80: about to return and unlock -/
  | c3
deriving DecidableEq, Repr

/-- writeflusher.go:11-18. -/
structure St where
  closed : Bool
  flushed : Bool
  once : Bool
  lock : Bool
  pc : Nat → Pc
  log : List Ev

/-- writeflusher.go:84-92 `NewWriteFlusher` for a writer that can flush (for others it gives nil): a fresh flusher with no call under way. -/
def init : St := ⟨false, false, false, false, fun _ => .idle, []⟩

/-- Goroutine `i` moves on and `es` can be seen. -/
def St.to (s : St) (i : Nat) (p : Pc) (es : List Ev) : St :=
  { s with pc := fun j => if j = i then p else s.pc j, log := s.log ++ es }

/-- writeflusher.go:35, 42, 50: what a call that ends in `Flush` returns. -/
def retOf : Option Bytes → Ret
  | some b => .wrote b
  | none => .flushed

/-- writeflusher.go:26-50, 70-81: one step of goroutine `i`; `err`: it cannot go on; `panic`: a closed channel is closed. -/
def go (s : St) (i : Nat) : Res St :=
  match s.pc i with
  | .idle => .err
  | .w0 b => if s.closed then .ok (s.to i .idle [.ret i .writeEof]) else .ok (s.to i (.w1 b) [])
  | .w1 b => .ok (s.to i (.f0 (some b)) [.wrote i b])
  | .f0 k => if s.closed then .ok (s.to i .idle [.ret i (retOf k)]) else .ok (s.to i (.f1 k) [])
  | .f1 k =>
    if s.once then .ok (s.to i (.f2 k) [])
    else if s.flushed then .panic
    else .ok ({ s with once := true, flushed := true }.to i (.f2 k) [])
  | .f2 k => .ok (s.to i .idle [.flush i, .ret i (retOf k)])
  | .c0 => if s.lock then .err else .ok ({ s with lock := true }.to i .c1 [])
  | .c1 => if s.closed then .ok ({ s with lock := false }.to i .idle [.ret i .closeEof]) else .ok (s.to i .c2 [])
  | .c2 => if s.closed then .panic else .ok ({ s with closed := true }.to i .c3 [])
  | .c3 => .ok ({ s with lock := false }.to i .idle [.ret i .closed])

/-- A goroutine calls one of the three functions, or goes on. -/
inductive Act
  | write (i : Nat) (b : Bytes) | flush (i : Nat) | close (i : Nat) | go (i : Nat)
deriving DecidableEq, Repr

/-- A goroutine calls only when it is in no call. -/
def call (s : St) (i : Nat) (p : Pc) : Res St := if s.pc i = .idle then .ok (s.to i p []) else .err

/-- One action. -/
def step (s : St) : Act → Res St
  | .write i b => call s i (.w0 b)
  | .flush i => call s i (.f0 none)
  | .close i => call s i .c0
  | .go i => go s i

/-- An execution. -/
def run : St → List Act → Res St
  | s, [] => .ok s
  | s, a :: r => match step s a with
    | .ok s' => run s' r
    | .err => .err
    | .panic => .panic

/-- writeflusher.go:54-65 `Flushed`. -/
def St.isFlushed (s : St) : Bool := s.flushed

/-! ### Specification -/

/-- A `Close` returned nil. -/
def Ev.isClosed : Ev → Bool
  | .ret _ .closed => true
  | _ => false

/-- The goroutine is in the flush that belongs to its write of `b`. -/
def Flushing (p : Pc) (b : Bytes) : Prop := p = .f0 (some b) ∨ p = .f1 (some b) ∨ p = .f2 (some b)

/-! ### Invariants -/

/-- In the part of `Close` under the lock. -/
def Holds (p : Pc) : Prop := p = .c1 ∨ p = .c2 ∨ p = .c3

structure Inv (s : St) : Prop where
  once : s.once = s.flushed
  held : ∀ i, Holds (s.pc i) → s.lock = true
  one : ∀ i j, Holds (s.pc i) → Holds (s.pc j) → i = j
  before : ∀ i, s.pc i = .c2 → s.closed = false
  after : ∀ i, s.pc i = .c3 → s.closed = true ∧ s.log.countP Ev.isClosed = 0
  none : s.closed = false → s.log.countP Ev.isClosed = 0
  le : s.log.countP Ev.isClosed ≤ 1
  done : s.closed = true → s.log.countP Ev.isClosed = 1 ∨ ∃ i, s.pc i = .c3
  eof : (∀ i, .ret i .closeEof ∈ s.log → s.closed = true) ∧ ∀ i, .ret i .writeEof ∈ s.log → s.closed = true
  fl : ∀ i, .flush i ∈ s.log ∨ (∃ k, s.pc i = .f2 k) → s.flushed = true
  fl' : s.flushed = true → ∃ i, .flush i ∈ s.log ∨ ∃ k, s.pc i = .f2 k

theorem init_inv : Inv init := by
  constructor <;> simp [init, Holds]

theorem to_pc (s : St) (i j : Nat) (p : Pc) (es : List Ev) : (s.to i p es).pc j = if j = i then p else s.pc j := rfl

/-- A step that neither closes nor flushes nor touches the lock. -/
theorem plain_inv {s : St} (h : Inv s) {i : Nat} {p : Pc} {es : List Ev} (hp : ¬ Holds p) (hf : ∀ k, p ≠ .f2 k) (hi : ¬ Holds (s.pc i))
    (hi' : ∀ k, s.pc i ≠ .f2 k) (hes : ∀ e ∈ es, e.isClosed = false) (hfl : ∀ j, .flush j ∉ es)
    (heof : (∃ j, .ret j .closeEof ∈ es ∨ .ret j .writeEof ∈ es) → s.closed = true) : Inv (s.to i p es) := by
  have hc : (s.to i p es).log.countP Ev.isClosed = s.log.countP Ev.isClosed := by
    have : es.countP Ev.isClosed = 0 := List.countP_eq_zero.2 (fun e he => by simp [hes e he])
    simp [St.to, List.countP_append, this]
  have hh : ∀ j, Holds ((s.to i p es).pc j) → Holds (s.pc j) := by
    intro j hj
    rw [to_pc] at hj
    split at hj
    · exact absurd hj hp
    · exact hj
  have hne : ∀ j q, (s.to i p es).pc j = q → Holds q → s.pc j = q := by
    intro j q hq hq'
    rw [to_pc] at hq
    split at hq
    · subst hq; exact absurd hq' hp
    · exact hq
  refine ⟨h.once, fun j hj => h.held j (hh j hj), fun j k hj hk => h.one j k (hh j hj) (hh k hk),
    fun j hj => h.before j (hne j _ hj (by simp [Holds])), fun j hj => ?_, fun hcl => ?_, ?_, fun hcl => ?_, ⟨fun j hj => ?_, fun j hj => ?_⟩,
    fun j hj => ?_, fun hj => ?_⟩
  · obtain ⟨a, b⟩ := h.after j (hne j _ hj (by simp [Holds])); exact ⟨a, by rw [hc]; exact b⟩
  · rw [hc]; exact h.none hcl
  · rw [hc]; exact h.le
  · rw [hc]
    rcases h.done hcl with a | ⟨j, hj⟩
    · exact .inl a
    · refine .inr ⟨j, ?_⟩
      rw [to_pc, if_neg (by rintro rfl; exact hi (by rw [hj]; simp [Holds]))]; exact hj
  · rcases List.mem_append.1 hj with hj | hj
    · exact h.eof.1 j hj
    · exact heof ⟨j, .inl hj⟩
  · rcases List.mem_append.1 hj with hj | hj
    · exact h.eof.2 j hj
    · exact heof ⟨j, .inr hj⟩
  · rcases hj with hj | ⟨k, hj⟩
    · rcases List.mem_append.1 hj with hj | hj
      · exact h.fl j (.inl hj)
      · exact absurd hj (hfl j)
    · rw [to_pc] at hj
      split at hj
      · exact absurd hj (hf k)
      · exact h.fl j (.inr ⟨k, hj⟩)
  · obtain ⟨j, hm | ⟨k, hm⟩⟩ := h.fl' hj
    · exact ⟨j, .inl (List.mem_append_left _ hm)⟩
    · refine ⟨j, .inr ⟨k, ?_⟩⟩
      rw [to_pc, if_neg (by rintro rfl; exact hi' k hm)]; exact hm

/-- The holder of the lock gives it back and returns from `Close`. -/
theorem close_inv {s : St} (h : Inv s) {i : Nat} {r : Ret} (hi : Holds (s.pc i)) (hc : s.closed = true)
    (h3 : s.pc i = .c3 → r = .closed) (h3' : r = .closed → s.pc i = .c3) (hr : (Ev.ret i r).isClosed = decide (r = .closed)) :
    Inv ({ s with lock := false }.to i .idle [.ret i r]) := by
  have hoth : ∀ j, j ≠ i → ¬ Holds (s.pc j) := fun j hj hh => hj (h.one j i hh hi)
  have hno : ∀ j, ¬ Holds ((({ s with lock := false } : St).to i .idle [.ret i r]).pc j) := by
    intro j
    rw [to_pc]
    split
    · simp [Holds]
    · exact hoth j (by assumption)
  have hcount : (({ s with lock := false } : St).to i .idle [.ret i r]).log.countP Ev.isClosed = 1 := by
    simp only [St.to, List.countP_append, List.countP_cons, List.countP_nil, hr]
    by_cases hx : r = .closed
    · simp [hx, (h.after i (h3' hx)).2]
    · rcases h.done hc with a | ⟨j, hj⟩
      · simp [hx, a]
      · have : j = i := h.one j i (by rw [hj]; simp [Holds]) hi
        subst this
        exact absurd (h3 hj) hx
  refine ⟨h.once, fun j hj => absurd hj (hno j), fun j _ hj _ => absurd hj (hno j), fun j hj => absurd (by rw [hj]; simp [Holds]) (hno j),
    fun j hj => absurd (by rw [hj]; simp [Holds]) (hno j), fun hcl => ?_, by rw [hcount]; exact Nat.le_refl 1, fun _ => .inl hcount,
    ⟨fun _ _ => hc, fun _ _ => hc⟩, fun j hj => ?_, fun hj => ?_⟩
  · exact absurd (hcl.symm.trans hc) (by simp)
  · rcases hj with hj | ⟨k, hj⟩
    · exact h.fl j (.inl (by simpa [St.to] using hj))
    · rw [to_pc] at hj
      split at hj
      · cases hj
      · exact h.fl j (.inr ⟨k, hj⟩)
  · obtain ⟨j, hm | ⟨k, hm⟩⟩ := h.fl' hj
    · exact ⟨j, .inl (List.mem_append_left _ hm)⟩
    · refine ⟨j, .inr ⟨k, ?_⟩⟩
      rw [to_pc, if_neg (by rintro rfl; rw [hm] at hi; simp [Holds] at hi)]; exact hm

/-- The holder of the lock moves on inside `Close`. -/
theorem lock_inv {s : St} (h : Inv s) {i : Nat} {p : Pc} {b : Bool} (hi : Holds (s.pc i)) (hh : Holds p)
    (h2 : p = .c2 → b = false) (h3 : p = .c3 → b = true ∧ s.log.countP Ev.isClosed = 0) (hn : p ≠ .c1)
    (hb : s.closed = true → b = true) : Inv ({ s with closed := b }.to i p []) := by
  have hl : (({ s with closed := b } : St).to i p []).log = s.log := by simp [St.to]
  have hpc : ∀ j, Holds ((({ s with closed := b } : St).to i p []).pc j) → j = i := by
    intro j hj
    rw [to_pc] at hj
    split at hj
    · assumption
    · exact h.one j i hj hi
  have hlk := h.held i hi
  have hat : ∀ j x, Holds x → (({ s with closed := b } : St).to i p []).pc j = x → p = x := by
    intro j x hx hj
    have := hpc j (by rw [hj]; exact hx)
    subst this
    simpa [to_pc] using hj
  refine ⟨h.once, fun _ _ => hlk, fun j k hj hk => (hpc j hj).trans (hpc k hk).symm, fun j hj => h2 (hat j _ (by simp [Holds]) hj),
    fun j hj => ?_, fun hcl => ?_, ?_, fun hcl => ?_, ?_, fun j hj => ?_, fun hj => ?_⟩
  · rw [hl]; exact h3 (hat j _ (by simp [Holds]) hj)
  · rw [hl]
    refine h.none ?_
    cases hx : s.closed with
    | false => rfl
    | true => exact absurd (hcl.symm.trans (hb hx)) (by simp)
  · rw [hl]; exact h.le
  · rcases hh with rfl | rfl | rfl
    · exact absurd rfl hn
    · exact absurd ((h2 rfl).symm.trans hcl) (by simp)
    · exact .inr ⟨i, by simp [to_pc]⟩
  · rw [hl]; exact ⟨fun j hj => hb (h.eof.1 j hj), fun j hj => hb (h.eof.2 j hj)⟩
  · rw [hl] at hj
    rcases hj with hj | ⟨k, hj⟩
    · exact h.fl j (.inl hj)
    · rw [to_pc] at hj
      split at hj
      · subst hj; simp [Holds] at hh
      · exact h.fl j (.inr ⟨k, hj⟩)
  · rw [hl]
    obtain ⟨j, hm | ⟨k, hm⟩⟩ := h.fl' hj
    · exact ⟨j, .inl hm⟩
    · refine ⟨j, .inr ⟨k, ?_⟩⟩
      rw [to_pc, if_neg (by rintro rfl; rw [hm] at hi; simp [Holds] at hi)]; exact hm

theorem go_inv {s : St} (h : Inv s) (i : Nat) : go s i ≠ .panic ∧ ∀ s', go s i = .ok s' → Inv s' := by
  unfold go
  cases hp : s.pc i with
  | idle => simp
  | w0 b =>
    simp only
    split
    · rename_i hc
      refine ⟨by simp, fun s' hs => ?_⟩
      cases hs
      exact plain_inv h (by simp [Holds]) (by simp) (by simp [hp, Holds]) (by simp [hp]) (by simp [Ev.isClosed]) (by simp) (fun _ => hc)
    · refine ⟨by simp, fun s' hs => ?_⟩
      cases hs
      exact plain_inv h (by simp [Holds]) (by simp) (by simp [hp, Holds]) (by simp [hp]) (by simp) (by simp) (by simp)
  | w1 b =>
    refine ⟨by simp, fun s' hs => ?_⟩
    cases hs
    exact plain_inv h (by simp [Holds]) (by simp) (by simp [hp, Holds]) (by simp [hp]) (by simp [Ev.isClosed]) (by simp) (by simp)
  | f0 k =>
    simp only
    split
    · refine ⟨by simp, fun s' hs => ?_⟩
      cases hs
      exact plain_inv h (by simp [Holds]) (by simp) (by simp [hp, Holds]) (by simp [hp]) (by cases k <;> simp [Ev.isClosed, retOf])
        (by simp) (by cases k <;> simp [retOf])
    · refine ⟨by simp, fun s' hs => ?_⟩
      cases hs
      exact plain_inv h (by simp [Holds]) (by simp) (by simp [hp, Holds]) (by simp [hp]) (by simp) (by simp) (by simp)
  | f1 k =>
    simp only
    have key : ∀ s' : St, s' = { s with once := true, flushed := true }.to i (.f2 k) [] → Inv s' := by
      rintro s' rfl
      have hh : ∀ j, Holds (({ s with once := true, flushed := true } : St).to i (.f2 k) [] |>.pc j) → Holds (s.pc j) := by
        intro j hj
        rw [to_pc] at hj
        split at hj
        · simp [Holds] at hj
        · exact hj
      have hl : (({ s with once := true, flushed := true } : St).to i (.f2 k) []).log = s.log := by simp [St.to]
      have hne : ∀ j q, (({ s with once := true, flushed := true } : St).to i (.f2 k) []).pc j = q → Holds q → s.pc j = q := by
        intro j q hq hq'
        rw [to_pc] at hq
        split at hq
        · subst hq; simp [Holds] at hq'
        · exact hq
      refine ⟨rfl, fun j hj => h.held j (hh j hj), fun j k hj hk => h.one j k (hh j hj) (hh k hk),
        fun j hj => h.before j (hne j _ hj (by simp [Holds])), fun j hj => ?_, fun hcl => ?_, ?_, fun hcl => ?_, ?_, fun j hj => rfl, fun hj => ?_⟩
      · rw [hl]; exact h.after j (hne j _ hj (by simp [Holds]))
      · rw [hl]; exact h.none hcl
      · rw [hl]; exact h.le
      · rw [hl]
        rcases h.done hcl with a | ⟨j, hj⟩
        · exact .inl a
        · refine .inr ⟨j, ?_⟩
          rw [to_pc, if_neg (by rintro rfl; rw [hj] at hp; cases hp)]; exact hj
      · rw [hl]; exact h.eof
      · exact ⟨i, .inr ⟨k, by simp [to_pc]⟩⟩
    have ho := h.once
    cases h1 : s.once with
    | true =>
      refine ⟨by simp, fun s' hs => ?_⟩
      simp only [if_true] at hs
      cases hs
      refine key _ ?_
      rw [h1] at ho
      have : s = { s with once := true, flushed := true } := by rw [← h1]; cases s; simp_all
      rw [← this]
    | false =>
      rw [h1] at ho
      rw [← ho]
      refine ⟨by simp, fun s' hs => ?_⟩
      simp only [Bool.false_eq_true, if_false] at hs
      cases hs
      exact key _ rfl
  | f2 k =>
    refine ⟨by simp, fun s' hs => ?_⟩
    cases hs
    have hfl : s.flushed = true := h.fl i (.inr ⟨k, hp⟩)
    have hc : (s.to i .idle [.flush i, .ret i (retOf k)]).log.countP Ev.isClosed = s.log.countP Ev.isClosed := by
      cases k <;> simp [St.to, List.countP_append, Ev.isClosed, retOf]
    have hh : ∀ j, Holds ((s.to i .idle [.flush i, .ret i (retOf k)]).pc j) → Holds (s.pc j) := by
      intro j hj
      rw [to_pc] at hj
      split at hj
      · simp [Holds] at hj
      · exact hj
    have hne : ∀ j q, (s.to i .idle [.flush i, .ret i (retOf k)]).pc j = q → Holds q → s.pc j = q := by
      intro j q hq hq'
      rw [to_pc] at hq
      split at hq
      · subst hq; simp [Holds] at hq'
      · exact hq
    refine ⟨h.once, fun j hj => h.held j (hh j hj), fun j k hj hk => h.one j k (hh j hj) (hh k hk),
      fun j hj => h.before j (hne j _ hj (by simp [Holds])), fun j hj => ?_, fun hcl => ?_, ?_, fun hcl => ?_, ⟨fun j hj => ?_, fun j hj => ?_⟩,
      fun j hj => hfl, fun hj => ?_⟩
    · rw [hc]; exact h.after j (hne j _ hj (by simp [Holds]))
    · rw [hc]; exact h.none hcl
    · rw [hc]; exact h.le
    · rw [hc]
      rcases h.done hcl with a | ⟨j, hj⟩
      · exact .inl a
      · refine .inr ⟨j, ?_⟩
        rw [to_pc, if_neg (by rintro rfl; rw [hj] at hp; cases hp)]; exact hj
    · exact h.eof.1 j (by cases k <;> simpa [St.to, retOf] using hj)
    · exact h.eof.2 j (by cases k <;> simpa [St.to, retOf] using hj)
    · exact ⟨i, .inl (by simp [St.to])⟩
  | c0 =>
    simp only
    split
    · simp
    · rename_i hl
      refine ⟨by simp, fun s' hs => ?_⟩
      cases hs
      have hno : ∀ j, ¬ Holds (s.pc j) := fun j hj => hl (h.held j hj)
      have hlog : ({ s with lock := true }.to i .c1 []).log = s.log := by simp [St.to]
      have hpc : ∀ j, Holds (({ s with lock := true } : St).to i .c1 [] |>.pc j) → j = i := by
        intro j hj
        rw [to_pc] at hj
        split at hj
        · assumption
        · exact absurd hj (hno j)
      have hx : ∀ j q, q ≠ .c1 → (({ s with lock := true } : St).to i .c1 []).pc j = q → s.pc j = q := by
        intro j q hq hj
        rw [to_pc] at hj
        split at hj
        · exact absurd hj.symm hq
        · exact hj
      refine ⟨h.once, fun _ _ => rfl, fun j k hj hk => (hpc j hj).trans (hpc k hk).symm, fun j hj => h.before j (hx j _ (by simp) hj), fun j hj => ?_,
        fun hcl => ?_, ?_, fun hcl => ?_, ?_, fun j hj => ?_, fun hj => ?_⟩
      · rw [hlog]; exact h.after j (hx j _ (by simp) hj)
      · rw [hlog]; exact h.none hcl
      · rw [hlog]; exact h.le
      · rw [hlog]
        rcases h.done hcl with a | ⟨j, hj⟩
        · exact .inl a
        · exact absurd (by rw [hj]; simp [Holds]) (hno j)
      · rw [hlog]; exact h.eof
      · rw [hlog] at hj
        rcases hj with hj | ⟨k, hj⟩
        · exact h.fl j (.inl hj)
        · exact h.fl j (.inr ⟨k, hx j _ (by simp) hj⟩)
      · rw [hlog]
        obtain ⟨j, hm | ⟨k, hm⟩⟩ := h.fl' hj
        · exact ⟨j, .inl hm⟩
        · refine ⟨j, .inr ⟨k, ?_⟩⟩
          rw [to_pc, if_neg (by rintro rfl; rw [hm] at hp; cases hp)]; exact hm
  | c1 =>
    have hi : Holds (s.pc i) := by rw [hp]; simp [Holds]
    have hoth : ∀ j, j ≠ i → ¬ Holds (s.pc j) := fun j hj hh => hj (h.one j i hh hi)
    simp only
    split
    · rename_i hc
      refine ⟨by simp, fun s' hs => ?_⟩
      cases hs
      refine close_inv h hi hc (fun hx => ?_) (by simp) (by simp [Ev.isClosed])
      rw [hp] at hx; cases hx
    · rename_i hc
      refine ⟨by simp, fun s' hs => ?_⟩
      cases hs
      refine lock_inv h hi (b := s.closed) (by simp [Holds]) (fun _ => by simpa using hc) (fun hx => by simp at hx) (by simp) (by simp_all)
  | c2 =>
    have hi : Holds (s.pc i) := by rw [hp]; simp [Holds]
    have hc := h.before i hp
    simp only [hc]
    refine ⟨by simp, fun s' hs => ?_⟩
    simp only [Bool.false_eq_true, if_false] at hs
    cases hs
    refine lock_inv h hi (b := true) (by simp [Holds]) (fun hx => by simp at hx) (fun _ => ⟨rfl, h.none hc⟩) (by simp) (fun _ => rfl)
  | c3 =>
    have hi : Holds (s.pc i) := by rw [hp]; simp [Holds]
    refine ⟨by simp, fun s' hs => ?_⟩
    cases hs
    exact close_inv h hi (h.after i hp).1 (fun _ => rfl) (fun _ => hp) (by simp [Ev.isClosed])

theorem step_inv {s : St} (h : Inv s) (a : Act) : step s a ≠ .panic ∧ ∀ s', step s a = .ok s' → Inv s' := by
  have hcall : ∀ i p, ¬ Holds p → (∀ k, p ≠ .f2 k) → call s i p ≠ .panic ∧ ∀ s', call s i p = .ok s' → Inv s' := by
    intro i p hp hf
    unfold call
    split
    · rename_i hi
      refine ⟨by simp, fun s' hs => ?_⟩
      cases hs
      exact plain_inv h hp hf (by simp [hi, Holds]) (by simp [hi]) (by simp) (by simp) (by simp)
    · simp
  cases a with
  | write i b => exact hcall i _ (by simp [Holds]) (by simp)
  | flush i => exact hcall i _ (by simp [Holds]) (by simp)
  | close i => exact hcall i _ (by simp [Holds]) (by simp)
  | go i => exact go_inv h i

theorem run_inv {s : St} (h : Inv s) (as : List Act) : run s as ≠ .panic ∧ ∀ s', run s as = .ok s' → Inv s' := by
  induction as generalizing s with
  | nil => exact ⟨by simp [run], fun s' hs => by simp only [run] at hs; cases hs; exact h⟩
  | cons a r ih =>
    have hs := step_inv h a
    simp only [run]
    cases hx : step s a with
    | ok t => exact ih (hs.2 t hx)
    | err => simp
    | panic => exact absurd hx hs.1

/-! ### Theorems -/

/-- No interleaving of calls closes a channel twice. -/
theorem never_panics (as : List Act) : run init as ≠ .panic := (run_inv init_inv as).1

/-- At most one `Close` returns nil; when no call is under way, exactly one did if the flusher is closed and none otherwise; and `io.EOF` is
    returned only by a closed flusher. -/
theorem one_close {as : List Act} {s : St} (h : run init as = .ok s) :
    s.log.countP Ev.isClosed ≤ 1 ∧
    ((∀ i, s.pc i = .idle) → s.log.countP Ev.isClosed = if s.closed then 1 else 0) ∧
    (∀ i, (.ret i .closeEof ∈ s.log ∨ .ret i .writeEof ∈ s.log) → s.closed = true) := by
  have hi := (run_inv init_inv as).2 s h
  refine ⟨hi.le, fun hp => ?_, fun i hx => hx.elim (hi.eof.1 i) (hi.eof.2 i)⟩
  cases hc : s.closed with
  | false => simpa using hi.none hc
  | true =>
    rcases hi.done hc with a | ⟨i, hx⟩
    · simpa using a
    · rw [hp i] at hx; cases hx

/-- `Flushed` says true from just before the first flush on, and not earlier. -/
theorem flushed_iff {as : List Act} {s : St} (h : run init as = .ok s) :
    s.isFlushed = true ↔ ∃ i, .flush i ∈ s.log ∨ ∃ k, s.pc i = .f2 k :=
  have hi := (run_inv init_inv as).2 s h
  ⟨hi.fl', fun ⟨i, hx⟩ => hi.fl i hx⟩

/-! ### No call hangs -/

theorem lock_step {s s' : St} {a : Act} (hl : s.lock = true → ∃ i, Holds (s.pc i)) (h : step s a = .ok s') :
    s'.lock = true → ∃ i, Holds (s'.pc i) := by
  have hto : ∀ (t : St) (n : Nat) (p : Pc) (es : List Ev), t.lock = s.lock → t.pc = s.pc → (Holds (s.pc n) → Holds p) →
      (t.to n p es).lock = true → ∃ i, Holds ((t.to n p es).pc i) := by
    intro t n p es h1 h2 h3 h4
    obtain ⟨i, hi⟩ := hl (h1.symm.trans h4)
    refine ⟨i, ?_⟩
    rw [to_pc, h2]
    split
    · rename_i hin; subst hin; exact h3 hi
    · exact hi
  have hcall : ∀ n p, call s n p = .ok s' → s'.lock = true → ∃ i, Holds (s'.pc i) := by
    intro n p hs
    unfold call at hs
    split at hs
    · rename_i hi
      cases hs
      exact hto s n p [] rfl rfl (by simp [hi, Holds])
    · cases hs
  cases a with
  | write n b => exact hcall n _ h
  | flush n => exact hcall n _ h
  | close n => exact hcall n _ h
  | go n =>
    simp only [step, go] at h
    cases hp : s.pc n with
    | idle => simp [hp] at h
    | w0 b => simp only [hp] at h; split at h <;> cases h <;> exact hto s n _ _ rfl rfl (by simp [hp, Holds])
    | w1 b => simp only [hp] at h; cases h; exact hto s n _ _ rfl rfl (by simp [hp, Holds])
    | f0 k => simp only [hp] at h; split at h <;> cases h <;> exact hto s n _ _ rfl rfl (by simp [hp, Holds])
    | f1 k =>
      simp only [hp] at h
      split at h
      · cases h; exact hto s n _ _ rfl rfl (by simp [hp, Holds])
      · split at h
        · cases h
        · cases h; exact hto { s with once := true, flushed := true } n _ _ rfl rfl (by simp [hp, Holds])
    | f2 k => simp only [hp] at h; cases h; exact hto s n _ _ rfl rfl (by simp [hp, Holds])
    | c0 =>
      simp only [hp] at h
      split at h
      · cases h
      · cases h; exact fun _ => ⟨n, by simp [St.to, Holds]⟩
    | c1 =>
      simp only [hp] at h
      split at h
      · cases h; intro hx; simp [St.to] at hx
      · cases h; exact hto s n _ _ rfl rfl (by simp [Holds])
    | c2 =>
      simp only [hp] at h
      split at h
      · cases h
      · cases h; exact hto { s with closed := true } n _ _ rfl rfl (by simp [Holds])
    | c3 => simp only [hp] at h; cases h; intro hx; simp [St.to] at hx

theorem lock_run {s s' : St} {as : List Act} (hi : Inv s) (hl : s.lock = true → ∃ i, Holds (s.pc i)) (h : run s as = .ok s') :
    s'.lock = true → ∃ i, Holds (s'.pc i) := by
  induction as generalizing s with
  | nil => simp only [run] at h; cases h; exact hl
  | cons a r ih =>
    simp only [run] at h
    cases hx : step s a with
    | ok t => rw [hx] at h; exact ih ((step_inv hi a).2 t hx) (lock_step hl hx) h
    | err => rw [hx] at h; cases h
    | panic => rw [hx] at h; cases h

/-- A goroutine inside `Write` or `Flush` can always go on; one inside `Close` waits at most for another `Close` that can go on. -/
theorem never_stuck {as : List Act} {s : St} (h : run init as = .ok s) {i : Nat} (hi : s.pc i ≠ .idle) :
    (∃ s', go s i = .ok s') ∨ (s.pc i = .c0 ∧ ∃ j s', Holds (s.pc j) ∧ go s j = .ok s') := by
  have hinv := (run_inv init_inv as).2 s h
  have hgo : ∀ j, s.pc j ≠ .idle → (s.pc j = .c0 → s.lock = false) → ∃ s', go s j = .ok s' := by
    intro j hj h0
    have hp := (go_inv hinv j).1
    cases hx : go s j with
    | ok t => exact ⟨t, rfl⟩
    | panic => exact absurd hx hp
    | err =>
      exfalso
      unfold go at hx
      cases hq : s.pc j with
      | idle => exact hj hq
      | c0 => simp [hq, h0 hq] at hx
      | w0 b => simp only [hq] at hx; split at hx <;> cases hx
      | w1 b => simp [hq] at hx
      | f0 k => simp only [hq] at hx; split at hx <;> cases hx
      | f1 k =>
        simp only [hq] at hx
        split at hx
        · cases hx
        · split at hx <;> cases hx
      | f2 k => simp [hq] at hx
      | c1 => simp only [hq] at hx; split at hx <;> cases hx
      | c2 => simp only [hq] at hx; split at hx <;> cases hx
      | c3 => simp [hq] at hx
  by_cases h0 : s.pc i = .c0 ∧ s.lock = true
  · obtain ⟨j, hj⟩ := lock_run init_inv (by simp [init]) h h0.2
    have hn : s.pc j ≠ .idle ∧ s.pc j ≠ .c0 := by
      rcases hj with x | x | x <;> simp [x]
    obtain ⟨s', hs'⟩ := hgo j hn.1 (fun hx => absurd hx hn.2)
    exact .inr ⟨h0.1, j, s', hj, hs'⟩
  · refine .inl (hgo i hi (fun hx => ?_))
    cases hl : s.lock with
    | false => rfl
    | true => exact absurd ⟨hx, hl⟩ h0

/-! ### What reaches the writer -/

/-- What one step of a closed flusher can still write: what a goroutine that is past the look at line 28 holds. -/
theorem closed_step {s s' : St} {a : Act} (hc : s.closed = true) (h : step s a = .ok s') :
    s'.closed = true ∧ ∃ es, s'.log = s.log ++ es ∧ ∀ i b,
      es.count (.wrote i b) + (if s'.pc i = .w1 b then 1 else 0) ≤ if s.pc i = .w1 b then 1 else 0 := by
  have hto : ∀ (t : St) (n : Nat) (p : Pc) (es : List Ev), t.closed = true → t.log = s.log → t.pc = s.pc →
      (∀ b, es.count (.wrote n b) + (if p = .w1 b then 1 else 0) ≤ if s.pc n = .w1 b then 1 else 0) →
      (∀ i b, i ≠ n → es.count (.wrote i b) = 0) → (t.to n p es).closed = true ∧ ∃ es', (t.to n p es).log = s.log ++ es' ∧ ∀ i b,
        es'.count (.wrote i b) + (if (t.to n p es).pc i = .w1 b then 1 else 0) ≤ if s.pc i = .w1 b then 1 else 0 := by
    intro t n p es h1 h2 h3 h4 h5
    refine ⟨h1, es, by simp [St.to, h2], fun i b => ?_⟩
    rw [to_pc, h3]
    by_cases hin : i = n
    · subst hin; simpa using h4 b
    · simp [hin, h5 i b hin]
  have hcall : ∀ n p, (∀ b, p ≠ .w1 b) → call s n p = .ok s' → s'.closed = true ∧ ∃ es, s'.log = s.log ++ es ∧ ∀ i b,
      es.count (.wrote i b) + (if s'.pc i = .w1 b then 1 else 0) ≤ if s.pc i = .w1 b then 1 else 0 := by
    intro n p hp hs
    unfold call at hs
    split at hs
    · cases hs
      exact hto s n p [] hc rfl rfl (by simp [hp]) (by simp)
    · cases hs
  cases a with
  | write n b => exact hcall n _ (by simp) h
  | flush n => exact hcall n _ (by simp) h
  | close n => exact hcall n _ (by simp) h
  | go n =>
    simp only [step, go] at h
    cases hp : s.pc n with
    | idle => simp [hp] at h
    | w0 b =>
      simp only [hp, hc, if_true] at h
      cases h
      exact hto s n _ _ hc rfl rfl (by simp [hp]) (by simp)
    | w1 b =>
      simp only [hp] at h
      cases h
      refine hto s n _ _ hc rfl rfl (fun c => ?_) (fun i c hi => ?_)
      · rw [hp]
        by_cases hbc : b = c <;> simp [hbc]
      · simp [Ne.symm hi]
    | f0 k =>
      simp only [hp, hc, if_true] at h
      cases h
      exact hto s n _ _ hc rfl rfl (by simp [hp]) (by simp)
    | f1 k =>
      simp only [hp] at h
      split at h
      · cases h; exact hto s n _ _ hc rfl rfl (by simp [hp]) (by simp)
      · split at h
        · cases h
        · cases h; exact hto { s with once := true, flushed := true } n _ _ hc rfl rfl (by simp [hp]) (by simp)
    | f2 k =>
      simp only [hp] at h
      cases h
      exact hto s n _ _ hc rfl rfl (by simp [hp]) (by simp)
    | c0 =>
      simp only [hp] at h
      split at h
      · cases h
      · cases h; exact hto { s with lock := true } n _ _ hc rfl rfl (by simp [hp]) (by simp)
    | c1 =>
      simp only [hp, hc, if_true] at h
      cases h
      exact hto { s with closed := true, lock := false } n _ _ rfl rfl rfl (by simp [hp]) (by simp)
    | c2 => simp [hp, hc] at h
    | c3 =>
      simp only [hp] at h
      cases h
      exact hto { s with lock := false } n _ _ hc rfl rfl (by simp [hp]) (by simp)

/-- Once the flusher is closed, nothing more reaches the writer but, once each, the bytes of the writes that were past their look at it. -/
theorem close_stops {s s' : St} {as : List Act} (hc : s.closed = true) (h : run s as = .ok s') :
    s'.closed = true ∧ ∃ es, s'.log = s.log ++ es ∧ ∀ i b, es.count (.wrote i b) ≤ if s.pc i = .w1 b then 1 else 0 := by
  suffices hs : s'.closed = true ∧ ∃ es, s'.log = s.log ++ es ∧ ∀ i b,
      es.count (.wrote i b) + (if s'.pc i = .w1 b then 1 else 0) ≤ if s.pc i = .w1 b then 1 else 0 by
    obtain ⟨h1, es, h2, h3⟩ := hs
    exact ⟨h1, es, h2, fun i b => Nat.le_trans (Nat.le_add_right _ _) (h3 i b)⟩
  induction as generalizing s with
  | nil =>
    simp only [run] at h
    cases h
    exact ⟨hc, [], by simp, by simp⟩
  | cons a r ih =>
    simp only [run] at h
    cases hx : step s a with
    | ok t =>
      rw [hx] at h
      obtain ⟨h1, es, h2, h3⟩ := closed_step hc hx
      obtain ⟨h4, es', h5, h6⟩ := ih h1 h
      refine ⟨h4, es ++ es', by rw [h5, h2, List.append_assoc], fun i b => ?_⟩
      have := h3 i b
      have := h6 i b
      rw [List.count_append]
      omega
    | err => rw [hx] at h; cases h
    | panic => rw [hx] at h; cases h

theorem open_step {s s' : St} {a : Act} (hc : s'.closed = false) (h : step s a = .ok s') :
    s.closed = false ∧ ∃ es, s'.log = s.log ++ es ∧ ∀ i b,
      (Flushing (s.pc i) b → .flush i ∈ es ∨ Flushing (s'.pc i) b) ∧ (.wrote i b ∈ es → Flushing (s'.pc i) b) := by
  have hto : ∀ (t : St) (n : Nat) (p : Pc) (es : List Ev), s.closed = false → t.log = s.log → t.pc = s.pc →
      (∀ b, (Flushing (s.pc n) b → .flush n ∈ es ∨ Flushing p b) ∧ (.wrote n b ∈ es → Flushing p b)) →
      (∀ i b, i ≠ n → .wrote i b ∉ es) → s.closed = false ∧ ∃ es', (t.to n p es).log = s.log ++ es' ∧ ∀ i b,
        (Flushing (s.pc i) b → .flush i ∈ es' ∨ Flushing ((t.to n p es).pc i) b) ∧ (.wrote i b ∈ es' → Flushing ((t.to n p es).pc i) b) := by
    intro t n p es h1 h2 h3 h4 h5
    refine ⟨h1, es, by simp [St.to, h2], fun i b => ?_⟩
    rw [to_pc, h3]
    by_cases hin : i = n
    · subst hin; simpa using h4 b
    · simp only [hin, if_false]
      exact ⟨fun hx => .inr hx, fun hx => absurd hx (h5 i b hin)⟩
  have hcall : ∀ n p, call s n p = .ok s' → s.closed = false ∧ ∃ es, s'.log = s.log ++ es ∧ ∀ i b,
      (Flushing (s.pc i) b → .flush i ∈ es ∨ Flushing (s'.pc i) b) ∧ (.wrote i b ∈ es → Flushing (s'.pc i) b) := by
    intro n p hs
    unfold call at hs
    split at hs
    · rename_i hi
      cases hs
      exact hto s n p [] hc rfl rfl (by simp [hi, Flushing]) (by simp)
    · cases hs
  cases a with
  | write n b => exact hcall n _ h
  | flush n => exact hcall n _ h
  | close n => exact hcall n _ h
  | go n =>
    simp only [step, go] at h
    cases hp : s.pc n with
    | idle => simp [hp] at h
    | w0 b =>
      simp only [hp] at h
      split at h <;> cases h <;> exact hto s n _ _ hc rfl rfl (by simp [hp, Flushing]) (by simp)
    | w1 b =>
      simp only [hp] at h
      cases h
      exact hto s n _ _ hc rfl rfl (by simp [hp, Flushing]) (by simp_all)
    | f0 k =>
      simp only [hp] at h
      split at h
      · rename_i hx
        cases h
        exact absurd (hx.symm.trans hc) (by simp)
      · cases h; exact hto s n _ _ hc rfl rfl (by simp [hp, Flushing]) (by simp)
    | f1 k =>
      simp only [hp] at h
      split at h
      · cases h; exact hto s n _ _ hc rfl rfl (by simp [hp, Flushing]) (by simp)
      · split at h
        · cases h
        · cases h; exact hto { s with once := true, flushed := true } n _ _ hc rfl rfl (by simp [hp, Flushing]) (by simp)
    | f2 k =>
      simp only [hp] at h
      cases h
      exact hto s n _ _ hc rfl rfl (by simp [hp]) (by simp)
    | c0 =>
      simp only [hp] at h
      split at h
      · cases h
      · cases h; exact hto { s with lock := true } n _ _ hc rfl rfl (by simp [hp, Flushing]) (by simp)
    | c1 =>
      simp only [hp] at h
      split at h
      · cases h; exact hto { s with lock := false } n _ _ hc rfl rfl (by simp [hp, Flushing]) (by simp)
      · cases h; exact hto s n _ _ hc rfl rfl (by simp [hp, Flushing]) (by simp)
    | c2 =>
      simp only [hp] at h
      split at h
      · cases h
      · cases h; exact absurd hc (by simp [St.to])
    | c3 =>
      simp only [hp] at h
      cases h
      exact hto { s with lock := false } n _ _ hc rfl rfl (by simp [hp, Flushing]) (by simp)

/-- Every write that reached the writer has been flushed since, or its flush is under way. -/
def Flushed (s : St) : Prop :=
  ∀ (n i : Nat) (b : Bytes), s.log[n]? = some (Ev.wrote i b) → (∃ m : Nat, n < m ∧ s.log[m]? = some (Ev.flush i)) ∨ Flushing (s.pc i) b

theorem open_run {s s' : St} {as : List Act} (hc : s'.closed = false) (h : run s as = .ok s') (hf : s.closed = false → Flushed s) :
    s.closed = false ∧ Flushed s' := by
  induction as generalizing s with
  | nil =>
    simp only [run] at h
    cases h
    exact ⟨hc, hf hc⟩
  | cons a r ih =>
    simp only [run] at h
    cases hx : step s a with
    | ok t =>
      rw [hx] at h
      have hstep : t.closed = false → Flushed t := by
        intro ht
        obtain ⟨h1, es, h2, h3⟩ := open_step ht hx
        intro n i b hn
        rw [h2] at hn ⊢
        by_cases hlt : n < s.log.length
        · rw [List.getElem?_append_left hlt] at hn
          rcases hf h1 n i b hn with ⟨m, hm, hm'⟩ | hfl
          · have hml : m < s.log.length := (List.getElem?_eq_some_iff.1 hm').1
            exact .inl ⟨m, hm, by rw [List.getElem?_append_left hml]; exact hm'⟩
          · rcases (h3 i b).1 hfl with hmem | hfl'
            · obtain ⟨k, hk⟩ := List.mem_iff_getElem?.1 hmem
              refine .inl ⟨s.log.length + k, by omega, ?_⟩
              rw [List.getElem?_append_right (by omega), Nat.add_sub_cancel_left]; exact hk
            · exact .inr hfl'
        · rw [List.getElem?_append_right (by omega)] at hn
          exact .inr ((h3 i b).2 (List.mem_of_getElem? hn))
      obtain ⟨h1, h2⟩ := ih h hstep
      exact ⟨(open_step h1 hx).1, h2⟩
    | err => rw [hx] at h; cases h
    | panic => rw [hx] at h; cases h

/-- While the flusher is open, what a goroutine wrote has been flushed after it once the goroutine's call has returned. -/
theorem writes_flushed {as : List Act} {s : St} (h : run init as = .ok s) (hc : s.closed = false) {n i : Nat} {b : Bytes}
    (hw : s.log[n]? = some (Ev.wrote i b)) (hi : s.pc i = .idle) : ∃ m : Nat, n < m ∧ s.log[m]? = some (Ev.flush i) := by
  rcases (open_run hc h (fun _ => by intro n i b hx; simp [init] at hx)).2 n i b hw with hx | hx
  · exact hx
  · simp [hi, Flushing] at hx

/-- FINDING: a write that has looked before `Close` writes after `Close` has returned nil, returns without an error, and is never flushed by
    anyone: the promise of lines 67-69 and of lines 8-10 does not hold. -/
theorem late_write (b : Bytes) (i j : Nat) (hij : i ≠ j) :
    ∃ s, run init [.write i b, .go i, .close j, .go j, .go j, .go j, .go j, .go i, .go i] = .ok s ∧
      s.log = [.ret j .closed, .wrote i b, .ret i (.wrote b)] ∧ ∀ n, s.pc n = .idle := by
  have hji : j ≠ i := Ne.symm hij
  simp [run, step, call, go, init, St.to, hij, hji, retOf]
  intro n
  by_cases h1 : n = i <;> by_cases h2 : n = j <;> simp_all

/-! ### Examples -/

example : (match run init [.write 0 [1], .go 0, .go 0, .go 0, .go 0, .go 0, .write 1 [2], .go 1, .close 2, .close 3, .go 2, .go 2, .go 2, .go 2, .go 3, .go 3,
    .go 1, .go 1, .write 0 [3], .go 0] with
    | .ok s => s.log == [.wrote 0 [1], .flush 0, .ret 0 (.wrote [1]), .ret 2 .closed, .ret 3 .closeEof, .wrote 1 [2], .ret 1 (.wrote [2]), .ret 0 .writeEof]
    | _ => false) = true := by decide +kernel

/-- The hypotheses of `writes_flushed` are met. -/
example : ∃ s, run init [.write 0 [1], .go 0, .go 0, .go 0, .go 0, .go 0] = .ok s ∧ s.closed = false ∧ s.log[0]? = some (.wrote 0 [1]) ∧ s.pc 0 = .idle :=
  ⟨_, rfl, rfl, rfl, rfl⟩

/-- Those of `close_stops` too, with a write past its look. -/
example : ∃ s s', run init [.write 0 [1], .go 0, .close 1, .go 1, .go 1, .go 1] = .ok s ∧ s.closed = true ∧ s.pc 0 = .w1 [1] ∧ run s [.go 0] = .ok s' :=
  ⟨_, _, rfl, rfl, rfl, rfl⟩

end Kindling.K8s.WriteFlusher
