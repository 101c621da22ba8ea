import Verif.Basic
/-
C84, C35: when a scheduled task runs.  scheduled_task.go with a clock in nanoseconds: the ticker and the timer put into their
channels of one slot (Go's `time` package: a tick that finds the slot full is dropped), and the loop takes from them when
it gets to run.  `Stop` is left out (nobody calls it, see Cpu/Task.lean).
-/
namespace Kindling.Cpu.Timed
open Kindling

/-- A routine whose ticker has period `p` and whose timer fires after `D`; scheduled_task.go:15-24. -/
structure St where
  now : Nat := 0
  /-- `ticker.C` and `timer.C` hold a value -/
  tick : Bool := false
  timer : Bool := false
  /-- how long the loop has had something to take -/
  wait : Nat := 0
  /-- when `task.run()` was called -/
  runs : List Nat := []
  ended : Option Nat := none
deriving DecidableEq, Repr

inductive Act where
  | time | tick | expire
deriving DecidableEq, Repr

/-- One step: a nanosecond passes; the loop takes the tick and runs the task (scheduled_task.go:56-58), or takes the timer and
ends (59-63).  `select` may take either if both are there.  The loop is never kept waiting longer than `d`; the time of a run
of the task is part of it. -/
def step (p D d : Nat) (s : St) : Act → Option St
  | .time =>
    if s.ended = none ∧ (s.tick = true ∨ s.timer = true) ∧ d ≤ s.wait then none
    else some { s with
      now := s.now + 1
      tick := s.tick || (decide (s.ended = none) && decide (p ∣ s.now + 1))
      timer := s.timer || decide (s.now + 1 = D)
      wait := if s.tick = true ∨ s.timer = true then s.wait + 1 else 0 }
  | .tick =>
    if s.ended = none ∧ s.tick = true then some { s with tick := false, wait := 0, runs := s.runs ++ [s.now] } else none
  | .expire =>
    if s.ended = none ∧ s.timer = true then some { s with timer := false, wait := 0, ended := some s.now } else none

def run (p D d : Nat) (s : St) : List Act → Option St
  | [] => some s
  | a :: as => (step p D d s a).bind (fun s' => run p D d s' as)

/-! ## Invariant -/

/-- The runs so far: run `i` happened within `d` after tick `i + 1`. -/
def OnTime (p d : Nat) (l : List Nat) : Prop := ∀ i t, l[i]? = some t → (i + 1) * p ≤ t ∧ t ≤ (i + 1) * p + d

structure Inv (p n d : Nat) (s : St) : Prop where
  onTime : OnTime p d s.runs
  count : s.runs.length ≤ n
  /-- before the timer -/
  before : s.ended = none → s.timer = false → s.now ≤ n * p ∧
    ((s.tick = false ∧ s.runs.length * p ≤ s.now ∧ s.now < (s.runs.length + 1) * p) ∨
      (s.tick = true ∧ s.now = (s.runs.length + 1) * p + s.wait ∧ s.wait ≤ d))
  /-- after the timer -/
  after : s.ended = none → s.timer = true → n * p + 1 ≤ s.now ∧
    ((s.tick = false ∧ s.runs.length = n ∧ s.now ≤ n * p + 1 + d + s.wait ∧ s.wait ≤ d) ∨
      (s.tick = true ∧ s.runs.length + 1 = n ∧ s.now = n * p + s.wait ∧ s.wait ≤ d))
  done : ∀ t, s.ended = some t → (s.runs.length = n ∨ s.runs.length + 1 = n) ∧ n * p + 1 ≤ t ∧ t ≤ n * p + 1 + 2 * d

theorem inv_init (p n d : Nat) (hp : 0 < p) : Inv p n d {} := by
  refine ⟨by intro i t h; simp at h, by simp, ?_, by simp, by simp⟩
  intro _ _
  exact ⟨by simp, Or.inl ⟨rfl, by simp, by simpa using hp⟩⟩

theorem onTime_snoc {p d : Nat} {l : List Nat} {t : Nat} (h : OnTime p d l) (h1 : (l.length + 1) * p ≤ t) (h2 : t ≤ (l.length + 1) * p + d) :
    OnTime p d (l ++ [t]) := by
  intro i u hu
  by_cases hi : i < l.length
  · rw [List.getElem?_append_left hi] at hu; exact h i u hu
  · rw [List.getElem?_append_right (by omega)] at hu
    have : i - l.length = 0 := by
      cases hk : i - l.length with
      | zero => rfl
      | succ j => rw [hk] at hu; simp at hu
    rw [this] at hu
    simp at hu
    have : i = l.length := by omega
    subst this; subst hu
    exact ⟨h1, h2⟩

theorem mul_bounds {p a b : Nat} (h1 : a * p < (b + 1) * p) : a ≤ b := by
  refine Decidable.byContradiction fun hc => ?_
  have : (b + 1) * p ≤ a * p := Nat.mul_le_mul_right p (by omega)
  omega

theorem inv_step {p n d : Nat} (hd : 2 * d + 2 ≤ p) {s s' : St} (h : Inv p n d s) (a : Act) (hs : step p (n * p + 1) d s a = some s') :
    Inv p n d s' := by
  cases a with
  | tick =>
    simp only [step] at hs
    split at hs
    · rename_i hc
      cases hs
      obtain ⟨he, ht⟩ := hc
      cases htm : s.timer with
      | false =>
        obtain ⟨hn, hb⟩ := h.before he htm
        rcases hb with ⟨hf, _⟩ | ⟨_, hw, hwd⟩
        · rw [ht] at hf; cases hf
        · have hle : s.runs.length + 1 ≤ n := by
            apply mul_bounds (p := p)
            rw [Nat.add_mul n 1 p]; omega
          refine ⟨onTime_snoc h.onTime (by omega) (by omega), by simpa using hle, ?_, by intro _ h2; simp at h2, by simp [he]⟩
          intro _ _
          refine ⟨hn, Or.inl ⟨rfl, ?_, ?_⟩⟩
          · simp only [List.length_append, List.length_singleton]; omega
          · simp only [List.length_append, List.length_singleton]
            rw [Nat.add_mul (s.runs.length + 1) 1 p]; omega
      | true =>
        obtain ⟨hn, hb⟩ := h.after he htm
        rcases hb with ⟨hf, _⟩ | ⟨_, hl, hw, hwd⟩
        · rw [ht] at hf; cases hf
        · refine ⟨onTime_snoc h.onTime (by rw [hl]; omega) (by rw [hl]; omega), by simp; omega, by intro _ h2; simp at h2, ?_, by simp [he]⟩
          intro _ _
          refine ⟨hn, Or.inl ⟨rfl, by simpa using hl, ?_, by simp⟩⟩
          simp only; omega
    · cases hs
  | expire =>
    simp only [step] at hs
    split at hs
    · rename_i hc
      cases hs
      obtain ⟨he, ht⟩ := hc
      refine ⟨h.onTime, h.count, by simp, by simp, ?_⟩
      intro t hte
      cases hte
      obtain ⟨hn, hb⟩ := h.after he ht
      rcases hb with ⟨_, hl, hw, hwd⟩ | ⟨_, hl, hw, hwd⟩
      · exact ⟨Or.inl hl, hn, by omega⟩
      · exact ⟨Or.inr hl, hn, by omega⟩
    · cases hs
  | time =>
    simp only [step] at hs
    split at hs
    · cases hs
    · rename_i hc
      cases hs
      refine ⟨h.onTime, h.count, ?_, ?_, h.done⟩
      · intro he htm
        replace he : s.ended = none := he
        simp only [Bool.or_eq_false_iff, decide_eq_false_iff_not] at htm
        obtain ⟨htm, hD⟩ := htm
        obtain ⟨hn, hb⟩ := h.before he htm
        refine ⟨by simp only; omega, ?_⟩
        simp only [htm, he, decide_true, Bool.true_and, Bool.or_eq_true, Bool.or_eq_false_iff, decide_eq_true_eq, decide_eq_false_iff_not]
        rcases hb with ⟨hf, h1, h2⟩ | ⟨hf, h1, h2⟩
        · simp only [hf]
          by_cases hdv : p ∣ s.now + 1
          · right
            obtain ⟨k, hk⟩ := hdv
            have : k = s.runs.length + 1 := by
              have e1 : k ≤ s.runs.length + 1 := by
                apply mul_bounds (p := p)
                rw [Nat.mul_comm k p, ← hk, Nat.add_mul (s.runs.length + 1) 1 p]; omega
              have e2 : s.runs.length < k := by
                refine Decidable.byContradiction fun hcc => ?_
                have : k * p ≤ s.runs.length * p := Nat.mul_le_mul_right p (by omega)
                rw [Nat.mul_comm k p] at this
                omega
              omega
            subst this
            refine ⟨Or.inr ⟨_, hk⟩, ?_, by simp⟩
            simp
            rw [Nat.mul_comm]
            exact hk
          · left
            refine ⟨⟨trivial, hdv⟩, by omega, ?_⟩
            have : s.now + 1 ≠ (s.runs.length + 1) * p := fun e => hdv ⟨_, by rw [e, Nat.mul_comm]⟩
            omega
        · right
          rw [hf]
          have hw : s.wait < d := by
            refine Decidable.byContradiction fun hcc => ?_
            exact hc ⟨he, Or.inl hf, by omega⟩
          exact ⟨Or.inl rfl, by simp; omega, by simp; omega⟩
      · intro he htm
        replace he : s.ended = none := he
        simp only [Bool.or_eq_true, decide_eq_true_eq] at htm
        simp only [he, decide_true, Bool.true_and, Bool.or_eq_true, Bool.or_eq_false_iff, decide_eq_true_eq, decide_eq_false_iff_not]
        have nodiv : ∀ m, n * p < m → m < (n + 1) * p → ¬ p ∣ m := by
          intro m h1 h2 ⟨k, hk⟩
          subst hk
          rw [Nat.mul_comm p k] at h1 h2
          have := mul_bounds h2
          have : k * p ≤ n * p := Nat.mul_le_mul_right p this
          omega
        have hexp : (n + 1) * p = n * p + p := by rw [Nat.add_mul]; omega
        cases ht0 : s.timer with
        | true =>
          obtain ⟨hn, hb⟩ := h.after he ht0
          have hw : s.wait < d := by
            refine Decidable.byContradiction fun hcc => ?_
            exact hc ⟨he, Or.inr ht0, by omega⟩
          refine ⟨by omega, ?_⟩
          rcases hb with ⟨hf, h1, h2, h3⟩ | ⟨hf, h1, h2, h3⟩
          · left
            simp only [hf]
            refine ⟨⟨trivial, nodiv _ (by omega) (by omega)⟩, h1, ?_, ?_⟩ <;> simp <;> omega
          · right
            simp only [hf]
            refine ⟨Or.inl trivial, h1, ?_, ?_⟩ <;> simp <;> omega
        | false =>
          rw [ht0] at htm
          have hD : s.now + 1 = n * p + 1 := by rcases htm with h | h; cases h; exact h
          obtain ⟨hn, hb⟩ := h.before he ht0
          refine ⟨by omega, ?_⟩
          have hnow : s.now = n * p := by omega
          rcases hb with ⟨hf, h1, h2⟩ | ⟨hf, h1, h2⟩
          · left
            have hlen : s.runs.length = n := by
              have e1 := h.count
              have e2 : n ≤ s.runs.length := mul_bounds (p := p) (by rw [← hnow]; exact h2)
              omega
            simp only [hf]
            refine ⟨⟨trivial, nodiv _ (by omega) (by omega)⟩, hlen, ?_, ?_⟩ <;> simp <;> omega
          · right
            simp only [hf]
            have hw : s.wait < d := by
              refine Decidable.byContradiction fun hcc => ?_
              exact hc ⟨he, Or.inl hf, by omega⟩
            have hlen : s.runs.length + 1 = n := by
              have e1 : n ≤ s.runs.length + 1 := mul_bounds (p := p) (by rw [← hnow, h1, Nat.add_mul (s.runs.length + 1) 1 p]; omega)
              have e2 : s.runs.length + 1 ≤ n := mul_bounds (p := p) (by rw [Nat.add_mul n 1 p]; omega)
              omega
            refine ⟨Or.inl trivial, hlen, ?_, ?_⟩ <;> simp
            · rw [hlen] at h1; omega
            · omega

theorem inv_run {p n d : Nat} (hd : 2 * d + 2 ≤ p) (as : List Act) {s s' : St} (h : Inv p n d s) (hr : run p (n * p + 1) d s as = some s') :
    Inv p n d s' := by
  induction as generalizing s with
  | nil => cases hr; exact h
  | cons a as ih =>
    simp only [run, Option.bind_eq_some_iff] at hr
    obtain ⟨s1, h1, h2⟩ := hr
    exact ih (inv_step hd h a h1) h2

/-! ## The claims -/

/-- C84, C35: a routine whose loop is never kept waiting longer than `d`, less than half the period, runs its task on time, the
`i`-th run within `d` of the `i`-th tick, and never more than `n` times, `n` periods and a nanosecond being the expiry. -/
theorem runs_on_time {p n d : Nat} (hd : 2 * d + 2 ≤ p) (as : List Act) {s : St} (h : run p (n * p + 1) d {} as = some s) :
    s.runs.length ≤ n ∧ ∀ i t, s.runs[i]? = some t → (i + 1) * p ≤ t ∧ t ≤ (i + 1) * p + d :=
  ⟨(inv_run hd as (inv_init p n d (by omega)) h).count, (inv_run hd as (inv_init p n d (by omega)) h).onTime⟩

/-- C84, C35: when such a routine ends, at the expiry or up to `2 d` later, it has run its task `n` times or once less. -/
theorem ends_after_n {p n d : Nat} (hd : 2 * d + 2 ≤ p) (as : List Act) {s : St} (h : run p (n * p + 1) d {} as = some s) {t : Nat}
    (he : s.ended = some t) :
    (s.runs.length = n ∨ s.runs.length + 1 = n) ∧ n * p + 1 ≤ t ∧ t ≤ n * p + 1 + 2 * d :=
  (inv_run hd as (inv_init p n d (by omega)) h).done t he

/-- C84: it ends: it cannot go on longer than that. -/
theorem ends_in_time {p n d : Nat} (hd : 2 * d + 2 ≤ p) (as : List Act) {s : St} (h : run p (n * p + 1) d {} as = some s)
    (hn : n * p + 1 + 2 * d < s.now) : s.ended.isSome := by
  have hi := inv_run hd as (inv_init p n d (by omega)) h
  cases he : s.ended with
  | some t => rfl
  | none =>
    cases ht : s.timer with
    | false => have := (hi.before he ht).1; omega
    | true =>
      obtain ⟨_, hb⟩ := hi.after he ht
      rcases hb with ⟨_, _, h1, h2⟩ | ⟨_, _, h1, h2⟩ <;> omega

theorem run_append (p D d : Nat) (a b : List Act) (s : St) : run p D d s (a ++ b) = (run p D d s a).bind (fun s' => run p D d s' b) := by
  induction a generalizing s with
  | nil => rfl
  | cons x a ih =>
    simp only [List.cons_append, run, Option.bind_assoc]
    congr 1
    funext s'
    exact ih s'

/-- `k` nanoseconds in which nothing arrives. -/
theorem idle (p D d : Nat) (k : Nat) (s : St) (he : s.ended = none) (ht : s.tick = false) (htm : s.timer = false) (hw : s.wait = 0)
    (h : ∀ j, 0 < j → j ≤ k → ¬ p ∣ s.now + j ∧ s.now + j ≠ D) :
    run p D d s (List.replicate k .time) = some { s with now := s.now + k } := by
  induction k generalizing s with
  | zero => rfl
  | succ k ih =>
    have h1 := h 1 (by omega) (by omega)
    simp only [List.replicate_succ, run, step]
    rw [if_neg (by simp [ht, htm])]
    simp only [Option.bind_some]
    rw [ih]
    · simp [ht, htm, h1.1, h1.2, hw]; omega
    · exact he
    · simp [ht, h1.1]
    · simp [htm, h1.2]
    · simp [ht, htm]
    · intro j hj hjk
      have := h (j + 1) (by omega) (by omega)
      simp only [show s.now + 1 + j = s.now + (j + 1) by omega]
      exact this

/-- One period that ends with its tick. -/
theorem to_tick (p D d : Nat) (hp : 0 < p) (k : Nat) (s : St) (he : s.ended = none) (ht : s.tick = false) (htm : s.timer = false)
    (hw : s.wait = 0) (hk : s.now = k * p) (hD : (k + 1) * p < D) :
    run p D d s (List.replicate p .time) = some { s with now := (k + 1) * p, tick := true } := by
  obtain ⟨q, rfl⟩ : ∃ q, p = q + 1 := ⟨p - 1, by omega⟩
  have hexp : (k + 1) * (q + 1) = k * (q + 1) + q + 1 := by rw [Nat.add_mul]; omega
  rw [show List.replicate (q + 1) Act.time = List.replicate q Act.time ++ [.time] from List.replicate_succ', run_append, idle _ _ _ _ _ he ht htm hw]
  · simp only [Option.bind_some, run, step]
    rw [if_neg (by simp [ht, htm])]
    simp only [Option.bind_some, Option.some.injEq]
    have hdv : q + 1 ∣ s.now + q + 1 := ⟨k + 1, by rw [hk, Nat.mul_comm (q + 1)]; omega⟩
    have hne : s.now + q + 1 ≠ D := by omega
    simp [ht, htm, hdv, hne, hw, he]
    omega
  · intro j hj hjk
    refine ⟨?_, by omega⟩
    rintro ⟨m, hm⟩
    rw [hk, Nat.mul_comm (q + 1) m] at hm
    have h1 : m * (q + 1) < (k + 1) * (q + 1) := by omega
    have h2 : k * (q + 1) < m * (q + 1) := by omega
    have := Nat.lt_of_mul_lt_mul_right h1
    have := Nat.lt_of_mul_lt_mul_right h2
    omega

/-- `k` periods, each with its run at once. -/
theorem periods (p D d : Nat) (hp : 0 < p) (k : Nat) (hD : k * p < D) :
    ∃ as s, run p D d {} as = some s ∧ s.runs.length = k ∧ s.now = k * p ∧ s.tick = false ∧ s.timer = false ∧ s.wait = 0 ∧ s.ended = none := by
  induction k with
  | zero => exact ⟨[], {}, rfl, rfl, by simp, rfl, rfl, rfl, rfl⟩
  | succ k ih =>
    have hexp : (k + 1) * p = k * p + p := by rw [Nat.add_mul]; omega
    obtain ⟨as, s, h1, h2, h3, h4, h5, h6, h7⟩ := ih (by omega)
    refine ⟨as ++ List.replicate p .time ++ [.tick], { s with now := (k + 1) * p, tick := false, wait := 0, runs := s.runs ++ [(k + 1) * p] }, ?_, ?_⟩
    · rw [run_append, run_append, h1]
      simp only [Option.bind_some]
      rw [to_tick p D d hp k s h7 h4 h5 h6 h3 hD]
      simp [run, step, h7]
    · simp [h2, h5, h7]

/-- C84, C35, finding: the timer fires one nanosecond after the last tick.  If the loop gets to run a nanosecond late, it finds both,
and `select` may take the timer: the last run is left out, however long the edge is; and it may not be. -/
theorem last_run_is_luck (p n d : Nat) (hp : 2 ≤ p) (hn : 0 < n) (hd : 0 < d) :
    (∃ as s, run p (n * p + 1) d {} as = some s ∧ s.ended = some (n * p + 1) ∧ s.runs.length + 1 = n) ∧
    (∃ as s, run p (n * p + 1) d {} as = some s ∧ s.ended = some (n * p + 1) ∧ s.runs.length = n) := by
  obtain ⟨m, rfl⟩ : ∃ m, n = m + 1 := ⟨n - 1, by omega⟩
  have hexp : (m + 1) * p = m * p + p := by rw [Nat.add_mul]; omega
  obtain ⟨as, s, h1, h2, h3, h4, h5, h6, h7⟩ := periods p ((m + 1) * p + 1) d (by omega) m (by omega)
  have ht := to_tick p ((m + 1) * p + 1) d (by omega) m s h7 h4 h5 h6 h3 (by omega)
  have hw : ¬ d ≤ 0 := by omega
  constructor
  · refine ⟨as ++ List.replicate p .time ++ [.time, .expire], { s with now := (m + 1) * p + 1, tick := true, wait := 0, ended := some ((m + 1) * p + 1) }, ?_, rfl, by simpa using h2⟩
    rw [run_append, run_append, h1]
    simp only [Option.bind_some]
    rw [ht]
    simp [run, step, h5, h6, h7, hw]
  · refine ⟨as ++ List.replicate p .time ++ [.time, .tick, .expire], { s with now := (m + 1) * p + 1, tick := false, wait := 0, runs := s.runs ++ [(m + 1) * p + 1], ended := some ((m + 1) * p + 1) }, ?_, rfl, by simpa using h2⟩
    rw [run_append, run_append, h1]
    simp only [Option.bind_some]
    rw [ht]
    simp [run, step, h5, h6, h7, hw]

/-- The timer, waited for without taking anything from the loop. -/
theorem wait_all (p D d : Nat) (k : Nat) (s : St) (he : s.ended = none) (h : s.wait + k ≤ d) (hD : D ≤ s.now + k) (hs : s.timer = true ∨ s.now < D) :
    ∃ s', run p D d s (List.replicate k .time) = some s' ∧ s'.ended = none ∧ s'.timer = true ∧ s'.runs = s.runs ∧ s'.now = s.now + k := by
  induction k generalizing s with
  | zero =>
    refine ⟨s, rfl, he, ?_, rfl, rfl⟩
    rcases hs with h | h
    · exact h
    · omega
  | succ k ih =>
    simp only [List.replicate_succ, run, step]
    rw [if_neg (by intro hc; omega)]
    simp only [Option.bind_some]
    obtain ⟨s', h1, h2, h3, h4, h5⟩ := ih { s with
        now := s.now + 1
        tick := s.tick || (decide (s.ended = none) && decide (p ∣ s.now + 1))
        timer := s.timer || decide (s.now + 1 = D)
        wait := if s.tick = true ∨ s.timer = true then s.wait + 1 else 0 } he
      (by simp only; split <;> omega) (by simp only; omega) (by
        simp only [Bool.or_eq_true, decide_eq_true_eq]
        rcases hs with h | h
        · exact Or.inl (Or.inl h)
        · by_cases e : s.now + 1 = D
          · exact Or.inl (Or.inr e)
          · exact Or.inr (by omega))
    exact ⟨s', h1, h2, h3, h4, by rw [h5]; simp only; omega⟩

/-- C84, finding: without the condition on `d` nothing is certain: a loop that is kept from running until the expiry may end without
having run the task at all. -/
theorem kept_waiting_no_run (p n d : Nat) (hd : n * p + 1 ≤ d) :
    ∃ as s, run p (n * p + 1) d {} as = some s ∧ s.ended.isSome ∧ s.runs = [] := by
  obtain ⟨s, h1, h2, h3, h4, -⟩ := wait_all p (n * p + 1) d (n * p + 1) {} rfl (by simpa using hd) (by simp) (Or.inr (by simp))
  refine ⟨List.replicate (n * p + 1) .time ++ [.expire], { s with timer := false, wait := 0, ended := some s.now }, ?_, rfl, h4⟩
  rw [run_append, h1]
  simp [run, step, h2, h3]

example : (2 * 1 + 2 ≤ 4) ∧ ((run 4 (2 * 4 + 1) 1 {} ([.time, .time, .time, .time, .tick, .time, .time, .time, .time, .time, .expire])).map
    (fun s => (s.runs, s.ended))) = some ([4], some 9) := by decide +kernel

end Kindling.Cpu.Timed
