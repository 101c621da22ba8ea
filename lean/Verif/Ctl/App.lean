import Verif.Basic
/-
The life of the agent: collector/cmd/kindling-collector/main.go:15-43, `Run` and `Shutdown` of internal/application/application.go:61-76 and
`StartAll` and `ShutdownAll` of component/analyzer/manager.go:57-80.

Inputs: whether `New` succeeds, what each analyzer and the receiver answer to `Start` and `Shutdown`, and when the first signal comes.  Not
modelled: the texts of errors, the server of pprof, handlers of signals that the C probe sets, calls that panic or never return.
-/
namespace Kindling.Ctl.App

variable {α : Type}

/-- What happens, in order. -/
inductive Ev (α : Type)
  | start (a : α) | startReceiver | handler | stopReceiver | stop (a : α)
deriving DecidableEq, Repr

/-- manager.go:57-66 `StartAll`: the analyzers started and whether it returned nil. -/
def startAll (ok : α → Bool) : List α → List (Ev α) × Bool
  | [] => ([], true)
  | a :: r => if ok a then
      let p := startAll ok r
      (.start a :: p.1, p.2)
    else ([.start a], false)

/-- manager.go:68-80 `ShutdownAll`: the analyzers shut down and the analyzers whose errors it returned. -/
def shutdownAll (ok : α → Bool) (l : List α) : List (Ev α) × List α :=
  l.foldl (fun p a => (p.1 ++ [.stop a], if ok a then p.2 else p.2 ++ [a])) ([], [])

/-- What the components answer. -/
structure Answers (α : Type) where
  start : α → Bool
  startReceiver : Bool
  stopReceiver : Bool
  stop : α → Bool

/-- application.go:61-72 `Run`. -/
def runApp (w : Answers α) (l : List α) : List (Ev α) × Bool :=
  let p := startAll w.start l
  if p.2 then (p.1 ++ [.startReceiver], w.startReceiver) else (p.1, false)

/-- application.go:74-76 `Shutdown`: the arguments of `multierr.Combine` are evaluated from left to right; whether it returned nil. -/
def shutdownApp (w : Answers α) (l : List α) : List (Ev α) × Bool :=
  let p := shutdownAll w.stop l
  (.stopReceiver :: p.1, w.stopReceiver && p.2.isEmpty)

/-- How the process ends: with a code, or killed by the signal. -/
inductive End
  | exit (code : Nat) | killed | running
deriving DecidableEq, Repr

/-- main.go:15-43; `sig`: after how many events the first signal comes, if ever.  `log.Fatalf` exits with 1.  Before line 33 a signal has its
    default action; after it the signal waits in the channel (of capacity 1) until line 36. -/
def main (newOk : Bool) (w : Answers α) (l : List α) (sig : Option Nat) : List (Ev α) × End :=
  if newOk then
    let p := runApp w l
    let before := if p.2 then p.1 ++ [.handler] else p.1
    match sig with
    | some n =>
      if n < before.length then (before.take n, .killed)
      else if p.2 then
        let q := shutdownApp w l
        (before ++ q.1, .exit (if q.2 then 0 else 1))
      else (before, .exit 1)
    | none => (before, if p.2 then .running else .exit 1)
  else if sig = some 0 then ([], .killed) else ([], .exit 1)

/-! ### Theorems -/

/-- The analyzers are started in order, up to and including the first that fails. -/
theorem startAll_exact (ok : α → Bool) (l : List α) :
    ((startAll ok l).2 = true ↔ ∀ a ∈ l, ok a = true) ∧
    ((∀ a ∈ l, ok a = true) → (startAll ok l).1 = l.map .start) ∧
    (∀ pre a post, l = pre ++ a :: post → (∀ x ∈ pre, ok x = true) → ok a = false → (startAll ok l).1 = (pre ++ [a]).map .start) := by
  refine ⟨?_, ?_, ?_⟩
  · induction l with
    | nil => simp [startAll]
    | cons a r ih =>
      unfold startAll
      by_cases h : ok a = true
      · simp [h, ih]
      · simp [h]
  · intro h
    induction l with
    | nil => simp [startAll]
    | cons a r ih =>
      unfold startAll
      simp [h a (by simp), ih (fun x hx => h x (by simp [hx]))]
  · intro pre a post hl hp ha
    subst hl
    induction pre with
    | nil => simp [startAll, ha]
    | cons x r ih =>
      have := ih (fun y hy => hp y (by simp [hy]))
      simp only [List.cons_append, startAll, hp x (by simp), if_true, this]
      simp

/-- Every analyzer is shut down, in order, whatever the others answer, and exactly the errors that occurred are returned. -/
theorem shutdownAll_exact (ok : α → Bool) (l : List α) :
    shutdownAll ok l = (l.map .stop, l.filter (fun a => !ok a)) := by
  suffices h : ∀ (p : List (Ev α) × List α), l.foldl (fun p a => (p.1 ++ [.stop a], if ok a then p.2 else p.2 ++ [a])) p =
      (p.1 ++ l.map .stop, p.2 ++ l.filter (fun a => !ok a)) by
    simpa [shutdownAll] using h ([], [])
  induction l with
  | nil => simp
  | cons a r ih =>
    intro p
    rw [List.foldl_cons, ih]
    cases h : ok a <;> simp [h]

/-- Nothing is received before every analyzer has been started without an error. -/
theorem receiver_last (w : Answers α) (l : List α) :
    (.startReceiver ∈ (runApp w l).1 ↔ ∀ a ∈ l, w.start a = true) ∧
    ((∀ a ∈ l, w.start a = true) → runApp w l = (l.map .start ++ [.startReceiver], w.startReceiver)) ∧
    ((runApp w l).2 = true ↔ (∀ a ∈ l, w.start a = true) ∧ w.startReceiver = true) := by
  have h := startAll_exact w.start l
  have hno : ∀ l : List α, Ev.startReceiver ∉ (startAll w.start l).1 := by
    intro l
    induction l with
    | nil => simp [startAll]
    | cons a r ih =>
      unfold startAll
      split
      · simpa using ih
      · simp
  unfold runApp
  by_cases hx : (startAll w.start l).2 = true
  · have ha := h.1.1 hx
    simp only [hx, if_true, h.2.1 ha]
    refine ⟨⟨fun _ => ha, fun _ => by simp⟩, fun _ => trivial, ⟨fun hr => ⟨ha, hr⟩, fun hr => hr.2⟩⟩
  · have hn : ¬ ∀ a ∈ l, w.start a = true := fun hh => hx (h.1.2 hh)
    simp only [hx]
    refine ⟨⟨fun hm => absurd hm (hno l), fun hh => absurd hh hn⟩, fun hh => absurd hh hn, ⟨fun hh => by simp at hh, fun hh => absurd hh.1 hn⟩⟩

/-- A signal that comes once the handler is set shuts the receiver down first and then every analyzer; the exit code is 0 exactly if none
    of them fails. -/
theorem signal_shuts_down (w : Answers α) (l : List α) (hs : ∀ a ∈ l, w.start a = true) (hr : w.startReceiver = true) {n : Nat}
    (hn : l.length + 2 ≤ n) :
    ∃ c, main true w l (some n) = (l.map .start ++ [.startReceiver, .handler] ++ (.stopReceiver :: l.map .stop), .exit c) ∧
      (c = 0 ↔ w.stopReceiver = true ∧ ∀ a ∈ l, w.stop a = true) ∧ (c = 0 ∨ c = 1) := by
  have h1 := (receiver_last w l).2.1 hs
  have hlt : ¬ n < l.length + 2 := by omega
  refine ⟨if w.stopReceiver && (l.filter (fun a => !w.stop a)).isEmpty then 0 else 1, ?_, ?_, ?_⟩
  · simp [main, h1, hr, shutdownApp, shutdownAll_exact, hlt]
  · have : (l.filter (fun a => !w.stop a)).isEmpty = true ↔ ∀ a ∈ l, w.stop a = true := by
      simp [List.isEmpty_iff, List.filter_eq_nil_iff]
    rw [← this]
    cases w.stopReceiver <;> cases (l.filter (fun a => !w.stop a)).isEmpty <;> simp
  · split <;> simp

/-- Without a signal the agent runs exactly if everything started; otherwise it exits with 1. -/
theorem runs_iff (newOk : Bool) (w : Answers α) (l : List α) :
    ((main newOk w l none).2 = .running ↔ newOk = true ∧ (∀ a ∈ l, w.start a = true) ∧ w.startReceiver = true) ∧
    ((main newOk w l none).2 ≠ .running → (main newOk w l none).2 = .exit 1) := by
  rw [← (receiver_last w l).2.2]
  cases newOk <;> cases h : (runApp w l).2 <;> simp [main, h]

/-- FINDING: a signal that comes while the agent starts (the receiver alone takes four seconds) kills it: whatever has been started, nothing
    is shut down. -/
theorem early_signal_kills (w : Answers α) (l : List α) (hs : ∀ a ∈ l, w.start a = true) (hr : w.startReceiver = true) {n : Nat}
    (hn : n < l.length + 2) :
    main true w l (some n) = ((l.map Ev.start ++ [Ev.startReceiver, Ev.handler]).take n, .killed) ∧
    .stopReceiver ∉ (main true w l (some n)).1 ∧ ∀ a, .stop a ∉ (main true w l (some n)).1 := by
  have h1 := (receiver_last w l).2.1 hs
  have hm : main true w l (some n) = ((l.map Ev.start ++ [Ev.startReceiver, Ev.handler]).take n, .killed) := by
    simp [main, h1, hr, hn]
  refine ⟨hm, ?_, fun a => ?_⟩ <;> rw [hm] <;> intro hx <;> simpa using List.mem_of_mem_take hx

/-- FINDING: when an analyzer or the receiver fails to start, the ones started before it are not shut down. -/
theorem failed_start_leaves (w : Answers α) (l : List α) (h : ¬ ((∀ a ∈ l, w.start a = true) ∧ w.startReceiver = true)) (sig : Option Nat) :
    .stopReceiver ∉ (main true w l sig).1 ∧ ∀ a, .stop a ∉ (main true w l sig).1 := by
  have hf : (runApp w l).2 = false := by
    cases hx : (runApp w l).2 with
    | false => rfl
    | true => exact absurd ((receiver_last w l).2.2.1 hx) h
  have hst : ∀ (l : List α) (e : Ev α), e ∈ (startAll w.start l).1 → ∃ a, e = .start a := by
    intro l
    induction l with
    | nil => simp [startAll]
    | cons a r ih =>
      unfold startAll
      intro e he
      split at he
      · rcases List.mem_cons.1 he with rfl | he
        · exact ⟨a, rfl⟩
        · exact ih e he
      · simp at he; exact ⟨a, he⟩
  have hev : ∀ e, e ∈ (runApp w l).1 → (∃ a, e = .start a) ∨ e = .startReceiver := by
    intro e he
    simp only [runApp] at he
    split at he
    · rcases List.mem_append.1 he with he | he
      · exact .inl (hst l e he)
      · exact .inr (by simpa using he)
    · exact .inl (hst l e he)
  have hmain : ∀ e, e ∈ (main true w l sig).1 → e ∈ (runApp w l).1 := by
    intro e he
    cases sig with
    | none => simpa [main, hf] using he
    | some n =>
      simp only [main, hf, if_true, Bool.false_eq_true, if_false] at he
      split at he
      · exact List.mem_of_mem_take he
      · exact he
  refine ⟨fun hx => ?_, fun a hx => ?_⟩ <;> rcases hev _ (hmain _ hx) with ⟨b, hb⟩ | hb <;> cases hb

/-! ### Examples -/

example : main true (⟨fun _ => true, true, true, fun a => a != 1⟩ : Answers Nat) [0, 1, 2] (some 9) =
    ([.start 0, .start 1, .start 2, .startReceiver, .handler, .stopReceiver, .stop 0, .stop 1, .stop 2], .exit 1) := by decide

example : main true (⟨fun a => a != 1, true, true, fun _ => true⟩ : Answers Nat) [0, 1, 2] none = ([.start 0, .start 1], .exit 1) := by decide

example : main true (⟨fun _ => true, true, true, fun _ => true⟩ : Answers Nat) [0, 1, 2] (some 4) =
    ([.start 0, .start 1, .start 2, .startReceiver], .killed) := by decide

end Kindling.Ctl.App
